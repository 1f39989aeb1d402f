import Verif.Schedule.Model
import Mathlib.Data.List.Forall2
import Mathlib.Data.List.Nodup
import Mathlib.Tactic.Push

/-!
# C109: learning rates follow the configured schedule, whatever is skipped and wherever the run is stopped and resumed

This file: resuming continues exactly, in any arithmetic.
-/
namespace Verif.Schedule

variable {K : Type}

/-! ### Specification -/

/-- What happens to a run: a synchronised step, at which the step of some optimizers is skipped (AMP overflow), or a restart from the
checkpoint just saved, with the same configuration. -/
inductive Event
  | update (skipped : String → Bool)
  | restart

/-- A history of a run. -/
def run [DecidableEq K] (N : Num K) (cfg : Config K) : List Event → List (Unit K) → Except String (List (Unit K))
  | [], us => .ok us
  | .update sk :: h, us => run N cfg h (update N sk us)
  | .restart :: h, us => match resume N cfg (save cfg us) with
    | .error e => .error e
    | .ok us' => run N cfg h us'

/-- The same history without its restarts. -/
def noRestarts : List Event → List Event
  | [] => []
  | .update sk :: h => .update sk :: noRestarts h
  | .restart :: h => noRestarts h

/-- The schedule names that exist. -/
def Known (type : String) : Prop := type = "constant" ∨ type = "step" ∨ type = "cosine"

/-- How many updates of optimizer `n` were applied. -/
def applied (n : String) : List Event → Nat
  | [] => 0
  | .update sk :: h => (if sk n = false then 1 else 0) + applied n h
  | .restart :: h => applied n h

/-! ### Auxiliary -/

theorem each_ok {α β : Type} (f : α → Except String β) (l : List α) (r : List β) : each f l = .ok r ↔ List.Forall₂ (fun a b => f a = .ok b) l r := by
  induction l generalizing r with
  | nil =>
    simp only [each, Except.ok.injEq]
    constructor
    · rintro rfl; exact .nil
    · intro h; cases h; rfl
  | cons a l ih =>
    unfold each
    cases h : f a with
    | error e =>
      constructor
      · intro h; simp at h
      · intro h'; cases h' with | cons h1 _ => rw [h] at h1; simp at h1
    | ok b =>
      simp only []
      cases hl : each f l with
      | error e =>
        constructor
        · intro h; simp at h
        · intro h'; cases h' with | cons _ h2 => rw [(ih _).mpr h2] at hl; simp at hl
      | ok r' =>
        simp only [Except.ok.injEq]
        constructor
        · rintro rfl; exact .cons h ((ih r').mp hl)
        · intro h'
          cases h' with
          | cons h1 h2 =>
            rw [h] at h1
            have := (ih _).mpr h2
            rw [hl] at this
            simp only [Except.ok.injEq] at h1 this
            rw [h1, this]

theorem setLrs_length (gs : List (Group K)) (ls : List K) : (setLrs gs ls).length = gs.length := by
  induction gs generalizing ls with
  | nil => cases ls <;> rfl
  | cons g gs ih =>
    cases ls with
    | nil => rfl
    | cons l ls => show (setLrs gs ls).length + 1 = _; rw [ih]; rfl

theorem setLrs_back (gs : List (Group K)) (ls : List K) : setLrs (setLrs gs ls) (gs.map Group.lr) = gs := by
  induction gs generalizing ls with
  | nil => cases ls <;> rfl
  | cons g gs ih =>
    cases ls with
    | nil =>
      show { g with lr := g.lr } :: setLrs gs (gs.map Group.lr) = g :: gs
      have := ih []
      rw [show setLrs gs [] = gs from by cases gs <;> rfl] at this
      rw [this]
    | cons l ls =>
      show { g with lr := g.lr } :: setLrs (setLrs gs ls) (gs.map Group.lr) = g :: gs
      rw [ih]

theorem setLrs_params (gs : List (Group K)) (ls : List K) : (setLrs gs ls).map Group.params = gs.map Group.params := by
  induction gs generalizing ls with
  | nil => cases ls <;> rfl
  | cons g gs ih =>
    cases ls with
    | nil => rfl
    | cons l ls => show g.params :: (setLrs gs ls).map Group.params = _; rw [ih]; rfl

theorem setLrs_initial (gs : List (Group K)) (ls : List K) : (setLrs gs ls).map Group.initial = gs.map Group.initial := by
  induction gs generalizing ls with
  | nil => cases ls <;> rfl
  | cons g gs ih =>
    cases ls with
    | nil => rfl
    | cons l ls => show g.initial :: (setLrs gs ls).map Group.initial = _; rw [ih]; rfl

theorem setLrs_lr (gs : List (Group K)) (ls : List K) (h : ls.length = gs.length) : (setLrs gs ls).map Group.lr = ls := by
  induction gs generalizing ls with
  | nil => cases ls with
    | nil => rfl
    | cons => simp at h
  | cons g gs ih =>
    cases ls with
    | nil => simp at h
    | cons l ls =>
      show l :: (setLrs gs ls).map Group.lr = l :: ls
      rw [ih ls (by simpa using h)]

/-- What is constant over a run: a unit belongs to the optimizer it was built for. -/
structure Fits (N : Num K) (cfg : Config K) (o : String × List (K × Nat)) (u : Unit K) : Prop where
  name : u.name = o.1
  params : u.groups.map Group.params = o.2.map Prod.snd
  initial : u.groups.map Group.initial = o.2.map fun g => some g.1

theorem fits_step (N : Num K) (cfg : Config K) (o : String × List (K × Nat)) (u : Unit K) (h : Fits N cfg o u) : Fits N cfg o (stepUnit N u) :=
  ⟨h.name, (setLrs_params _ _).trans h.params, (setLrs_initial _ _).trans h.initial⟩

theorem fits_names (N : Num K) (cfg : Config K) (os : List (String × List (K × Nat))) (us : List (Unit K))
    (h : List.Forall₂ (Fits N cfg) os us) : us.map Unit.name = os.map Prod.fst := by
  induction h with
  | nil => rfl
  | cons h1 _ ih => rw [List.map_cons, List.map_cons, h1.name, ih]

theorem forall2_map {α β γ : Type} (R : α → β → Prop) (f : β → γ) (S : α → γ → Prop) (l : List α) (r : List β) (h : List.Forall₂ R l r)
    (hf : ∀ a b, R a b → S a (f b)) : List.Forall₂ S l (r.map f) := by
  induction h with
  | nil => exact .nil
  | cons h1 _ ih => exact .cons (hf _ _ h1) ih

theorem fits_update (N : Num K) (cfg : Config K) (sk : String → Bool) (us : List (Unit K)) (h : List.Forall₂ (Fits N cfg) cfg.opts us) :
    List.Forall₂ (Fits N cfg) cfg.opts (update N sk us) := by
  refine forall2_map _ _ _ _ _ h ?_
  intro o u hu
  by_cases hs : sk u.name = true
  · rw [if_pos hs]; exact hu
  · rw [if_neg hs]; exact fits_step N cfg o u hu

theorem buildKind_known (N : Num K) (type : String) (it : Nat) (args : Args K) : (∃ k, buildKind N type it args = .ok k) ↔ Known type := by
  unfold buildKind Known
  by_cases h1 : type = "constant"
  · rw [if_pos h1]; exact ⟨fun _ => .inl h1, fun _ => ⟨_, rfl⟩⟩
  rw [if_neg h1]
  by_cases h2 : type = "step"
  · rw [if_pos h2]; exact ⟨fun _ => .inr (.inl h2), fun _ => ⟨_, rfl⟩⟩
  rw [if_neg h2]
  by_cases h3 : type = "cosine"
  · rw [if_pos h3]; exact ⟨fun _ => .inr (.inr h3), fun _ => ⟨_, rfl⟩⟩
  rw [if_neg h3]
  constructor
  · rintro ⟨k, h⟩; simp at h
  · rintro (h | h | h)
    · exact absurd h h1
    · exact absurd h h2
    · exact absurd h h3

theorem start_fits (N : Num K) (cfg : Config K) (us : List (Unit K)) (h : start N cfg = .ok us) : List.Forall₂ (Fits N cfg) cfg.opts us := by
  unfold start at h
  rw [each_ok] at h
  rw [List.forall₂_map_left_iff] at h
  refine List.Forall₂.imp ?_ h
  intro o u hu
  unfold setupOne at hu
  cases hk : buildKind N cfg.type cfg.iterations cfg.args with
  | error e => rw [hk] at hu; simp at hu
  | ok kind =>
    rw [hk] at hu
    simp only [Except.ok.injEq] at hu
    subst hu
    refine ⟨rfl, ?_, ?_⟩
    · show (setLrs ((freshOpt o).2.map setInitial) _).map Group.params = _
      rw [setLrs_params]
      unfold freshOpt
      rw [List.map_map, List.map_map]
      rfl
    · show (setLrs ((freshOpt o).2.map setInitial) _).map Group.initial = _
      rw [setLrs_initial]
      unfold freshOpt
      rw [List.map_map, List.map_map]
      rfl

theorem find_unit {β : Type} (us : List (Unit K)) (f : Unit K → β) (hnd : (us.map Unit.name).Nodup) (u : Unit K) (hu : u ∈ us) :
    find (us.map fun u => (u.name, f u)) u.name = some (f u) := by
  induction us with
  | nil => simp at hu
  | cons v us ih =>
    rw [List.map_cons, List.nodup_cons] at hnd
    unfold find
    rw [List.map_cons]
    rcases List.mem_cons.mp hu with rfl | hu
    · rw [List.find?_cons_of_pos (by simp)]; rfl
    · rw [List.find?_cons_of_neg]
      · exact ih hnd.2 hu
      · simp only [decide_eq_true_eq]
        intro h
        exact hnd.1 (List.mem_map.mpr ⟨u, hu, h.symm⟩)

theorem sameNames_refl (l : List String) : sameNames l l = true := by
  unfold sameNames
  simp

theorem setInitial_id (gs : List (Group K)) (h : ∀ g ∈ gs, g.initial.isSome = true) : gs.map setInitial = gs := by
  induction gs with
  | nil => rfl
  | cons g gs ih =>
    rw [List.map_cons, ih fun g' hg' => h g' (List.mem_cons_of_mem _ hg')]
    obtain ⟨i, hi⟩ := Option.isSome_iff_exists.mp (h g (List.mem_cons_self ..))
    unfold setInitial
    obtain ⟨lr, ini, n⟩ := g
    simp only at hi
    subst hi
    rfl

theorem fits_some (N : Num K) (cfg : Config K) (o : String × List (K × Nat)) (u : Unit K) (h : Fits N cfg o u) :
    ∀ g ∈ u.groups, g.initial.isSome = true := by
  intro g hg
  have : g.initial ∈ u.groups.map Group.initial := List.mem_map.mpr ⟨g, hg, rfl⟩
  rw [h.initial] at this
  obtain ⟨x, _, hx⟩ := List.mem_map.mp this
  rw [← hx]; rfl

theorem forall2_mem {α β : Type} (R : α → β → Prop) (l : List α) (r : List β) (h : List.Forall₂ R l r) : ∀ b ∈ r, ∃ a ∈ l, R a b := by
  induction h with
  | nil => simp
  | cons h1 _ ih =>
    intro b hb
    rcases List.mem_cons.mp hb with rfl | hb
    · exact ⟨_, List.mem_cons_self .., h1⟩
    · obtain ⟨a, ha, hr⟩ := ih b hb
      exact ⟨a, List.mem_cons_of_mem _ ha, hr⟩

theorem each_map {α β γ : Type} (f : β → Except String γ) (g : α → β) (r : α → γ) (l : List α) (h : ∀ a ∈ l, f (g a) = .ok (r a)) :
    each f (l.map g) = .ok (l.map r) := by
  induction l with
  | nil => rfl
  | cons a l ih =>
    rw [List.map_cons]
    unfold each
    rw [h a (List.mem_cons_self ..), ih fun b hb => h b (List.mem_cons_of_mem _ hb)]
    rfl

theorem resume_save [DecidableEq K] (N : Num K) (cfg : Config K) (us : List (Unit K)) (hk : cfg.opts ≠ [] → Known cfg.type)
    (hnd : (cfg.opts.map Prod.fst).Nodup) (h : List.Forall₂ (Fits N cfg) cfg.opts us) : resume N cfg (save cfg us) = .ok us := by
  have hnames := fits_names N cfg _ _ h
  have hndu : (us.map Unit.name).Nodup := by rw [hnames]; exact hnd
  unfold resume
  rw [if_neg (fun h => h rfl), if_neg (by rintro (h | h | h) <;> exact h rfl)]
  have e1 : (save cfg us).opts.map Prod.fst = us.map Unit.name := by unfold save; rw [List.map_map]; rfl
  rw [if_neg (by rw [e1, hnames, sameNames_refl]; simp)]
  have hload : each (loadOne (save cfg us).opts) (cfg.opts.map freshOpt) = .ok (us.map fun u => (u.name, u.groups)) := by
    rw [each_ok, List.forall₂_map_left_iff, List.forall₂_map_right_iff]
    have hmem : ∀ u ∈ us, find (save cfg us).opts u.name = some u.groups := fun u hu => find_unit us Unit.groups hndu u hu
    have : ∀ (os : List (String × List (K × Nat))) (vs : List (Unit K)), List.Forall₂ (Fits N cfg) os vs → (∀ u ∈ vs, u ∈ us) →
        List.Forall₂ (fun o u => loadOne (save cfg us).opts (freshOpt o) = .ok (u.name, u.groups)) os vs := by
      intro os vs hv
      induction hv with
      | nil => intro _; exact .nil
      | cons h1 _ ih =>
        rename_i o u os vs _
        intro hsub
        refine .cons ?_ (ih fun v hv => hsub v (List.mem_cons_of_mem _ hv))
        unfold loadOne
        have : (freshOpt o).1 = u.name := h1.name.symm
        rw [this, hmem u (hsub u (List.mem_cons_self ..))]
        simp only []
        rw [if_neg]
        rw [not_not, h1.params]
        unfold freshOpt
        rw [List.map_map]
        rfl
    exact this _ _ h fun _ h => h
  rw [hload]
  simp only []
  by_cases hempty : us = []
  · subst hempty
    rfl
  have hk' : Known cfg.type := hk (by
    intro h0
    rw [h0] at h
    cases h
    exact hempty rfl)
  obtain ⟨kind, hkind⟩ := (buildKind_known N cfg.type cfg.iterations cfg.args).mpr hk'
  have hsetup : each (setupOne N cfg) (us.map fun u => (u.name, u.groups)) = .ok (us.map fun u => newUnit N kind u.name u.groups) := by
    refine each_map _ _ _ _ ?_
    intro u _
    unfold setupOne
    rw [hkind]
  rw [hsetup]
  simp only []
  have e2 : (save cfg us).scheds.map Prod.fst = us.map Unit.name := by unfold save; rw [List.map_map]; rfl
  have e3 : (us.map fun u => newUnit N kind u.name u.groups).map Unit.name = us.map Unit.name := by rw [List.map_map]; rfl
  rw [if_neg (by rw [e2, e3, sameNames_refl]; simp)]
  have hfin : each (restoreOne (save cfg us).scheds ((us.map fun u => (u.name, u.groups)).map fun o => (o.1, o.2.map Group.lr)))
      (us.map fun u => newUnit N kind u.name u.groups) = .ok (us.map id) := by
    refine each_map _ _ _ _ ?_
    intro u hu
    obtain ⟨o, _, ho⟩ := forall2_mem _ _ _ h u hu
    unfold restoreOne
    have f1 : find (save cfg us).scheds (newUnit N kind u.name u.groups).name = some u.sched := find_unit us Unit.sched hndu u hu
    have f2 : find ((us.map fun u => (u.name, u.groups)).map fun o => (o.1, o.2.map Group.lr)) (newUnit N kind u.name u.groups).name =
        some (u.groups.map Group.lr) := by
      rw [List.map_map]
      exact find_unit us (fun u => u.groups.map Group.lr) hndu u hu
    rw [f1]
    simp only []
    rw [f2]
    simp only []
    have f3 : setLrs (newUnit N kind u.name u.groups).groups (u.groups.map Group.lr) = u.groups := by
      show setLrs (setLrs (u.groups.map setInitial) _) _ = _
      rw [setInitial_id u.groups (fits_some N cfg o u ho)]
      exact setLrs_back _ _
    rw [f3]
    rfl
  rw [hfin, List.map_id]

theorem start_known (N : Num K) (cfg : Config K) (us : List (Unit K)) (h : start N cfg = .ok us) : cfg.opts ≠ [] → Known cfg.type := by
  intro hne
  unfold start at h
  cases ho : cfg.opts with
  | nil => exact absurd ho hne
  | cons o os =>
    rw [ho] at h
    rw [List.map_cons, each_ok] at h
    cases h with
    | cons h1 _ =>
      unfold setupOne at h1
      cases hk : buildKind N cfg.type cfg.iterations cfg.args with
      | error e => rw [hk] at h1; simp at h1
      | ok kind => exact (buildKind_known N _ _ _).mp ⟨kind, hk⟩

theorem run_eq [DecidableEq K] (N : Num K) (cfg : Config K) (hk : cfg.opts ≠ [] → Known cfg.type) (hnd : (cfg.opts.map Prod.fst).Nodup)
    (h : List Event) (us : List (Unit K)) (hf : List.Forall₂ (Fits N cfg) cfg.opts us) :
    run N cfg h us = run N cfg (noRestarts h) us ∧ ∃ us', run N cfg h us = .ok us' := by
  induction h generalizing us with
  | nil => exact ⟨rfl, us, rfl⟩
  | cons e h ih =>
    cases e with
    | update sk => exact ih (update N sk us) (fits_update N cfg sk us hf)
    | restart =>
      have he : run N cfg (.restart :: h) us = run N cfg h us := by
        rw [run, resume_save N cfg us hk hnd hf]
      rw [he]
      exact ih us hf

/-! ### Theorems -/

/-- **C109 (restarts change nothing).** However often and wherever a run is stopped and resumed with the same configuration, the resume is
accepted and the rates, schedules and everything they will ever become are those of the run that was never stopped — in any arithmetic. -/
theorem C109_resume [DecidableEq K] (N : Num K) (cfg : Config K) (hnd : (cfg.opts.map Prod.fst).Nodup) (us : List (Unit K))
    (hs : start N cfg = .ok us) (h : List Event) :
    run N cfg h us = run N cfg (noRestarts h) us ∧ ∃ us', run N cfg h us = .ok us' :=
  run_eq N cfg (start_known N cfg us hs) hnd h us (start_fits N cfg us hs)

/-- **C109 (start).** Training starts exactly when the schedule name is one of the three (or there is no optimizer). -/
theorem C109_start (N : Num K) (cfg : Config K) : (∃ us, start N cfg = .ok us) ↔ cfg.opts = [] ∨ Known cfg.type := by
  constructor
  · rintro ⟨us, h⟩
    by_cases h0 : cfg.opts = []
    · exact .inl h0
    · exact .inr (start_known N cfg us h h0)
  · rintro (h | h)
    · exact ⟨[], by unfold start; rw [h]; rfl⟩
    · obtain ⟨kind, hkind⟩ := (buildKind_known N cfg.type cfg.iterations cfg.args).mpr h
      refine ⟨cfg.opts.map fun o => newUnit N kind (freshOpt o).1 (freshOpt o).2, ?_⟩
      unfold start
      refine each_map _ _ _ _ ?_
      intro o _
      unfold setupOne
      rw [hkind]

/-- **C109 (changed configurations).** A state file saved under another learning rate, parameter layout, schedule, schedule option or
number of iterations is refused. -/
theorem C109_changed [DecidableEq K] (N : Num K) (cfg cfg' : Config K) (us us' : List (Unit K)) (h : resume N cfg' (save cfg us) = .ok us') :
    cfg' = cfg := by
  unfold resume at h
  by_cases h1 : (save cfg us).optConfig ≠ cfg'.opts
  · rw [if_pos h1] at h; simp at h
  rw [if_neg h1] at h
  by_cases h2 : (save cfg us).type ≠ cfg'.type ∨ (save cfg us).args ≠ cfg'.args ∨ (save cfg us).iterations ≠ cfg'.iterations
  · rw [if_pos h2] at h; simp at h
  rw [not_or, not_or] at h2
  have g1 := not_not.mp h1
  have g2 := not_not.mp h2.1
  have g3 := not_not.mp h2.2.1
  have g4 := not_not.mp h2.2.2
  obtain ⟨a, b, c, d⟩ := cfg
  obtain ⟨a', b', c', d'⟩ := cfg'
  simp only [save] at g1 g2 g3 g4
  subst g1 g2 g3 g4
  rfl

/-- **C109 (reported rate).** The rate a scheduler reports is the one its optimizer uses. -/
theorem C109_reported [DecidableEq K] (N : Num K) (cfg : Config K) (hnd : (cfg.opts.map Prod.fst).Nodup) (us us' : List (Unit K))
    (hs : start N cfg = .ok us) (h : List Event) (hr : run N cfg h us = .ok us') : ∀ u ∈ us', u.sched.lastLr = u.groups.map Group.lr := by
  have hstart : ∀ u ∈ us, u.sched.lastLr = u.groups.map Group.lr := by
    intro u hu
    unfold start at hs
    rw [each_ok] at hs
    obtain ⟨o, _, ho⟩ := forall2_mem _ _ _ hs u hu
    unfold setupOne at ho
    cases hk : buildKind N cfg.type cfg.iterations cfg.args with
    | error e => rw [hk] at ho; simp at ho
    | ok kind =>
      rw [hk] at ho
      simp only [Except.ok.injEq] at ho
      rw [← ho]; rfl
  rw [(C109_resume N cfg hnd us hs h).1] at hr
  clear hs
  have : ∀ (h : List Event) (us : List (Unit K)), (∀ u ∈ us, u.sched.lastLr = u.groups.map Group.lr) → run N cfg (noRestarts h) us = .ok us' →
      ∀ u ∈ us', u.sched.lastLr = u.groups.map Group.lr := by
    intro h
    induction h with
    | nil => intro us hu hr; simp only [noRestarts, run, Except.ok.injEq] at hr; rw [← hr]; exact hu
    | cons e h ih =>
      intro us hu hr
      cases e with
      | restart => exact ih us hu hr
      | update sk =>
        refine ih (update N sk us) ?_ hr
        intro v hv
        obtain ⟨u, hum, rfl⟩ := List.mem_map.mp hv
        by_cases hs : sk u.name = true
        · rw [if_pos hs]; exact hu u hum
        · rw [if_neg hs]; rfl
  exact this h us hstart hr

end Verif.Schedule
