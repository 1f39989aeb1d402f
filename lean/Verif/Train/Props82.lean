import Verif.Train.Lemmas

/-!
# C82 — a single-process run never validates or saves the product of a non-finite step

The check of a step is read one step late; the claim is about every configuration, every environment (which steps are finite, which
operations raise, when device copies land) and every state the trainer is in when `run` is called.
-/

namespace Verif.Train

/-! ## Specification -/

/-- what the caller of `run` guarantees: no copy is outstanding on a CPU run, and the last saved state is not from the future -/
structure Ready (c : Cfg) (s : St) : Prop where
  cpu : c.cuda = false → s.pending = []
  last : ∀ k, s.lastState = some k → k ≤ s.iteration
  fresh : s.events = []

/-- no signal arrives in the short window after an iteration -/
def NoInterrupt (env : Env) : Prop := ∀ i, (env.iter i).interrupt = false

/-- the iterations at which a validation pass is due -/
def ValAt (c : Cfg) (k : Nat) : Prop := c.hasVal = true ∧ c.valInterval ∣ k

/-- the iterations at which a checkpoint is due -/
def SaveAt (c : Cfg) (k : Nat) : Prop := c.saveInterval ∣ k ∨ c.tempSaveInterval ∣ k ∨ ∃ n, c.stateSaveInterval = some n ∧ n ∣ k

/-- the checkpoints at those iterations that also hold the training state -/
def StateAt (c : Cfg) (k : Nat) : Prop := SaveAt c k ∧ ∀ n, c.stateSaveInterval = some n → n ∣ k

open Classical in
/-- the events of one undisturbed iteration -/
noncomputable def iterationEvents (c : Cfg) (k : Nat) : List Event :=
  [Event.stepped k] ++ (if ValAt c k then [Event.validated k] else []) ++ (if SaveAt c k then [Event.committed k] else [])

/-! ## Theorems -/

theorem interrupted_impossible {env : Env} {c : Cfg} (hn : NoInterrupt env) (s s' : St) (n : Nat) : loop c env n s ≠ .error (s', .interrupted) := by
  induction n generalizing s with
  | zero => simp [loop]
  | succ n ih =>
    unfold loop
    cases hb : body c (env.iter (s.iteration + 1)) s with
    | ok s1 => exact ih s1
    | error r =>
      intro h
      dsimp only at h
      injection h with h
      subst h
      have hi := hn (s.iteration + 1)
      revert hb hi
      generalize env.iter (s.iteration + 1) = e
      intro hb hi
      have hdr : ∀ n t t', drainN n t ≠ .error (t', .interrupted) := by
        intro n
        induction n with
        | zero => intro t t'; simp [drainN]
        | succ n ihn =>
          intro t t'
          unfold drainN
          cases t.inFlight with
          | nil => simp
          | cons x rest =>
            obtain ⟨slot, it⟩ := x
            dsimp only
            split
            · exact ihn _ _
            · simp
      have htail : ∀ t t', tail c e t ≠ .error (t', .interrupted) := by
        intro t t'
        unfold tail
        dsimp only
        split
        · simp
        · split
          · simp
          · rw [if_neg (by simp [hi])]
            by_cases h1 : valDue c t.iteration = true <;> by_cases h2 : saveDue c t.iteration = true <;> cases e.save <;>
              simp [save, h1, h2]
      unfold body at hb
      dsimp only at hb
      split at hb
      · injection hb with hb; simp at hb
      · unfold trainStep at hb
        split at hb
        · rename_i s2 err heq
          injection hb with hb
          injection hb with _ hb
          subst hb
          split at heq
          · simp at heq
          · split at heq
            · simp at heq
            · dsimp only at heq
              split at heq <;> simp at heq
        · split at hb
          · injection hb with hb; simp at hb
          · split at hb
            · rename_i r heq
              injection hb with hb
              subst hb
              exact hdr _ _ _ heq
            · exact htail _ _ hb

theorem attempt_not_interrupted {env : Env} {c : Cfg} (hn : NoInterrupt env) (s s' : St) : attempt c env s ≠ .error (s', .interrupted) := by
  have hdr : ∀ n t t', drainN n t ≠ .error (t', .interrupted) := by
    intro n
    induction n with
    | zero => intro t t'; simp [drainN]
    | succ n ihn =>
      intro t t'
      unfold drainN
      cases t.inFlight with
      | nil => simp
      | cons x rest =>
        obtain ⟨slot, it⟩ := x
        dsimp only
        split
        · exact ihn _ _
        · simp
  intro h
  unfold attempt at h
  split at h
  · simp at h
  · split at h
    · rename_i r heq
      injection h with h
      subst h
      exact interrupted_impossible hn _ _ _ heq
    · unfold finish at h
      dsimp only at h
      split at h
      · rename_i r heq
        injection h with h
        subst h
        split at heq
        · split at heq
          · rename_i r heq2
            injection heq with heq
            subst heq
            exact hdr _ _ _ heq2
          · revert heq
            cases env.finalSave <;> simp [save]
        · simp at heq
      · split at h <;> simp at h

/-- **C82** no validation pass and no checkpoint ever sees weights produced by a step whose check was not finite -/
theorem C82_clean (c : Cfg) (env : Env) (s : St) (hr : Ready c s) (hn : NoInterrupt env) (k : Nat)
    (hk : Event.validated k ∈ (run c env s).1.events ∨ Event.committed k ∈ (run c env s).1.events) :
    ∀ j, s.iteration < j → j ≤ k → (env.iter j).finite = true := by
  have ha := attempt_inv env c s hr.cpu hr.fresh hr.last
  unfold run at hk
  cases h : attempt c env s with
  | ok s1 =>
    rw [h] at hk
    dsimp only at hk
    rw [(discard_same s1).events] at hk
    exact (ha.1 s1 h).1.clean k hk
  | error r =>
    obtain ⟨s1, err⟩ := r
    rw [h] at hk
    dsimp only at hk
    rw [(discard_same _).events] at hk
    have hf := ha.2 s1 err h
    have hne : err ≠ .interrupted := by rintro rfl; exact attempt_not_interrupted hn s s1 h
    unfold emergency at hk
    split at hk
    · rename_i hg
      simp only [Bool.and_eq_true, Bool.not_eq_true'] at hg
      have hgood := hf.safe hg.1.1.1 hg.1.1.2 hne
      cases ho : env.emergencySave with
      | ok =>
        rw [ho] at hk
        simp only [save, mem_append_single] at hk
        rcases hk with (hk | hk) | (hk | hk)
        · exact hf.clean k (Or.inl hk)
        · exact absurd hk (by simp)
        · exact hf.clean k (Or.inr hk)
        · injection hk with hk
          subst hk
          exact hgood
      | failMarked => rw [ho] at hk; exact hf.clean k hk
      | failUnmarked => rw [ho] at hk; exact hf.clean k hk
    · exact hf.clean k hk

/-- the events of a run are those of its attempt, up to an emergency checkpoint -/
theorem run_stepped (c : Cfg) (env : Env) (s : St) (j : Nat) (hj : Event.stepped j ∈ (run c env s).1.events) :
    (∃ s1, attempt c env s = .ok s1 ∧ Event.stepped j ∈ s1.events ∧ (run c env s).2 = none ∧ (run c env s).1.iteration = s1.iteration) ∨
    (∃ s1 err, attempt c env s = .error (s1, err) ∧ Event.stepped j ∈ s1.events ∧ (run c env s).2 = some err) := by
  unfold run at hj ⊢
  cases h : attempt c env s with
  | ok s1 =>
    rw [h] at hj
    dsimp only at hj ⊢
    rw [(discard_same s1).events] at hj
    exact Or.inl ⟨s1, rfl, hj, rfl, (discard_same s1).iteration⟩
  | error r =>
    obtain ⟨s1, err⟩ := r
    rw [h] at hj
    dsimp only at hj ⊢
    rw [(discard_same _).events] at hj
    refine Or.inr ⟨s1, err, rfl, ?_, rfl⟩
    unfold emergency at hj
    split at hj
    · cases ho : env.emergencySave with
      | ok =>
        rw [ho] at hj
        simp only [save, mem_append_single] at hj
        rcases hj with hj | hj
        · exact hj
        · exact absurd hj (by simp)
      | failMarked => rw [ho] at hj; exact hj
      | failUnmarked => rw [ho] at hj; exact hj
    · exact hj

/-- **C82** a non-finite step is noticed at the latest when the following step has run: no later step is taken -/
theorem C82_latency (c : Cfg) (env : Env) (s : St) (hr : Ready c s) (j k : Nat) (hj : Event.stepped j ∈ (run c env s).1.events)
    (hk : s.iteration < k) (hbad : (env.iter k).finite = false) : j ≤ k + 1 := by
  have ha := attempt_inv env c s hr.cpu hr.fresh hr.last
  by_contra hlt
  have hgood : (env.iter k).finite = true := by
    rcases run_stepped c env s j hj with ⟨s1, h1, h2, -⟩ | ⟨s1, err, h1, h2, -⟩
    · have hh := (ha.1 s1 h1).1
      exact hh.past k hk (by have := (hh.steps j h2).2; omega)
    · exact ((ha.2 s1 err h1).steps j h2).2.2 k hk (by omega)
  rw [hgood] at hbad
  exact absurd hbad (by simp)

/-- **C82** a run in which any step was non-finite does not end normally -/
theorem C82_detected (c : Cfg) (env : Env) (s : St) (hr : Ready c s) (j : Nat) (hj : Event.stepped j ∈ (run c env s).1.events)
    (hbad : (env.iter j).finite = false) : ∃ err, (run c env s).2 = some err := by
  have ha := attempt_inv env c s hr.cpu hr.fresh hr.last
  rcases run_stepped c env s j hj with ⟨s1, h1, h2, -⟩ | ⟨s1, err, h1, h2, h3⟩
  · obtain ⟨hh, hl, -⟩ := ha.1 s1 h1
    have := (hh.last _ hl).2.1 j (hh.steps j h2).1 (hh.steps j h2).2
    rw [this] at hbad
    exact absurd hbad (by simp)
  · exact ⟨err, h3⟩

/-- **C82** the iteration named in the error is the first one that was not finite -/
theorem C82_reported (c : Cfg) (env : Env) (s : St) (hr : Ready c s) (k : Nat) (h : (run c env s).2 = some (.nonFinite k)) :
    s.iteration < k ∧ (env.iter k).finite = false ∧ ∀ j, s.iteration < j → j < k → (env.iter j).finite = true := by
  have ha := attempt_inv env c s hr.cpu hr.fresh hr.last
  unfold run at h
  cases hatt : attempt c env s with
  | ok s1 => rw [hatt] at h; exact absurd h (by simp)
  | error r =>
    obtain ⟨s1, err⟩ := r
    rw [hatt] at h
    dsimp only at h
    injection h with h
    obtain ⟨g1, g2, g3⟩ := (ha.2 s1 err hatt).report k h
    exact ⟨g1, g2, fun j h1 h2 => g3 j h1 (by omega)⟩

/-- **C82** however the run ends, the counters count the completed steps: every step up to the counter ran, at most one more was begun,
and the row counter matches -/
theorem C82_counters (c : Cfg) (env : Env) (s : St) (hr : Ready c s) :
    s.iteration ≤ (run c env s).1.iteration ∧
      (run c env s).1.rows = s.rows + c.rowsPerStep * ((run c env s).1.iteration - s.iteration) ∧
      (∀ j, s.iteration < j → j ≤ (run c env s).1.iteration → Event.stepped j ∈ (run c env s).1.events) ∧
      (∀ j, Event.stepped j ∈ (run c env s).1.events → s.iteration < j ∧ j ≤ (run c env s).1.iteration + 1) := by
  have ha := attempt_inv env c s hr.cpu hr.fresh hr.last
  unfold run
  cases hatt : attempt c env s with
  | ok s1 =>
    dsimp only
    have hs := discard_same s1
    obtain ⟨hh, -⟩ := ha.1 s1 hatt
    rw [hs.iteration, hs.rows, hs.events]
    exact ⟨hh.le, hh.rows, hh.all, fun j hj => ⟨(hh.steps j hj).1, Nat.le_succ_of_le (hh.steps j hj).2⟩⟩
  | error r =>
    obtain ⟨s1, err⟩ := r
    dsimp only
    have hf := ha.2 s1 err hatt
    have hs := discard_same (emergency c env s1)
    rw [hs.iteration, hs.rows, hs.events]
    have he : (emergency c env s1).iteration = s1.iteration ∧ (emergency c env s1).rows = s1.rows ∧
        ((emergency c env s1).events = s1.events ∨ (emergency c env s1).events = s1.events ++ [Event.committed s1.iteration]) := by
      unfold emergency
      split
      · cases env.emergencySave <;> simp [save]
      · exact ⟨rfl, rfl, Or.inl rfl⟩
    obtain ⟨e1, e2, e3⟩ := he
    rw [e1, e2]
    refine ⟨hf.le, hf.rows, fun j h1 h2 => ?_, fun j hj => ?_⟩
    · rcases e3 with e3 | e3 <;> rw [e3]
      · exact hf.all j h1 h2
      · exact List.mem_append_left _ (hf.all j h1 h2)
    · have : Event.stepped j ∈ s1.events := by
        rcases e3 with e3 | e3 <;> rw [e3] at hj
        · exact hj
        · rcases mem_append_single.1 hj with hj | hj
          · exact hj
          · exact absurd hj (by simp)
      exact ⟨(hf.steps j this).1, (hf.steps j this).2.1⟩

/-- **C82** after a run, the trainer is ready for another one (with a fresh event log) -/
theorem C82_rerun (c : Cfg) (env : Env) (s : St) (hr : Ready c s) :
    ∀ k, (run c env s).1.lastState = some k → k ≤ (run c env s).1.iteration := by
  have ha := attempt_inv env c s hr.cpu hr.fresh hr.last
  unfold run
  cases hatt : attempt c env s with
  | ok s1 =>
    dsimp only
    have hs := discard_same s1
    rw [hs.iteration, hs.lastState]
    exact fun k hk => ((ha.1 s1 hatt).1.last k hk).1
  | error r =>
    obtain ⟨s1, err⟩ := r
    dsimp only
    have hf := ha.2 s1 err hatt
    have hs := discard_same (emergency c env s1)
    rw [hs.iteration, hs.lastState]
    intro k hk
    unfold emergency at hk ⊢
    split at hk
    · rename_i hg
      rw [if_pos hg]
      cases ho : env.emergencySave with
      | ok =>
        rw [ho] at hk
        simp [save, savesState] at hk ⊢
        omega
      | failMarked => rw [ho] at hk; exact (hf.last k hk).1
      | failUnmarked => rw [ho] at hk; exact (hf.last k hk).1
    · rename_i hg
      rw [if_neg hg]
      exact (hf.last k hk).1

/-! ### the schedule of a run that ends normally -/

theorem saveDue_iff (c : Cfg) (k : Nat) : saveDue c k = true ↔ SaveAt c k := by
  unfold saveDue SaveAt
  cases c.stateSaveInterval with
  | none => simp [Nat.dvd_iff_mod_eq_zero]
  | some n => simp [Nat.dvd_iff_mod_eq_zero, or_assoc]

theorem valDue_iff (c : Cfg) (k : Nat) : valDue c k = true ↔ ValAt c k := by
  unfold valDue ValAt
  simp [Nat.dvd_iff_mod_eq_zero, and_comm]

theorem savesState_iff (c : Cfg) (k : Nat) : savesState c false k = true ↔ ∀ n, c.stateSaveInterval = some n → n ∣ k := by
  unfold savesState
  cases c.stateSaveInterval with
  | none => simp
  | some n => simp [Nat.dvd_iff_mod_eq_zero]

open Classical in
theorem save_ok (c : Cfg) (o : SaveOutcome) (force : Bool) (s s' : St) (h : save c o force s = .ok s') :
    s'.events = s.events ++ [Event.committed s.iteration] ∧ s'.iteration = s.iteration ∧
      s'.lastState = if savesState c force s.iteration then some s.iteration else s.lastState := by
  cases o with
  | ok => injection h with h; subst h; exact ⟨rfl, rfl, rfl⟩
  | failMarked => simp [save] at h
  | failUnmarked => simp [save] at h

theorem drainN_same (n : Nat) (s s' : St) (h : drainN n s = .ok s') : Same s s' := by
  induction n generalizing s with
  | zero => injection h with h; exact h ▸ Same.refl _
  | succ n ih =>
    unfold drainN at h
    cases hf : s.inFlight with
    | nil => rw [hf] at h; injection h with h; exact h ▸ Same.refl _
    | cons e rest =>
      obtain ⟨slot, it⟩ := e
      rw [hf] at h
      dsimp only at h
      split at h
      · exact Same.trans (b := synchronize slot { s with inFlight := rest }) ⟨rfl, rfl, rfl, rfl, rfl, rfl, rfl⟩ (ih _ h)
      · exact absurd h (by simp)

open Classical in
theorem body_events (c : Cfg) (e : Iter) (s s' : St) (h : body c e s = .ok s') :
    s'.events = s.events ++ iterationEvents c (s.iteration + 1) ∧ s'.iteration = s.iteration + 1 ∧
      s'.lastState = if StateAt c (s.iteration + 1) then some (s.iteration + 1) else s.lastState := by
  unfold body at h
  dsimp only at h
  split at h
  · simp at h
  · split at h
    · simp at h
    · rename_i s2 hstep
      have h2 : s2.events = s.events ++ [Event.stepped (s.iteration + 1)] ∧ s2.iteration = s.iteration + 1 ∧ s2.lastState = s.lastState := by
        unfold trainStep at hstep
        split at hstep
        · simp at hstep
        · split at hstep
          · simp at hstep
          · dsimp only at hstep
            split at hstep
            · simp at hstep
            · injection hstep with hstep
              subst hstep
              by_cases hsc : c.scaled = true
              · simp only [if_pos hsc]; exact ⟨trivial, trivial, trivial⟩
              · obtain ⟨g1, g2, g3, g4, g5, g6, g7, g8, g9⟩ := enqueue_same c e.finite
                  { s with safe := false, iteration := s.iteration + 1, rows := s.rows + c.rowsPerStep }
                simp only [if_neg hsc]
                exact ⟨by rw [g9, g1], g1, g8⟩
      split at h
      · simp at h
      · split at h
        · simp at h
        · rename_i s3 hdr
          have hs : Same s2 s3 := by
            have h3 := drainN_same _ _ _ hdr
            exact (Same.landN e.landed s2).trans h3
          have h3 : s3.events = s.events ++ [Event.stepped (s.iteration + 1)] := hs.events.trans h2.1
          have h4 : s3.iteration = s.iteration + 1 := hs.iteration.trans h2.2.1
          have h5 : s3.lastState = s.lastState := hs.lastState.trans h2.2.2
          rw [← h4] at h3 ⊢
          unfold tail at h
          dsimp only at h
          have fin : ∀ (t : St), t.iteration = s3.iteration → t.lastState = s.lastState →
              t.events = s.events ++ ([Event.stepped s3.iteration] ++ if ValAt c s3.iteration then [Event.validated s3.iteration] else []) →
              (if saveDue c t.iteration = true then save c e.save false { t with safe := true } else .ok { t with safe := true }) = .ok s' →
              s'.events = s.events ++ iterationEvents c s3.iteration ∧ s'.iteration = s3.iteration ∧
                s'.lastState = if StateAt c s3.iteration then some s3.iteration else s.lastState := by
            intro t t1 t2 t3 t4
            rw [← t1, ← t2] at *
            by_cases hsd : SaveAt c t.iteration
            · rw [if_pos ((saveDue_iff c _).2 hsd)] at t4
              obtain ⟨u1, u2, u3⟩ := save_ok _ _ _ _ _ t4
              refine ⟨?_, u2, ?_⟩
              · rw [u1]
                show t.events ++ [Event.committed t.iteration] = _
                rw [t3]
                unfold iterationEvents
                rw [if_pos hsd, List.append_assoc]
              · rw [u3]
                show (if savesState c false t.iteration = true then some t.iteration else t.lastState) = _
                by_cases hss : savesState c false t.iteration = true
                · rw [if_pos hss, if_pos ⟨hsd, (savesState_iff c _).1 hss⟩]
                · rw [if_neg hss, if_neg (fun g => hss ((savesState_iff c _).2 g.2))]
            · rw [if_neg (fun g => hsd ((saveDue_iff c _).1 g))] at t4
              injection t4 with t4
              subst t4
              refine ⟨?_, rfl, ?_⟩
              · show t.events = _
                rw [t3]
                unfold iterationEvents
                rw [if_neg hsd, List.append_nil]
              · rw [if_neg (fun g => hsd g.1)]
          by_cases hv : ValAt c s3.iteration
          · have hv' := (valDue_iff c _).2 hv
            simp only [if_pos hv'] at h
            split at h
            · simp at h
            · split at h
              · simp at h
              · split at h
                · simp at h
                · refine fin { s3 with events := s3.events ++ [Event.validated s3.iteration] } rfl h5 ?_ h
                  rw [if_pos hv]
                  show s3.events ++ _ = _
                  rw [h3, List.append_assoc]
          · have hv' : ¬ valDue c s3.iteration = true := fun g => hv ((valDue_iff c _).1 g)
            simp only [if_neg hv'] at h
            split at h
            · simp at h
            · split at h
              · simp at h
              · split at h
                · simp at h
                · refine fin s3 rfl h5 ?_ h
                  rw [if_neg hv, h3, List.append_nil]

open Classical in
theorem loop_events (c : Cfg) (env : Env) (n : Nat) (s s' : St) (h : loop c env n s = .ok s') :
    s'.events = s.events ++ (List.range n).flatMap (fun i => iterationEvents c (s.iteration + 1 + i)) ∧ s'.iteration = s.iteration + n ∧
      (n = 0 → s'.lastState = s.lastState) ∧
      (0 < n → (∀ k, s.lastState = some k → k ≤ s.iteration) →
        (s'.lastState = some s'.iteration ↔ StateAt c s'.iteration)) := by
  induction n generalizing s with
  | zero => injection h with h; subst h; exact ⟨by simp, rfl, fun _ => rfl, fun h => absurd h (by simp)⟩
  | succ n ih =>
    unfold loop at h
    cases hb : body c (env.iter (s.iteration + 1)) s with
    | error r => rw [hb] at h; simp at h
    | ok s1 =>
      rw [hb] at h
      obtain ⟨g1, g2, g3⟩ := body_events _ _ _ _ hb
      obtain ⟨k1, k2, k3, k4⟩ := ih s1 h
      refine ⟨?_, by rw [k2, g2]; omega, fun h => absurd h (by simp), fun _ hl => ?_⟩
      · rw [k1, g1, g2, List.range_succ_eq_map, List.flatMap_cons, List.append_assoc, Nat.add_zero]
        congr 2
        rw [List.flatMap_map]
        congr 1
        funext i
        rw [Nat.succ_eq_add_one, show s.iteration + 1 + 1 + i = s.iteration + 1 + (i + 1) by omega]
      · have hl1 : ∀ k, s1.lastState = some k → k ≤ s1.iteration := by
          intro k hk
          rw [g3] at hk
          rw [g2]
          split at hk
          · injection hk with hk; omega
          · have := hl k hk; omega
        by_cases hn : n = 0
        · rw [k3 hn, k2, hn, Nat.add_zero, g2, g3]
          split
          · rename_i hst; exact ⟨fun _ => hst, fun _ => rfl⟩
          · rename_i hst
            exact ⟨fun hc => by have := hl _ hc; omega, fun g => absurd g hst⟩
        · exact k4 (Nat.pos_of_ne_zero hn) hl1

open Classical in
/-- **C82** a run that ends normally took every step once and in order, validated and saved exactly at the due iterations, each after its
step, ended with a checkpoint of the training state of the last iteration, and every step in it was finite -/
theorem C82_schedule (c : Cfg) (env : Env) (s : St) (hr : Ready c s) (h : (run c env s).2 = none) :
    (run c env s).1.iteration = max s.iteration c.iterations ∧
      (∀ j, s.iteration < j → j ≤ (run c env s).1.iteration → (env.iter j).finite = true) ∧
      (run c env s).1.events = (List.range (c.iterations - s.iteration)).flatMap (fun i => iterationEvents c (s.iteration + 1 + i)) ++
        (if (s.iteration < c.iterations ∧ StateAt c c.iterations) ∨ (c.iterations ≤ s.iteration ∧ s.lastState = some s.iteration) then []
         else [Event.committed (max s.iteration c.iterations)]) := by
  have ha := attempt_inv env c s hr.cpu hr.fresh hr.last
  unfold run at h ⊢
  cases hatt : attempt c env s with
  | error r => obtain ⟨s1, err⟩ := r; rw [hatt] at h; exact absurd h (by simp)
  | ok s1 =>
    dsimp only
    have hs := discard_same s1
    obtain ⟨hh, hl, hit⟩ := ha.1 s1 hatt
    rw [hs.iteration, hs.events]
    have hmax : s1.iteration = max s.iteration c.iterations := by rw [hit]; omega
    refine ⟨hmax, (hh.last _ hl).2.1, ?_⟩
    unfold attempt at hatt
    split at hatt
    · simp at hatt
    · split at hatt
      · simp at hatt
      · rename_i s2 hlp
        have hbegin : (begin s true).events = [] ∧ (begin s true).iteration = s.iteration ∧ (begin s true).lastState = s.lastState := by
          have hd := discard_same { s with known := false }
          exact ⟨hd.events.trans hr.fresh, hd.iteration, hd.lastState⟩
        obtain ⟨k1, k2, k3, k4⟩ := loop_events c env _ _ _ hlp
        rw [hbegin.1, hbegin.2.1, List.nil_append] at k1
        rw [hbegin.2.1] at k2 k4
        rw [hbegin.2.2] at k3 k4
        have hm2 : s2.iteration = max s.iteration c.iterations := by rw [k2]; omega
        have hcond : (s2.lastState = some s2.iteration) ↔
            ((s.iteration < c.iterations ∧ StateAt c c.iterations) ∨ (c.iterations ≤ s.iteration ∧ s.lastState = some s.iteration)) := by
          by_cases hz : c.iterations ≤ s.iteration
          · have h0 : c.iterations - s.iteration = 0 := by omega
            rw [k3 h0, hm2, Nat.max_eq_left hz]
            constructor
            · exact fun g => Or.inr ⟨hz, g⟩
            · rintro (⟨g, -⟩ | ⟨-, g⟩)
              · omega
              · exact g
          · rw [k4 (by omega) hr.last, hm2, Nat.max_eq_right (by omega)]
            constructor
            · exact fun g => Or.inl ⟨by omega, g⟩
            · rintro (⟨-, g⟩ | ⟨g, -⟩)
              · exact g
              · omega
        unfold finish at hatt
        dsimp only at hatt
        by_cases hls : s2.lastState = some s2.iteration
        · rw [if_neg (by simpa using hls)] at hatt
          dsimp only at hatt
          split at hatt
          · injection hatt with hatt
            subst hatt
            rw [k1, if_pos (hcond.1 hls), List.append_nil]
          · simp at hatt
        · rw [if_pos hls] at hatt
          rw [if_neg (fun g => hls (hcond.2 g))]
          cases hd : drain true (landN env.finalLanded s2) with
          | error r => rw [hd] at hatt; simp at hatt
          | ok s3 =>
            rw [hd] at hatt
            have hs3 : Same s2 s3 := (Same.landN env.finalLanded s2).trans (drainN_same _ _ _ hd)
            dsimp only at hatt
            cases hsv : save c env.finalSave true s3 with
            | error r => rw [hsv] at hatt; simp at hatt
            | ok s4 =>
              rw [hsv] at hatt
              dsimp only at hatt
              split at hatt
              · injection hatt with hatt
                subst hatt
                obtain ⟨u1, u2, u3⟩ := save_ok _ _ _ _ _ hsv
                rw [u1, hs3.events, hs3.iteration, k1, hm2]
              · simp at hatt

/-! ### the window in which a signal is not covered -/

def goodIter : Iter := ⟨true, true, true, true, true, true, 0, true, true, false, .ok⟩

/-- **C82 (finding)** the hypothesis on signals is needed: a signal between two iterations after a non-finite step makes `run` save that
step's weights, although every operation works -/
theorem C82_interrupt_gap : ∃ (c : Cfg) (env : Env) (s : St), Ready c s ∧ (env.iter 1).finite = false ∧
    Event.committed 1 ∈ (run c env s).1.events := by
  refine ⟨⟨10, 5, true, 5, 5, none, 8, false, true⟩, ⟨fun _ => { goodIter with finite := false, interrupt := true }, true, 0, .ok, true, .ok⟩,
    ⟨0, 0, fun _ => true, [], 0, [], false, true, false, none, []⟩, ⟨fun h => by simp, fun k h => by simp at h, rfl⟩, rfl, ?_⟩
  decide +kernel

/-! ## Non-vacuity -/

namespace Examples82

def cfg : Cfg := ⟨3, 2, true, 3, 100, none, 8, false, true⟩
def st : St := ⟨0, 0, fun _ => true, [], 0, [], false, true, false, none, []⟩
def bad2 : Env := ⟨fun k => { goodIter with finite := k != 1 }, true, 0, .ok, true, .ok⟩
def fine : Env := ⟨fun _ => goodIter, true, 0, .ok, true, .ok⟩

example : Ready cfg st := ⟨fun _ => rfl, fun k h => by simp [st] at h, rfl⟩
example : NoInterrupt bad2 := fun _ => rfl

/-- a non-finite first step: the second step still runs, then the run stops before validating -/
example : (run cfg bad2 st).2 = some (.nonFinite 1) ∧ (run cfg bad2 st).1.events = [.stepped 1, .stepped 2] ∧
    (run cfg bad2 st).1.iteration = 2 := by decide +kernel

/-- an undisturbed run -/
example : (run cfg fine st).2 = none ∧
    (run cfg fine st).1.events = [.stepped 1, .stepped 2, .validated 2, .stepped 3, .committed 3] := by decide +kernel

end Examples82

end Verif.Train
