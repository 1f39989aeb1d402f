import Verif.Ranks.Whole

namespace Verif.Ranks

variable {n : Nat} {α : Type}

/-! ### phases that leave the state alone -/

/-- `op` gets through, changes nothing, and succeeds exactly if `ok` -/
def Neutral (op : Op n α) (s : St) (x : Fin n → Option Nat) (ok : Prop) : Prop :=
  ∃ v, Reaches (fun k r => op r (fam s x r) (k r)) s x v ∧ (v = none ↔ ok)

theorem Reaches.chainFail {A B : Op n α} {s s1 : St} {x x1 : Fin n → Option Nat} {f : Failure} (h : Reaches (fun k r => A r (fam s x r) (k r)) s1 x1 (some f)) :
    Reaches (fun k r => chain (A r) (B r) (fam s x r) (k r)) s1 x1 (some f) :=
  fun k out hk => h (fun r st v => andThen (B r) (k r) st v) out hk

theorem Reaches.chainOk {A B : Op n α} {s s1 s' : St} {x x1 x' : Fin n → Option Nat} {v : Option Failure}
    (h : Reaches (fun k r => A r (fam s x r) (k r)) s1 x1 none) (g : Reaches (fun k r => B r (fam s1 x1 r) (k r)) s' x' v) :
    Reaches (fun k r => chain (A r) (B r) (fam s x r) (k r)) s' x' v :=
  fun k out hk => h (fun r st v => andThen (B r) (k r) st v) out (g k out hk)

theorem Neutral.chain {A B : Op n α} {s : St} {x : Fin n → Option Nat} {okA okB : Prop} (h : Neutral A s x okA) (g : Neutral B s x okB) :
    Neutral (fun r => Ranks.chain (A r) (B r)) s x (okA ∧ okB) := by
  obtain ⟨v, h1, h2⟩ := h
  obtain ⟨w, g1, g2⟩ := g
  cases v with
  | some f => exact ⟨some f, Reaches.chainFail h1, ⟨fun h => absurd h (by simp), fun h => absurd (h2.2 h.1) (by simp)⟩⟩
  | none => exact ⟨w, Reaches.chainOk h1 g1, ⟨fun h => ⟨h2.1 rfl, g2.1 h⟩, fun h => g2.2 h.2⟩⟩

theorem Neutral.whenDue {A : Op n α} {s : St} {x : Fin n → Option Nat} {ok : Prop} (due : St → Bool) (hd : ∀ r, due (fam s x r) = due s) (h : Neutral A s x ok) :
    Neutral (fun r st k => Ranks.whenDue (due st) (A r) st k) s x (due s = true → ok) := by
  obtain ⟨v, h1, h2⟩ := h
  cases hb : due s with
  | true =>
    refine ⟨v, fun k out hk => ?_, by simp [h2]⟩
    have he : (fun r : Fin n => Ranks.whenDue (due (fam s x r)) (A r) (fam s x r) (k r)) = fun r => A r (fam s x r) (k r) := by
      funext r; unfold Ranks.whenDue; rw [if_pos ((hd r).trans hb)]
    show Runs (fun r : Fin n => Ranks.whenDue (due (fam s x r)) (A r) (fam s x r) (k r)) out
    rw [he]; exact h1 k out hk
  | false =>
    refine ⟨none, fun k out hk => ?_, by simp⟩
    have he : (fun r : Fin n => Ranks.whenDue (due (fam s x r)) (A r) (fam s x r) (k r)) = fun r => k r (fam s x r) none := by
      funext r; unfold Ranks.whenDue; rw [if_neg (by rw [hd r, hb]; simp)]
    show Runs (fun r : Fin n => Ranks.whenDue (due (fam s x r)) (A r) (fam s x r) (k r)) out
    rw [he]; exact hk

theorem metrics_neutral (c : Cfg) (s : St) (x : Fin n → Option Nat) : Neutral (α := α) (fun _ => metrics c) s x True := by
  refine ⟨none, fun k out hk => ?_, by simp⟩
  by_cases hd : s.iteration % c.logInterval = 0 ∨ s.iteration % c.showInterval = 0
  · have he : (fun r : Fin n => metrics c (fam s x r) (k r)) = fun r => .coll .gather .unit fun _ => k r (fam s x r) none := by
      funext r; unfold metrics; rw [if_pos (show (fam s x r).iteration % c.logInterval = 0 ∨ (fam s x r).iteration % c.showInterval = 0 from hd)]
    show Runs (fun r : Fin n => metrics c (fam s x r) (k r)) out
    rw [he]; exact Runs.coll .gather _ _ _ hk
  · have he : (fun r : Fin n => metrics c (fam s x r) (k r)) = fun r => k r (fam s x r) none := by
      funext r; unfold metrics; rw [if_neg (show ¬ ((fam s x r).iteration % c.logInterval = 0 ∨ (fam s x r).iteration % c.showInterval = 0) from hd)]
    show Runs (fun r : Fin n => metrics c (fam s x r) (k r)) out
    rw [he]; exact hk

theorem runSync_neutral (op : String) (errs : Fin n → List String) (s : St) (x : Fin n → Option Nat) :
    Neutral (α := α) (fun r => runSync r.1 op false (errs r)) s x (∀ r, errs r = []) :=
  ⟨_, runSync_lock op false errs s x, runSync_all_iff op errs⟩

theorem syncPhase_neutral (phase : String) (errs : Fin n → List String) (s : St) (x : Fin n → Option Nat) :
    Neutral (α := α) (fun r => syncPhase r.1 phase (errs r) false) s x (∀ r, errs r = []) := by
  refine ⟨_, ?_, verdict_none phase errs⟩
  have h := syncPhase_lock (α := α) phase errs false s x
  have : afterPhase false s (verdict phase errs) = s := by
    cases verdict phase errs with
    | none => rfl
    | some f => unfold afterPhase; simp
  rwa [this] at h

/-- reporting works on every process -/
structure ReportOk (c : Cfg) (e : Fin n → Iter) (i : Nat) : Prop where
  log : i % c.logInterval = 0 → ∀ r, (e r).log = []
  display : i % c.showInterval = 0 → ∀ r, (e r).display = []
  validation : c.hasVal = true → i % c.valInterval = 0 → ∀ r, (e r).validation = []
  profiler : c.profiled = true → ∀ r, (e r).profiler = []

theorem reporting_neutral (c : Cfg) (e : Fin n → Iter) (s : St) (x : Fin n → Option Nat) :
    Neutral (α := α) (fun r => reporting r.1 c (e r)) s x (ReportOk c e s.iteration) := by
  have h1 := Neutral.whenDue (fun st => decide (st.iteration % c.logInterval = 0)) (fun r => rfl)
    (runSync_neutral (α := α) "training metric logging" (fun r => (e r).log) s x)
  have h2 := Neutral.whenDue (fun st => decide (st.iteration % c.showInterval = 0)) (fun r => rfl)
    (runSync_neutral (α := α) "progress display" (fun r => (e r).display) s x)
  have h3 := Neutral.whenDue (fun st => decide (st.iteration % c.valInterval = 0) && c.hasVal) (fun r => rfl)
    (syncPhase_neutral (α := α) "validation" (fun r => (e r).validation) s x)
  have h4 := Neutral.whenDue (fun _ => c.profiled) (fun r => rfl) (runSync_neutral (α := α) "profiler step" (fun r => (e r).profiler) s x)
  obtain ⟨v, g1, g2⟩ := (metrics_neutral (α := α) c s x).chain (h1.chain (h2.chain (h3.chain h4)))
  refine ⟨v, g1, g2.trans ?_⟩
  constructor
  · rintro ⟨-, a, b, d, f⟩
    exact ⟨fun h => a (by simpa using h), fun h => b (by simpa using h), fun h h' => d (by simp [h, h']), f⟩
  · intro h
    refine ⟨trivial, fun g => h.log (by simpa using g), fun g => h.display (by simpa using g), fun g => ?_, h.profiler⟩
    rw [Bool.and_eq_true] at g
    exact h.validation g.2 (by simpa using g.1)

/-! ### one iteration -/

/-- failures that the code does not exchange before its next collective are shared by all processes, in every micro-step and checkpoint -/
structure Shared (env : Fin n → Env) : Prop where
  micro : ∀ i j, Symmetric (fun r => ((env r).iter i).micro j)
  save : ∀ i, Save.Shared (fun r => (env r).save i)
  finalSave : Save.Shared (fun r => (env r).finalSave)
  emergencySave : Save.Shared (fun r => (env r).emergencySave)

/-- the step of iteration `i` got its data and completed on every process -/
structure Completed (c : Cfg) (e : Fin n → Iter) : Prop where
  fetch : ∀ r, ((e r).micro 0).fetch.Ok
  step : StepOk c e

/-- an iteration in which nothing went wrong on any process -/
structure IterOk (c : Cfg) (e : Fin n → Iter) (sv : Fin n → Save) (i : Nat) : Prop where
  completed : Completed c e
  report : ReportOk c e i
  save : c.saveDue i = true → ∀ r, (sv r).Clean (r.1 = 0) (c.savesState i = true)

/-- all processes see the same data and metrics, and everything works -/
structure IterFine (c : Cfg) (S : Nat) (e : Fin n → Iter) (sv : Fin n → Save) (i : Nat) : Prop where
  micro : ∀ r j, ((e r).micro j).Fine
  consistent : ∀ j, Consistent S (fun r => (e r).micro j)
  afterHook : ∀ r, (e r).afterHook = []
  report : ReportOk c e i
  save : c.saveDue i = true → ∀ r, (sv r).Clean (r.1 = 0) (c.savesState i = true)

/-- what an iteration does to the common state -/
structure Turn (c : Cfg) (e : Fin n → Iter) (sv : Fin n → Save) (s s' : St) (v : Option Failure) : Prop where
  ok : v = none → IterOk c e sv (s.iteration + 1) ∧ s'.iteration = s.iteration + 1 ∧ s'.stepped = s.stepped ++ [s.iteration + 1] ∧ s'.safe = true
  failed : v ≠ none →
    (s'.iteration = s.iteration ∧ s'.safe = false ∧
      (s'.stepped = s.stepped ∨ (s'.stepped = s.stepped ++ [s.iteration + 1] ∧ (∀ r, ((e r).micro 0).fetch.Ok) ∧ ∀ j, j < c.accumulation → Passed c c.accumulation j e))) ∨
    (s'.iteration = s.iteration + 1 ∧ Completed c e ∧ s'.stepped = s.stepped ++ [s.iteration + 1])
  commit : s'.committed = s.committed ∨ (s'.committed = s.committed ++ [(s.iteration + 1, s.stepped ++ [s.iteration + 1])] ∧ s'.iteration = s.iteration + 1)
  last : s'.lastState = s.lastState ∨ (s'.lastState = some (s.iteration + 1) ∧ s'.iteration = s.iteration + 1)

theorem countedStep_lock (hn0 : 0 < n) (c : Cfg) (hacc : 0 < c.accumulation) (e : Fin n → Iter) (hs : ∀ i, Symmetric (fun r => (e r).micro i)) (s : St)
    (x : Fin n → Option Nat) (hx : Const x) :
    ∃ (s' : St) (x' : Fin n → Option Nat) (v : Option Failure),
      Reaches (α := α) (fun k r => countedStep r.1 c (e r) (fam s x r) (k r)) s' x' v ∧
      (s'.safe = s.safe ∧ s'.lastState = s.lastState ∧ s'.committed = s.committed) ∧
      (v = none → Const x' ∧ StepOk c e ∧ s'.iteration = s.iteration + 1 ∧ s'.stepped = s.stepped ++ [s.iteration + 1]) ∧
      (v ≠ none → s'.iteration = s.iteration ∧
        (s'.stepped = s.stepped ∨ (s'.stepped = s.stepped ++ [s.iteration + 1] ∧ ∀ j, j < c.accumulation → Passed c c.accumulation j e))) ∧
      ((∀ r, (∀ j, ((e r).micro j).Fine) ∧ (e r).afterHook = []) → ∀ S, (∀ j, Consistent S (fun r => (e r).micro j)) → (∀ r, x r = none ∨ x r = some S) →
        v = none ∧ ∀ r, x' r = none ∨ x' r = some S) := by
  obtain ⟨s1, x1, v1, a1, a2, a3, a4, a5⟩ := trainStep_lock (α := α) hn0 c hacc e hs { s with iteration := s.iteration + 1 } x hx
  cases v1 with
  | some f =>
    refine ⟨{ s1 with iteration := s1.iteration - 1, known := s1.known || s1.mutated }, x1, some f, ?_, ⟨a2.safe, a2.lastState, a2.committed⟩,
      fun h => absurd h (by simp), fun _ => ⟨?_, a4⟩, fun h S hS hx => absurd (a5 h S hS hx).1 (by simp)⟩
    · intro k out hk
      exact a1 (fun r st failed => match failed with
        | some f => k r { st with iteration := st.iteration - 1, known := st.known || st.mutated } (some f)
        | none => k r st none) out hk
    · show s1.iteration - 1 = s.iteration
      rw [a2.iteration]; rfl
  | none =>
    obtain ⟨b1, b2, b3⟩ := a3 rfl
    refine ⟨s1, x1, none, ?_, ⟨a2.safe, a2.lastState, a2.committed⟩, fun _ => ⟨b1, b2, a2.iteration, b3⟩, fun h => absurd rfl h, a5⟩
    intro k out hk
    exact a1 (fun r st failed => match failed with
      | some f => k r { st with iteration := st.iteration - 1, known := st.known || st.mutated } (some f)
      | none => k r st none) out hk

theorem iteration_lock (hn0 : 0 < n) (c : Cfg) (hacc : 0 < c.accumulation) (e : Fin n → Iter) (hs : ∀ i, Symmetric (fun r => (e r).micro i))
    (sv : Fin n → Save) (hsh : Save.Shared sv) (s : St) (x : Fin n → Option Nat) (hx : Const x) :
    ∃ (s' : St) (x' : Fin n → Option Nat) (v : Option Failure),
      Reaches (α := α) (fun k r => iteration r.1 c (e r) (sv r) (fam s x r) (k r)) s' x' v ∧ Turn c e sv s s' v ∧ (v = none → Const x') ∧
      (∀ S, IterFine c S e sv (s.iteration + 1) → (∀ r, x r = none ∨ x r = some S) → v = none ∧ ∀ r, x' r = none ∨ x' r = some S) := by
  obtain ⟨s0, hs0⟩ : ∃ s0 : St, s0 = { s with safe := false, mutated := false } := ⟨_, rfl⟩
  obtain ⟨f1, v1, a1, a2, a3, a4, a5, a6⟩ := fetchBatch_lock (α := α) c.stream (fun r => ((e r).micro 0).fetch) s0 x
  -- the program, from the state in which the batch is fetched
  have hprog : ∀ {s' : St} {x' : Fin n → Option Nat} {v : Option Failure},
      Reaches (α := α) (fun k r => chain (fetchBatch r.1 c.stream ((e r).micro 0).fetch)
        (chain (countedStep r.1 c (e r)) (chain (reporting r.1 c (e r)) (checkpointPhase r.1 c (sv r)))) (fam s0 x r) (k r)) s' x' v →
      Reaches (α := α) (fun k r => iteration r.1 c (e r) (sv r) (fam s x r) (k r)) s' x' v := by
    intro s' x' v h k out hk
    have := h k out hk
    rw [hs0] at this
    exact this
  have hit0 : s0.iteration = s.iteration := by rw [hs0]
  have hst0 : s0.stepped = s.stepped := by rw [hs0]
  have hcm0 : s0.committed = s.committed := by rw [hs0]
  have hls0 : s0.lastState = s.lastState := by rw [hs0]
  have hsf0 : s0.safe = false := by rw [hs0]
  cases v1 with
  | some f =>
    refine ⟨f1, x, some f, hprog (Reaches.chainFail a1), ⟨fun h => absurd h (by simp), fun _ => Or.inl ⟨a2.iteration.trans hit0, a2.safe.trans hsf0, Or.inl (a3.trans hst0)⟩,
      Or.inl (a2.committed.trans hcm0), Or.inl (a2.lastState.trans hls0)⟩, fun h => absurd h (by simp), ?_⟩
    intro S hS _
    exact absurd (a6 (fun r => (hS.micro r 0).fetch) (hS.consistent 0).fetched) (by simp)
  | none =>
    obtain ⟨b1, b2⟩ := a5 rfl
    subst b1
    obtain ⟨s2, x2, v2, c1, ⟨c2, c3, c4⟩, c5, c6, c7⟩ := countedStep_lock (α := α) hn0 c hacc e hs f1 x hx
    cases v2 with
    | some f =>
      obtain ⟨d1, d2⟩ := c6 (by simp)
      refine ⟨s2, x2, some f, hprog (Reaches.chainOk a1 (Reaches.chainFail c1)), ⟨fun h => absurd h (by simp), fun _ => Or.inl ⟨d1.trans hit0, c2.trans hsf0, ?_⟩,
        Or.inl (c4.trans hcm0), Or.inl (c3.trans hls0)⟩, fun h => absurd h (by simp), ?_⟩
      · rw [← hst0, ← hit0]
        rcases d2 with d2 | d2
        · exact Or.inl d2
        · exact Or.inr ⟨d2.1, b2, d2.2⟩
      · intro S hS hxS
        exact absurd (c7 (fun r => ⟨hS.micro r, hS.afterHook r⟩) S hS.consistent hxS).1 (by simp)
    | none =>
      obtain ⟨d1, d2, d3, d4⟩ := c5 rfl
      have hdone : Completed c e := ⟨b2, d2⟩
      have hit2 : s2.iteration = s.iteration + 1 := by rw [d3, hit0]
      have hst2 : s2.stepped = s.stepped ++ [s.iteration + 1] := by rw [d4, hst0, hit0]
      obtain ⟨v3, e1, e2⟩ := reporting_neutral (α := α) c e s2 x2
      cases v3 with
      | some f =>
        refine ⟨s2, x2, some f, hprog (Reaches.chainOk a1 (Reaches.chainOk c1 (Reaches.chainFail e1))), ⟨fun h => absurd h (by simp),
          fun _ => Or.inr ⟨hit2, hdone, hst2⟩, Or.inl (c4.trans hcm0), Or.inl (c3.trans hls0)⟩, fun h => absurd h (by simp), ?_⟩
        intro S hS _
        exact absurd (e2.2 (by rw [hit2]; exact hS.report)) (by simp)
      | none =>
        have hrep : ReportOk c e (s.iteration + 1) := by rw [← hit2]; exact e2.1 rfl
        by_cases hdue : c.saveDue s2.iteration = true
        · obtain ⟨s4, v4, g1, g2⟩ := save_lock (α := α) hn0 c false sv hsh { s2 with safe := true } x2
          have hcp : Reaches (α := α) (fun k r => checkpointPhase r.1 c (sv r) (fam s2 x2 r) (k r)) s4 x2 v4 := by
            intro k out hk
            have he : (fun r : Fin n => checkpointPhase r.1 c (sv r) (fam s2 x2 r) (k r)) = fun r => save r.1 c false (sv r) (fam { s2 with safe := true } x2 r) (k r) := by
              funext r; unfold checkpointPhase whenDue; rw [if_pos (show c.saveDue (fam s2 x2 r).iteration = true from hdue)]; rfl
            show Runs (fun r : Fin n => checkpointPhase r.1 c (sv r) (fam s2 x2 r) (k r)) out
            rw [he]; exact g1 k out hk
          have hclean : (∀ r, (sv r).Clean (r.1 = 0) (false = true ∨ c.savesState s2.iteration = true)) ↔ ∀ r, (sv r).Clean (r.1 = 0) (c.savesState (s.iteration + 1) = true) := by
            rw [hit2]; simp
          have hi4 : s4.iteration = s.iteration + 1 := g2.kept.iteration.trans hit2
          have hst4 : s4.stepped = s.stepped ++ [s.iteration + 1] := g2.kept.stepped.trans hst2
          refine ⟨s4, x2, v4, hprog (Reaches.chainOk a1 (Reaches.chainOk c1 (Reaches.chainOk e1 hcp))), ⟨fun hv => ⟨⟨hdone, hrep, fun _ => hclean.1 (g2.iff.1 hv)⟩, hi4, hst4,
            g2.kept.safe⟩, fun _ => Or.inr ⟨hi4, hdone, hst4⟩, ?_, ?_⟩, fun _ => d1, ?_⟩
          · by_cases hv : v4 = none
            · by_cases hw : ¬ ((false = true ∨ c.savesState s2.iteration = true) ∧ (sv ⟨0, hn0⟩).fileExists = true)
              · refine Or.inr ⟨((g2.wrote hv).1 hw).trans ?_, hi4⟩
                show s2.committed ++ [(s2.iteration, s2.stepped)] = _
                rw [c4, hcm0, hit2, hst2]
              · exact Or.inl (((g2.wrote hv).2 hw).trans (c4.trans hcm0))
            · exact Or.inl ((g2.failed hv).1.trans (c4.trans hcm0))
          · by_cases hv : v4 = none
            · by_cases hw : false = true ∨ c.savesState s2.iteration = true
              · refine Or.inr ⟨((g2.state hv).1 hw).trans ?_, hi4⟩
                show some s2.iteration = _
                rw [hit2]
              · exact Or.inl (((g2.state hv).2 hw).trans (c3.trans hls0))
            · exact Or.inl ((g2.failed hv).2.trans (c3.trans hls0))
          · intro S hS hxS
            refine ⟨g2.iff.2 (hclean.2 (hS.save (by rw [← hit2]; exact hdue))), (c7 (fun r => ⟨hS.micro r, hS.afterHook r⟩) S hS.consistent hxS).2⟩
        · have hcp : Reaches (α := α) (fun k r => checkpointPhase r.1 c (sv r) (fam s2 x2 r) (k r)) { s2 with safe := true } x2 none := by
            intro k out hk
            have he : (fun r : Fin n => checkpointPhase r.1 c (sv r) (fam s2 x2 r) (k r)) = fun r => k r (fam { s2 with safe := true } x2 r) none := by
              funext r; unfold checkpointPhase whenDue; rw [if_neg (show ¬ c.saveDue (fam s2 x2 r).iteration = true from hdue)]; rfl
            show Runs (fun r : Fin n => checkpointPhase r.1 c (sv r) (fam s2 x2 r) (k r)) out
            rw [he]; exact hk
          refine ⟨{ s2 with safe := true }, x2, none, hprog (Reaches.chainOk a1 (Reaches.chainOk c1 (Reaches.chainOk e1 hcp))),
            ⟨fun _ => ⟨⟨hdone, hrep, fun h => absurd (by rw [hit2]; exact h) hdue⟩, hit2, hst2, rfl⟩, fun h => absurd rfl h, Or.inl (c4.trans hcm0), Or.inl (c3.trans hls0)⟩,
            fun _ => d1, fun S hS hxS => ⟨rfl, (c7 (fun r => ⟨hS.micro r, hS.afterHook r⟩) S hS.consistent hxS).2⟩⟩

end Verif.Ranks
