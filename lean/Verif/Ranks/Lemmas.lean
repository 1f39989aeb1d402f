import Verif.Ranks.Model
import Mathlib.Tactic.SplitIfs

namespace Verif.Ranks

variable {n : Nat} {α : Type}

/-- the state of process `r` when the processes agree on everything but the metric schema -/
def fam (s : St) (x : Fin n → Option Nat) (r : Fin n) : St := { s with schema := x r }

/-- whatever follows, the group gets through the operation and every process continues with this state and verdict -/
def Reaches (p : (Fin n → St → Option Failure → Prog n α) → Fin n → Prog n α) (s : St) (x : Fin n → Option Nat) (v : Option Failure) : Prop :=
  ∀ k out, Runs (fun r => k r (fam s x r) v) out → Runs (p k) out

/-- who reports what, in rank order -/
def blame (errs : Fin n → List String) : List (Nat × List String) :=
  (List.finRange n).filterMap fun r => if errs r = [] then none else some (r.1, errs r)

def verdict (phase : String) (errs : Fin n → List String) : Option Failure :=
  if ∀ r, errs r = [] then none else some ⟨phase, blame errs⟩

theorem reports_errors (errs : Fin n → List String) :
    reports (fun r => Val.error (if errs r = [] then none else some (errs r))) = blame errs := by
  unfold reports blame
  congr 1
  funext r
  by_cases h : errs r = []
  · simp [h]
  · simp [h]

theorem blame_nil (errs : Fin n → List String) : blame errs = [] ↔ ∀ r, errs r = [] := by
  unfold blame
  rw [List.filterMap_eq_nil_iff]
  constructor
  · intro h r
    have := h r (List.mem_finRange r)
    by_contra hr
    rw [if_neg hr] at this
    exact absurd this (by simp)
  · intro h r _
    rw [if_pos (h r)]

theorem blame_one (errs : Fin 1 → List String) : blame errs = if errs 0 = [] then [] else [(0, errs 0)] := by
  unfold blame
  have : List.finRange 1 = [0] := by decide
  rw [this]
  by_cases h : errs 0 = [] <;> simp [h]

theorem verdict_none (phase : String) (errs : Fin n → List String) : verdict phase errs = none ↔ ∀ r, errs r = [] := by
  unfold verdict
  split_ifs with h
  · exact ⟨fun _ => h, fun _ => rfl⟩
  · exact ⟨fun g => absurd g (by simp), fun g => absurd g h⟩

theorem forall_fin_one {P : Fin 1 → Prop} : (∀ r, P r) ↔ P 0 :=
  ⟨fun h => h 0, fun h r => by rw [Subsingleton.elim r 0]; exact h⟩

theorem verdict_one (phase : String) (errs : Fin 1 → List String) :
    verdict phase errs = if errs 0 = [] then none else some ⟨phase, [(0, errs 0)]⟩ := by
  by_cases he : errs 0 = []
  · rw [if_pos he]; exact (verdict_none phase errs).2 (forall_fin_one.2 he)
  · unfold verdict
    rw [if_neg he, if_neg (fun g => he (g 0)), blame_one, if_neg he]

/-- the state after a guarded phase -/
def afterPhase (divergent : Bool) (s : St) : Option Failure → St
  | none => s
  | some _ => { s with known := s.known || divergent }

theorem syncPhase_lock (phase : String) (errs : Fin n → List String) (d : Bool) (s : St) (x : Fin n → Option Nat) :
    Reaches (α := α) (fun k r => syncPhase r.1 phase (errs r) d (fam s x r) (k r)) (afterPhase d s (verdict phase errs)) x (verdict phase errs) := by
  intro k out h
  by_cases hn : n = 1
  · subst hn
    have he : (fun r : Fin 1 => syncPhase r.1 phase (errs r) d (fam s x r) (k r)) =
        fun r => k r (fam (afterPhase d s (verdict phase errs)) x r) (verdict phase errs) := by
      funext r
      rw [Subsingleton.elim r 0]
      unfold syncPhase
      rw [if_pos rfl, verdict_one]
      by_cases he : errs 0 = []
      · rw [if_pos he, if_pos he]; rfl
      · rw [if_neg he, if_neg he]; rfl
    show Runs (fun r : Fin 1 => syncPhase r.1 phase (errs r) d (fam s x r) (k r)) out
    rw [he]
    exact h
  · have he : (fun r : Fin n => syncPhase r.1 phase (errs r) d (fam s x r) (k r)) = fun r => .coll .reduce (.flag (decide (errs r = []))) (fun flags =>
      if ∀ r, flagOf (flags r) = true then k r (fam s x r) none
      else
        .coll .gatherObject (.error (if errs r = [] then none else some (errs r))) fun all =>
          k r { fam s x r with known := (fam s x r).known || d } (some ⟨phase, reports all⟩)) := by
      funext r
      unfold syncPhase
      rw [if_neg hn]
    show Runs (fun r : Fin n => syncPhase r.1 phase (errs r) d (fam s x r) (k r)) out
    rw [he]
    refine Runs.coll .reduce _ _ _ ?_
    by_cases ha : ∀ r, errs r = []
    · have hf : ∀ r : Fin n, flagOf (Val.flag (decide (errs r = []))) = true := fun r => by simp [flagOf, ha r]
      simp only [if_pos hf]
      unfold verdict at h
      rw [if_pos ha] at h
      exact h
    · have hf : ¬ ∀ r : Fin n, flagOf (Val.flag (decide (errs r = []))) = true := by
        intro g
        exact ha (fun r => by simpa [flagOf] using g r)
      simp only [if_neg hf]
      refine Runs.coll .gatherObject _ _ _ ?_
      simp only [reports_errors]
      unfold verdict at h
      rw [if_neg ha] at h
      exact h

theorem gatherPhase_lock (phase : String) (errs : Fin n → List String) (s : St) (x : Fin n → Option Nat) :
    Reaches (α := α) (fun k r => gatherPhase r.1 phase (errs r) (fam s x r) (k r)) s x (verdict phase errs) := by
  intro k out h
  by_cases hn : n = 1
  · subst hn
    have he : (fun r : Fin 1 => gatherPhase r.1 phase (errs r) (fam s x r) (k r)) = fun r => k r (fam s x r) (verdict phase errs) := by
      funext r
      rw [Subsingleton.elim r 0]
      unfold gatherPhase
      rw [if_pos rfl, verdict_one]
      rfl
    show Runs (fun r : Fin 1 => gatherPhase r.1 phase (errs r) (fam s x r) (k r)) out
    rw [he]
    exact h
  · have he : (fun r : Fin n => gatherPhase r.1 phase (errs r) (fam s x r) (k r)) =
        fun r => .coll .gatherObject (.error (if errs r = [] then none else some (errs r))) fun all =>
          k r (fam s x r) (if reports all = [] then none else some ⟨phase, reports all⟩) := by
      funext r
      unfold gatherPhase
      rw [if_neg hn]
    show Runs (fun r : Fin n => gatherPhase r.1 phase (errs r) (fam s x r) (k r)) out
    rw [he]
    refine Runs.coll .gatherObject _ _ _ ?_
    simp only [reports_errors]
    unfold verdict at h
    simp only [blame_nil]
    exact h

theorem runSync_lock (op : String) (main : Bool) (errs : Fin n → List String) (s : St) (x : Fin n → Option Nat) :
    Reaches (α := α) (fun k r => runSync r.1 op main (errs r) (fam s x r) (k r)) s x
      (verdict op (fun r : Fin n => if (main && decide (r.1 ≠ 0)) = true then [] else errs r)) := by
  intro k out h
  have he : (fun r : Fin n => runSync r.1 op main (errs r) (fam s x r) (k r)) = fun r => .coll .barrier .unit fun _ =>
    .coll .barrier .unit fun _ =>
      .coll .gatherObject (.error (if (if (main && decide (r.1 ≠ 0)) = true then [] else errs r) = [] then none
        else some (if (main && decide (r.1 ≠ 0)) = true then [] else errs r))) fun all =>
        k r (fam s x r) (if reports all = [] then none else some ⟨op, reports all⟩) := by
    funext r
    rfl
  show Runs (fun r : Fin n => runSync r.1 op main (errs r) (fam s x r) (k r)) out
  rw [he]
  refine Runs.coll .barrier _ _ _ (Runs.coll .barrier _ _ _ (Runs.coll .gatherObject _ _ _ ?_))
  rw [reports_errors (fun r : Fin n => if (main && decide (r.1 ≠ 0)) = true then [] else errs r)]
  unfold verdict at h
  simp only [blame_nil]
  exact h

/-- the check of one process passes -/
def Check.Ok (c : Check) : Prop := c.errors = [] ∧ c.lossValid = true ∧ c.finite = true

/-- nothing changed that the loop relies on -/
structure Frame (s s' : St) : Prop where
  iteration : s'.iteration = s.iteration
  safe : s'.safe = s.safe
  attemptFailed : s'.attemptFailed = s.attemptFailed
  lastState : s'.lastState = s.lastState
  committed : s'.committed = s.committed

theorem Frame.refl (s : St) : Frame s s := ⟨rfl, rfl, rfl, rfl, rfl⟩
theorem Frame.trans {a b c : St} (h : Frame a b) (g : Frame b c) : Frame a c :=
  ⟨g.1.trans h.1, g.2.trans h.2, g.3.trans h.3, g.4.trans h.4, g.5.trans h.5⟩

theorem afterPhase_frame (d : Bool) (s : St) (v : Option Failure) : Frame s (afterPhase d s v) := by
  cases v <;> exact ⟨rfl, rfl, rfl, rfl, rfl⟩

theorem afterPhase_stepped (d : Bool) (s : St) (v : Option Failure) : (afterPhase d s v).stepped = s.stepped := by
  cases v <;> rfl

/-- all processes hold the same schema -/
def Const (x : Fin n → Option Nat) : Prop := ∀ r q, x r = x q

theorem validityTail_lock (phase : String) (chk : Fin n → Check) (e0 : Fin n → List String) (s : St) (x : Fin n → Option Nat) :
    ∃ (s' : St) (v : Option Failure),
      Reaches (α := α) (fun k r => validityTail r.1 phase (chk r) (e0 r) (fam s x r) (k r)) s' x v ∧
      Frame s s' ∧ s'.stepped = s.stepped ∧ (v = none → s' = s) ∧
      (v = none ↔ ∀ r, e0 r = [] ∧ (chk r).lossValid = true ∧ (chk r).finite = true) := by
  obtain ⟨errs, hes⟩ : ∃ errs : Fin n → List String, errs = fun r => e0 r ++ (if (chk r).lossValid = true then [] else ["loss must be a scalar tensor"]) := ⟨_, rfl⟩
  have herr : ∀ r, errs r = [] ↔ e0 r = [] ∧ (chk r).lossValid = true := by
    intro r
    rw [hes]
    by_cases h : (chk r).lossValid = true <;> simp [h]
  have hun : ∀ (k : Fin n → St → Option Failure → Prog n α), (fun r : Fin n => validityTail r.1 phase (chk r) (e0 r) (fam s x r) (k r)) = fun r =>
      if n = 1 then
        if errs r = [] ∧ (chk r).finite = true then k r (fam s x r) none
        else k r { fam s x r with known := true } (some ⟨phase, [(r.1, if errs r = [] then ["non-finite loss, metric, or gradient norm"] else errs r)]⟩)
      else
        .coll .reduce (.flag (decide (errs r = []) && (chk r).finite)) fun flags =>
          if ∀ r, flagOf (flags r) = true then k r (fam s x r) none
          else
            .coll .gatherObject (.error (some (if errs r = [] then ["non-finite loss, metric, or gradient norm"] else errs r))) fun all =>
              k r { fam s x r with known := true } (some ⟨phase, reports all⟩) := by
    intro k
    rw [hes]
    rfl
  by_cases ha : ∀ r, errs r = [] ∧ (chk r).finite = true
  · refine ⟨s, none, ?_, Frame.refl s, rfl, fun _ => rfl, ⟨fun _ r => ⟨((herr r).1 (ha r).1).1, ((herr r).1 (ha r).1).2, (ha r).2⟩, fun _ => rfl⟩⟩
    intro k out h
    show Runs (fun r : Fin n => validityTail r.1 phase (chk r) (e0 r) (fam s x r) (k r)) out
    rw [hun]
    by_cases hn : n = 1
    · have : (fun r : Fin n => if n = 1 then
          if errs r = [] ∧ (chk r).finite = true then k r (fam s x r) none
          else k r { fam s x r with known := true } (some ⟨phase, [(r.1, if errs r = [] then ["non-finite loss, metric, or gradient norm"] else errs r)]⟩)
        else
          .coll .reduce (.flag (decide (errs r = []) && (chk r).finite)) fun flags =>
            if ∀ r, flagOf (flags r) = true then k r (fam s x r) none
            else
              .coll .gatherObject (.error (some (if errs r = [] then ["non-finite loss, metric, or gradient norm"] else errs r))) fun all =>
                k r { fam s x r with known := true } (some ⟨phase, reports all⟩)) = fun r => k r (fam s x r) none := by
        funext r
        rw [if_pos hn, if_pos (ha r)]
      rw [this]
      exact h
    · simp only [if_neg hn]
      refine Runs.coll .reduce _ _ _ ?_
      have hf : ∀ r : Fin n, flagOf (Val.flag (decide (errs r = []) && (chk r).finite)) = true := fun r => by simp [flagOf, ha r]
      simp only [if_pos hf]
      exact h
  · refine ⟨{ s with known := true }, some ⟨phase, reports (fun r : Fin n => Val.error (some (if errs r = [] then ["non-finite loss, metric, or gradient norm"] else errs r)))⟩,
      ?_, ⟨rfl, rfl, rfl, rfl, rfl⟩, rfl, fun h => absurd h (by simp), ⟨fun h => absurd h (by simp), fun h => absurd (fun r => ⟨(herr r).2 ⟨(h r).1, (h r).2.1⟩, (h r).2.2⟩) ha⟩⟩
    intro k out h
    show Runs (fun r : Fin n => validityTail r.1 phase (chk r) (e0 r) (fam s x r) (k r)) out
    rw [hun]
    by_cases hn : n = 1
    · subst hn
      have : (fun r : Fin 1 => if 1 = 1 then
          if errs r = [] ∧ (chk r).finite = true then k r (fam s x r) none
          else k r { fam s x r with known := true } (some ⟨phase, [(r.1, if errs r = [] then ["non-finite loss, metric, or gradient norm"] else errs r)]⟩)
        else
          .coll .reduce (.flag (decide (errs r = []) && (chk r).finite)) fun flags =>
            if ∀ r, flagOf (flags r) = true then k r (fam s x r) none
            else
              .coll .gatherObject (.error (some (if errs r = [] then ["non-finite loss, metric, or gradient norm"] else errs r))) fun all =>
                k r { fam s x r with known := true } (some ⟨phase, reports all⟩)) =
          fun r => k r (fam { s with known := true } x r) (some ⟨phase, reports (fun r : Fin 1 => Val.error (some (if errs r = [] then ["non-finite loss, metric, or gradient norm"] else errs r)))⟩) := by
        funext r
        rw [Subsingleton.elim r 0]
        rw [forall_fin_one] at ha
        rw [if_pos rfl, if_neg ha]
        rfl
      rw [this]
      exact h
    · simp only [if_neg hn]
      refine Runs.coll .reduce _ _ _ ?_
      have hf : ¬ ∀ r : Fin n, flagOf (Val.flag (decide (errs r = []) && (chk r).finite)) = true := by
        intro g
        exact ha (fun r => by simpa [flagOf] using g r)
      simp only [if_neg hf]
      refine Runs.coll .gatherObject _ _ _ ?_
      exact h

/-- the check before or after backward -/
theorem validity_lock (hn0 : 0 < n) (phase : String) (chk : Fin n → Check) (s : St) (x : Fin n → Option Nat) (hx : Const x) :
    ∃ (s' : St) (x' : Fin n → Option Nat) (v : Option Failure),
      Reaches (α := α) (fun k r => validity r.1 phase (chk r) (fam s x r) (k r)) s' x' v ∧
      Frame s s' ∧ s'.stepped = s.stepped ∧ (v = none → s' = s ∧ Const x' ∧ (∀ r, (chk r).Ok) ∧ ∀ r, x' r = some (chk r).schema) ∧
      ((∀ r, (chk r).Ok) → (∀ r q, (chk r).schema = (chk q).schema) → (∀ r y, x r = some y → (chk r).schema = y) → v = none) := by
  cases hx0 : x ⟨0, hn0⟩ with
  | some y =>
    have hxy : ∀ r, x r = some y := fun r => (hx r ⟨0, hn0⟩).trans hx0
    obtain ⟨s', v, h1, h2, h3, h4, h5⟩ := validityTail_lock (α := α) phase chk
      (fun r => (chk r).errors ++ (if (chk r).schema = y then [] else ["metric schema changed"])) s x
    refine ⟨s', x, v, ?_, h2, h3, ?_, ?_⟩
    · intro k out h
      have := h1 k out h
      have he : (fun r : Fin n => validity r.1 phase (chk r) (fam s x r) (k r)) = fun r : Fin n => validityTail r.1 phase (chk r)
          ((chk r).errors ++ (if (chk r).schema = y then [] else ["metric schema changed"])) (fam s x r) (k r) := by
        funext r
        unfold validity
        have : (fam s x r).schema = some y := hxy r
        rw [this]
      show Runs (fun r : Fin n => validity r.1 phase (chk r) (fam s x r) (k r)) out
      rw [he]
      exact this
    · intro hv
      have hall := h5.1 hv
      have hs : ∀ r, (chk r).schema = y := by
        intro r
        have := (hall r).1
        by_contra hc
        rw [if_neg hc] at this
        simp at this
      refine ⟨h4 hv, hx, fun r => ⟨(List.append_eq_nil_iff.1 (hall r).1).1, (hall r).2.1, (hall r).2.2⟩, fun r => by rw [hxy r, hs r]⟩
    · intro ho _ hs
      refine h5.2 (fun r => ⟨?_, (ho r).2.1, (ho r).2.2⟩)
      rw [if_pos (hs r y (hxy r)), (ho r).1]
      rfl
  | none =>
    have hxn : ∀ r, x r = none := fun r => (hx r ⟨0, hn0⟩).trans hx0
    by_cases hn : n = 1
    · subst hn
      obtain ⟨s', v, h1, h2, h3, h4, h5⟩ := validityTail_lock (α := α) phase chk (fun r => (chk r).errors) s (fun r => some (chk r).schema)
      refine ⟨s', fun r => some (chk r).schema, v, ?_, h2, h3, ?_, fun ho _ _ => h5.2 ho⟩
      · intro k out h
        have := h1 k out h
        have he : (fun r : Fin 1 => validity r.1 phase (chk r) (fam s x r) (k r)) = fun r : Fin 1 => validityTail r.1 phase (chk r)
            (chk r).errors (fam s (fun r => some (chk r).schema) r) (k r) := by
          funext r
          unfold validity
          have : (fam s x r).schema = none := hxn r
          rw [this]
          simp only [if_true]
          rfl
        show Runs (fun r : Fin 1 => validity r.1 phase (chk r) (fam s x r) (k r)) out
        rw [he]
        exact this
      · exact fun hv => ⟨h4 hv, fun r q => by rw [Subsingleton.elim r q], h5.1 hv, fun r => rfl⟩
    · obtain ⟨extra, hex⟩ : ∃ extra : List String, extra = if ∀ r q : Fin n, (chk r).schema = (chk q).schema then [] else ["metric schema differs across ranks"] := ⟨_, rfl⟩
      obtain ⟨s', v, h1, h2, h3, h4, h5⟩ := validityTail_lock (α := α) phase chk (fun r => (chk r).errors ++ extra) s (fun r => some (chk r).schema)
      refine ⟨s', fun r => some (chk r).schema, v, ?_, h2, h3, ?_, ?_⟩
      · intro k out h
        have := h1 k out h
        have he : (fun r : Fin n => validity r.1 phase (chk r) (fam s x r) (k r)) = fun r : Fin n => .coll .gatherObject (.schema (chk r).schema) fun all =>
            validityTail r.1 phase (chk r) ((chk r).errors ++ (if ∀ r q, all r = all q then [] else ["metric schema differs across ranks"]))
              (fam s (fun r => some (chk r).schema) r) (k r) := by
          funext r
          unfold validity
          have : (fam s x r).schema = none := hxn r
          rw [this]
          simp only [if_neg hn]
          rfl
        show Runs (fun r : Fin n => validity r.1 phase (chk r) (fam s x r) (k r)) out
        rw [he]
        refine Runs.coll .gatherObject _ _ _ ?_
        have hc : (if ∀ r q : Fin n, Val.schema (chk r).schema = Val.schema (chk q).schema then [] else ["metric schema differs across ranks"]) = extra := by
          rw [hex]
          simp
        simp only [hc]
        exact this
      · intro hv
        have hall := h5.1 hv
        have hs : ∀ r q : Fin n, (chk r).schema = (chk q).schema := by
          by_contra hc
          rw [if_neg hc] at hex
          have := (hall ⟨0, hn0⟩).1
          rw [hex] at this
          simp at this
        exact ⟨h4 hv, fun r q => by dsimp only; rw [hs r q], fun r => ⟨(List.append_eq_nil_iff.1 (hall r).1).1, (hall r).2.1, (hall r).2.2⟩, fun r => rfl⟩
      · intro ho hs _
        rw [if_pos hs] at hex
        exact h5.2 (fun r => ⟨by rw [hex, List.append_nil]; exact (ho r).1, (ho r).2.1, (ho r).2.2⟩)

end Verif.Ranks
