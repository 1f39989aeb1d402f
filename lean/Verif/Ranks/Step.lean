import Verif.Ranks.Lemmas

namespace Verif.Ranks

variable {n : Nat} {α : Type}

/-- this process got a batch -/
def Fetch.Ok (f : Fetch) : Prop := ∃ d, f = .batch d

def Fetch.errors : Fetch → List String
  | .raised e => e
  | _ => []

def Fetch.available : Fetch → Bool
  | .batch _ => true
  | _ => false

def Fetch.descriptor : Fetch → Nat
  | .batch d => d
  | _ => 0

theorem Fetch.available_iff (f : Fetch) : f.available = true ↔ f.Ok := by
  cases f <;> simp [Fetch.available, Fetch.Ok]

theorem Fetch.Ok.errors {f : Fetch} (h : f.Ok) : f.errors = [] := by
  obtain ⟨d, rfl⟩ := h; rfl

/-- base.py:4260-4316, the part of `_fetch_batch` after the errors are exchanged -/
def fetchRest (rank : Nat) (stream : Bool) (f : Fetch) (st : St) (k : St → Option Failure → Prog n α) : Prog n α :=
  let next : Bool → Prog n α := fun allAvailable =>
    if allAvailable = false then k st (some ⟨"training data availability", []⟩)
    else if stream = false then k st none
    else if n = 1 then k st none
    else
      .coll .gatherObject (.descriptor f.descriptor) fun all =>
        if ∀ r q, all r = all q then k st none
        else k { st with known := true } (some ⟨"training stream token differs across ranks", []⟩)
  if n = 1 then next f.available
  else .coll .gather (.flag f.available) fun flags => next (decide (∀ r, flagOf (flags r) = true))

theorem fetchBatch_eq (rank : Nat) (stream : Bool) (f : Fetch) (st : St) (k : St → Option Failure → Prog n α) :
    fetchBatch rank stream f st k = gatherPhase rank "training batch fetch" f.errors st fun st failed =>
      match failed with
      | some e => k { st with known := true } (some e)
      | none => fetchRest rank stream f st k := by
  cases f <;> rfl

theorem fetchRest_lock (stream : Bool) (f : Fin n → Fetch) (s : St) (x : Fin n → Option Nat) :
    ∃ (s' : St) (v : Option Failure),
      Reaches (α := α) (fun k r => fetchRest r.1 stream (f r) (fam s x r) (k r)) s' x v ∧
      Frame s s' ∧ s'.stepped = s.stepped ∧ s'.mutated = s.mutated ∧ (v = none → s' = s ∧ ∀ r, (f r).Ok) ∧
      ((∀ r, (f r).Ok) → (∀ r q, (f r).descriptor = (f q).descriptor) → v = none) := by
  by_cases ha : ∀ r, (f r).available = true
  · have hok : ∀ r, (f r).Ok := fun r => (f r).available_iff.1 (ha r)
    -- everyone has a batch
    have hstep : ∀ (k : Fin n → St → Option Failure → Prog n α) out,
        Runs (fun r : Fin n => if stream = false then k r (fam s x r) none else if n = 1 then k r (fam s x r) none
          else .coll .gatherObject (.descriptor (f r).descriptor) fun all =>
            if ∀ r q, all r = all q then k r (fam s x r) none
            else k r { fam s x r with known := true } (some ⟨"training stream token differs across ranks", []⟩)) out →
        Runs (fun r : Fin n => fetchRest r.1 stream (f r) (fam s x r) (k r)) out := by
      intro k out h
      by_cases hn : n = 1
      · have he : (fun r : Fin n => fetchRest r.1 stream (f r) (fam s x r) (k r)) = fun r : Fin n => if stream = false then k r (fam s x r) none else if n = 1 then k r (fam s x r) none
          else .coll .gatherObject (.descriptor (f r).descriptor) fun all =>
            if ∀ r q, all r = all q then k r (fam s x r) none
            else k r { fam s x r with known := true } (some ⟨"training stream token differs across ranks", []⟩) := by
          funext r
          unfold fetchRest
          simp only [if_pos hn, ha r]
          rfl
        rw [he]; exact h
      · have he : (fun r : Fin n => fetchRest r.1 stream (f r) (fam s x r) (k r)) = fun r : Fin n => .coll .gather (.flag (f r).available) fun flags =>
          if decide (∀ r, flagOf (flags r) = true) = false then k r (fam s x r) (some ⟨"training data availability", []⟩)
          else if stream = false then k r (fam s x r) none else if n = 1 then k r (fam s x r) none
          else .coll .gatherObject (.descriptor (f r).descriptor) fun all =>
            if ∀ r q, all r = all q then k r (fam s x r) none
            else k r { fam s x r with known := true } (some ⟨"training stream token differs across ranks", []⟩) := by
          funext r
          unfold fetchRest
          simp only [if_neg hn]
        rw [he]
        refine Runs.coll .gather _ _ _ ?_
        have hf : decide (∀ r : Fin n, flagOf (Val.flag (f r).available) = true) = true := by simp [flagOf, ha]
        simp only [hf]
        exact h
    by_cases hsp : stream = false ∨ n = 1
    · refine ⟨s, none, ?_, Frame.refl s, rfl, rfl, fun _ => ⟨rfl, hok⟩, fun _ _ => rfl⟩
      intro k out h
      refine hstep k out ?_
      rcases hsp with hsp | hsp
      · simp only [if_pos hsp]; exact h
      · by_cases hs : stream = false
        · simp only [if_pos hs]; exact h
        · simp only [if_neg hs, if_pos hsp]; exact h
    · rw [not_or] at hsp
      by_cases hd : ∀ r q : Fin n, (f r).descriptor = (f q).descriptor
      · refine ⟨s, none, ?_, Frame.refl s, rfl, rfl, fun _ => ⟨rfl, hok⟩, fun _ _ => rfl⟩
        intro k out h
        refine hstep k out ?_
        simp only [if_neg hsp.1, if_neg hsp.2]
        refine Runs.coll .gatherObject _ _ _ ?_
        have hc : ∀ r q : Fin n, Val.descriptor (f r).descriptor = Val.descriptor (f q).descriptor := fun r q => by rw [hd r q]
        simp only [if_pos hc]
        exact h
      · refine ⟨{ s with known := true }, some ⟨"training stream token differs across ranks", []⟩, ?_, ⟨rfl, rfl, rfl, rfl, rfl⟩, rfl, rfl,
          fun h => absurd h (by simp), fun _ h => absurd h hd⟩
        intro k out h
        refine hstep k out ?_
        simp only [if_neg hsp.1, if_neg hsp.2]
        refine Runs.coll .gatherObject _ _ _ ?_
        have hc : ¬ ∀ r q : Fin n, Val.descriptor (f r).descriptor = Val.descriptor (f q).descriptor := by
          intro g
          exact hd (fun r q => by have := g r q; injection this)
        simp only [if_neg hc]
        exact h
  · refine ⟨s, some ⟨"training data availability", []⟩, ?_, Frame.refl s, rfl, rfl, fun h => absurd h (by simp),
      fun h => absurd (fun r => (f r).available_iff.2 (h r)) ha⟩
    intro k out h
    by_cases hn : n = 1
    · have he : (fun r : Fin n => fetchRest r.1 stream (f r) (fam s x r) (k r)) = fun r => k r (fam s x r) (some ⟨"training data availability", []⟩) := by
        funext r
        subst hn
        have hr : (f r).available = false := by
          have : ¬ (f r).available = true := fun g => ha (fun q => by rw [Subsingleton.elim q r]; exact g)
          simpa using this
        unfold fetchRest
        simp only [if_true, hr]
      show Runs (fun r : Fin n => fetchRest r.1 stream (f r) (fam s x r) (k r)) out
      rw [he]; exact h
    · have he : (fun r : Fin n => fetchRest r.1 stream (f r) (fam s x r) (k r)) = fun r : Fin n => .coll .gather (.flag (f r).available) fun flags =>
          if decide (∀ r, flagOf (flags r) = true) = false then k r (fam s x r) (some ⟨"training data availability", []⟩)
          else if stream = false then k r (fam s x r) none else if n = 1 then k r (fam s x r) none
          else .coll .gatherObject (.descriptor (f r).descriptor) fun all =>
            if ∀ r q, all r = all q then k r (fam s x r) none
            else k r { fam s x r with known := true } (some ⟨"training stream token differs across ranks", []⟩) := by
          funext r
          unfold fetchRest
          simp only [if_neg hn]
      show Runs (fun r : Fin n => fetchRest r.1 stream (f r) (fam s x r) (k r)) out
      rw [he]
      refine Runs.coll .gather _ _ _ ?_
      have hf : decide (∀ r : Fin n, flagOf (Val.flag (f r).available) = true) = false := by
        rw [decide_eq_false_iff_not]
        exact ha
      simp only [hf]
      exact h

theorem fetchBatch_lock (stream : Bool) (f : Fin n → Fetch) (s : St) (x : Fin n → Option Nat) :
    ∃ (s' : St) (v : Option Failure),
      Reaches (α := α) (fun k r => fetchBatch r.1 stream (f r) (fam s x r) (k r)) s' x v ∧
      Frame s s' ∧ s'.stepped = s.stepped ∧ s'.mutated = s.mutated ∧ (v = none → s' = s ∧ ∀ r, (f r).Ok) ∧
      ((∀ r, (f r).Ok) → (∀ r q, (f r).descriptor = (f q).descriptor) → v = none) := by
  have hg := gatherPhase_lock (α := α) "training batch fetch" (fun r => (f r).errors) s x
  cases hv : verdict "training batch fetch" (fun r : Fin n => (f r).errors) with
  | some e =>
    rw [hv] at hg
    refine ⟨{ s with known := true }, some e, ?_, ⟨rfl, rfl, rfl, rfl, rfl⟩, rfl, rfl, fun h => absurd h (by simp), fun h _ => ?_⟩
    · intro k out h
      simp only [fetchBatch_eq]
      exact hg (fun r st failed => match failed with
        | some e => k r { st with known := true } (some e)
        | none => fetchRest r.1 stream (f r) st (k r)) out h
    · have := (verdict_none "training batch fetch" (fun r : Fin n => (f r).errors)).2 (fun r => (h r).errors)
      rw [hv] at this
      exact absurd this (by simp)
  | none =>
    rw [hv] at hg
    obtain ⟨s', v, h1, h2⟩ := fetchRest_lock (α := α) stream f s x
    refine ⟨s', v, ?_, h2⟩
    intro k out h
    simp only [fetchBatch_eq]
    exact hg (fun r st failed => match failed with
        | some e => k r { st with known := true } (some e)
        | none => fetchRest r.1 stream (f r) st (k r)) out (h1 k out h)

/-- commit preparation, when the processes either all fail to prepare or none does -/
theorem prepareCommit_lock (c : Cfg) (m : Fin n → Micro) (hsym : ∀ r q, (m r).prepare = [] ↔ (m q).prepare = []) (s : St) (x : Fin n → Option Nat) :
    ∃ caught : Fin n → Option (List String),
      ((∀ r, caught r = none) ∨ (∀ r, ∃ e, caught r = some e ∧ e ≠ [])) ∧
      ((∀ r, caught r = none) → 0 < n → c.resumable = true → ∀ r, (m r).prepare = []) ∧
      ((∀ r, (m r).prepare = []) → (∀ r q, (m r).descriptor = (m q).descriptor) → ∀ r, caught r = none) ∧
      ∀ (k : Fin n → St → Option (List String) → Prog n α) out, Runs (fun r => k r (fam s x r) (caught r)) out →
        Runs (fun r => prepareCommit c (m r) (fam s x r) (k r)) out := by
  by_cases hc : c.resumable = false
  · refine ⟨fun _ => none, Or.inl (fun _ => rfl), fun _ _ h => by rw [hc] at h; simp at h, fun _ _ _ => rfl, ?_⟩
    intro k out h
    have he : (fun r : Fin n => prepareCommit c (m r) (fam s x r) (k r)) = fun r => k r (fam s x r) none := by
      funext r; unfold prepareCommit; rw [if_pos hc]
    rw [he]; exact h
  · by_cases hp : ∀ r, (m r).prepare = []
    · by_cases hn : n = 1
      · refine ⟨fun _ => none, Or.inl (fun _ => rfl), fun _ _ _ => hp, fun _ _ _ => rfl, ?_⟩
        intro k out h
        have he : (fun r : Fin n => prepareCommit c (m r) (fam s x r) (k r)) = fun r => k r (fam s x r) none := by
          funext r; unfold prepareCommit; rw [if_neg hc, if_neg (by simp [hp r]), if_pos hn]
        rw [he]; exact h
      · have he : ∀ k : Fin n → St → Option (List String) → Prog n α, (fun r : Fin n => prepareCommit c (m r) (fam s x r) (k r)) = fun r =>
            .coll .gatherObject (.descriptor (m r).descriptor) fun all =>
              if ∀ r q, all r = all q then k r (fam s x r) none else k r (fam s x r) (some ["stream commit digest differs across ranks"]) := by
          intro k; funext r; unfold prepareCommit; rw [if_neg hc, if_neg (by simp [hp r]), if_neg hn]
        by_cases hd : ∀ r q : Fin n, (m r).descriptor = (m q).descriptor
        · refine ⟨fun _ => none, Or.inl (fun _ => rfl), fun _ _ _ => hp, fun _ _ _ => rfl, ?_⟩
          intro k out h
          rw [he]
          refine Runs.coll .gatherObject _ _ _ ?_
          have hcc : ∀ r q : Fin n, Val.descriptor (m r).descriptor = Val.descriptor (m q).descriptor := fun r q => by rw [hd r q]
          simp only [if_pos hcc]
          exact h
        · refine ⟨fun _ => some ["stream commit digest differs across ranks"], Or.inr (fun _ => ⟨_, rfl, by simp⟩), fun _ _ _ => hp, fun _ h => absurd h hd, ?_⟩
          intro k out h
          rw [he]
          refine Runs.coll .gatherObject _ _ _ ?_
          have hcc : ¬ ∀ r q : Fin n, Val.descriptor (m r).descriptor = Val.descriptor (m q).descriptor := by
            intro g
            exact hd (fun r q => by have := g r q; injection this)
          simp only [if_neg hcc]
          exact h
    · have hpr : ∀ r, (m r).prepare ≠ [] := by
        intro r hr
        exact hp (fun q => (hsym r q).1 hr)
      refine ⟨fun r => some (m r).prepare, Or.inr (fun r => ⟨_, rfl, hpr r⟩), fun h h0 => absurd (h ⟨0, h0⟩) (by simp), fun h => absurd h hp, ?_⟩
      intro k out h
      have he : (fun r : Fin n => prepareCommit c (m r) (fam s x r) (k r)) = fun r => k r (fam s x r) (some (m r).prepare) := by
        funext r; unfold prepareCommit; rw [if_neg hc, if_pos (hpr r)]
      rw [he]; exact h

theorem finishMicro_failed (sync : Bool) (m : Fin n → Micro) (caught : Fin n → Option (List String)) (hn0 : 0 < n)
    (hcaught : ∀ r, ∃ e, caught r = some e ∧ e ≠ []) (s : St) (x : Fin n → Option Nat) :
    ∃ (s' : St) (f : Failure),
      Reaches (α := α) (fun k r => finishMicro r.1 sync (m r) (caught r) (fam s x r) (k r)) s' x (some f) ∧ Frame s s' ∧ s'.stepped = s.stepped := by
  obtain ⟨errs, herrs⟩ : ∃ errs : Fin n → List String, ∀ r, caught r = some (errs r) ∧ errs r ≠ [] :=
    ⟨fun r => (hcaught r).choose, fun r => (hcaught r).choose_spec⟩
  have hl := syncPhase_lock (α := α) "optimizer mutation" errs true s x
  cases hv : verdict "optimizer mutation" errs with
  | none => exact absurd ((verdict_none _ errs).1 hv ⟨0, hn0⟩) (herrs ⟨0, hn0⟩).2
  | some f =>
    rw [hv] at hl
    refine ⟨_, f, ?_, afterPhase_frame true s (some f), rfl⟩
    intro k out h
    have he : (fun r : Fin n => finishMicro r.1 sync (m r) (caught r) (fam s x r) (k r)) =
        fun r => syncPhase r.1 "optimizer mutation" (errs r) true (fam s x r) (k r) := by
      funext r; unfold finishMicro; rw [(herrs r).1]
    show Runs (fun r : Fin n => finishMicro r.1 sync (m r) (caught r) (fam s x r) (k r)) out
    rw [he]
    exact hl k out h

theorem finishMicro_ran (sync : Bool) (m : Fin n → Micro) (s : St) (x : Fin n → Option Nat) :
    ∃ (s' : St) (v : Option Failure),
      Reaches (α := α) (fun k r => finishMicro r.1 sync (m r) none (fam s x r) (k r)) s' x v ∧ Frame s s' ∧
      s'.stepped = (if sync = true then s.stepped ++ [s.iteration] else s.stepped) ∧ (v = none ↔ ∀ r, (m r).optimizer = []) := by
  have hl := syncPhase_lock (α := α) "optimizer mutation" (fun r => (m r).optimizer) true
    { s with mutated := true, stepped := if sync = true then s.stepped ++ [s.iteration] else s.stepped } x
  refine ⟨afterPhase true { s with mutated := true, stepped := if sync = true then s.stepped ++ [s.iteration] else s.stepped }
    (verdict "optimizer mutation" (fun r => (m r).optimizer)), verdict "optimizer mutation" (fun r => (m r).optimizer), ?_, ?_, ?_,
    verdict_none "optimizer mutation" (fun r => (m r).optimizer)⟩
  · intro k out h
    exact hl k out h
  · have h2 := afterPhase_frame true { s with mutated := true, stepped := if sync = true then s.stepped ++ [s.iteration] else s.stepped }
      (verdict "optimizer mutation" (fun r => (m r).optimizer))
    exact ⟨h2.iteration, h2.safe, h2.attemptFailed, h2.lastState, h2.committed⟩
  · rw [afterPhase_stepped]

/-- everything before the optimizers works on this process -/
structure Micro.Ready (c : Cfg) (first sync : Bool) (m : Micro) : Prop where
  fetch : first = false → m.fetch.Ok
  hook : m.hook = []
  before : m.before.Ok
  clip : sync = true → m.clip = []
  after : sync = true → c.scaled = false → m.after.Ok
  prepare : sync = true → c.resumable = true → m.prepare = []

/-- the processes see the same data and metrics -/
structure Consistent (S : Nat) (m : Fin n → Micro) : Prop where
  before : ∀ r, (m r).before.schema = S
  after : ∀ r, (m r).after.schema = S
  fetched : ∀ r q, (m r).fetch.descriptor = (m q).fetch.descriptor
  prepared : ∀ r q, (m r).descriptor = (m q).descriptor

/-- failures that the code does not exchange before its next collective are shared by all processes -/
structure Symmetric (m : Fin n → Micro) : Prop where
  clip : ∀ r q, (m r).clip = [] ↔ (m q).clip = []
  prepare : ∀ r q, (m r).prepare = [] ↔ (m q).prepare = []

theorem mutateTail_lock (hn0 : 0 < n) (c : Cfg) (m : Fin n → Micro) (hs : Symmetric m) (s : St) (x : Fin n → Option Nat) :
    ∃ (s' : St) (v : Option Failure),
      Reaches (α := α) (fun k r => prepareCommit c (m r) (fam s x r) fun st e => finishMicro r.1 true (m r) e st (k r)) s' x v ∧
      Frame s s' ∧
      (v = none → (∀ r, (m r).optimizer = []) ∧ s'.stepped = s.stepped ++ [s.iteration]) ∧
      (s'.stepped = s.stepped ∨ (s'.stepped = s.stepped ++ [s.iteration] ∧ (c.resumable = true → ∀ r, (m r).prepare = []))) ∧
      ((∀ r, (m r).prepare = []) → (∀ r q, (m r).descriptor = (m q).descriptor) → (∀ r, (m r).optimizer = []) → v = none) := by
  obtain ⟨caught, h1, h2, h3, h4⟩ := prepareCommit_lock (α := α) c m hs.prepare s x
  rcases h1 with h1 | h1
  · obtain ⟨s', v, g1, g2, g3, g4⟩ := finishMicro_ran (α := α) true m s x
    refine ⟨s', v, ?_, g2, fun hv => ⟨g4.1 hv, g3⟩, Or.inr ⟨g3, h2 h1 hn0⟩, fun _ _ ho => g4.2 ho⟩
    intro k out h
    refine h4 (fun r st e => finishMicro r.1 true (m r) e st (k r)) out ?_
    simp only [h1]
    exact g1 k out h
  · obtain ⟨s', f, g1, g2, g3⟩ := finishMicro_failed (α := α) true m caught hn0 h1 s x
    refine ⟨s', some f, ?_, g2, fun hv => absurd hv (by simp), Or.inl g3, fun hp hd _ => ?_⟩
    · intro k out h
      exact h4 (fun r st e => finishMicro r.1 true (m r) e st (k r)) out (g1 k out h)
    · obtain ⟨e, he, -⟩ := h1 ⟨0, hn0⟩
      rw [h3 hp hd ⟨0, hn0⟩] at he
      exact absurd he (by simp)

/-- backward, check, commit preparation and optimizers -/
theorem backward_lock (hn0 : 0 < n) (c : Cfg) (sync : Bool) (m : Fin n → Micro) (hs : Symmetric m) (s : St) (x : Fin n → Option Nat) (hx : Const x) :
    ∃ (s' : St) (x' : Fin n → Option Nat) (v : Option Failure),
      Reaches (α := α) (fun k r => backwardAndMutate r.1 c sync (m r) (fam s x r) (k r)) s' x' v ∧
      Frame s s' ∧
      (v = none → Const x' ∧ (∀ r, (m r).optimizer = []) ∧ s'.stepped = (if sync = true then s.stepped ++ [s.iteration] else s.stepped) ∧
        (sync = true → ∀ r, (m r).clip = [] ∧ (c.scaled = false → (m r).after.Ok) ∧ (c.resumable = true → (m r).prepare = []))) ∧
      (s'.stepped = s.stepped ∨ (sync = true ∧ s'.stepped = s.stepped ++ [s.iteration] ∧
        ∀ r, (m r).clip = [] ∧ (c.scaled = false → (m r).after.Ok) ∧ (c.resumable = true → (m r).prepare = []))) ∧
      ((∀ r, (m r).clip = [] ∧ (m r).prepare = [] ∧ (m r).after.Ok ∧ (m r).optimizer = []) → (∀ S, Consistent S m → (∀ r, x r = none ∨ x r = some S) → v = none ∧ ∀ r, x' r = none ∨ x' r = some S)) := by
  -- the collective inside backward
  have hb : ∀ (body : Fin n → Prog n α) out, Runs body out →
      Runs (fun r => if (sync && decide (n ≠ 1)) = true then Prog.coll .backward .unit (fun _ => body r) else body r) out := by
    intro body out h
    by_cases hc : (sync && decide (n ≠ 1)) = true
    · simp only [if_pos hc]
      exact Runs.coll .backward (fun _ => .unit) (fun r _ => body r) out h
    · simp only [if_neg hc]; exact h
  by_cases hsy : sync = true
  swap
  · have hsf : sync = false := by simpa using hsy
    subst hsf
    obtain ⟨s', v, g1, g2, g3, g4⟩ := finishMicro_ran (α := α) false m s x
    refine ⟨s', x, v, ?_, g2, fun hv => ⟨hx, g4.1 hv, g3, fun h => absurd h (by simp)⟩, Or.inl g3,
      fun h _ _ hxS => ⟨g4.2 (fun r => (h r).2.2.2), hxS⟩⟩
    intro k out h
    exact hb _ out (g1 k out h)
  · subst hsy
    by_cases hcl : ∀ r, (m r).clip = []
    swap
    · have hcr : ∀ r, (m r).clip ≠ [] := fun r hr => hcl (fun q => (hs.clip r q).1 hr)
      obtain ⟨s', f, g1, g2, g3⟩ := finishMicro_failed (α := α) true m (fun r => some (m r).clip) hn0 (fun r => ⟨_, rfl, hcr r⟩) s x
      refine ⟨s', x, some f, ?_, g2, fun hv => absurd hv (by simp), Or.inl g3, fun h => absurd (fun r => (h r).1) hcl⟩
      intro k out h
      refine hb _ out ?_
      have he : (fun r : Fin n => if true = false then finishMicro r.1 false (m r) none (fam s x r) (k r)
          else if (m r).clip ≠ [] then finishMicro r.1 true (m r) (some (m r).clip) (fam s x r) (k r)
          else if c.scaled = true then prepareCommit c (m r) (fam s x r) fun st e => finishMicro r.1 true (m r) e st (k r)
          else
            validity r.1 "after backward" (m r).after (fam s x r) fun st failed =>
              match failed with
              | some _ => finishMicro r.1 true (m r) (some ["step validation failed"]) st (k r)
              | none => prepareCommit c (m r) st fun st e => finishMicro r.1 true (m r) e st (k r)) =
          fun r => finishMicro r.1 true (m r) (some (m r).clip) (fam s x r) (k r) := by
        funext r
        rw [if_neg (by simp), if_pos (hcr r)]
      exact Eq.mpr (congrArg (fun p => Runs p out) he) (g1 k out h)
    · by_cases hsc : c.scaled = true
      · obtain ⟨s', v, g1, g2, g3, g4, g5⟩ := mutateTail_lock (α := α) hn0 c m hs s x
        refine ⟨s', x, v, ?_, g2, fun hv => ⟨hx, (g3 hv).1, (g3 hv).2, fun _ r => ⟨hcl r, fun h => by rw [hsc] at h; simp at h, ?_⟩⟩, ?_, ?_⟩
        · intro k out h
          refine hb _ out ?_
          have he : (fun r : Fin n => if true = false then finishMicro r.1 false (m r) none (fam s x r) (k r)
              else if (m r).clip ≠ [] then finishMicro r.1 true (m r) (some (m r).clip) (fam s x r) (k r)
              else if c.scaled = true then prepareCommit c (m r) (fam s x r) fun st e => finishMicro r.1 true (m r) e st (k r)
              else
                validity r.1 "after backward" (m r).after (fam s x r) fun st failed =>
                  match failed with
                  | some _ => finishMicro r.1 true (m r) (some ["step validation failed"]) st (k r)
                  | none => prepareCommit c (m r) st fun st e => finishMicro r.1 true (m r) e st (k r)) =
              fun r => prepareCommit c (m r) (fam s x r) fun st e => finishMicro r.1 true (m r) e st (k r) := by
            funext r
            rw [if_neg (by simp), if_neg (by simp [hcl r]), if_pos hsc]
          exact Eq.mpr (congrArg (fun p => Runs p out) he) (g1 k out h)
        · intro hre
          rcases g4 with g4 | ⟨-, g4⟩
          · have := (g3 hv).2
            rw [g4] at this
            exact absurd this (by simp)
          · exact g4 hre r
        · rcases g4 with g4 | ⟨g4, g4'⟩
          · exact Or.inl g4
          · exact Or.inr ⟨rfl, g4, fun r => ⟨hcl r, fun h => by rw [hsc] at h; simp at h, fun hre => g4' hre r⟩⟩
        · exact fun h S hS hxS => ⟨g5 (fun r => (h r).2.1) hS.prepared (fun r => (h r).2.2.2), hxS⟩
      · have hsc' : c.scaled = false := by simpa using hsc
        obtain ⟨s1, x1, v1, q1, q2, q3, q4, q5⟩ := validity_lock (α := α) hn0 "after backward" (fun r => (m r).after) s x hx
        have hrun : ∀ (k : Fin n → St → Option Failure → Prog n α) out,
            Runs (fun r => match v1 with
              | some _ => finishMicro r.1 true (m r) (some ["step validation failed"]) (fam s1 x1 r) (k r)
              | none => prepareCommit c (m r) (fam s1 x1 r) fun st e => finishMicro r.1 true (m r) e st (k r)) out →
            Runs (fun r => backwardAndMutate r.1 c true (m r) (fam s x r) (k r)) out := by
          intro k out h
          refine hb _ out ?_
          have he : (fun r : Fin n => if true = false then finishMicro r.1 false (m r) none (fam s x r) (k r)
              else if (m r).clip ≠ [] then finishMicro r.1 true (m r) (some (m r).clip) (fam s x r) (k r)
              else if c.scaled = true then prepareCommit c (m r) (fam s x r) fun st e => finishMicro r.1 true (m r) e st (k r)
              else
                validity r.1 "after backward" (m r).after (fam s x r) fun st failed =>
                  match failed with
                  | some _ => finishMicro r.1 true (m r) (some ["step validation failed"]) st (k r)
                  | none => prepareCommit c (m r) st fun st e => finishMicro r.1 true (m r) e st (k r)) =
              fun r => validity r.1 "after backward" (m r).after (fam s x r) fun st failed =>
                  match failed with
                  | some _ => finishMicro r.1 true (m r) (some ["step validation failed"]) st (k r)
                  | none => prepareCommit c (m r) st fun st e => finishMicro r.1 true (m r) e st (k r) := by
            funext r
            rw [if_neg (by simp), if_neg (by simp [hcl r]), if_neg hsc]
          refine Eq.mpr (congrArg (fun p => Runs p out) he) ?_
          exact q1 (fun r st failed => match failed with
                  | some _ => finishMicro r.1 true (m r) (some ["step validation failed"]) st (k r)
                  | none => prepareCommit c (m r) st fun st e => finishMicro r.1 true (m r) e st (k r)) out h
        cases v1 with
        | some f1 =>
          obtain ⟨s', f, g1, g2, g3⟩ := finishMicro_failed (α := α) true m (fun _ => some ["step validation failed"]) hn0 (fun r => ⟨_, rfl, by simp⟩) s1 x1
          refine ⟨s', x1, some f, fun k out h => hrun k out (g1 k out h), q2.trans g2, fun hv => absurd hv (by simp), Or.inl (g3.trans q3), ?_⟩
          intro h S hS hxS
          have := q5 (fun r => (h r).2.2.1) (fun r q => by rw [hS.after r, hS.after q]) (fun r y hy => by
            rcases hxS r with g | g
            · rw [g] at hy; exact absurd hy (by simp)
            · rw [g] at hy; injection hy with hy; rw [hS.after r]; exact hy)
          exact absurd this (by simp)
        | none =>
          obtain ⟨q6, q7, q8, q9⟩ := q4 rfl
          obtain ⟨s', v, g1, g2, g3, g4, g5⟩ := mutateTail_lock (α := α) hn0 c m hs s1 x1
          subst q6
          refine ⟨s', x1, v, fun k out h => hrun k out (g1 k out h), g2, fun hv => ⟨q7, (g3 hv).1, (g3 hv).2, ?_⟩, ?_, ?_⟩
          · intro _ r
            refine ⟨hcl r, fun _ => q8 r, fun hre => ?_⟩
            rcases g4 with g4 | ⟨-, g4⟩
            · have := (g3 hv).2
              rw [g4] at this
              exact absurd this (by simp)
            · exact g4 hre r
          · rcases g4 with g4 | ⟨g4, g4'⟩
            · exact Or.inl g4
            · exact Or.inr ⟨rfl, g4, fun r => ⟨hcl r, fun _ => q8 r, fun hre => g4' hre r⟩⟩
          · exact fun h S hS _ => ⟨g5 (fun r => (h r).2.1) hS.prepared (fun r => (h r).2.2.2), fun r => Or.inr (by rw [q9 r, hS.after r])⟩

end Verif.Ranks
