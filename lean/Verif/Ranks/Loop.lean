import Verif.Ranks.Step

namespace Verif.Ranks

variable {n : Nat} {α : Type}

/-! ### composing phases -/

theorem Reaches.fail {A : Fin n → (St → Option Failure → Prog n α) → Prog n α} {B : Fin n → St → (St → Option Failure → Prog n α) → Prog n α}
    {s : St} {x : Fin n → Option Nat} {f : Failure} (h : Reaches (fun k r => A r (k r)) s x (some f)) :
    Reaches (fun k r => A r (fun st v => andThen (B r) (k r) st v)) s x (some f) :=
  fun k out hk => h (fun r st v => andThen (B r) (k r) st v) out hk

theorem Reaches.ok {A : Fin n → (St → Option Failure → Prog n α) → Prog n α} {B : Fin n → St → (St → Option Failure → Prog n α) → Prog n α}
    {s s' : St} {x x' : Fin n → Option Nat} {v : Option Failure} (h : Reaches (fun k r => A r (k r)) s x none)
    (g : Reaches (fun k r => B r (fam s x r) (k r)) s' x' v) :
    Reaches (fun k r => A r (fun st v => andThen (B r) (k r) st v)) s' x' v :=
  fun k out hk => h (fun r st v => andThen (B r) (k r) st v) out (g k out hk)

/-! ### one micro-step -/

/-- everything works on this process -/
structure Micro.Fine (m : Micro) : Prop where
  fetch : m.fetch.Ok
  hook : m.hook = []
  before : m.before.Ok
  clip : m.clip = []
  after : m.after.Ok
  prepare : m.prepare = []
  optimizer : m.optimizer = []

/-- base.py:3740-3920, after the batch is there -/
def microRest (rank : Nat) (c : Cfg) (sync : Bool) (m : Micro) (st : St) (k : St → Option Failure → Prog n α) : Prog n α :=
  syncPhase rank "pre-step hook" m.hook false st fun st v =>
    andThen (fun st k => validity rank "before backward" m.before st fun st v => andThen (backwardAndMutate rank c sync m) k st v) k st v

theorem microStep_eq (rank : Nat) (c : Cfg) (first sync : Bool) (m : Micro) (st : St) (k : St → Option Failure → Prog n α) :
    microStep rank c first sync m st k =
      if first = true then microRest rank c sync m st k
      else fetchBatch rank c.stream m.fetch st fun st v => andThen (microRest rank c sync m) k st v := by
  rfl

/-- what the gradient of a synchronizing micro-step may rely on -/
def Gate (c : Cfg) (sync : Bool) (m : Micro) : Prop :=
  m.hook = [] ∧ m.before.Ok ∧ (sync = true → m.clip = [] ∧ (c.scaled = false → m.after.Ok) ∧ (c.resumable = true → m.prepare = []))

theorem microRest_lock (hn0 : 0 < n) (c : Cfg) (sync : Bool) (m : Fin n → Micro) (hs : Symmetric m) (s : St) (x : Fin n → Option Nat) (hx : Const x) :
    ∃ (s' : St) (x' : Fin n → Option Nat) (v : Option Failure),
      Reaches (α := α) (fun k r => microRest r.1 c sync (m r) (fam s x r) (k r)) s' x' v ∧
      Frame s s' ∧
      (v = none → Const x' ∧ (∀ r, Gate c sync (m r) ∧ (m r).optimizer = []) ∧
        s'.stepped = (if sync = true then s.stepped ++ [s.iteration] else s.stepped)) ∧
      (s'.stepped = s.stepped ∨ (sync = true ∧ s'.stepped = s.stepped ++ [s.iteration] ∧ ∀ r, Gate c sync (m r))) ∧
      ((∀ r, (m r).Fine) → ∀ S, Consistent S m → (∀ r, x r = none ∨ x r = some S) → v = none ∧ ∀ r, x' r = none ∨ x' r = some S) := by
  have h1 := syncPhase_lock (α := α) "pre-step hook" (fun r => (m r).hook) false s x
  cases hv1 : verdict "pre-step hook" (fun r : Fin n => (m r).hook) with
  | some f =>
    rw [hv1] at h1
    refine ⟨_, x, some f, Reaches.fail h1, afterPhase_frame _ _ _, fun h => absurd h (by simp), Or.inl (afterPhase_stepped _ _ _), ?_⟩
    intro h
    have := (verdict_none "pre-step hook" (fun r : Fin n => (m r).hook)).2 (fun r => (h r).hook)
    rw [hv1] at this
    exact absurd this (by simp)
  | none =>
    rw [hv1] at h1
    have hhook := (verdict_none _ _).1 hv1
    obtain ⟨s2, x2, v2, a1, a2, a3, a4, a5⟩ := validity_lock (α := α) hn0 "before backward" (fun r => (m r).before) s x hx
    have hcomplete : (∀ r, (m r).Fine) → ∀ S, Consistent S m → (∀ r, x r = none ∨ x r = some S) → v2 = none := by
      intro h S hS hxS
      refine a5 (fun r => (h r).before) (fun r q => by rw [hS.before r, hS.before q]) (fun r y hy => ?_)
      rcases hxS r with g | g
      · rw [g] at hy; exact absurd hy (by simp)
      · rw [g] at hy; injection hy with hy; rw [hS.before r]; exact hy
    cases v2 with
    | some f =>
      refine ⟨s2, x2, some f, Reaches.ok h1 (Reaches.fail a1), a2, fun h => absurd h (by simp), Or.inl a3, ?_⟩
      intro h S hS hxS
      exact absurd (hcomplete h S hS hxS) (by simp)
    | none =>
      obtain ⟨b1, b2, b3, b4⟩ := a4 rfl
      subst b1
      obtain ⟨s3, x3, v3, c1, c2, c3, c4, c5⟩ := backward_lock (α := α) hn0 c sync m hs s2 x2 b2
      refine ⟨s3, x3, v3, Reaches.ok h1 (Reaches.ok a1 c1), c2, ?_, ?_, ?_⟩
      · intro hv
        obtain ⟨d1, d2, d3, d4⟩ := c3 hv
        exact ⟨d1, fun r => ⟨⟨hhook r, b3 r, fun hsy => d4 hsy r⟩, d2 r⟩, d3⟩
      · rcases c4 with c4 | ⟨c4, c4', c4''⟩
        · exact Or.inl c4
        · exact Or.inr ⟨c4, c4', fun r => ⟨hhook r, b3 r, fun _ => c4'' r⟩⟩
      · intro h S hS _
        exact c5 (fun r => ⟨(h r).clip, (h r).prepare, (h r).after, (h r).optimizer⟩) S hS (fun r => Or.inr (by rw [b4 r, hS.before r]))

theorem microStep_lock (hn0 : 0 < n) (c : Cfg) (first sync : Bool) (m : Fin n → Micro) (hs : Symmetric m) (s : St) (x : Fin n → Option Nat) (hx : Const x) :
    ∃ (s' : St) (x' : Fin n → Option Nat) (v : Option Failure),
      Reaches (α := α) (fun k r => microStep r.1 c first sync (m r) (fam s x r) (k r)) s' x' v ∧
      Frame s s' ∧
      (v = none → Const x' ∧ (∀ r, Gate c sync (m r) ∧ (first = false → (m r).fetch.Ok) ∧ (m r).optimizer = []) ∧
        s'.stepped = (if sync = true then s.stepped ++ [s.iteration] else s.stepped)) ∧
      (s'.stepped = s.stepped ∨ (sync = true ∧ s'.stepped = s.stepped ++ [s.iteration] ∧ ∀ r, Gate c sync (m r) ∧ (first = false → (m r).fetch.Ok))) ∧
      ((∀ r, (m r).Fine) → ∀ S, Consistent S m → (∀ r, x r = none ∨ x r = some S) → v = none ∧ ∀ r, x' r = none ∨ x' r = some S) := by
  cases first with
  | true =>
    obtain ⟨s', x', v, h1, h2, h3, h4, h5⟩ := microRest_lock (α := α) hn0 c sync m hs s x hx
    refine ⟨s', x', v, h1, h2, fun hv => ?_, ?_, h5⟩
    · obtain ⟨a, b, d⟩ := h3 hv
      exact ⟨a, fun r => ⟨(b r).1, fun h => absurd h (by simp), (b r).2⟩, d⟩
    · rcases h4 with h4 | ⟨a, b, d⟩
      · exact Or.inl h4
      · exact Or.inr ⟨a, b, fun r => ⟨d r, fun h => absurd h (by simp)⟩⟩
  | false =>
    obtain ⟨s1, v1, f1, f2, f3, f4, f5, f6⟩ := fetchBatch_lock (α := α) c.stream (fun r => (m r).fetch) s x
    cases v1 with
    | some f =>
      refine ⟨s1, x, some f, Reaches.fail (B := fun r => microRest r.1 c sync (m r)) f1, f2, fun h => absurd h (by simp), Or.inl f3, ?_⟩
      intro h S hS _
      exact absurd (f6 (fun r => (h r).fetch) hS.fetched) (by simp)
    | none =>
      obtain ⟨g1, g2⟩ := f5 rfl
      subst g1
      obtain ⟨s', x', v, h1, h2, h3, h4, h5⟩ := microRest_lock (α := α) hn0 c sync m hs s1 x hx
      refine ⟨s', x', v, Reaches.ok (B := fun r => microRest r.1 c sync (m r)) f1 h1, h2, fun hv => ?_, ?_, h5⟩
      · obtain ⟨a, b, d⟩ := h3 hv
        exact ⟨a, fun r => ⟨(b r).1, fun _ => g2 r, (b r).2⟩, d⟩
      · rcases h4 with h4 | ⟨a, b, d⟩
        · exact Or.inl h4
        · exact Or.inr ⟨a, b, fun r => ⟨d r, fun _ => g2 r⟩⟩

/-! ### the micro-steps of one iteration -/

/-- micro-step `i` of `total` got through its checks on every process -/
def Passed (c : Cfg) (total i : Nat) (e : Fin n → Iter) : Prop :=
  ∀ r, Gate c (decide (i + 1 = total)) ((e r).micro i) ∧ (i ≠ 0 → ((e r).micro i).fetch.Ok)

theorem microLoop_lock (hn0 : 0 < n) (c : Cfg) (total : Nat) (e : Fin n → Iter) (hs : ∀ i, Symmetric (fun r => (e r).micro i)) (i rem : Nat)
    (ht : i + rem = total) (s : St) (x : Fin n → Option Nat) (hx : Const x) :
    ∃ (s' : St) (x' : Fin n → Option Nat) (v : Option Failure),
      Reaches (α := α) (fun k r => microLoop r.1 c (e r) i rem (fam s x r) (k r)) s' x' v ∧
      Frame s s' ∧
      (v = none → Const x' ∧ (∀ j, i ≤ j → j < total → Passed c total j e ∧ ∀ r, ((e r).micro j).optimizer = []) ∧
        s'.stepped = (if 0 < rem then s.stepped ++ [s.iteration] else s.stepped)) ∧
      (s'.stepped = s.stepped ∨ (s'.stepped = s.stepped ++ [s.iteration] ∧ 0 < rem ∧ ∀ j, i ≤ j → j < total → Passed c total j e)) ∧
      ((∀ r j, ((e r).micro j).Fine) → ∀ S, (∀ j, Consistent S (fun r => (e r).micro j)) → (∀ r, x r = none ∨ x r = some S) →
        v = none ∧ ∀ r, x' r = none ∨ x' r = some S) := by
  induction rem generalizing i s x with
  | zero =>
    refine ⟨s, x, none, fun k out h => h, Frame.refl s, fun _ => ⟨hx, fun j h1 h2 => by omega, by simp⟩, Or.inl rfl, fun _ S _ h => ⟨rfl, h⟩⟩
  | succ rem ih =>
    obtain ⟨s1, x1, v1, a1, a2, a3, a4, a5⟩ := microStep_lock (α := α) hn0 c (i == 0) (rem == 0) (fun r => (e r).micro i) (hs i) s x hx
    have hsy : (rem == 0) = decide (i + 1 = total) := by
      by_cases h : rem = 0
      · subst h; simp [ht]
      · have h1 : (rem == 0) = false := by simpa using h
        have h2 : ¬ (i + 1 = total) := by omega
        rw [h1]; simp [h2]
    have hpass : (∀ r, Gate c (rem == 0) ((e r).micro i) ∧ ((i == 0) = false → ((e r).micro i).fetch.Ok)) → Passed c total i e := by
      intro h r
      rw [← hsy]
      exact ⟨(h r).1, fun h0 => (h r).2 (by simpa using h0)⟩
    cases v1 with
    | some f =>
      refine ⟨s1, x1, some f, Reaches.fail a1, a2, fun h => absurd h (by simp), ?_, ?_⟩
      · rcases a4 with a4 | ⟨b1, b2, b3⟩
        · exact Or.inl a4
        · refine Or.inr ⟨b2, by omega, fun j h1 h2 => ?_⟩
          have hr0 : rem = 0 := by simpa using b1
          obtain rfl : j = i := by omega
          exact hpass b3
      · intro h S hS hxS
        exact absurd (a5 (fun r => h r i) S (hS i) hxS).1 (by simp)
    | none =>
      obtain ⟨b1, b2, b3⟩ := a3 rfl
      obtain ⟨s2, x2, v2, d1, d2, d3, d4, d5⟩ := ih (i + 1) (by omega) s1 x1 b1
      have hp : Passed c total i e := hpass (fun r => ⟨(b2 r).1, (b2 r).2.1⟩)
      refine ⟨s2, x2, v2, Reaches.ok a1 d1, a2.trans d2, ?_, ?_, ?_⟩
      · intro hv
        obtain ⟨e1, e2, e3⟩ := d3 hv
        refine ⟨e1, fun j h1 h2 => ?_, ?_⟩
        · by_cases hj : j = i
          · subst hj; exact ⟨hp, fun r => (b2 r).2.2⟩
          · exact e2 j (by omega) h2
        · rw [if_pos (by omega), e3, b3, a2.iteration]
          by_cases h0 : rem = 0
          · subst h0; simp
          · rw [if_pos (by omega), if_neg (by simpa using h0)]
      · rcases d4 with d4 | ⟨g1, g2, g3⟩
        · rw [d4, b3]
          by_cases h0 : rem = 0
          · subst h0
            refine Or.inr ⟨by simp, by omega, fun j h1 h2 => ?_⟩
            obtain rfl : j = i := by omega
            exact hp
          · exact Or.inl (by rw [if_neg (by simpa using h0)])
        · refine Or.inr ⟨?_, by omega, fun j h1 h2 => ?_⟩
          · rw [g1, b3, if_neg (by simpa using (by omega : rem ≠ 0)), a2.iteration]
          · by_cases hj : j = i
            · subst hj; exact hp
            · exact g3 j (by omega) h2
      · intro h S hS hxS
        exact d5 h S hS (a5 (fun r => h r i) S (hS i) hxS).2

/-- the step of one iteration completed on every process -/
structure StepOk (c : Cfg) (e : Fin n → Iter) : Prop where
  passed : ∀ j, j < c.accumulation → Passed c c.accumulation j e
  optimizer : ∀ j, j < c.accumulation → ∀ r, ((e r).micro j).optimizer = []
  afterHook : ∀ r, (e r).afterHook = []

theorem trainStep_lock (hn0 : 0 < n) (c : Cfg) (hacc : 0 < c.accumulation) (e : Fin n → Iter) (hs : ∀ i, Symmetric (fun r => (e r).micro i)) (s : St)
    (x : Fin n → Option Nat) (hx : Const x) :
    ∃ (s' : St) (x' : Fin n → Option Nat) (v : Option Failure),
      Reaches (α := α) (fun k r => trainStep r.1 c (e r) (fam s x r) (k r)) s' x' v ∧
      Frame s s' ∧
      (v = none → Const x' ∧ StepOk c e ∧ s'.stepped = s.stepped ++ [s.iteration]) ∧
      (s'.stepped = s.stepped ∨ (s'.stepped = s.stepped ++ [s.iteration] ∧ ∀ j, j < c.accumulation → Passed c c.accumulation j e)) ∧
      ((∀ r, (∀ j, ((e r).micro j).Fine) ∧ (e r).afterHook = []) → ∀ S, (∀ j, Consistent S (fun r => (e r).micro j)) → (∀ r, x r = none ∨ x r = some S) →
        v = none ∧ ∀ r, x' r = none ∨ x' r = some S) := by
  obtain ⟨s1, x1, v1, a1, a2, a3, a4, a5⟩ := microLoop_lock (α := α) hn0 c c.accumulation e hs 0 c.accumulation (by omega) s x hx
  have hnone : (s1.stepped = s.stepped ∨ (s1.stepped = s.stepped ++ [s.iteration] ∧ ∀ j, j < c.accumulation → Passed c c.accumulation j e)) := by
    rcases a4 with a4 | ⟨b1, -, b3⟩
    · exact Or.inl a4
    · exact Or.inr ⟨b1, fun j hj => b3 j (by omega) hj⟩
  cases v1 with
  | some f =>
    refine ⟨s1, x1, some f, Reaches.fail a1, a2, fun h => absurd h (by simp), hnone, ?_⟩
    intro h S hS hxS
    exact absurd (a5 (fun r => (h r).1) S hS hxS).1 (by simp)
  | none =>
    obtain ⟨b1, b2, b3⟩ := a3 rfl
    rw [if_pos hacc] at b3
    have h2 := syncPhase_lock (α := α) "post-step hook" (fun r => (e r).afterHook) true { s1 with mutated := true } x1
    have hf := afterPhase_frame true { s1 with mutated := true } (verdict "post-step hook" (fun r => (e r).afterHook))
    refine ⟨afterPhase true { s1 with mutated := true } (verdict "post-step hook" (fun r => (e r).afterHook)), x1,
      verdict "post-step hook" (fun r => (e r).afterHook), ?_, a2.trans ⟨hf.1, hf.2, hf.3, hf.4, hf.5⟩, ?_, ?_, ?_⟩
    · intro k out h
      exact a1 (fun r st v => andThen (fun st k => syncPhase r.1 "post-step hook" (e r).afterHook true { st with mutated := true } k) (k r) st v) out (h2 k out h)
    · intro hv
      refine ⟨b1, ⟨fun j hj => (b2 j (by omega) hj).1, fun j hj => (b2 j (by omega) hj).2, (verdict_none "post-step hook" (fun r => (e r).afterHook)).1 hv⟩, ?_⟩
      rw [afterPhase_stepped]; exact b3
    · rw [afterPhase_stepped]; exact hnone
    · intro h S hS hxS
      exact ⟨(verdict_none "post-step hook" (fun r => (e r).afterHook)).2 (fun r => (h r).2), (a5 (fun r => (h r).1) S hS hxS).2⟩

end Verif.Ranks
