/-
Invariant of the staging ring.
-/
import Verif.Adam.Ring
import Mathlib.Tactic.SplitIfs

namespace Verif.Adam.Ring

/-- Device tables after executing `ops` with the present host buffers. -/
def after (host : Nat → Nat → Table) (dev : Nat → Nat → Table) : List Op → Nat → Nat → Table
  | [] => dev
  | .copy p s :: r => after host (setDev dev p s (host p s)) r
  | _ :: r => after host dev r

/-- Every kernel in `ops`, executed with the present host buffers, reads what it should. -/
def Good (table : Nat → Table) (host : Nat → Nat → Table) (dev : Nat → Nat → Table) : List Op → Prop
  | [] => True
  | .copy p s :: r => Good table host (setDev dev p s (host p s)) r
  | .kernel p src want :: r => readTable table dev p src = want ∧ Good table host dev r
  | .other :: r => Good table host dev r

theorem after_append (host dev) : ∀ (l r : List Op), after host dev (l ++ r) = after host (after host dev l) r
  | [], r => rfl
  | .copy p s :: l, r => after_append host _ l r
  | .kernel .. :: l, r => after_append host _ l r
  | .other :: l, r => after_append host _ l r

theorem Good_append (table host) : ∀ (dev) (l r : List Op),
    Good table host dev (l ++ r) ↔ Good table host dev l ∧ Good table host (after host dev l) r
  | dev, [], r => by simp [Good, after]
  | dev, .copy p s :: l, r => Good_append table host _ l r
  | dev, .kernel p src want :: l, r => by
    simp only [List.cons_append, Good, after, Good_append table host dev l r, and_assoc]
  | dev, .other :: l, r => Good_append table host _ l r

theorem after_host (h h' : Nat → Nat → Table) : ∀ (dev) (l : List Op),
    (∀ p s, Op.copy p s ∈ l → h p s = h' p s) → after h dev l = after h' dev l
  | _, [], _ => rfl
  | dev, .copy p s :: l, e => by
    simp only [after, e p s List.mem_cons_self]
    exact after_host h h' _ l fun q r hm => e q r (List.mem_cons_of_mem _ hm)
  | dev, .kernel .. :: l, e => after_host h h' _ l fun q r hm => e q r (List.mem_cons_of_mem _ hm)
  | dev, .other :: l, e => after_host h h' _ l fun q r hm => e q r (List.mem_cons_of_mem _ hm)

theorem Good_host (table) (h h' : Nat → Nat → Table) : ∀ (dev) (l : List Op),
    (∀ p s, Op.copy p s ∈ l → h p s = h' p s) → (Good table h dev l ↔ Good table h' dev l)
  | _, [], _ => Iff.rfl
  | dev, .copy p s :: l, e => by
    simp only [Good, e p s List.mem_cons_self]
    exact Good_host table h h' _ l fun q r hm => e q r (List.mem_cons_of_mem _ hm)
  | dev, .kernel .. :: l, e => by
    simp only [Good, Good_host table h h' dev l fun q r hm => e q r (List.mem_cons_of_mem _ hm)]
  | dev, .other :: l, e => Good_host table h h' _ l fun q r hm => e q r (List.mem_cons_of_mem _ hm)

def Sys.host (y : Sys) : Nat → Nat → Table := fun p s => (y.side p).host s
def Sys.table (y : Sys) : Nat → Table := fun p => (y.side p).table

/-- The table plan `p` will point at once the stream is drained. -/
def Sys.final (y : Sys) (p : Nat) : Table :=
  readTable y.table (after y.host y.dev (y.stream.drop y.done)) p (y.side p).src

/-- Plan `p` is between writing its slot and recording the event. -/
def Pc.open : Pc → Nat → Bool
  | .pointing p _, q => decide (p = q)
  | .launching p _, q => decide (p = q)
  | .marking p, q => decide (p = q)
  | _, _ => false

/-- Plan `p` is in the middle of a refresh. -/
def Pc.refreshing : Pc → Nat → Bool
  | .waiting p _, q => decide (p = q)
  | .writing p _, q => decide (p = q)
  | .copying p _, q => decide (p = q)
  | .pointing p _, q => decide (p = q)
  | _, _ => false

/-- What the present step has established. -/
def Sys.local (y : Sys) : Prop :=
  match y.pc with
  | .idle => True
  | .waiting p a => (y.side p).cached = a
  | .writing p a => (y.side p).cached = a ∧ (y.side p).event (y.side p).slot ≤ y.done
  | .copying p a => (y.side p).cached = a ∧ (y.side p).host (y.side p).slot = a
      ∧ (y.side p).event (y.side p).slot ≤ y.done
  | .pointing p a => (y.side p).cached = a
      ∧ after y.host y.dev (y.stream.drop y.done) p (y.side p).slot = a
  | .launching p a => (y.side p).cached = a
  | .marking _ => True

structure Inv (y : Sys) : Prop where
  bound : y.done ≤ y.stream.length
  reads : ∀ e ∈ y.reads, e.1 = e.2
  good : Good y.table y.host y.dev (y.stream.drop y.done)
  final : ∀ p, y.pc.refreshing p = false → y.final p = (y.side p).cached
  copies : ∀ k p s, y.stream[k]? = some (.copy p s) →
    k < (y.side p).event s ∨ (y.pc.open p = true ∧ s = (y.side p).slot)
  events : ∀ p s, (y.side p).event s ≤ y.stream.length
  loc : y.local

theorem start_inv (tables : Nat → Table) : Inv (start tables) := by
  refine ⟨Nat.le_refl _, fun e he => absurd he (by simp [start]), trivial, fun p _ => rfl, ?_, fun _ _ => Nat.le_refl _,
    trivial⟩
  intro k p s h
  simp [start] at h

/-- Enqueueing an operation other than a copy. -/
theorem drop_append {y : Sys} (h : y.done ≤ y.stream.length) (l : List Op) :
    (y.stream ++ l).drop y.done = y.stream.drop y.done ++ l := List.drop_append_of_le_length h

theorem get_append {y : Sys} {op : Op} {k : Nat} {x : Op} (h : (y.stream ++ [op])[k]? = some x) :
    y.stream[k]? = some x ∨ (x = op ∧ k = y.stream.length) := by
  rcases Nat.lt_trichotomy k y.stream.length with hk | hk | hk
  · rw [List.getElem?_append_left hk] at h; exact Or.inl h
  · subst hk
    rw [List.getElem?_append_right (Nat.le_refl _)] at h
    simp only [Nat.sub_self, List.getElem?_cons_zero, Option.some.injEq] at h
    exact Or.inr ⟨h.symm, rfl⟩
  · rw [List.getElem?_eq_none (by simp; omega)] at h; cases h

theorem setSide_self (y : Sys) (p : Nat) (d : Side) : setSide y p d p = d := Function.update_self ..
theorem setSide_of_ne (y : Sys) {p q : Nat} (h : q ≠ p) (d : Side) : setSide y p d q = y.side q :=
  Function.update_of_ne h ..

/-- Side changes that keep tables and host buffers keep what the stream does. -/
theorem host_eq (y : Sys) (p : Nat) (d : Side) (hh : d.host = (y.side p).host) (pc : Pc) :
    ({ y with side := setSide y p d, pc := pc } : Sys).host = y.host := by
  funext q s
  show (setSide y p d q).host s = (y.side q).host s
  by_cases hq : q = p
  · subst hq; rw [setSide_self, hh]
  · rw [setSide_of_ne y hq]

theorem table_eq (y : Sys) (p : Nat) (d : Side) (hh : d.table = (y.side p).table) (pc : Pc) :
    ({ y with side := setSide y p d, pc := pc } : Sys).table = y.table := by
  funext q
  show (setSide y p d q).table = (y.side q).table
  by_cases hq : q = p
  · subst hq; rw [setSide_self, hh]
  · rw [setSide_of_ne y hq]

theorem begin_inv {y : Sys} (h : Inv y) (hp : y.pc = .idle) (p : Nat) (a : Table) (moved : Bool) :
    Inv (begin y p a moved) := by
  unfold begin
  simp only
  have hf : ∀ q, y.final q = (y.side q).cached := fun q => h.final q (by rw [hp]; rfl)
  have hc : ∀ k q s, y.stream[k]? = some (.copy q s) → k < (y.side q).event s := by
    intro k q s hk
    rcases h.copies k q s hk with h | ⟨h, _⟩
    · exact h
    · rw [hp] at h; cases h
  split_ifs with hm
  · refine ⟨h.bound, h.reads, h.good, fun q _ => hf q, fun k q s hk => Or.inl (hc k q s hk), h.events, hm.1⟩
  · obtain ⟨d, hd⟩ : ∃ d : Side, d = { y.side p with
      cached := a, slot := ((y.side p).slot + 1) % slots, starts := y.stream.length :: (y.side p).starts } :=
      ⟨_, rfl⟩
    rw [← hd]
    have e1 := host_eq y p d (by rw [hd]) (.waiting p a)
    have e2 := table_eq y p d (by rw [hd]) (.waiting p a)
    have e3 : ∀ q, (setSide y p d q).event = (y.side q).event := by
      intro q
      by_cases hq : q = p
      · subst hq; rw [setSide_self, hd]
      · rw [setSide_of_ne y hq]
    refine ⟨h.bound, h.reads, ?_, ?_, ?_, ?_, ?_⟩
    · rw [e1, e2]; exact h.good
    · intro q hq
      have hqp : q ≠ p := by
        rintro rfl
        simp [Pc.refreshing] at hq
      unfold Sys.final
      rw [e1, e2]
      show readTable _ _ _ (setSide y p d q).src = (setSide y p d q).cached
      rw [setSide_of_ne y hqp]
      exact hf q
    · intro k q s hk
      left
      show k < (setSide y p d q).event s
      rw [e3]; exact hc k q s hk
    · intro q s
      show (setSide y p d q).event s ≤ _
      rw [e3]; exact h.events q s
    · show (setSide y p d p).cached = a
      rw [setSide_self, hd]

theorem host_inv {y y' : Sys} (h : Inv y) (hs : hostStep y = some y') : Inv y' := by
  unfold hostStep at hs
  cases hp : y.pc with
  | idle => rw [hp] at hs; cases hs
  | waiting p a =>
    rw [hp] at hs
    simp only at hs
    split_ifs at hs with hw
    cases hs
    have hl := h.loc
    unfold Sys.local at hl
    rw [hp] at hl
    refine ⟨h.bound, h.reads, h.good, fun q hq => h.final q (by rw [hp]; exact hq), ?_, h.events, hl, hw⟩
    intro k q s hk
    rcases h.copies k q s hk with h | ⟨h, _⟩
    · exact Or.inl h
    · rw [hp] at h; cases h
  | writing p a =>
    rw [hp] at hs
    simp only [Option.some.injEq] at hs
    have hl := h.loc
    unfold Sys.local at hl
    rw [hp] at hl
    simp only at hl
    obtain ⟨d, hd⟩ : ∃ d : Side, d = { y.side p with
      host := Function.update (y.side p).host (y.side p).slot a } := ⟨_, rfl⟩
    rw [← hd] at hs
    subst hs
    have e2 := table_eq y p d (by rw [hd]) (.copying p a)
    have e3 : ∀ q, (setSide y p d q).event = (y.side q).event ∧ (setSide y p d q).src = (y.side q).src
        ∧ (setSide y p d q).cached = (y.side q).cached ∧ (setSide y p d q).slot = (y.side q).slot := by
      intro q
      by_cases hq : q = p
      · subst hq; rw [setSide_self, hd]; exact ⟨rfl, rfl, rfl, rfl⟩
      · rw [setSide_of_ne y hq]; exact ⟨rfl, rfl, rfl, rfl⟩
    have hc : ∀ k q s, y.stream[k]? = some (.copy q s) → k < (y.side q).event s := by
      intro k q s hk
      rcases h.copies k q s hk with h | ⟨h, _⟩
      · exact h
      · rw [hp] at h; cases h
    have hh : ∀ q s, Op.copy q s ∈ y.stream.drop y.done →
        ({ y with side := setSide y p d, pc := .copying p a } : Sys).host q s = y.host q s := by
      intro q s hm
      obtain ⟨k, hk⟩ := List.mem_iff_getElem?.mp hm
      rw [List.getElem?_drop] at hk
      have := hc _ q s hk
      show (setSide y p d q).host s = (y.side q).host s
      by_cases hq : q = p
      · subst hq
        have hne : s ≠ (y.side q).slot := by
          rintro rfl
          have := hl.2
          omega
        rw [setSide_self, hd]
        exact Function.update_of_ne hne ..
      · rw [setSide_of_ne y hq]
    refine ⟨h.bound, h.reads, ?_, ?_, ?_, ?_, ?_⟩
    · rw [e2]
      exact (Good_host _ _ _ _ _ hh).mpr h.good
    · intro q hq
      unfold Sys.final
      rw [e2, after_host _ _ _ _ hh]
      show readTable _ _ _ (setSide y p d q).src = (setSide y p d q).cached
      rw [(e3 q).2.1, (e3 q).2.2.1]
      exact h.final q (by rw [hp]; exact hq)
    · intro k q s hk
      left
      show k < (setSide y p d q).event s
      rw [(e3 q).1]; exact hc k q s hk
    · intro q s
      show (setSide y p d q).event s ≤ _
      rw [(e3 q).1]; exact h.events q s
    · show (setSide y p d p).cached = a ∧ (setSide y p d p).host (setSide y p d p).slot = a
        ∧ (setSide y p d p).event (setSide y p d p).slot ≤ y.done
      rw [(e3 p).1, (e3 p).2.2.1, (e3 p).2.2.2, setSide_self]
      refine ⟨hl.1, ?_, hl.2⟩
      rw [hd]
      exact Function.update_self ..
  | copying p a =>
    rw [hp] at hs
    simp only [Option.some.injEq] at hs
    have hl := h.loc
    unfold Sys.local at hl
    rw [hp] at hl
    simp only at hl
    subst hs
    have hdr := drop_append h.bound [Op.copy p (y.side p).slot]
    have haf : after y.host y.dev (y.stream.drop y.done ++ [.copy p (y.side p).slot])
        = setDev (after y.host y.dev (y.stream.drop y.done)) p (y.side p).slot a := by
      rw [after_append]
      show setDev _ _ _ ((y.side p).host (y.side p).slot) = _
      rw [hl.2.1]
    refine ⟨by simp only [List.length_append]; exact Nat.le_trans h.bound (Nat.le_add_right ..), h.reads, ?_, ?_, ?_, ?_, hl.1, ?_⟩
    · show Good y.table y.host y.dev ((y.stream ++ [_]).drop y.done)
      rw [hdr, Good_append]
      exact ⟨h.good, trivial⟩
    · intro q hq
      have hqp : q ≠ p := by
        rintro rfl
        simp [Pc.refreshing] at hq
      show readTable y.table (after y.host y.dev ((y.stream ++ [_]).drop y.done)) q (y.side q).src = _
      rw [hdr, haf]
      have := h.final q (by rw [hp]; simpa [Pc.refreshing] using hq)
      rw [← this]
      unfold Sys.final
      cases hsrc : (y.side q).src with
      | none => rfl
      | some s => simp [readTable, setDev, hqp]
    · intro k q s hk
      rcases get_append hk with hk | ⟨hk, _⟩
      · rcases h.copies k q s hk with h | ⟨h, _⟩
        · exact Or.inl h
        · rw [hp] at h; cases h
      · cases hk
        exact Or.inr ⟨by simp [Pc.open], rfl⟩
    · intro q s
      have := h.events q s
      simp only [List.length_append]
      omega
    · show after y.host y.dev ((y.stream ++ [_]).drop y.done) p (y.side p).slot = a
      rw [hdr, haf]
      simp [setDev]
  | pointing p a =>
    rw [hp] at hs
    simp only [Option.some.injEq] at hs
    have hl := h.loc
    unfold Sys.local at hl
    rw [hp] at hl
    simp only at hl
    obtain ⟨d, hd⟩ : ∃ d : Side, d = { y.side p with src := some (y.side p).slot } := ⟨_, rfl⟩
    rw [← hd] at hs
    subst hs
    have e1 := host_eq y p d (by rw [hd]) (.launching p a)
    have e2 := table_eq y p d (by rw [hd]) (.launching p a)
    have e3 : ∀ q, (setSide y p d q).event = (y.side q).event
        ∧ (setSide y p d q).cached = (y.side q).cached ∧ (setSide y p d q).slot = (y.side q).slot := by
      intro q
      by_cases hq : q = p
      · subst hq; rw [setSide_self, hd]; exact ⟨rfl, rfl, rfl⟩
      · rw [setSide_of_ne y hq]; exact ⟨rfl, rfl, rfl⟩
    refine ⟨h.bound, h.reads, ?_, ?_, ?_, ?_, ?_⟩
    · rw [e1, e2]; exact h.good
    · intro q hq
      unfold Sys.final
      rw [e1, e2]
      show readTable _ _ _ (setSide y p d q).src = (setSide y p d q).cached
      rw [(e3 q).2.1]
      by_cases hqp : q = p
      · subst hqp
        rw [setSide_self, hd, hl.1]
        exact hl.2
      · rw [setSide_of_ne y hqp]
        exact h.final q (by rw [hp]; simp [Pc.refreshing]; exact fun e => hqp e.symm)
    · intro k q s hk
      show k < (setSide y p d q).event s ∨ (_ ∧ s = (setSide y p d q).slot)
      rw [(e3 q).1, (e3 q).2.2]
      rcases h.copies k q s hk with h | ⟨h, h'⟩
      · exact Or.inl h
      · rw [hp] at h
        exact Or.inr ⟨h, h'⟩
    · intro q s
      show (setSide y p d q).event s ≤ _
      rw [(e3 q).1]; exact h.events q s
    · show (setSide y p d p).cached = a
      rw [(e3 p).2.1]; exact hl.1
  | launching p a =>
    rw [hp] at hs
    simp only [Option.some.injEq] at hs
    have hl := h.loc
    unfold Sys.local at hl
    rw [hp] at hl
    simp only at hl
    subst hs
    have hdr := drop_append h.bound [Op.kernel p (y.side p).src a]
    refine ⟨by simp only [List.length_append]; exact Nat.le_trans h.bound (Nat.le_add_right ..), h.reads, ?_, ?_, ?_, ?_, trivial⟩
    · show Good y.table y.host y.dev ((y.stream ++ [_]).drop y.done)
      rw [hdr, Good_append]
      refine ⟨h.good, ?_, trivial⟩
      rw [← hl]
      exact h.final p (by rw [hp]; rfl)
    · intro q hq
      show readTable y.table (after y.host y.dev ((y.stream ++ [_]).drop y.done)) q (y.side q).src = _
      rw [hdr, after_append]
      exact h.final q (by rw [hp]; rfl)
    · intro k q s hk
      rcases get_append hk with hk | ⟨hk, _⟩
      · rcases h.copies k q s hk with h | ⟨h, h'⟩
        · exact Or.inl h
        · rw [hp] at h
          exact Or.inr ⟨h, h'⟩
      · cases hk
    · intro q s
      have := h.events q s
      simp only [List.length_append]
      omega
  | marking p =>
    rw [hp] at hs
    simp only [Option.some.injEq] at hs
    obtain ⟨d, hd⟩ : ∃ d : Side, d = { y.side p with
      event := Function.update (y.side p).event (y.side p).slot y.stream.length } := ⟨_, rfl⟩
    rw [← hd] at hs
    subst hs
    have e1 := host_eq y p d (by rw [hd]) .idle
    have e2 := table_eq y p d (by rw [hd]) .idle
    have e3 : ∀ q, (setSide y p d q).src = (y.side q).src
        ∧ (setSide y p d q).cached = (y.side q).cached := by
      intro q
      by_cases hq : q = p
      · subst hq; rw [setSide_self, hd]; exact ⟨rfl, rfl⟩
      · rw [setSide_of_ne y hq]; exact ⟨rfl, rfl⟩
    refine ⟨h.bound, h.reads, ?_, ?_, ?_, ?_, trivial⟩
    · rw [e1, e2]; exact h.good
    · intro q hq
      unfold Sys.final
      rw [e1, e2]
      show readTable _ _ _ (setSide y p d q).src = (setSide y p d q).cached
      rw [(e3 q).1, (e3 q).2]
      exact h.final q (by rw [hp]; rfl)
    · intro k q s hk
      left
      have hlt : k < y.stream.length := (List.getElem?_eq_some_iff.mp hk).1
      show k < (setSide y p d q).event s
      by_cases hq : q = p
      · subst hq
        rw [setSide_self, hd]
        show k < Function.update (y.side q).event (y.side q).slot y.stream.length s
        by_cases hsl : s = (y.side q).slot
        · subst hsl; rw [Function.update_self]; exact hlt
        · rw [Function.update_of_ne hsl]
          rcases h.copies k q s hk with h | ⟨_, h'⟩
          · exact h
          · exact absurd h' hsl
      · rw [setSide_of_ne y hq]
        rcases h.copies k q s hk with h | ⟨h, _⟩
        · exact h
        · rw [hp] at h
          simp [Pc.open] at h
          exact absurd h.symm hq
    · intro q s
      show (setSide y p d q).event s ≤ _
      by_cases hq : q = p
      · subst hq
        rw [setSide_self, hd]
        show Function.update (y.side q).event (y.side q).slot y.stream.length s ≤ y.stream.length
        by_cases hsl : s = (y.side q).slot
        · subst hsl; rw [Function.update_self]; exact Nat.le_refl _
        · rw [Function.update_of_ne hsl]; exact h.events q s
      · rw [setSide_of_ne y hq]; exact h.events q s

theorem fail_inv {y : Sys} (h : Inv y) {p : Nat} {a : Table} (hp : y.pc = .launching p a) :
    Inv { y with pc := .marking p } := by
  refine ⟨h.bound, h.reads, h.good, fun q _ => h.final q (by rw [hp]; rfl), ?_, h.events, trivial⟩
  intro k q s hk
  rcases h.copies k q s hk with h | ⟨h, h'⟩
  · exact Or.inl h
  · rw [hp] at h
    exact Or.inr ⟨h, h'⟩

theorem enqueue_inv {y : Sys} (h : Inv y) : Inv { y with stream := y.stream ++ [.other] } := by
  have hdr := drop_append h.bound [Op.other]
  have haf : after y.host y.dev (y.stream.drop y.done ++ [.other])
      = after y.host y.dev (y.stream.drop y.done) := by rw [after_append]; rfl
  refine ⟨by simp only [List.length_append]; exact Nat.le_trans h.bound (Nat.le_add_right ..), h.reads, ?_, ?_, ?_, ?_, ?_⟩
  · show Good y.table y.host y.dev ((y.stream ++ [_]).drop y.done)
    rw [hdr, Good_append]
    exact ⟨h.good, trivial⟩
  · intro q hq
    show readTable y.table (after y.host y.dev ((y.stream ++ [_]).drop y.done)) q (y.side q).src = _
    rw [hdr, haf]
    exact h.final q hq
  · intro k q s hk
    rcases get_append hk with hk | ⟨hk, _⟩
    · exact h.copies k q s hk
    · cases hk
  · intro q s
    have := h.events q s
    simp only [List.length_append]
    omega
  · have hl := h.loc
    unfold Sys.local at hl ⊢
    cases hp : y.pc with
    | pointing p a =>
      rw [hp] at hl
      simp only at hl ⊢
      refine ⟨hl.1, ?_⟩
      show after y.host y.dev ((y.stream ++ [_]).drop y.done) p _ = a
      rw [hdr, haf]; exact hl.2
    | idle => trivial
    | waiting p a => rw [hp] at hl; exact hl
    | writing p a => rw [hp] at hl; exact hl
    | copying p a => rw [hp] at hl; exact hl
    | launching p a => rw [hp] at hl; exact hl
    | marking p => trivial

theorem device_inv {y : Sys} (h : Inv y) {op : Op} (hop : y.stream[y.done]? = some op) :
    Inv { exec y op with done := y.done + 1 } := by
  obtain ⟨hlt, hget⟩ := List.getElem?_eq_some_iff.mp hop
  have hd : y.stream.drop y.done = op :: y.stream.drop (y.done + 1) := by
    rw [List.drop_eq_getElem_cons hlt, hget]
  have hg := h.good
  rw [hd] at hg
  have hex : (exec y op).side = y.side ∧ (exec y op).stream = y.stream ∧ (exec y op).pc = y.pc := by
    cases op <;> exact ⟨rfl, rfl, rfl⟩
  have haf : after y.host y.dev (op :: y.stream.drop (y.done + 1))
      = after y.host (exec y op).dev (y.stream.drop (y.done + 1)) := by
    cases op <;> rfl
  obtain ⟨z, hz⟩ : ∃ z : Sys, z = { exec y op with done := y.done + 1 } := ⟨_, rfl⟩
  rw [← hz]
  have z1 : z.side = y.side := by rw [hz]; exact hex.1
  have z2 : z.stream = y.stream := by rw [hz]; exact hex.2.1
  have z3 : z.pc = y.pc := by rw [hz]; exact hex.2.2
  have z4 : z.done = y.done + 1 := by rw [hz]
  have z5 : z.dev = (exec y op).dev := by rw [hz]
  have z6 : z.host = y.host := by unfold Sys.host; rw [z1]
  have z7 : z.table = y.table := by unfold Sys.table; rw [z1]
  have z8 : z.reads = (exec y op).reads := by rw [hz]
  refine ⟨by rw [z2, z4]; exact hlt, ?_, ?_, ?_, ?_, by rw [z1, z2]; exact h.events, ?_⟩
  · rw [z8]
    cases op with
    | copy p s => exact h.reads
    | other => exact h.reads
    | kernel p src want =>
      intro e he
      rcases List.mem_append.mp he with he | he
      · exact h.reads e he
      · rw [List.mem_singleton.mp he]
        exact hg.1.symm
  · rw [z2, z4, z5, z6, z7]
    cases op with
    | copy p s => exact hg
    | other => exact hg
    | kernel p src want => exact hg.2
  · intro q hq
    rw [z3] at hq
    unfold Sys.final
    rw [z1, z2, z4, z5, z6, z7, ← haf, ← hd]
    exact h.final q hq
  · rw [z1, z2, z3]; exact h.copies
  · have hl := h.loc
    unfold Sys.local at hl ⊢
    rw [z1, z2, z3, z4, z5, z6, ← haf, ← hd]
    cases hp : y.pc with
    | pointing p a => rw [hp] at hl; exact hl
    | idle => trivial
    | waiting p a => rw [hp] at hl; exact hl
    | writing p a => rw [hp] at hl; exact ⟨hl.1, Nat.le_succ_of_le hl.2⟩
    | copying p a => rw [hp] at hl; exact ⟨hl.1, hl.2.1, Nat.le_succ_of_le hl.2.2⟩
    | launching p a => rw [hp] at hl; exact hl
    | marking p => trivial

theorem act_inv {y y' : Sys} (h : Inv y) (a : Act) (hs : act y a = some y') : Inv y' := by
  cases a with
  | begin p t m =>
    unfold act at hs
    cases hp : y.pc <;> rw [hp] at hs <;> simp only [Option.some.injEq, reduceCtorEq] at hs
    subst hs
    exact begin_inv h hp p t m
  | host => exact host_inv h hs
  | fail =>
    unfold act at hs
    cases hp : y.pc <;> rw [hp] at hs <;> simp only [Option.some.injEq, reduceCtorEq] at hs
    subst hs
    exact fail_inv h hp
  | enqueue => unfold act at hs; simp only [Option.some.injEq] at hs; subst hs; exact enqueue_inv h
  | device =>
    unfold act at hs
    cases hop : y.stream[y.done]? with
    | none => rw [hop] at hs; cases hs
    | some op =>
      rw [hop] at hs
      simp only [Option.some.injEq] at hs
      subst hs
      exact device_inv h hop

theorem run_inv : ∀ (l : List Act) (y : Sys), Inv y → Inv (run y l)
  | [], _, h => h
  | a :: l, y, h => by
    show Inv (run ((act y a).getD y) l)
    apply run_inv l
    cases hs : act y a with
    | none => exact h
    | some y' => exact act_inv h a hs

end Verif.Adam.Ring
