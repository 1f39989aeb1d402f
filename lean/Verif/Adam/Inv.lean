/-
What holds of a live optimizer, and the creation of state.
-/
import Verif.Adam.Elem

set_option linter.unusedSectionVars false

namespace Verif.Adam

variable {K : Type} [Field K] [LinearOrder K]

inductive Role where
  | param | avg | sq | mx
deriving DecidableEq

/-- A tensor of the given shape whose elements do not share memory. -/
structure Solid (b : Buf) (sh : List Nat) : Prop where
  shape : b.shape = sh
  len : b.shape.length = b.stride.length
  inj : ∀ r r', InShape sh r → InShape sh r' → offset b.stride r = offset b.stride r' → r = r'

/-- All parameters of the optimizer. -/
def Opt.all (o : Opt K) : List Nat := o.groups.flatMap (·.2)

/-- Every storage belongs to one tensor: `own` names parameter and role of the storages of parameters
and state; gradients have their own storages.  Tensors of a parameter have its shape, parameters and
state do not overlap themselves, no parameter occurs twice, and with `amsgrad` existing states have
the running maximum. -/
structure LiveBy (own : Nat → Option (Nat × Role)) (o : Opt K) : Prop where
  nodup : o.all.Nodup
  param : ∀ i ∈ o.all, own (o.param i).addr = some (i, .param) ∧ (o.param i).addr < o.next
    ∧ Solid (o.param i) (o.param i).shape
  avg : ∀ i ∈ o.all, ∀ s, o.state i = some s → own s.avg.addr = some (i, .avg) ∧ s.avg.addr < o.next
    ∧ Solid s.avg (o.param i).shape
  sq : ∀ i ∈ o.all, ∀ s, o.state i = some s → own s.sq.addr = some (i, .sq) ∧ s.sq.addr < o.next
    ∧ Solid s.sq (o.param i).shape
  mx : ∀ i ∈ o.all, ∀ s, o.state i = some s → ∀ b, s.mx = some b →
    own b.addr = some (i, .mx) ∧ b.addr < o.next ∧ Solid b (o.param i).shape
  grad : ∀ i ∈ o.all, ∀ g, o.grad i = some g → own g.addr = none ∧ g.addr < o.next ∧ g.addr ≠ 0
    ∧ g.shape = (o.param i).shape ∧ g.shape.length = g.stride.length
  ams : ∀ e ∈ o.groups, e.1.amsgrad = true → ∀ i ∈ e.2, ∀ s, o.state i = some s → s.mx.isSome

def Live (o : Opt K) : Prop := ∃ own, LiveBy own o

theorem mem_all {o : Opt K} {e : Hyper K × List Nat} (he : e ∈ o.groups) {i : Nat} (hi : i ∈ e.2) :
    i ∈ o.all := List.mem_flatMap.mpr ⟨e, he, hi⟩

theorem row_spec : ∀ (s r r' : List Nat), InShape s r → InShape s r' →
    offset (rowStrides s) r < s.prod ∧ (offset (rowStrides s) r = offset (rowStrides s) r' → r = r')
  | [], [], [], _, _ => by simp [offset, rowStrides]
  | n :: s, i :: r, j :: r', h, h' => by
    obtain ⟨a1, a2⟩ := row_spec s r r' h.2 h'.2
    obtain ⟨b1, _⟩ := row_spec s r' r h'.2 h.2
    simp only [offset, rowStrides, List.zipWith_cons_cons, List.sum_cons, List.prod_cons] at a1 a2 b1 ⊢
    have hp : 0 < s.prod := by omega
    refine ⟨?_, fun e => ?_⟩
    · have := h.1
      calc s.prod * i + _ < s.prod * i + s.prod := Nat.add_lt_add_left a1 _
        _ = s.prod * (i + 1) := by ring
        _ ≤ s.prod * n := Nat.mul_le_mul_left _ this
        _ = n * s.prod := Nat.mul_comm _ _
    · have e1 : i = j := by
        have := congrArg (· / s.prod) e
        simp only [Nat.mul_add_div hp, Nat.div_eq_of_lt a1, Nat.div_eq_of_lt b1, Nat.add_zero] at this
        exact this
      subst e1
      rw [a2 (Nat.add_left_cancel e)]
  | [], _ :: _, _, h, _ => h.elim
  | [], [], _ :: _, _, h => h.elim
  | _ :: _, [], _, h, _ => h.elim
  | _ :: _, _ :: _, [], _, h => h.elim

theorem length_rowStrides : ∀ s : List Nat, s.length = (rowStrides s).length
  | [] => rfl
  | _ :: s => by simp [rowStrides, ← length_rowStrides s]

theorem zerosLike_solid (p : Buf) (hp : Solid p p.shape) (a : Nat) : Solid (zerosLike p a) p.shape := by
  unfold zerosLike
  by_cases h : (flatLayout p).isSome = true
  · simp only [if_pos h]
    exact ⟨rfl, hp.len, hp.inj⟩
  · simp only [if_neg h]
    exact ⟨rfl, length_rowStrides _, fun r r' h1 h2 => (row_spec p.shape r r' h1 h2).2⟩

/-- The same optimizer up to newly created state: what creation must not change. -/
structure Grown (o o' : Opt K) : Prop where
  live : Live o'
  param : o'.param = o.param
  grad : o'.grad = o.grad
  groups : o'.groups = o.groups
  cache : o'.cache = o.cache
  next : o.next ≤ o'.next
  mem : ∀ c, c.1 < o.next → o'.mem c = o.mem c
  state : ∀ i s, o.state i = some s → o'.state i = some s
  weight : ∀ i ∈ o.all, ∀ idx, weightAt o' i idx = weightAt o i idx
  updates : ∀ i, updates o' i = updates o i

theorem Grown.refl {o : Opt K} (h : Live o) : Grown o o :=
  ⟨h, rfl, rfl, rfl, rfl, Nat.le_refl _, fun _ _ => rfl, fun _ _ h => h, fun _ _ _ => rfl, fun _ => rfl⟩

theorem Grown.trans {a b c : Opt K} (h1 : Grown a b) (h2 : Grown b c) : Grown a c := by
  refine ⟨h2.live, h2.param.trans h1.param, h2.grad.trans h1.grad, h2.groups.trans h1.groups,
    h2.cache.trans h1.cache, Nat.le_trans h1.next h2.next, ?_, ?_, ?_, ?_⟩
  · intro d hd
    rw [h2.mem d (Nat.lt_of_lt_of_le hd h1.next), h1.mem d hd]
  · intro i s hs; exact h2.state i s (h1.state i s hs)
  · intro i hi idx
    rw [h2.weight i (by unfold Opt.all at hi ⊢; rw [h1.groups]; exact hi) idx, h1.weight i hi idx]
  · intro i; rw [h2.updates, h1.updates]

theorem zeroAt_of_ne {mem : Mem K} {a : Nat} {c : Cell} (h : c.1 ≠ a) : zeroAt mem a c = mem c := by
  unfold zeroAt; rw [if_neg h]

theorem initState_grown (ams : Bool) (o : Opt K) (hl : Live o) (i : Nat) (hi : i ∈ o.all)
    (ha : ∀ e ∈ o.groups, i ∈ e.2 → e.1.amsgrad = ams) :
    Grown o (initState ams o i) ∧ ((o.grad i).isSome → ((initState ams o i).state i).isSome)
      ∧ ∀ j, j ≠ i → (initState ams o i).state j = o.state j := by
  obtain ⟨own, hl⟩ := hl
  cases hg : o.grad i with
  | none =>
    have e : initState ams o i = o := by unfold initState; rw [hg]
    rw [e]
    exact ⟨Grown.refl ⟨own, hl⟩, fun h => absurd h (by simp), fun _ _ => rfl⟩
  | some g =>
    cases hs : o.state i with
    | some s =>
      have e : initState ams o i = o := by unfold initState; rw [hg, hs]
      rw [e, hs]
      exact ⟨Grown.refl ⟨own, hl⟩, fun _ => rfl, fun _ _ => rfl⟩
    | none =>
      obtain ⟨o', ho⟩ : ∃ o', o' = initState ams o i := ⟨_, rfl⟩
      obtain ⟨st, hst⟩ : ∃ st : PState, st =
        { step := 0, avg := zerosLike (o.param i) o.next, sq := zerosLike (o.param i) (o.next + 1)
          mx := if ams then some (zerosLike (o.param i) (o.next + 2)) else none } := ⟨_, rfl⟩
      have e : o' = { o with
          mem := zeroAt (zeroAt (zeroAt o.mem o.next) (o.next + 1)) (o.next + 2)
          state := Function.update o.state i (some st)
          next := o.next + 3 } := by
        rw [ho, hst]; unfold initState; rw [hg, hs]
      rw [← ho]
      have hmem : ∀ c : Cell, c.1 < o.next → o'.mem c = o.mem c := by
        intro c hc
        rw [e]
        show zeroAt (zeroAt (zeroAt o.mem o.next) (o.next + 1)) (o.next + 2) c = _
        rw [zeroAt_of_ne (by omega), zeroAt_of_ne (by omega), zeroAt_of_ne (by omega)]
      have hz : ∀ k, k < 3 → ∀ x, o'.mem (o.next + k, x) = 0 := by
        intro k hk x
        rw [e]
        show zeroAt (zeroAt (zeroAt o.mem o.next) (o.next + 1)) (o.next + 2) (o.next + k, x) = _
        unfold zeroAt
        rcases (by omega : k = 0 ∨ k = 1 ∨ k = 2) with rfl | rfl | rfl <;> simp
      have hsi : o'.state i = some st := by rw [e]; exact Function.update_self ..
      have hsj : ∀ j, j ≠ i → o'.state j = o.state j := by
        intro j hj; rw [e]; exact Function.update_of_ne hj ..
      have hp : o'.param = o.param := by rw [e]
      have hgr : o'.grad = o.grad := by rw [e]
      have hgs : o'.groups = o.groups := by rw [e]
      have hn : o'.next = o.next + 3 := by rw [e]
      have hall : o'.all = o.all := by unfold Opt.all; rw [hgs]
      refine ⟨⟨?_, hp, hgr, hgs, by rw [e], by omega, hmem, ?_, ?_, ?_⟩, fun _ => by rw [hsi]; rfl, hsj⟩
      · refine ⟨fun a => if a = o.next then some (i, .avg) else if a = o.next + 1 then some (i, .sq)
          else if a = o.next + 2 then some (i, .mx) else own a, ?_⟩
        have hown : ∀ a, a < o.next → (if a = o.next then some (i, Role.avg)
            else if a = o.next + 1 then some (i, .sq) else if a = o.next + 2 then some (i, .mx)
            else own a) = own a := by
          intro a h
          rw [if_neg (by omega), if_neg (by omega), if_neg (by omega)]
        have hsol := zerosLike_solid (o.param i) (hl.param i hi).2.2
        refine ⟨by rw [hall]; exact hl.nodup, ?_, ?_, ?_, ?_, ?_, ?_⟩
        · intro j hj
          rw [hall] at hj
          obtain ⟨h1, h2, h3⟩ := hl.param j hj
          rw [hp, hn]
          refine ⟨?_, by omega, h3⟩
          rw [hown _ h2, h1]
        · intro j hj s hjs
          rw [hall] at hj
          rw [hp, hn]
          by_cases hji : j = i
          · subst hji
            rw [hsi] at hjs; cases hjs
            subst hst
            refine ⟨?_, ?_, hsol _⟩
            · show (if o.next = o.next then _ else _) = _
              rw [if_pos rfl]
            · show o.next < _
              omega
          · rw [hsj j hji] at hjs
            obtain ⟨h1, h2, h3⟩ := hl.avg j hj s hjs
            refine ⟨?_, by omega, h3⟩
            rw [hown _ h2, h1]
        · intro j hj s hjs
          rw [hall] at hj
          rw [hp, hn]
          by_cases hji : j = i
          · subst hji
            rw [hsi] at hjs; cases hjs
            subst hst
            refine ⟨?_, ?_, hsol _⟩
            · show (if o.next + 1 = o.next then _ else if o.next + 1 = o.next + 1 then _ else _) = _
              rw [if_neg (by omega), if_pos rfl]
            · show o.next + 1 < _
              omega
          · rw [hsj j hji] at hjs
            obtain ⟨h1, h2, h3⟩ := hl.sq j hj s hjs
            refine ⟨?_, by omega, h3⟩
            rw [hown _ h2, h1]
        · intro j hj s hjs b hb
          rw [hall] at hj
          rw [hp, hn]
          by_cases hji : j = i
          · subst hji
            rw [hsi] at hjs; cases hjs
            subst hst
            have hb' : (if ams = true then some (zerosLike (o.param j) (o.next + 2)) else none) = some b := hb
            by_cases hm : ams = true
            · rw [if_pos hm] at hb'
              cases hb'
              refine ⟨?_, ?_, hsol _⟩
              · show (if o.next + 2 = o.next then _ else if o.next + 2 = o.next + 1 then _
                  else if o.next + 2 = o.next + 2 then _ else _) = _
                rw [if_neg (by omega), if_neg (by omega), if_pos rfl]
              · show o.next + 2 < _
                omega
            · rw [if_neg hm] at hb'; cases hb'
          · rw [hsj j hji] at hjs
            obtain ⟨h1, h2, h3⟩ := hl.mx j hj s hjs b hb
            refine ⟨?_, by omega, h3⟩
            rw [hown _ h2, h1]
        · intro j hj g' hg'
          rw [hall] at hj
          rw [hgr] at hg'
          obtain ⟨h1, h2, h3, h4⟩ := hl.grad j hj g' hg'
          rw [hp, hn]
          refine ⟨?_, by omega, h3, h4⟩
          rw [hown _ h2, h1]
        · intro x hx hxa j hj s hjs
          rw [hgs] at hx
          by_cases hji : j = i
          · subst hji
            rw [hsi] at hjs; cases hjs
            have := ha x hx hj
            rw [hxa] at this
            subst hst
            show (if ams = true then _ else _ : Option Buf).isSome = true
            rw [if_pos this.symm]; rfl
          · rw [hsj j hji] at hjs
            exact hl.ams x hx hxa j hj s hjs
      · intro j s hjs
        by_cases hji : j = i
        · subst hji; rw [hs] at hjs; cases hjs
        · rw [hsj j hji]; exact hjs
      · intro j hj idx
        unfold weightAt elem
        have hpm : ∀ r, o'.mem ((o.param j).at r) = o.mem ((o.param j).at r) := fun r =>
          hmem _ (hl.param j hj).2.1
        by_cases hji : j = i
        · subst hji
          rw [hsi, hs, hp]
          simp only
          rw [hpm]
          subst hst
          have z0 : o'.mem ((zerosLike (o.param j) o.next).at idx) = 0 := hz 0 (by omega) _
          have z1 : o'.mem ((zerosLike (o.param j) (o.next + 1)).at idx) = 0 := hz 1 (by omega) _
          have z2 : o'.mem ((zerosLike (o.param j) (o.next + 2)).at idx) = 0 := hz 2 (by omega) _
          simp only [z0, z1]
          cases ams
          · rfl
          · simp only [if_true, z2]
        · rw [hsj j hji, hp]
          cases hjs : o.state j with
          | none => simp only [hpm]
          | some s =>
            simp only [hpm]
            rw [hmem (s.avg.at idx) (hl.avg j hj s hjs).2.1, hmem (s.sq.at idx) (hl.sq j hj s hjs).2.1]
            cases hx : s.mx with
            | none => rfl
            | some b => simp only [hmem (b.at idx) (hl.mx j hj s hjs b hx).2.1]
      · intro j
        unfold updates
        by_cases hji : j = i
        · subst hji; rw [hsi, hs]; subst hst; rfl
        · rw [hsj j hji]

theorem initAll_grown (ams : Bool) : ∀ (l : List Nat) (o : Opt K), Live o → (∀ i ∈ l, i ∈ o.all) →
    (∀ i ∈ l, ∀ e ∈ o.groups, i ∈ e.2 → e.1.amsgrad = ams) →
    Grown o (l.foldl (initState ams) o)
      ∧ (∀ i ∈ l, (o.grad i).isSome → ((l.foldl (initState ams) o).state i).isSome)
      ∧ ∀ j, j ∉ l → (l.foldl (initState ams) o).state j = o.state j
  | [], o, hl, _, _ => ⟨Grown.refl hl, fun i hi => absurd hi (by simp), fun _ _ => rfl⟩
  | i :: l, o, hl, h1, h2 => by
    obtain ⟨a1, a2, a3⟩ := initState_grown ams o hl i (h1 i List.mem_cons_self) (h2 i List.mem_cons_self)
    have hall : (initState ams o i).all = o.all := by unfold Opt.all; rw [a1.groups]
    obtain ⟨b1, b2, b3⟩ := initAll_grown ams l (initState ams o i) a1.live
      (fun j hj => by rw [hall]; exact h1 j (List.mem_cons_of_mem _ hj))
      (fun j hj => by rw [a1.groups]; exact h2 j (List.mem_cons_of_mem _ hj))
    rw [List.foldl_cons]
    refine ⟨a1.trans b1, ?_, ?_⟩
    · intro j hj hg
      rcases List.mem_cons.mp hj with rfl | hj
      · obtain ⟨s, hs⟩ := Option.isSome_iff_exists.mp (a2 hg)
        rw [b1.state j s hs]; rfl
      · exact b2 j hj (by rw [a1.grad]; exact hg)
    · intro j hj
      rw [b3 j fun h => hj (List.mem_cons_of_mem _ h), a3 j fun h => hj (h ▸ List.mem_cons_self)]

end Verif.Adam
