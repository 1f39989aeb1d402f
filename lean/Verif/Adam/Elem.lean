/-
The two elementwise updates compute AdamW.
-/
import Verif.Adam.Spec
import Verif.Adam.Frame
import Mathlib.Tactic.FieldSimp

namespace Verif.Adam

variable {K : Type} [Field K] [LinearOrder K]

/-- The cells of an element are different. -/
structure Cells.Distinct (c : Cells) (x : Option Cell) : Prop where
  pg : c.p ≠ c.g
  pm : c.p ≠ c.m
  pv : c.p ≠ c.v
  gm : c.g ≠ c.m
  gv : c.g ≠ c.v
  mv : c.m ≠ c.v
  xp : ∀ y, x = some y → y ≠ c.p
  xg : ∀ y, x = some y → y ≠ c.g
  xm : ∀ y, x = some y → y ≠ c.m
  xv : ∀ y, x = some y → y ≠ c.v

/-- The weight in the given cells. -/
def cellWeight (c : Cells) (x : Option Cell) (mem : Mem K) : Weight K :=
  ⟨mem c.p, mem c.m, mem c.v, match x with
    | none => 0
    | some y => mem y⟩

theorem refAct_eval (P : Platform K) (h : Hyper K) (t : Nat) (c : Cells) (x : Option Cell)
    (hd : c.Distinct x) (hx : x.isSome = h.amsgrad) (mem : Mem K) :
    cellWeight c x (refAct P h t c x mem) = adamw P.sqrt h t (mem c.g) (cellWeight c x mem) := by
  cases x with
  | none =>
    have ha : h.amsgrad = false := by simpa using hx.symm
    simp only [cellWeight, refAct, adamw, ha, Function.update_self, Function.update_of_ne hd.pm,
      Function.update_of_ne hd.pm.symm, Function.update_of_ne hd.pv, Function.update_of_ne hd.pv.symm,
      Function.update_of_ne hd.mv, Function.update_of_ne hd.mv.symm, if_false, Bool.false_eq_true]
    rw [Weight.mk.injEq]
    refine ⟨?_, ?_, ?_, rfl⟩
    · have e1 : ∀ g : K, mem c.m + (1 - h.beta1) * (g - mem c.m) = h.beta1 * mem c.m + (1 - h.beta1) * g := by
        intro g; ring
      have e2 : ∀ g : K, mem c.v * h.beta2 + (1 - h.beta2) * (g * g) = h.beta2 * mem c.v + (1 - h.beta2) * g ^ 2 := by
        intro g; ring
      rw [e1, e2]
      ring
    · ring
    · ring
  | some y =>
    have ha : h.amsgrad = true := by simpa using hx.symm
    have h1 := hd.xp y rfl
    have h2 := hd.xm y rfl
    have h3 := hd.xv y rfl
    simp only [cellWeight, refAct, adamw, ha, Function.update_self, Function.update_of_ne hd.pm,
      Function.update_of_ne hd.pm.symm, Function.update_of_ne hd.pv, Function.update_of_ne hd.pv.symm,
      Function.update_of_ne hd.mv, Function.update_of_ne hd.mv.symm, Function.update_of_ne h1,
      Function.update_of_ne h1.symm, Function.update_of_ne h2, Function.update_of_ne h2.symm,
      Function.update_of_ne h3, Function.update_of_ne h3.symm, if_true]
    rw [Weight.mk.injEq]
    have e1 : ∀ g : K, mem c.m + (1 - h.beta1) * (g - mem c.m) = h.beta1 * mem c.m + (1 - h.beta1) * g := by
      intro g; ring
    have e2 : ∀ g : K, mem c.v * h.beta2 + (1 - h.beta2) * (g * g) = h.beta2 * mem c.v + (1 - h.beta2) * g ^ 2 := by
      intro g; ring
    rw [e1, e2]
    refine ⟨?_, rfl, rfl, rfl⟩
    ring

theorem refAct_local (P : Platform K) (h : Hyper K) (t : Nat) (c : Cells) (x : Option Cell)
    (hd : c.Distinct x) (hx : x.isSome = h.amsgrad) :
    Local (refAct P h t c x) (fun d => d = c.p ∨ d = c.m ∨ d = c.v ∨ x = some d)
      (fun d => d = c.p ∨ d = c.m ∨ d = c.v ∨ x = some d ∨ d = c.g) := by
  constructor
  · intro mem d hw
    have h1 : d ≠ c.p := fun e => hw (Or.inl e)
    have h2 : d ≠ c.m := fun e => hw (Or.inr (Or.inl e))
    have h3 : d ≠ c.v := fun e => hw (Or.inr (Or.inr (Or.inl e)))
    have h4 : ∀ y, x = some y → d ≠ y := fun y hy e => hw (Or.inr (Or.inr (Or.inr (by rw [hy, e]))))
    unfold refAct
    cases x with
    | none => simp only [Function.update_of_ne h1, Function.update_of_ne h2, Function.update_of_ne h3]
    | some y =>
      simp only [Function.update_of_ne h1, Function.update_of_ne h2, Function.update_of_ne h3,
        Function.update_of_ne (h4 y rfl)]
  · intro mem mem' he d hw
    have a := refAct_eval P h t c x hd hx mem
    have b := refAct_eval P h t c x hd hx mem'
    have e : cellWeight c x mem = cellWeight c x mem' := by
      unfold cellWeight
      rw [he c.p (by simp), he c.m (by simp), he c.v (by simp)]
      cases x with
      | none => rfl
      | some y => simp only [he y (by simp)]
    rw [e, he c.g (by simp), ← b] at a
    unfold cellWeight at a
    rw [Weight.mk.injEq] at a
    rcases hw with rfl | rfl | rfl | rfl
    · exact a.1
    · exact a.2.1
    · exact a.2.2.1
    · exact a.2.2.2

theorem laneAct_eval (P : Platform K) (h : Hyper K) (ha : h.amsgrad = false) (hm : h.maximize = false)
    (t : Nat) (c : Cells) (hd : c.Distinct none) (mem : Mem K) :
    cellWeight c none (laneAct P (scalars P h t) c mem)
      = adamw P.sqrt h t (mem c.g) (cellWeight c none mem) := by
  simp only [cellWeight, laneAct, scalars, adamw, ha, hm, Function.update_self,
    Function.update_of_ne hd.pm, Function.update_of_ne hd.pm.symm, Function.update_of_ne hd.pv,
    Function.update_of_ne hd.pv.symm, Function.update_of_ne hd.mv, Function.update_of_ne hd.mv.symm,
    if_false, Bool.false_eq_true]
  rw [Weight.mk.injEq]
  have e1 : mem c.m + (mem c.g - mem c.m) * (1 - h.beta1) = h.beta1 * mem c.m + (1 - h.beta1) * mem c.g := by
    ring
  have e2 : mem c.v * h.beta2 + mem c.g * mem c.g * (1 - h.beta2)
      = h.beta2 * mem c.v + (1 - h.beta2) * mem c.g ^ 2 := by ring
  rw [e1, e2]
  refine ⟨?_, rfl, rfl, rfl⟩
  ring

theorem laneAct_local (P : Platform K) (h : Hyper K) (ha : h.amsgrad = false) (hm : h.maximize = false)
    (t : Nat) (c : Cells) (hd : c.Distinct none) :
    Local (laneAct P (scalars P h t) c) (fun d => d = c.p ∨ d = c.m ∨ d = c.v)
      (fun d => d = c.p ∨ d = c.m ∨ d = c.v ∨ d = c.g) := by
  constructor
  · intro mem d hw
    have h1 : d ≠ c.p := fun e => hw (Or.inl e)
    have h2 : d ≠ c.m := fun e => hw (Or.inr (Or.inl e))
    have h3 : d ≠ c.v := fun e => hw (Or.inr (Or.inr e))
    simp only [laneAct, Function.update_of_ne h1, Function.update_of_ne h2, Function.update_of_ne h3]
  · intro mem mem' he d hw
    have a := laneAct_eval P h ha hm t c hd mem
    have b := laneAct_eval P h ha hm t c hd mem'
    have e : cellWeight c none mem = cellWeight c none mem' := by
      unfold cellWeight
      rw [he c.p (by simp), he c.m (by simp), he c.v (by simp)]
    rw [e, he c.g (by simp), ← b] at a
    unfold cellWeight at a
    rw [Weight.mk.injEq] at a
    rcases hw with rfl | rfl | rfl
    · exact a.1
    · exact a.2.1
    · exact a.2.2.1

end Verif.Adam
