/-
Model of the straight-through estimators of /repo/model/vq.py: `l2_norm` (109-110), `efficient_rotation_trick_transform`
(307-318), `rotate_to` (321-341), and the choice in `VectorQuantize.forward` (1001-1005).

One row of real numbers (rounding is left out).  A tensor that is detached is a constant for the backward pass:
`frozen` is the forward pass as a function of the one operand that is not detached, and `backward` what autograd
computes for its operations (sums, products with constants and inner products with constants).
-/
import Mathlib.Analysis.Real.Sqrt
import Mathlib.LinearAlgebra.Matrix.Notation
import Mathlib.Data.Matrix.Mul

namespace Verif.Rotate
open Matrix

abbrev Vec (n : Nat) := Fin n → ℝ

/-- `x.norm(dim=-1)` -/
noncomputable def norm {n : Nat} (x : Vec n) : ℝ := Real.sqrt (x ⬝ᵥ x)

/-- vq.py:109-110 `F.normalize(x, p=2, dim=-1, eps=1e-7)` -/
noncomputable def l2Norm {n : Nat} (x : Vec n) : Vec n := (1 / max (norm x) (1 / 10 ^ 7)) • x

/-- vq.py:311 -/
noncomputable def wOf {n : Nat} (u q : Vec n) : Vec n := l2Norm (u + q)

/-- vq.py:307-318 `efficient_rotation_trick_transform` -/
noncomputable def transform {n : Nat} (u q e : Vec n) : Vec n :=
  let w := wOf u q
  e - (2 * (e ⬝ᵥ w)) • w + (2 * (e ⬝ᵥ u)) • q

/-- its backward pass with respect to `e` -/
noncomputable def transformBackward {n : Nat} (u q g : Vec n) : Vec n :=
  let w := wOf u q
  g - (2 * (g ⬝ᵥ w)) • w + (2 * (g ⬝ᵥ q)) • u

/-- `x / x.norm().clamp(min=1e-6)` (vq.py:331-333) -/
noncomputable def unit {n : Nat} (x : Vec n) : Vec n := (1 / max (norm x) (1 / 10 ^ 6)) • x

/-- the detached factor (vq.py:338) -/
noncomputable def scale {n : Nat} (src tgt : Vec n) : ℝ := norm tgt / max (norm src) (1 / 10 ^ 6)

/-- vq.py:321-341 with the detached quantities fixed at `src` and `tgt` -/
noncomputable def frozen {n : Nat} (src tgt e : Vec n) : Vec n := scale src tgt • transform (unit src) (unit tgt) e

/-- vq.py:321-341 `rotate_to` -/
noncomputable def rotateTo {n : Nat} (src tgt : Vec n) : Vec n := frozen src tgt src

/-- its backward pass: the gradient of `src` for the gradient `g` of the result (`tgt` gets none) -/
noncomputable def rotateBackward {n : Nat} (src tgt g : Vec n) : Vec n :=
  transformBackward (unit src) (unit tgt) (scale src tgt • g)

/-- vq.py:1001-1005, mixnet.py:939-947: the quantised row, and the gradient of the input -/
noncomputable def straightThrough {n : Nat} (rotationTrick : Bool) (x q : Vec n) : Vec n :=
  if rotationTrick then rotateTo x q else x + (q - x)
noncomputable def straightThroughBackward {n : Nat} (rotationTrick : Bool) (x q g : Vec n) : Vec n :=
  if rotationTrick then rotateBackward x q g else g

end Verif.Rotate
