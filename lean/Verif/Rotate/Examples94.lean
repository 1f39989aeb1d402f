/-
Instances of the hypotheses of C94.
-/
import Verif.Rotate.Props94
import Mathlib.Data.Fin.VecNotation

namespace Verif.Rotate
open Matrix

theorem norm34 : norm (![3, 4] : Vec 2) = 5 := by
  have : (![3, 4] : Vec 2) ⬝ᵥ ![3, 4] = 5 ^ 2 := by simp [dotProduct, Fin.sum_univ_succ]; norm_num
  unfold norm
  rw [this]
  exact Real.sqrt_sq (by norm_num)

theorem norm20 : norm (![2, 0] : Vec 2) = 2 := by
  have : (![2, 0] : Vec 2) ⬝ᵥ ![2, 0] = 2 ^ 2 := by simp [dotProduct, Fin.sum_univ_succ]; norm_num
  unfold norm
  rw [this]
  exact Real.sqrt_sq (by norm_num)

/-- Input `(3, 4)`, code `(2, 0)`. -/
example : Ordinary (![3, 4] : Vec 2) ![2, 0] where
  lsrc := by rw [norm34]; norm_num
  ltgt := by rw [norm20]; norm_num
  angle := by
    right
    rw [norm34, norm20]
    have : ((1 / 5 : ℝ) • (![3, 4] : Vec 2) + (1 / 2 : ℝ) • ![2, 0]) ⬝ᵥ ((1 / 5 : ℝ) • (![3, 4] : Vec 2) + (1 / 2 : ℝ) • ![2, 0]) = 16 / 5 := by
      simp [dotProduct, Fin.sum_univ_succ]; norm_num
    unfold norm
    rw [this]
    apply Real.le_sqrt_of_sq_le
    norm_num

/-- The zero input is not ordinary, and its output is not the code. -/
example : straightThrough true (0 : Vec 2) ![2, 0] ≠ ![2, 0] := by
  rw [C94_zero_source]
  intro h
  have := congrFun h 0
  simp at this

end Verif.Rotate
