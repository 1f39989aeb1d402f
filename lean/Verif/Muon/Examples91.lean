/-
Instances of the hypotheses of C91 and C92.
-/
import Verif.Muon.Props91
import Mathlib.Tactic.NormNum
import Mathlib.Tactic.FinCases
import Mathlib.Data.Fin.VecNotation

namespace Verif.Muon
open Matrix

/-- A decomposition of a `2 × 3` matrix. -/
example : SVD (!![3, 0, 0; 0, 4, 0] : Matrix (Fin 2) (Fin 3) ℝ) (1 : Matrix (Fin 2) (Fin 2) ℝ) ![3, 4] !![1, 0; 0, 1; 0, 0] where
  left := by simp
  right := by
    ext i j
    fin_cases i <;> fin_cases j <;> simp [Matrix.mul_apply, Fin.sum_univ_succ]
  eq := by
    ext i j
    fin_cases i <;> fin_cases j <;> simp [Matrix.mul_apply, Fin.sum_univ_succ, Matrix.diagonal]

/-- Its norm is 5, far above the `eps`. -/
example : frob (!![3, 0, 0; 0, 4, 0] : Matrix (Fin 2) (Fin 3) ℝ) = 5 := by
  have : (∑ i, ∑ j, (!![3, 0, 0; 0, 4, 0] : Matrix (Fin 2) (Fin 3) ℝ) i j ^ 2) = 5 ^ 2 := by
    simp [Fin.sum_univ_succ]; norm_num
  unfold frob
  rw [this]
  exact Real.sqrt_sq (by norm_num)

/-- Four parameters: two of one shape, one without a gradient between them, a convolution filter with momentum. -/
noncomputable def exPars : List Par :=
  [⟨[1, 2], 0, 0, [1, 2], some [3, 4], none⟩, ⟨[3], 0, 0, [1, 2, 3], none, none⟩,
   ⟨[1, 2], 0, 0, [5, 6], some [7, 8], some [1, 1]⟩, ⟨[2, 1, 2], 0, 0, [1, 2, 3, 4], some [0, 1, 0, 1], some [0, 0, 0, 0]⟩]

example : ∀ p ∈ exPars, p.grad.isSome = true → 2 ≤ p.shape.length := by
  simp [exPars]

example : ∀ p ∈ exPars, p.grad.isSome = true → Fits p := by
  intro p hp hg
  simp [exPars] at hp
  rcases hp with rfl | rfl | rfl | rfl
  · exact ⟨by simp, by simp, by simp, by simp⟩
  · simp at hg
  · exact ⟨by simp, by simp, by simp, by simp⟩
  · exact ⟨by simp, by simp, by simp, by simp⟩

/-- The two parameters of one shape are in one group, in order. -/
example : groupsOf exPars = [(([1, 2], 0, 0), [0, 2]), (([2, 1, 2], 0, 0), [3])] := by
  simp [groupsOf, exPars, addTo, Par.key, List.zipIdx]

end Verif.Muon
