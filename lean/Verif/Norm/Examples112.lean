import Verif.Norm.Props112b
import Mathlib.Data.Fin.VecNotation
import Mathlib.Algebra.BigOperators.Fin
import Mathlib.Tactic.FinCases
import Mathlib.Tactic.NormNum

/-!
# Concrete cases for C112
-/
namespace Verif.Norm.Examples112

open Verif.Norm

/-- Three cells, the last is padding. -/
def m : Option (Fin 3 → ℝ) := some ![1, 1, 0]

theorem good : GoodMask m := by
  refine ⟨fun i => ?_, 0, ?_⟩
  · fin_cases i <;> simp [weightOf, m]
  · simp [weightOf, m]

theorem good_none : GoodMask (none : Option (Fin 3 → ℝ)) := ⟨fun _ => Or.inr rfl, 0, rfl⟩

def x : Fin 3 → ℝ := ![1, 3, 100]

/-- The mean and the variance are those of 1 and 3. -/
example : meanOf m x = 2 ∧ varOf m x = 1 := by
  have hs : size m = 2 := by unfold size weightOf m; simp [Fin.sum_univ_three]; norm_num
  have hm : meanOf m x = 2 := by
    unfold meanOf; rw [hs]; unfold weightOf m x; simp [Fin.sum_univ_three]; norm_num
  refine ⟨hm, ?_⟩
  unfold varOf; rw [hs, hm]; unfold weightOf m x; simp [Fin.sum_univ_three]; norm_num

/-- The gradient along the curve where cell `i` is `i · u` and the weight is `u`. -/
example (g : Fin 3 → ℝ) (t : ℝ) := C112_gradient 1 one_pos m good (some 2) g (fun u i => u * (i : ℝ)) (fun i => (i : ℝ)) (fun u => u) (fun u => 3 * u) 1 3 t
  (fun i => by simpa using (hasDerivAt_id t).mul_const (i : ℝ)) (hasDerivAt_id t) (by simpa using (hasDerivAt_id t).const_mul 3)

example (g : Fin 3 → ℝ) (t : ℝ) := C112_gradient_plain 1 one_pos none good_none none g (fun u i => u * (i : ℝ)) (fun i => (i : ℝ)) t
  (fun i => by simpa using (hasDerivAt_id t).mul_const (i : ℝ))

/-- Changing the padding changes nothing. -/
example : (fwd 1 ![1, 3, -7] m (some (2, 5)) none).out = (fwd 1 x m (some (2, 5)) none).out :=
  ((C112_padding 1 m good (some (2, 5)) none x x).2 ![1, 3, -7] x (by
    intro i hi
    fin_cases i
    · exact ⟨rfl, rfl⟩
    · exact ⟨rfl, rfl⟩
    · simp [weightOf, m] at hi)).1

example := C112_normalised 1 one_pos m good x 2 5 none
example := C112_forward 1 m good x none
example := C112_eval 1 m good ⟨2, 1⟩ x

theorem goods : ∀ b ∈ [(m, x), (none, x)], GoodMask b.1 := by
  intro b hb
  rcases List.mem_cons.mp hb with rfl | hb
  · exact good
  · rcases List.mem_cons.mp hb with rfl | hb
    · exact good_none
    · exact absurd hb List.not_mem_nil

example := C112_running 1 (1 / 1000) none [(m, x), (none, x)] goods
example := C112_running_nonneg 1 (1 / 1000) (by norm_num) (by norm_num) none [(m, x), (none, x)] goods

end Verif.Norm.Examples112
