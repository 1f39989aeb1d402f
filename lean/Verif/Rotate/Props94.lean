/-
C94: quantisation returns the code, and gradients are carried back by a scaled isometry.
-/
import Verif.Rotate.Model
import Mathlib.Tactic.Linarith
import Mathlib.Tactic.Ring
import Mathlib.Tactic.NormNum
import Mathlib.Tactic.FieldSimp
import Mathlib.Tactic.Positivity
import Mathlib.Tactic.Module
import Mathlib.Algebra.Order.BigOperators.Ring.Finset
import Mathlib.Algebra.BigOperators.Fin

namespace Verif.Rotate
open Matrix

variable {n : Nat}

/-- The ordinary case: both vectors are longer than the clamp, and they are either exactly opposite or not within
`10^-7` of being opposite. -/
structure Ordinary (src tgt : Vec n) : Prop where
  lsrc : 1 / 10 ^ 6 ≤ norm src
  ltgt : 1 / 10 ^ 6 ≤ norm tgt
  angle : (1 / norm src) • src + (1 / norm tgt) • tgt = 0 ∨ 1 / 10 ^ 7 ≤ norm ((1 / norm src) • src + (1 / norm tgt) • tgt)

/-! ### Lemmas -/

theorem dot_nonneg (x : Vec n) : 0 ≤ x ⬝ᵥ x := Finset.sum_nonneg fun i _ => mul_self_nonneg (x i)

theorem norm_sq (x : Vec n) : norm x * norm x = x ⬝ᵥ x := Real.mul_self_sqrt (dot_nonneg x)

theorem norm_nonneg (x : Vec n) : 0 ≤ norm x := Real.sqrt_nonneg _

theorem norm_smul (c : ℝ) (x : Vec n) : norm (c • x) = |c| * norm x := by
  unfold norm
  rw [smul_dotProduct, dotProduct_smul, smul_eq_mul, smul_eq_mul, ← mul_assoc, Real.sqrt_mul (mul_self_nonneg c), Real.sqrt_mul_self_eq_abs]

theorem cauchy (x y : Vec n) : |x ⬝ᵥ y| ≤ norm x * norm y := by
  have h : (x ⬝ᵥ y) ^ 2 ≤ (x ⬝ᵥ x) * (y ⬝ᵥ y) := by
    have := Finset.sum_mul_sq_le_sq_mul_sq Finset.univ x y
    simpa [dotProduct, sq] using this
  have h2 : |x ⬝ᵥ y| = Real.sqrt ((x ⬝ᵥ y) ^ 2) := (Real.sqrt_sq_eq_abs _).symm
  rw [h2]
  unfold norm
  rw [← Real.sqrt_mul (dot_nonneg x)]
  exact Real.sqrt_le_sqrt h

theorem norm_add_le (x y : Vec n) : norm (x + y) ≤ norm x + norm y := by
  have h : (x + y) ⬝ᵥ (x + y) ≤ (norm x + norm y) ^ 2 := by
    rw [add_dotProduct, dotProduct_add, dotProduct_add, dotProduct_comm y x]
    have := (abs_le.mp (cauchy x y)).2
    nlinarith [norm_sq x, norm_sq y]
  unfold norm at *
  calc _ ≤ Real.sqrt ((Real.sqrt (x ⬝ᵥ x) + Real.sqrt (y ⬝ᵥ y)) ^ 2) := Real.sqrt_le_sqrt h
    _ = _ := Real.sqrt_sq (add_nonneg (Real.sqrt_nonneg _) (Real.sqrt_nonneg _))

/-- A product of two reflections. -/
theorem transform_dot (u q x y : Vec n) (hu : u ⬝ᵥ u = 1) (hq : q ⬝ᵥ q = 1) (hw : u + q = 0 ∨ 1 / 10 ^ 7 ≤ norm (u + q)) :
    transform u q u = q ∧ transform u q x ⬝ᵥ transform u q y = x ⬝ᵥ y := by
  rcases hw with h0 | h1
  · have hqu : q = -u := by
      have := eq_neg_of_add_eq_zero_right h0
      exact this
    have hw0 : wOf u q = 0 := by unfold wOf l2Norm; rw [h0, smul_zero]
    unfold transform
    simp only [hw0]
    subst hqu
    constructor
    · rw [hu]; simp; module
    · simp only [dotProduct_zero, mul_zero, zero_smul, sub_zero, smul_neg, add_dotProduct, dotProduct_add, smul_dotProduct, dotProduct_smul,
        neg_dotProduct, dotProduct_neg, smul_eq_mul, hu]
      rw [dotProduct_comm u y]
      ring
  · have hpos : 0 < norm (u + q) := lt_of_lt_of_le (by norm_num) h1
    have hww : wOf u q = (1 / norm (u + q)) • (u + q) := by
      unfold wOf l2Norm
      rw [max_eq_left h1]
    have hs : (u + q) ⬝ᵥ (u + q) = 2 + 2 * (u ⬝ᵥ q) := by
      rw [add_dotProduct, dotProduct_add, dotProduct_add, dotProduct_comm q u, hu, hq]; ring
    have hN := norm_sq (u + q)
    rw [hs] at hN
    obtain ⟨c, hc⟩ : ∃ c, c = u ⬝ᵥ q := ⟨_, rfl⟩
    obtain ⟨N, hNe⟩ : ∃ N, N = norm (u + q) := ⟨_, rfl⟩
    rw [← hc, ← hNe] at hN
    rw [← hNe] at hpos hww
    have key : ∀ e : Vec n, transform u q e = e - (2 * (e ⬝ᵥ u + e ⬝ᵥ q) / (N * N)) • (u + q) + (2 * (e ⬝ᵥ u)) • q := by
      intro e
      unfold transform
      simp only [hww]
      rw [dotProduct_smul, dotProduct_add, smul_smul, smul_eq_mul]
      congr 3
      field_simp
    have hcp : 0 < 2 + 2 * c := by rw [← hN]; positivity
    have hc1 : 1 + c ≠ 0 := by intro h; linarith
    constructor
    · rw [key, hN, hu, ← hc]
      have : 2 * (1 + c) / (2 + 2 * c) = 1 := by field_simp
      rw [this]
      module
    · rw [key, key, hN]
      have hqu : q ⬝ᵥ u = c := by rw [dotProduct_comm, hc]
      simp only [add_dotProduct, sub_dotProduct, dotProduct_add, dotProduct_sub, smul_dotProduct, dotProduct_smul, smul_eq_mul, hu, hq, ← hc, hqu,
        dotProduct_comm u y, dotProduct_comm q y]
      field_simp
      ring

theorem transform_backward_dot (u q g y : Vec n) : transformBackward u q g ⬝ᵥ y = g ⬝ᵥ transform u q y := by
  unfold transformBackward transform
  simp only [add_dotProduct, sub_dotProduct, dotProduct_add, dotProduct_sub, smul_dotProduct, dotProduct_smul, smul_eq_mul]
  rw [dotProduct_comm y (wOf u q), dotProduct_comm y u]
  ring

theorem unit_of (x : Vec n) (h : 1 / 10 ^ 6 ≤ norm x) : unit x = (1 / norm x) • x ∧ unit x ⬝ᵥ unit x = 1 ∧ norm x • unit x = x := by
  have hpos : 0 < norm x := lt_of_lt_of_le (by norm_num) h
  have e : unit x = (1 / norm x) • x := by unfold unit; rw [max_eq_left h]
  refine ⟨e, ?_, ?_⟩
  · rw [e, smul_dotProduct, dotProduct_smul, ← norm_sq, smul_eq_mul, smul_eq_mul]
    field_simp
  · rw [e, smul_smul]
    have : norm x * (1 / norm x) = 1 := by field_simp
    rw [this, one_smul]

theorem transform_smul (u q e : Vec n) (c : ℝ) : transform u q (c • e) = c • transform u q e := by
  unfold transform
  simp only [smul_dotProduct, smul_eq_mul]
  module

theorem transform_add (u q e f : Vec n) : transform u q (e + f) = transform u q e + transform u q f := by
  unfold transform
  simp only [add_dotProduct]
  module

theorem Ordinary.units {src tgt : Vec n} (h : Ordinary src tgt) : unit src + unit tgt = 0 ∨ 1 / 10 ^ 7 ≤ norm (unit src + unit tgt) := by
  rw [(unit_of src h.lsrc).1, (unit_of tgt h.ltgt).1]
  exact h.angle

/-! ### Theorems -/

/-- **C94.** The quantised output is the code. -/
theorem C94_value (b : Bool) (src tgt : Vec n) (h : b = true → Ordinary src tgt) : straightThrough b src tgt = tgt := by
  unfold straightThrough
  cases b with
  | false => simp
  | true =>
    have h := h rfl
    obtain ⟨-, hu, hsu⟩ := unit_of src h.lsrc
    obtain ⟨-, hq, hsq⟩ := unit_of tgt h.ltgt
    simp only [if_true]
    unfold rotateTo frozen scale
    rw [max_eq_left h.lsrc]
    conv_lhs => rw [← hsu]
    have hpos : 0 < norm src := lt_of_lt_of_le (by norm_num) h.lsrc
    rw [hsu]
    conv_lhs => rw [show transform (unit src) (unit tgt) src = norm src • transform (unit src) (unit tgt) (unit src) by rw [← transform_smul, hsu]]
    rw [(transform_dot _ _ 0 0 hu hq h.units).1, smul_smul]
    have : norm tgt / norm src * norm src = norm tgt := by field_simp
    rw [this, hsq]

/-- **C94**, the backward pass is the transposed derivative of the forward pass, in which everything detached is fixed: the
forward pass is linear in the input that is not detached. -/
theorem C94_gradient (src tgt g y z : Vec n) (c : ℝ) :
    rotateTo src tgt = frozen src tgt src ∧
    frozen src tgt (c • y + z) = c • frozen src tgt y + frozen src tgt z ∧
    rotateBackward src tgt g ⬝ᵥ y = g ⬝ᵥ frozen src tgt y := by
  refine ⟨rfl, ?_, ?_⟩
  · unfold frozen
    rw [transform_add, transform_smul]
    module
  · unfold rotateBackward frozen
    rw [transform_backward_dot, smul_dotProduct, dotProduct_smul]

theorem transform_back_isometry (u q g k : Vec n) (hu : u ⬝ᵥ u = 1) (hq : q ⬝ᵥ q = 1) (hw : u + q = 0 ∨ 1 / 10 ^ 7 ≤ norm (u + q)) :
    transformBackward u q g ⬝ᵥ transformBackward u q k = g ⬝ᵥ k := by
  have e : ∀ x, transformBackward u q x = transform q u x := by
    intro x
    unfold transformBackward transform wOf
    rw [add_comm u q]
  rw [e, e]
  exact (transform_dot q u g k hq hu (by rwa [add_comm])).2

/-- **C94**, lengths and angles: all gradients are scaled by `‖code‖ / ‖input‖`, angles between gradients are kept, and the
angle of a gradient with the code becomes its angle with the input. -/
theorem C94_isometry (src tgt g k : Vec n) (h : Ordinary src tgt) :
    norm (rotateBackward src tgt g) = norm tgt / norm src * norm g ∧
    rotateBackward src tgt g ⬝ᵥ rotateBackward src tgt k = (norm tgt / norm src) ^ 2 * (g ⬝ᵥ k) ∧
    rotateBackward src tgt g ⬝ᵥ src = g ⬝ᵥ tgt := by
  obtain ⟨-, hu, -⟩ := unit_of src h.lsrc
  obtain ⟨-, hq, -⟩ := unit_of tgt h.ltgt
  have hsc : scale src tgt = norm tgt / norm src := by unfold scale; rw [max_eq_left h.lsrc]
  have hdot : ∀ g k : Vec n, rotateBackward src tgt g ⬝ᵥ rotateBackward src tgt k = (norm tgt / norm src) ^ 2 * (g ⬝ᵥ k) := by
    intro g k
    unfold rotateBackward
    rw [transform_back_isometry _ _ _ _ hu hq h.units, smul_dotProduct, dotProduct_smul, hsc, smul_eq_mul, smul_eq_mul]
    ring
  refine ⟨?_, hdot g k, ?_⟩
  · unfold norm
    rw [hdot, Real.sqrt_mul (sq_nonneg _), Real.sqrt_sq]
    · rfl
    · exact div_nonneg (norm_nonneg _) (norm_nonneg _)
  · rw [(C94_gradient src tgt g src 0 0).2.2]
    have := C94_value true src tgt fun _ => h
    unfold straightThrough at this
    simp only [if_true] at this
    rw [← (C94_gradient src tgt g src 0 0).1, this]

/-- **C94**, outside the plane of input and code gradients are only scaled. -/
theorem C94_plane (src tgt g : Vec n) (h : Ordinary src tgt) (h1 : g ⬝ᵥ src = 0) (h2 : g ⬝ᵥ tgt = 0) :
    rotateBackward src tgt g = (norm tgt / norm src) • g := by
  have hsc : scale src tgt = norm tgt / norm src := by unfold scale; rw [max_eq_left h.lsrc]
  unfold rotateBackward transformBackward wOf l2Norm
  rw [hsc, (unit_of src h.lsrc).1, (unit_of tgt h.ltgt).1]
  simp [dotProduct_smul, smul_dotProduct, dotProduct_add, h1, h2]

/-- **C94**, the plain estimator passes gradients through. -/
theorem C94_plain (src tgt g : Vec n) : straightThroughBackward false src tgt g = g := rfl

/-- **C94**, nearly opposite vectors: the error of the value is at most `10^-7` of the code. -/
theorem C94_value_near (src tgt : Vec n) (hs : 1 / 10 ^ 6 ≤ norm src) (ht : 1 / 10 ^ 6 ≤ norm tgt) :
    norm (rotateTo src tgt - tgt) ≤ 1 / 10 ^ 7 * norm tgt := by
  by_cases hw : 1 / 10 ^ 7 ≤ norm (unit src + unit tgt)
  · have := C94_value true src tgt fun _ => ⟨hs, ht, by rw [← (unit_of src hs).1, ← (unit_of tgt ht).1]; exact Or.inr hw⟩
    unfold straightThrough at this
    simp only [if_true] at this
    rw [this, sub_self]
    have : norm (0 : Vec n) = 0 := by simp [norm]
    rw [this]
    exact mul_nonneg (by norm_num) (norm_nonneg _)
  · have hlt : norm (unit src + unit tgt) < 1 / 10 ^ 7 := not_le.mp hw
    obtain ⟨-, hu, hsu⟩ := unit_of src hs
    obtain ⟨-, hq, hsq⟩ := unit_of tgt ht
    obtain ⟨u, hue⟩ : ∃ u, u = unit src := ⟨_, rfl⟩
    obtain ⟨q, hqe⟩ : ∃ q, q = unit tgt := ⟨_, rfl⟩
    rw [← hue] at hu hsu hlt
    rw [← hqe] at hq hsq hlt
    have hss : (u + q) ⬝ᵥ (u + q) = 2 + 2 * (u ⬝ᵥ q) := by
      rw [add_dotProduct, dotProduct_add, dotProduct_add, dotProduct_comm q u, hu, hq]; ring
    have hN := norm_sq (u + q)
    rw [hss] at hN
    obtain ⟨N, hNe⟩ : ∃ N, N = norm (u + q) := ⟨_, rfl⟩
    rw [← hNe] at hN hlt
    have hN0 : 0 ≤ N := hNe ▸ norm_nonneg _
    have hw' : wOf u q = ((10 : ℝ) ^ 7) • (u + q) := by
      unfold wOf l2Norm
      rw [max_eq_right (by rw [← hNe]; exact hlt.le)]
      norm_num
    have hval : rotateTo src tgt - tgt = (norm tgt * (1 - (10 : ℝ) ^ 14 * (N * N))) • (u + q) := by
      unfold rotateTo frozen scale
      rw [max_eq_left hs, ← hue, ← hqe]
      have hpos : 0 < norm src := lt_of_lt_of_le (by norm_num) hs
      rw [show transform u q src = norm src • transform u q u by rw [← transform_smul, hsu], smul_smul]
      have e1 : norm tgt / norm src * norm src = norm tgt := by field_simp
      rw [e1]
      have e2 : transform u q u = q + (1 - (10 : ℝ) ^ 14 * (N * N)) • (u + q) := by
        unfold transform
        simp only [hw', dotProduct_smul, dotProduct_add, hu, smul_smul, smul_eq_mul]
        rw [hN]
        module
      rw [e2]
      conv_lhs => rw [← hsq]
      rw [show norm (norm tgt • q) = norm tgt by rw [hsq]]
      module
    rw [hval, norm_smul, ← hNe, abs_mul, abs_of_nonneg (norm_nonneg tgt)]
    have hle : |1 - (10 : ℝ) ^ 14 * (N * N)| ≤ 1 := by
      rw [abs_le]
      constructor
      · nlinarith
      · nlinarith [mul_self_nonneg N]
    have h1 : |1 - (10 : ℝ) ^ 14 * (N * N)| * N ≤ 1 / 10 ^ 7 := by
      calc _ ≤ 1 * N := mul_le_mul_of_nonneg_right hle hN0
        _ ≤ _ := by linarith
    calc _ = norm tgt * (|1 - (10 : ℝ) ^ 14 * (N * N)| * N) := by ring
      _ ≤ norm tgt * (1 / 10 ^ 7) := mul_le_mul_of_nonneg_left h1 (norm_nonneg _)
      _ = _ := by ring

/-! ### Finding -/

/-- **C94**, a zero input is not quantised by the rotation: the output is zero instead of the code. -/
theorem C94_zero_source (tgt : Vec n) : straightThrough true 0 tgt = 0 := by
  unfold straightThrough rotateTo frozen transform
  simp

end Verif.Rotate
