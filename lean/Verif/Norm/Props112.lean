import Verif.Norm.Model
import Mathlib.Analysis.SpecialFunctions.Pow.Deriv
import Mathlib.Analysis.SpecialFunctions.Sqrt
import Mathlib.Analysis.Calculus.Deriv.Add
import Mathlib.Analysis.Calculus.Deriv.Mul
import Mathlib.Tactic.FieldSimp
import Mathlib.Tactic.Linarith
import Mathlib.Tactic.Positivity
import Mathlib.Tactic.Ring

/-!
# C112: masked batch normalisation normalises the real cells, and its hand-written gradient is the gradient

This file: the gradient.
-/
namespace Verif.Norm

variable {ι : Type} [Fintype ι]

/-! ### Specification -/

/-- Which cells are real: all of them without a mask. -/
def weightOf (mask : Option (ι → ℝ)) (i : ι) : ℝ :=
  match mask with
  | none => 1
  | some m => m i

/-- A mask of zeros and ones that is not all zero. -/
structure GoodMask (mask : Option (ι → ℝ)) : Prop where
  binary : ∀ i, weightOf mask i = 0 ∨ weightOf mask i = 1
  some_cell : ∃ i, weightOf mask i = 1

/-- The number of real cells. -/
noncomputable def size (mask : Option (ι → ℝ)) : ℝ := ∑ i, weightOf mask i

/-- The mean and the variance of `x` over the real cells. -/
noncomputable def meanOf (mask : Option (ι → ℝ)) (x : ι → ℝ) : ℝ := (∑ i, weightOf mask i * x i) / size mask
noncomputable def varOf (mask : Option (ι → ℝ)) (x : ι → ℝ) : ℝ := (∑ i, weightOf mask i * (x i - meanOf mask x) ^ 2) / size mask

/-- Masked batch normalisation: `weight · scale · (x - mean) / √(var + eps) + bias` at the real cells, zero elsewhere. -/
noncomputable def normOf (eps : ℝ) (mask : Option (ι → ℝ)) (w b s : ℝ) (x : ι → ℝ) (i : ι) : ℝ :=
  weightOf mask i * (w * s * (x i - meanOf mask x) / Real.sqrt (varOf mask x + eps) + b)

/-! ### Auxiliary -/

theorem masked_eq (mask : Option (ι → ℝ)) (x : ι → ℝ) (i : ι) : masked mask x i = weightOf mask i * x i := by
  unfold masked weightOf
  cases mask with
  | none => exact (one_mul _).symm
  | some m => exact mul_comm _ _

theorem size_pos (mask : Option (ι → ℝ)) (h : GoodMask mask) : 0 < size mask := by
  obtain ⟨i, hi⟩ := h.some_cell
  unfold size
  refine Finset.sum_pos' (fun j _ => ?_) ⟨i, Finset.mem_univ i, by rw [hi]; norm_num⟩
  rcases h.binary j with h | h <;> rw [h] <;> norm_num

theorem invCount_eq (mask : Option (ι → ℝ)) : invCount mask = 1 / size mask := by
  unfold invCount size weightOf
  cases mask with
  | none => simp
  | some m => rfl

theorem sq_weight (mask : Option (ι → ℝ)) (h : GoodMask mask) (i : ι) : weightOf mask i ^ 2 = weightOf mask i := by
  rcases h.binary i with h | h <;> rw [h] <;> norm_num

theorem mean_code (mask : Option (ι → ℝ)) (x : ι → ℝ) : (∑ i, masked mask x i) * invCount mask = meanOf mask x := by
  rw [invCount_eq, mul_one_div]
  unfold meanOf
  congr 1
  exact Finset.sum_congr rfl fun i _ => masked_eq mask x i

/-- Real cells deviate from the mean by zero on average. -/
theorem sum_dev (mask : Option (ι → ℝ)) (h : GoodMask mask) (x : ι → ℝ) : ∑ i, weightOf mask i * (x i - meanOf mask x) = 0 := by
  have hn := (size_pos mask h).ne'
  simp only [mul_sub, Finset.sum_sub_distrib]
  rw [← Finset.sum_mul]
  show _ - size mask * meanOf mask x = 0
  unfold meanOf
  field_simp
  ring

theorem varOf_nonneg (mask : Option (ι → ℝ)) (h : GoodMask mask) (x : ι → ℝ) : 0 ≤ varOf mask x := by
  unfold varOf
  refine div_nonneg (Finset.sum_nonneg fun i _ => ?_) (size_pos mask h).le
  rcases h.binary i with h | h <;> rw [h]
  · simp
  · rw [one_mul]; positivity

/-- The second moment less the squared mean is the variance. -/
theorem second_code (mask : Option (ι → ℝ)) (h : GoodMask mask) (x : ι → ℝ) :
    (∑ i, masked mask x i ^ 2) * invCount mask - meanOf mask x ^ 2 = varOf mask x := by
  have hn := (size_pos mask h).ne'
  have h1 : ∀ i, masked mask x i ^ 2 = weightOf mask i * (x i - meanOf mask x) ^ 2 + 2 * meanOf mask x * (weightOf mask i * (x i - meanOf mask x)) +
      meanOf mask x ^ 2 * weightOf mask i := by
    intro i
    rw [masked_eq, mul_pow, sq_weight mask h]
    ring
  have h2 : ∑ i, masked mask x i ^ 2 = (∑ i, weightOf mask i * (x i - meanOf mask x) ^ 2) + meanOf mask x ^ 2 * size mask := by
    rw [Finset.sum_congr rfl fun i _ => h1 i, Finset.sum_add_distrib, Finset.sum_add_distrib, ← Finset.mul_sum, ← Finset.mul_sum, sum_dev mask h]
    unfold size
    ring
  rw [h2, invCount_eq]
  unfold varOf
  field_simp
  ring

theorem var_code (mask : Option (ι → ℝ)) (h : GoodMask mask) (x : ι → ℝ) :
    max ((∑ i, masked mask x i ^ 2) * invCount mask - ((∑ i, masked mask x i) * invCount mask) ^ 2) 0 = varOf mask x := by
  rw [mean_code, second_code mask h, max_eq_left (varOf_nonneg mask h x)]

/-- (weight, bias) or none, as numbers. -/
def wOf (affine : Option (ℝ × ℝ)) : ℝ := match affine with | none => 1 | some a => a.1
def bOf (affine : Option (ℝ × ℝ)) : ℝ := match affine with | none => 0 | some a => a.2

theorem fwd_out (eps : ℝ) (x : ι → ℝ) (mask : Option (ι → ℝ)) (h : GoodMask mask) (affine : Option (ℝ × ℝ)) (scale : Option ℝ) :
    (fwd eps x mask affine scale).out = normOf eps mask (wOf affine) (bOf affine) (scale.getD 1) x := by
  funext i
  unfold fwd
  simp only []
  rw [var_code mask h, mean_code]
  cases affine with
  | none =>
    simp only []
    rw [masked_eq]
    unfold normOf rsqrt wOf bOf
    simp only []
    ring
  | some a =>
    obtain ⟨w, b⟩ := a
    simp only []
    rw [masked_eq]
    unfold normOf rsqrt wOf bOf
    simp only []
    ring

/-- The saved context. -/
theorem fwd_ctx (eps : ℝ) (x : ι → ℝ) (mask : Option (ι → ℝ)) (h : GoodMask mask) (affine : Option (ℝ × ℝ)) (scale : Option ℝ) :
    (fwd eps x mask affine scale).ctx = ⟨x, mask, meanOf mask x, rsqrt (varOf mask x + eps), 1 / size mask, wOf affine * scale.getD 1, scale.getD 1,
      affine.isSome⟩ := by
  unfold fwd
  simp only []
  rw [var_code mask h, mean_code, invCount_eq]
  cases affine with
  | none => simp only []; unfold wOf; simp only []; rw [one_mul]; rfl
  | some a => obtain ⟨w, b⟩ := a; rfl

/-- The returned gradient of `x`, written out. -/
theorem bwd_x (eps : ℝ) (x : ι → ℝ) (mask : Option (ι → ℝ)) (h : GoodMask mask) (affine : Option (ℝ × ℝ)) (scale : Option ℝ) (g : ι → ℝ) (i : ι) :
    (bwd (fwd eps x mask affine scale).ctx g).x i = weightOf mask i * (wOf affine * scale.getD 1 * rsqrt (varOf mask x + eps)) *
      (weightOf mask i * g i - (∑ j, weightOf mask j * g j) / size mask
        - (x i - meanOf mask x) * rsqrt (varOf mask x + eps) * (∑ j, weightOf mask j * g j * ((x j - meanOf mask x) * rsqrt (varOf mask x + eps))) / size mask) := by
  rw [fwd_ctx eps x mask h]
  unfold bwd
  simp only []
  rw [masked_eq]
  have e1 : ∑ j, masked mask g j = ∑ j, weightOf mask j * g j := Finset.sum_congr rfl fun j _ => masked_eq mask g j
  have e2 : ∑ j, masked mask g j * ((x j - meanOf mask x) * rsqrt (varOf mask x + eps)) =
      ∑ j, weightOf mask j * g j * ((x j - meanOf mask x) * rsqrt (varOf mask x + eps)) := Finset.sum_congr rfl fun j _ => by rw [masked_eq]
  rw [e1, e2, masked_eq]
  ring

theorem bwd_weight (eps : ℝ) (x : ι → ℝ) (mask : Option (ι → ℝ)) (h : GoodMask mask) (w b : ℝ) (scale : Option ℝ) (g : ι → ℝ) :
    (bwd (fwd eps x mask (some (w, b)) scale).ctx g).weight =
      some ((∑ j, weightOf mask j * g j * ((x j - meanOf mask x) * rsqrt (varOf mask x + eps))) * scale.getD 1) ∧
    (bwd (fwd eps x mask (some (w, b)) scale).ctx g).bias = some (∑ j, weightOf mask j * g j) := by
  rw [fwd_ctx eps x mask h]
  unfold bwd
  simp only [Option.isSome_some, if_true]
  have e1 : ∑ j, masked mask g j = ∑ j, weightOf mask j * g j := Finset.sum_congr rfl fun j _ => masked_eq mask g j
  have e2 : ∑ j, masked mask g j * ((x j - meanOf mask x) * rsqrt (varOf mask x + eps)) =
      ∑ j, weightOf mask j * g j * ((x j - meanOf mask x) * rsqrt (varOf mask x + eps)) := Finset.sum_congr rfl fun j _ => by rw [masked_eq]
  rw [e1, e2]
  exact ⟨rfl, rfl⟩

/-- The derivative of the mean along a curve. -/
theorem mean_deriv (mask : Option (ι → ℝ)) (x : ℝ → ι → ℝ) (v : ι → ℝ) (t : ℝ) (hx : ∀ i, HasDerivAt (fun u => x u i) (v i) t) :
    HasDerivAt (fun u => meanOf mask (x u)) (meanOf mask v) t := by
  unfold meanOf
  refine HasDerivAt.div_const ?_ _
  exact HasDerivAt.fun_sum fun i _ => (hx i).const_mul _

theorem var_deriv (mask : Option (ι → ℝ)) (h : GoodMask mask) (x : ℝ → ι → ℝ) (v : ι → ℝ) (t : ℝ)
    (hx : ∀ i, HasDerivAt (fun u => x u i) (v i) t) :
    HasDerivAt (fun u => varOf mask (x u)) (2 * (∑ i, weightOf mask i * (x t i - meanOf mask (x t)) * v i) / size mask) t := by
  have h1 : HasDerivAt (fun u => varOf mask (x u))
      ((∑ i, weightOf mask i * (2 * (x t i - meanOf mask (x t)) * (v i - meanOf mask v))) / size mask) t := by
    unfold varOf
    refine HasDerivAt.div_const ?_ _
    refine HasDerivAt.fun_sum fun i _ => ?_
    have := ((hx i).sub (mean_deriv mask x v t hx)).pow 2
    have := this.const_mul (weightOf mask i)
    simpa using this
  have h2 : (∑ i, weightOf mask i * (2 * (x t i - meanOf mask (x t)) * (v i - meanOf mask v))) =
      2 * ∑ i, weightOf mask i * (x t i - meanOf mask (x t)) * v i := by
    have : ∀ i, weightOf mask i * (2 * (x t i - meanOf mask (x t)) * (v i - meanOf mask v)) =
        2 * (weightOf mask i * (x t i - meanOf mask (x t)) * v i) - 2 * meanOf mask v * (weightOf mask i * (x t i - meanOf mask (x t))) := by
      intro i; ring
    rw [Finset.sum_congr rfl fun i _ => this i, Finset.sum_sub_distrib, ← Finset.mul_sum, ← Finset.mul_sum, sum_dev mask h]
    ring
  rw [h2] at h1
  exact h1

theorem rsqrt_deriv (f : ℝ → ℝ) (f' t : ℝ) (hf : HasDerivAt f f' t) (hp : 0 < f t) :
    HasDerivAt (fun u => rsqrt (f u)) (-(1 / 2) * rsqrt (f t) ^ 3 * f') t := by
  have hs := hf.sqrt hp.ne'
  have hne : Real.sqrt (f t) ≠ 0 := (Real.sqrt_pos.mpr hp).ne'
  have := hs.inv hne
  have he : (fun u => rsqrt (f u)) = (fun u => Real.sqrt (f u))⁻¹ := by
    funext u
    unfold rsqrt
    rw [Pi.inv_apply, one_div]
  rw [he]
  refine this.congr_deriv ?_
  unfold rsqrt
  field_simp

/-- The core: the derivative of a loss along a curve of inputs, weights and biases. -/
theorem loss_deriv (eps : ℝ) (heps : 0 < eps) (mask : Option (ι → ℝ)) (h : GoodMask mask) (s : ℝ) (g : ι → ℝ) (x : ℝ → ι → ℝ) (v : ι → ℝ)
    (w b : ℝ → ℝ) (w' b' t : ℝ) (hx : ∀ i, HasDerivAt (fun u => x u i) (v i) t) (hw : HasDerivAt w w' t) (hb : HasDerivAt b b' t) :
    HasDerivAt (fun u => ∑ i, g i * normOf eps mask (w u) (b u) s (x u) i)
      ((∑ i, weightOf mask i * (w t * s * rsqrt (varOf mask (x t) + eps)) *
        (weightOf mask i * g i - (∑ j, weightOf mask j * g j) / size mask
          - (x t i - meanOf mask (x t)) * rsqrt (varOf mask (x t) + eps) *
            (∑ j, weightOf mask j * g j * ((x t j - meanOf mask (x t)) * rsqrt (varOf mask (x t) + eps))) / size mask) * v i)
        + (∑ j, weightOf mask j * g j * ((x t j - meanOf mask (x t)) * rsqrt (varOf mask (x t) + eps))) * s * w'
        + (∑ j, weightOf mask j * g j) * b') t := by
  have hvp : 0 < varOf mask (x t) + eps := by have := varOf_nonneg mask h (x t); linarith
  have hr := rsqrt_deriv (fun u => varOf mask (x u) + eps) _ t ((var_deriv mask h x v t hx).add_const eps) hvp
  obtain ⟨r, hrdef⟩ : ∃ r, r = rsqrt (varOf mask (x t) + eps) := ⟨_, rfl⟩
  obtain ⟨μ, hμ⟩ : ∃ μ, μ = meanOf mask (x t) := ⟨_, rfl⟩
  obtain ⟨V, hV⟩ : ∃ V, V = ∑ i, weightOf mask i * (x t i - μ) * v i := ⟨_, rfl⟩
  rw [← hμ, ← hV] at hr
  rw [← hrdef] at hr
  rw [← hμ, ← hrdef]
  have hterm : ∀ i, HasDerivAt (fun u => g i * normOf eps mask (w u) (b u) s (x u) i)
      (g i * (weightOf mask i * ((w' * s * (x t i - μ) + w t * s * (v i - meanOf mask v)) * r
        + w t * s * (x t i - μ) * (-(1 / 2) * r ^ 3 * (2 * V / size mask)) + b'))) t := by
    intro i
    have hd := (hx i).sub (mean_deriv mask x v t hx)
    have h1 := ((hw.mul_const s).mul hd).mul hr
    have h2 := ((h1.add hb).const_mul (weightOf mask i)).const_mul (g i)
    have he : (fun u => g i * normOf eps mask (w u) (b u) s (x u) i) =
        fun u => g i * (weightOf mask i * (w u * s * (x u i - meanOf mask (x u)) * rsqrt (varOf mask (x u) + eps) + b u)) := by
      funext u
      unfold normOf rsqrt
      ring
    rw [he]
    refine h2.congr_deriv ?_
    simp only [Pi.mul_apply, Pi.sub_apply]
    rw [← hμ, ← hrdef]
  have hsum := HasDerivAt.fun_sum (u := Finset.univ) fun i _ => hterm i
  refine hsum.congr_deriv ?_
  obtain ⟨G, hG⟩ : ∃ G, G = ∑ j, weightOf mask j * g j := ⟨_, rfl⟩
  obtain ⟨D, hD⟩ : ∃ D, D = ∑ j, weightOf mask j * g j * ((x t j - μ) * r) := ⟨_, rfl⟩
  obtain ⟨A, hA⟩ : ∃ A, A = ∑ j, weightOf mask j * g j * v j := ⟨_, rfl⟩
  rw [← hG, ← hD]
  have hn := (size_pos mask h).ne'
  have hM : meanOf mask v = (∑ j, weightOf mask j * v j) / size mask := rfl
  -- left: collect
  have hl : ∀ i, g i * (weightOf mask i * ((w' * s * (x t i - μ) + w t * s * (v i - meanOf mask v)) * r
        + w t * s * (x t i - μ) * (-(1 / 2) * r ^ 3 * (2 * V / size mask)) + b')) =
      (w' * s - w t * s * r * (r * (V / size mask))) * (weightOf mask i * g i * ((x t i - μ) * r)) + w t * s * r * (weightOf mask i * g i * v i)
        + (b' - w t * s * r * meanOf mask v) * (weightOf mask i * g i) := by
    intro i; ring
  rw [Finset.sum_congr rfl fun i _ => hl i, Finset.sum_add_distrib, Finset.sum_add_distrib, ← Finset.mul_sum, ← Finset.mul_sum, ← Finset.mul_sum,
    ← hG, ← hD, ← hA]
  -- right: collect
  have hrr : ∀ i, weightOf mask i * (w t * s * r) * (weightOf mask i * g i - G / size mask - (x t i - μ) * r * D / size mask) * v i =
      w t * s * r * (weightOf mask i * g i * v i) - w t * s * r * (G / size mask) * (weightOf mask i * v i)
        - w t * s * r * (r * D / size mask) * (weightOf mask i * (x t i - μ) * v i) := by
    intro i
    have := sq_weight mask h i
    have e : weightOf mask i * (w t * s * r) * (weightOf mask i * g i - G / size mask - (x t i - μ) * r * D / size mask) * v i =
      w t * s * r * (weightOf mask i ^ 2 * g i * v i) - w t * s * r * (G / size mask) * (weightOf mask i * v i)
        - w t * s * r * (r * D / size mask) * (weightOf mask i * (x t i - μ) * v i) := by ring
    rw [e, this]
  rw [Finset.sum_congr rfl fun i _ => hrr i, Finset.sum_sub_distrib, Finset.sum_sub_distrib, ← Finset.mul_sum, ← Finset.mul_sum, ← Finset.mul_sum,
    ← hA, ← hV, hM]
  ring

/-! ### Theorems -/

/-- **C112 (the gradient).** For a mask of zeros and ones with some real cell: along every differentiable curve of inputs, weights and biases,
the loss with output gradient `g` changes by exactly the returned gradients. -/
theorem C112_gradient (eps : ℝ) (heps : 0 < eps) (mask : Option (ι → ℝ)) (h : GoodMask mask) (scale : Option ℝ) (g : ι → ℝ) (x : ℝ → ι → ℝ)
    (v : ι → ℝ) (w b : ℝ → ℝ) (w' b' t : ℝ) (hx : ∀ i, HasDerivAt (fun u => x u i) (v i) t) (hw : HasDerivAt w w' t) (hb : HasDerivAt b b' t) :
    ∃ gw gb, (bwd (fwd eps (x t) mask (some (w t, b t)) scale).ctx g).weight = some gw ∧
      (bwd (fwd eps (x t) mask (some (w t, b t)) scale).ctx g).bias = some gb ∧
      HasDerivAt (fun u => ∑ i, g i * (fwd eps (x u) mask (some (w u, b u)) scale).out i)
        ((∑ i, (bwd (fwd eps (x t) mask (some (w t, b t)) scale).ctx g).x i * v i) + gw * w' + gb * b') t := by
  obtain ⟨h1, h2⟩ := bwd_weight eps (x t) mask h (w t) (b t) scale g
  refine ⟨_, _, h1, h2, ?_⟩
  have := loss_deriv eps heps mask h (scale.getD 1) g x v w b w' b' t hx hw hb
  have he : (fun u => ∑ i, g i * (fwd eps (x u) mask (some (w u, b u)) scale).out i) =
      fun u => ∑ i, g i * normOf eps mask (w u) (b u) (scale.getD 1) (x u) i := by
    funext u
    rw [fwd_out eps (x u) mask h]
    rfl
  rw [he]
  refine this.congr_deriv ?_
  have hs : (∑ i, (bwd (fwd eps (x t) mask (some (w t, b t)) scale).ctx g).x i * v i) = _ :=
    Finset.sum_congr rfl fun i _ => by rw [bwd_x eps (x t) mask h]
  rw [hs]
  rfl

/-- **C112 (the gradient without weights).** -/
theorem C112_gradient_plain (eps : ℝ) (heps : 0 < eps) (mask : Option (ι → ℝ)) (h : GoodMask mask) (scale : Option ℝ) (g : ι → ℝ)
    (x : ℝ → ι → ℝ) (v : ι → ℝ) (t : ℝ) (hx : ∀ i, HasDerivAt (fun u => x u i) (v i) t) :
    (bwd (fwd eps (x t) mask none scale).ctx g).weight = none ∧ (bwd (fwd eps (x t) mask none scale).ctx g).bias = none ∧
    HasDerivAt (fun u => ∑ i, g i * (fwd eps (x u) mask none scale).out i)
      (∑ i, (bwd (fwd eps (x t) mask none scale).ctx g).x i * v i) t := by
  refine ⟨rfl, rfl, ?_⟩
  have := loss_deriv eps heps mask h (scale.getD 1) g x v (fun _ => 1) (fun _ => 0) 0 0 t hx (hasDerivAt_const t 1) (hasDerivAt_const t 0)
  have he : (fun u => ∑ i, g i * (fwd eps (x u) mask none scale).out i) =
      fun u => ∑ i, g i * normOf eps mask 1 0 (scale.getD 1) (x u) i := by
    funext u
    rw [fwd_out eps (x u) mask h]
    rfl
  rw [he]
  refine this.congr_deriv ?_
  rw [mul_zero, mul_zero, add_zero, add_zero]
  refine Finset.sum_congr rfl fun i _ => ?_
  rw [bwd_x eps (x t) mask h]
  rfl

end Verif.Norm
