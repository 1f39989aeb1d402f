/-
C92: the Newton–Schulz iteration acts on the singular values only.
-/
import Verif.Muon.Model
import Mathlib.Analysis.Matrix.Spectrum
import Mathlib.Analysis.Matrix.PosDef
import Mathlib.Data.Real.StarOrdered
import Mathlib.Tactic.Linarith
import Mathlib.Tactic.Ring
import Mathlib.Tactic.NormNum
import Mathlib.Tactic.FieldSimp
import Mathlib.Tactic.Positivity

set_option linter.unusedSectionVars false
namespace Verif.Muon
open Matrix

/-! ### Specification -/

/-- `X = U diag(s) Vᵀ` with orthonormal columns in `U` and in `V`. -/
structure SVD {m n : Nat} {k : Type} [Fintype k] [DecidableEq k] (X : Matrix (Fin m) (Fin n) ℝ)
    (U : Matrix (Fin m) k ℝ) (s : k → ℝ) (V : Matrix (Fin n) k ℝ) : Prop where
  left : Uᵀ * U = 1
  right : Vᵀ * V = 1
  eq : X = U * diagonal s * Vᵀ

/-- The scalar quintic of the iteration. -/
noncomputable def quintic (x : ℝ) : ℝ := 3.4445 * x - 4.775 * x ^ 3 + 2.0315 * x ^ 5

/-! ### Proof -/

section
variable {m n : Nat} {k : Type} [Fintype k] [DecidableEq k]

theorem nsStep_eq (b : Bool) (X : Matrix (Fin m) (Fin n) ℝ) :
    nsStep b X = cA • X + cB • (X * Xᵀ * X) + cC • (X * Xᵀ * (X * Xᵀ) * X) := by
  unfold nsStep baddbmm
  cases b <;> simp [Matrix.add_mul, add_assoc]

/-- **C92**, both kernels compute the same. -/
theorem C92_kernels (steps : Nat) (b b' : Bool) (G : Matrix (Fin m) (Fin n) ℝ) : zeropower steps b G = zeropower steps b' G := by
  have h : ∀ {m n : Nat}, (nsStep b : Matrix (Fin m) (Fin n) ℝ → _) = nsStep b' := fun {m n} => by
    funext X
    rw [nsStep_eq, nsStep_eq]
  unfold zeropower
  rw [h, h]

theorem SVD.transpose {X : Matrix (Fin m) (Fin n) ℝ} {U : Matrix (Fin m) k ℝ} {s : k → ℝ} {V : Matrix (Fin n) k ℝ}
    (h : SVD X U s V) : SVD Xᵀ V s U := by
  refine ⟨h.right, h.left, ?_⟩
  rw [h.eq]
  simp [Matrix.transpose_mul, Matrix.mul_assoc]

theorem SVD.step (b : Bool) {X : Matrix (Fin m) (Fin n) ℝ} {U : Matrix (Fin m) k ℝ} {s : k → ℝ} {V : Matrix (Fin n) k ℝ}
    (h : SVD X U s V) : SVD (nsStep b X) U (fun i => quintic (s i)) V := by
  refine ⟨h.left, h.right, ?_⟩
  have hA : X * Xᵀ = U * diagonal (fun i => s i ^ 2) * Uᵀ := by
    have hT := h.transpose.eq
    rw [hT, h.eq]
    calc U * diagonal s * Vᵀ * (V * diagonal s * Uᵀ) = U * diagonal s * (Vᵀ * V) * diagonal s * Uᵀ := by
          simp only [Matrix.mul_assoc]
      _ = U * (diagonal s * diagonal s) * Uᵀ := by rw [h.right]; simp only [Matrix.mul_assoc, Matrix.one_mul]
      _ = _ := by rw [diagonal_mul_diagonal]; simp only [pow_two]
  have hM : ∀ (d e : k → ℝ) (W : Matrix k (Fin n) ℝ), U * diagonal d * Uᵀ * (U * diagonal e * W) = U * diagonal (fun i => d i * e i) * W := by
    intro d e W
    calc U * diagonal d * Uᵀ * (U * diagonal e * W) = U * diagonal d * (Uᵀ * U) * diagonal e * W := by
          simp only [Matrix.mul_assoc]
      _ = U * (diagonal d * diagonal e) * W := by rw [h.left]; simp only [Matrix.mul_assoc, Matrix.one_mul]
      _ = _ := by rw [diagonal_mul_diagonal]
  rw [nsStep_eq, hA]
  rw [Matrix.mul_assoc (U * diagonal (fun i => s i ^ 2) * Uᵀ)]
  rw [h.eq, hM, hM]
  have hs : ∀ (c : ℝ) (d : k → ℝ), c • (U * diagonal d * Vᵀ) = U * diagonal (fun i => c * d i) * Vᵀ := by
    intro c d
    rw [← Matrix.smul_mul, ← Matrix.mul_smul]
    congr 2
    ext i j
    by_cases hij : i = j <;> simp [hij, diagonal]
  have ha : ∀ (d e : k → ℝ), U * diagonal d * Vᵀ + U * diagonal e * Vᵀ = U * diagonal (fun i => d i + e i) * Vᵀ := by
    intro d e
    rw [← Matrix.add_mul, ← Matrix.mul_add, diagonal_add]
  rw [hs, hs, hs, ha, ha]
  congr 3
  funext i
  unfold quintic cA cB cC
  ring

theorem SVD.iter (b : Bool) (t : Nat) {X : Matrix (Fin m) (Fin n) ℝ} {U : Matrix (Fin m) k ℝ} {s : k → ℝ} {V : Matrix (Fin n) k ℝ}
    (h : SVD X U s V) : SVD ((nsStep b)^[t] X) U (fun i => quintic^[t] (s i)) V := by
  induction t generalizing X s with
  | zero => exact h
  | succ t ih => exact ih (h.step b)

theorem SVD.smul (c : ℝ) {X : Matrix (Fin m) (Fin n) ℝ} {U : Matrix (Fin m) k ℝ} {s : k → ℝ} {V : Matrix (Fin n) k ℝ}
    (h : SVD X U s V) : SVD (c • X) U (fun i => c * s i) V := by
  refine ⟨h.left, h.right, ?_⟩
  rw [h.eq, ← Matrix.smul_mul, ← Matrix.mul_smul]
  congr 2
  ext i j
  by_cases hij : i = j <;> simp [hij, diagonal]

theorem frob_transpose (X : Matrix (Fin m) (Fin n) ℝ) : frob Xᵀ = frob X := by
  unfold frob
  rw [Finset.sum_comm]
  rfl

/-- **C92.** For every singular value decomposition `G = U diag(σ) Vᵀ`, orthogonalisation returns
`U diag(τ) Vᵀ`: the singular vectors stay, and each singular value becomes the quintic, iterated, of the
value divided by the Frobenius norm (or by 10⁻⁷ for smaller norms); with either product kernel, for tall
and wide matrices alike. -/
theorem C92_singular_values (steps : Nat) (b : Bool) (G : Matrix (Fin m) (Fin n) ℝ) (U : Matrix (Fin m) k ℝ) (σ : k → ℝ)
    (V : Matrix (Fin n) k ℝ) (h : SVD G U σ V) :
    SVD (zeropower steps b G) U (fun i => quintic^[steps] (σ i / max (frob G) (1 / 10 ^ 7))) V := by
  unfold zeropower
  have e : (fun i => (max (frob G) (1 / 10 ^ 7))⁻¹ * σ i) = fun i => σ i / max (frob G) (1 / 10 ^ 7) := by
    funext i; exact (div_eq_inv_mul _ _).symm
  by_cases hmn : m > n
  · rw [if_pos hmn]
    have := (h.transpose.smul (max (frob G) (1 / 10 ^ 7))⁻¹)
    rw [e] at this
    have h2 : normalize Gᵀ = (max (frob G) (1 / 10 ^ 7))⁻¹ • Gᵀ := by unfold normalize; rw [frob_transpose]
    rw [h2]
    exact (this.iter b steps).transpose
  · rw [if_neg hmn]
    have := h.smul (max (frob G) (1 / 10 ^ 7))⁻¹
    rw [e] at this
    exact this.iter b steps

/-- The squares of the singular values add up to the square of the Frobenius norm. -/
theorem SVD.sum_sq {G : Matrix (Fin m) (Fin n) ℝ} {U : Matrix (Fin m) k ℝ} {σ : k → ℝ} {V : Matrix (Fin n) k ℝ} (h : SVD G U σ V) :
    frob G ^ 2 = ∑ i, σ i ^ 2 := by
  have h1 : frob G ^ 2 = (G * Gᵀ).trace := by
    have h0 : 0 ≤ ∑ i, ∑ j, G i j ^ 2 := Finset.sum_nonneg fun i _ => Finset.sum_nonneg fun j _ => sq_nonneg _
    unfold frob
    rw [Real.sq_sqrt h0]
    simp [Matrix.trace, Matrix.mul_apply, pow_two]
  rw [h1, h.transpose.eq, h.eq]
  calc (U * diagonal σ * Vᵀ * (V * diagonal σ * Uᵀ)).trace = (U * diagonal σ * (Vᵀ * V) * diagonal σ * Uᵀ).trace := by
        simp only [Matrix.mul_assoc]
    _ = (U * (diagonal σ * diagonal σ) * Uᵀ).trace := by rw [h.right]; simp only [Matrix.mul_assoc, Matrix.one_mul]
    _ = (Uᵀ * (U * (diagonal σ * diagonal σ))).trace := by rw [Matrix.trace_mul_comm]
    _ = (diagonal σ * diagonal σ).trace := by rw [← Matrix.mul_assoc, h.left, Matrix.one_mul]
    _ = _ := by rw [diagonal_mul_diagonal, Matrix.trace_diagonal]; simp only [pow_two]

end

theorem svd_of_diag {m n : Nat} (G : Matrix (Fin m) (Fin n) ℝ) (W : Matrix (Fin n) (Fin n) ℝ) (lam : Fin n → ℝ)
    (hnn : ∀ i, 0 ≤ lam i) (hW : Wᵀ * W = 1) (hG : (G * W)ᵀ * (G * W) = diagonal lam) :
    ∃ (k : Type) (_ : Fintype k) (_ : DecidableEq k) (U : Matrix (Fin m) k ℝ) (σ : k → ℝ) (V : Matrix (Fin n) k ℝ),
      SVD G U σ V ∧ ∀ i, 0 < σ i := by
  classical
  obtain ⟨H, hH⟩ : ∃ H, H = G * W := ⟨_, rfl⟩
  rw [← hH] at hG
  have hHH : ∀ i j, ∑ a, H a i * H a j = if i = j then lam i else 0 := by
    intro i j
    have := congrFun (congrFun hG i) j
    rw [Matrix.mul_apply, Matrix.diagonal_apply] at this
    exact this
  have hWW : ∀ i j, ∑ a, W a i * W a j = if i = j then 1 else 0 := by
    intro i j
    have := congrFun (congrFun hW i) j
    rw [Matrix.mul_apply, Matrix.one_apply] at this
    exact this
  have hback : H * Wᵀ = G := by
    rw [hH, Matrix.mul_assoc, mul_eq_one_comm.mp hW, Matrix.mul_one]
  have hzero : ∀ i a, ¬ 0 < lam i → H a i = 0 := by
    intro i a hi
    have hl : lam i = 0 := le_antisymm (not_lt.mp hi) (hnn i)
    have := hHH i i
    rw [if_pos rfl, hl] at this
    have := (Finset.sum_eq_zero_iff_of_nonneg (fun a _ => mul_self_nonneg (H a i))).mp this a (Finset.mem_univ a)
    exact mul_self_eq_zero.mp this
  refine ⟨{i : Fin n // 0 < lam i}, inferInstance, inferInstance, Matrix.of fun a i => H a i.1 / Real.sqrt (lam i.1),
    fun i => Real.sqrt (lam i.1), Matrix.of fun a i => W a i.1, ⟨?_, ?_, ?_⟩, fun i => Real.sqrt_pos.mpr i.2⟩
  · ext i j
    rw [Matrix.mul_apply, Matrix.one_apply]
    simp only [Matrix.transpose_apply, Matrix.of_apply]
    have hi := Real.sqrt_pos.mpr i.2
    have hj := Real.sqrt_pos.mpr j.2
    have e1 : ∀ a, H a i.1 / Real.sqrt (lam i.1) * (H a j.1 / Real.sqrt (lam j.1))
        = (H a i.1 * H a j.1) * (1 / (Real.sqrt (lam i.1) * Real.sqrt (lam j.1))) := by
      intro a; field_simp
    simp only [e1]
    rw [← Finset.sum_mul, hHH]
    by_cases hij : i = j
    · subst hij
      rw [Real.mul_self_sqrt (le_of_lt i.2), if_pos rfl, if_pos rfl]
      exact mul_one_div_cancel (ne_of_gt i.2)
    · have : i.1 ≠ j.1 := fun h => hij (Subtype.ext h)
      rw [if_neg this, if_neg hij, zero_mul]
  · ext i j
    rw [Matrix.mul_apply, Matrix.one_apply]
    simp only [Matrix.transpose_apply, Matrix.of_apply]
    rw [hWW]
    by_cases hij : i = j
    · rw [hij, if_pos rfl, if_pos rfl]
    · have : i.1 ≠ j.1 := fun h => hij (Subtype.ext h)
      rw [if_neg this, if_neg hij]
  · ext a b
    rw [Matrix.mul_apply]
    have e1 : ∀ i : {i : Fin n // 0 < lam i},
        ((Matrix.of fun a (i : {i : Fin n // 0 < lam i}) => H a i.1 / Real.sqrt (lam i.1)) * diagonal fun i : {i : Fin n // 0 < lam i} => Real.sqrt (lam i.1)) a i
          = H a i.1 := by
      intro i
      rw [Matrix.mul_diagonal]
      exact div_mul_cancel₀ _ (ne_of_gt (Real.sqrt_pos.mpr i.2))
    simp only [e1, Matrix.transpose_apply, Matrix.of_apply]
    have e2 : G a b = ∑ i, H a i * W b i := by
      conv_lhs => rw [← hback]
      rw [Matrix.mul_apply]
      rfl
    rw [e2, ← Finset.sum_filter_add_sum_filter_not Finset.univ (fun i => 0 < lam i)]
    rw [Finset.sum_eq_zero (s := Finset.univ.filter fun i => ¬ 0 < lam i), add_zero]
    · exact Finset.sum_subtype (p := fun i => 0 < lam i) (Finset.univ.filter fun i => 0 < lam i) (by simp) (fun i => H a i * W b i)
    · intro i hi
      rw [hzero i a (Finset.mem_filter.mp hi).2, zero_mul]

/-- **C92**, there is always such a decomposition, with positive singular values. -/
theorem C92_svd_exists {m n : Nat} (G : Matrix (Fin m) (Fin n) ℝ) :
    ∃ (k : Type) (_ : Fintype k) (_ : DecidableEq k) (U : Matrix (Fin m) k ℝ) (σ : k → ℝ) (V : Matrix (Fin n) k ℝ),
      SVD G U σ V ∧ ∀ i, 0 < σ i := by
  classical
  obtain ⟨A, hA⟩ : ∃ A, A = Gᵀ * G := ⟨_, rfl⟩
  have hps : A.PosSemidef := by
    rw [hA, ← conjTranspose_eq_transpose_of_trivial]
    exact Matrix.posSemidef_conjTranspose_mul_self G
  have hH : A.IsHermitian := hps.1
  have horth : ∀ i j, ∑ a, hH.eigenvectorBasis i a * hH.eigenvectorBasis j a = if i = j then 1 else 0 := by
    intro i j
    have := orthonormal_iff_ite.mp hH.eigenvectorBasis.orthonormal j i
    rw [EuclideanSpace.inner_eq_star_dotProduct] at this
    simp only [star_trivial, dotProduct] at this
    rw [this]
    simp only [eq_comm]
  refine svd_of_diag G (Matrix.of fun a i => hH.eigenvectorBasis i a) hH.eigenvalues hps.eigenvalues_nonneg ?_ ?_
  · ext i j
    rw [Matrix.mul_apply, Matrix.one_apply]
    exact horth i j
  · have h1 : A * (Matrix.of fun a i => hH.eigenvectorBasis i a) = (Matrix.of fun a i => hH.eigenvectorBasis i a) * diagonal hH.eigenvalues := by
      ext a j
      have := congrFun (hH.mulVec_eigenvectorBasis j) a
      rw [Matrix.mul_diagonal, Matrix.mul_apply]
      simp only [Matrix.mulVec, dotProduct, Pi.smul_apply, smul_eq_mul] at this
      rw [Matrix.of_apply, mul_comm]
      exact this
    rw [Matrix.transpose_mul, Matrix.mul_assoc, ← Matrix.mul_assoc Gᵀ, ← hA, h1, ← Matrix.mul_assoc]
    have h2 : (Matrix.of fun a i => hH.eigenvectorBasis i a)ᵀ * (Matrix.of fun a i => hH.eigenvectorBasis i a) = (1 : Matrix (Fin n) (Fin n) ℝ) := by
      ext i j
      rw [Matrix.mul_apply, Matrix.one_apply]
      exact horth i j
    rw [h2, Matrix.one_mul]

/-! ### Where the singular values end -/

theorem quintic_le (x : ℝ) (h0 : 0 ≤ x) (h1 : x ≤ 1.2025) : quintic x ≤ 1.2025 := by
  unfold quintic
  nlinarith [mul_nonneg h0 (sq_nonneg (x - 0.5545)), sq_nonneg (x-0.5545), mul_nonneg (sub_nonneg.mpr h1) (sq_nonneg (x-0.5545)), mul_nonneg (mul_nonneg h0 (sub_nonneg.mpr h1)) (sq_nonneg (x-0.5545)), mul_nonneg (mul_nonneg h0 (mul_nonneg h0 (sub_nonneg.mpr h1))) (sq_nonneg (x-0.5545)), mul_nonneg h0 (sub_nonneg.mpr h1), mul_nonneg (mul_nonneg h0 h0) (sub_nonneg.mpr h1)]

theorem quintic_ge (x : ℝ) (h0 : 0.211 ≤ x) (h1 : x ≤ 1.2025) : 0.68 ≤ quintic x := by
  unfold quintic
  have h2 : 0 ≤ x := by linarith
  nlinarith [mul_nonneg h2 (sq_nonneg (x - 1.0501)), sq_nonneg (x-1.0501), mul_nonneg (sub_nonneg.mpr h0) (sq_nonneg (x-1.0501)), mul_nonneg (mul_nonneg h2 (sub_nonneg.mpr h0)) (sq_nonneg (x-1.0501)), mul_nonneg (mul_nonneg h2 (mul_nonneg h2 (sub_nonneg.mpr h0))) (sq_nonneg (x-1.0501))]

theorem quintic_grow (x : ℝ) (h0 : 0 ≤ x) (h1 : x ≤ 0.211) : 3.23 * x ≤ quintic x := by
  unfold quintic
  have : x^2 ≤ 0.211^2 := by nlinarith
  nlinarith [mul_nonneg h0 (sub_nonneg.mpr this), pow_nonneg h0 5]

theorem quintic_pos (x : ℝ) (h0 : 0 < x) (h1 : x ≤ 1.2025) : 0 < quintic x := by
  rcases le_total x 0.211 with h | h
  · have := quintic_grow x h0.le h
    linarith
  · have := quintic_ge x h h1
    linarith

theorem iter_range (t : Nat) (x : ℝ) (h0 : 0 < x) (h1 : x ≤ 1.2025) : 0 < quintic^[t] x ∧ quintic^[t] x ≤ 1.2025 := by
  induction t generalizing x with
  | zero => exact ⟨h0, h1⟩
  | succ t ih => exact ih _ (quintic_pos x h0 h1) (quintic_le x h0.le h1)

theorem iter_ge (t : Nat) (x : ℝ) (h0 : 0.211 ≤ x) (h1 : x ≤ 1.2025) : 0.68 ≤ quintic^[t + 1] x := by
  induction t generalizing x with
  | zero => exact quintic_ge x h0 h1
  | succ t ih =>
    have := quintic_ge x h0 h1
    exact ih _ (by linarith) (quintic_le x (by linarith) h1)

theorem iter_small (t : Nat) (x : ℝ) (h0 : 0 < x) (h1 : x ≤ 1.2025) (h : 0.211 ≤ 3.23 ^ t * x) : 0.68 ≤ quintic^[t + 1] x := by
  induction t generalizing x with
  | zero => exact quintic_ge x (by simpa using h) h1
  | succ t ih =>
    rcases le_total x 0.211 with hx | hx
    · refine ih _ (quintic_pos x h0 h1) (quintic_le x h0.le h1) ?_
      have hg := quintic_grow x h0.le hx
      have hp : (0 : ℝ) < 3.23 ^ t := by positivity
      calc (0.211 : ℝ) ≤ 3.23 ^ (t + 1) * x := h
        _ = 3.23 ^ t * (3.23 * x) := by ring
        _ ≤ 3.23 ^ t * quintic x := mul_le_mul_of_nonneg_left hg hp.le
    · exact iter_ge (t + 1) x hx h1

section
variable {m n : Nat} {k : Type} [Fintype k] [DecidableEq k]

theorem SVD.le_frob {G : Matrix (Fin m) (Fin n) ℝ} {U : Matrix (Fin m) k ℝ} {σ : k → ℝ} {V : Matrix (Fin n) k ℝ} (h : SVD G U σ V)
    (i : k) : σ i ≤ frob G := by
  have h1 : σ i ^ 2 ≤ frob G ^ 2 := by
    rw [h.sum_sq]
    exact Finset.single_le_sum (f := fun i => σ i ^ 2) (fun j _ => sq_nonneg _) (Finset.mem_univ i)
  exact le_of_sq_le_sq h1 (Real.sqrt_nonneg _)

theorem SVD.ratio {G : Matrix (Fin m) (Fin n) ℝ} {U : Matrix (Fin m) k ℝ} {σ : k → ℝ} {V : Matrix (Fin n) k ℝ} (h : SVD G U σ V)
    (hpos : ∀ i, 0 < σ i) (i : k) : 0 < σ i / max (frob G) (1 / 10 ^ 7) ∧ σ i / max (frob G) (1 / 10 ^ 7) ≤ 1 := by
  have hm : (0 : ℝ) < max (frob G) (1 / 10 ^ 7) := lt_max_of_lt_right (by norm_num)
  exact ⟨div_pos (hpos i) hm, (div_le_one hm).mpr ((h.le_frob i).trans (le_max_left _ _))⟩

/-- **C92**, bounds: positive singular values stay positive and never exceed 1.2025, whatever the matrix and the
number of steps; one that was at least `0.211 / 3.23^(steps-1)` of the Frobenius norm ends at 0.68 or more. -/
theorem C92_bounds (steps : Nat) (G : Matrix (Fin m) (Fin n) ℝ) (U : Matrix (Fin m) k ℝ) (σ : k → ℝ) (V : Matrix (Fin n) k ℝ)
    (h : SVD G U σ V) (hpos : ∀ i, 0 < σ i) (i : k) :
    0 < quintic^[steps] (σ i / max (frob G) (1 / 10 ^ 7)) ∧ quintic^[steps] (σ i / max (frob G) (1 / 10 ^ 7)) ≤ 1.2025
      ∧ (1 ≤ steps → 0.211 * max (frob G) (1 / 10 ^ 7) ≤ 3.23 ^ (steps - 1) * σ i →
          0.68 ≤ quintic^[steps] (σ i / max (frob G) (1 / 10 ^ 7))) := by
  obtain ⟨h0, h1⟩ := h.ratio hpos i
  have h2 : σ i / max (frob G) (1 / 10 ^ 7) ≤ 1.2025 := h1.trans (by norm_num)
  refine ⟨(iter_range steps _ h0 h2).1, (iter_range steps _ h0 h2).2, ?_⟩
  intro hs hb
  obtain ⟨t, rfl⟩ : ∃ t, steps = t + 1 := ⟨steps - 1, by omega⟩
  rw [Nat.add_sub_cancel] at hb
  refine iter_small t _ h0 h2 ?_
  have hm : (0 : ℝ) < max (frob G) (1 / 10 ^ 7) := lt_max_of_lt_right (by norm_num)
  rw [← mul_div_assoc, le_div_iff₀ hm]
  exact hb

/-- **C92**, five steps (the default): a singular value of at least 1/500 of the Frobenius norm ends in [0.68, 1.2025]. -/
theorem C92_default_range (G : Matrix (Fin m) (Fin n) ℝ) (U : Matrix (Fin m) k ℝ) (σ : k → ℝ) (V : Matrix (Fin n) k ℝ)
    (h : SVD G U σ V) (hpos : ∀ i, 0 < σ i) (i : k) (hG : 1 / 10 ^ 7 ≤ frob G) (hi : frob G / 500 ≤ σ i) :
    0.68 ≤ quintic^[5] (σ i / frob G) ∧ quintic^[5] (σ i / frob G) ≤ 1.2025 := by
  have hb := C92_bounds 5 G U σ V h hpos i
  rw [max_eq_left hG] at hb
  refine ⟨hb.2.2 (by norm_num) ?_, hb.2.1⟩
  have : (0 : ℝ) ≤ frob G := Real.sqrt_nonneg _
  norm_num
  linarith

/-- Lengths are preserved by orthonormal columns. -/
theorem norm_le_of_svd {X : Matrix (Fin m) (Fin n) ℝ} {U : Matrix (Fin m) k ℝ} {τ : k → ℝ} {V : Matrix (Fin n) k ℝ} (h : SVD X U τ V)
    (c : ℝ) (hτ : ∀ i, 0 ≤ τ i ∧ τ i ≤ c) (x : Fin n → ℝ) : (X *ᵥ x) ⬝ᵥ (X *ᵥ x) ≤ c ^ 2 * (x ⬝ᵥ x) := by
  obtain ⟨y, hy⟩ : ∃ y, y = Vᵀ *ᵥ x := ⟨_, rfl⟩
  have h1 : (X *ᵥ x) ⬝ᵥ (X *ᵥ x) = ∑ i, τ i ^ 2 * y i ^ 2 := by
    have e : X *ᵥ x = U *ᵥ (fun i => τ i * y i) := by
      rw [h.eq, ← Matrix.mulVec_mulVec, ← Matrix.mulVec_mulVec, ← hy]
      congr 1
      funext i
      rw [Matrix.mulVec_diagonal]
    rw [e, Matrix.dotProduct_mulVec, ← Matrix.mulVec_transpose, Matrix.mulVec_mulVec, h.left, Matrix.one_mulVec]
    simp only [dotProduct]
    exact Finset.sum_congr rfl fun i _ => by ring
  have h2 : ∑ i, y i ^ 2 ≤ x ⬝ᵥ x := by
    -- 0 ≤ |x - V y|²
    have hy2 : y ⬝ᵥ y = ∑ i, y i ^ 2 := by
      simp only [dotProduct]; exact Finset.sum_congr rfl fun i _ => by ring
    have hxy : x ⬝ᵥ (V *ᵥ y) = y ⬝ᵥ y := by
      rw [Matrix.dotProduct_mulVec, ← Matrix.mulVec_transpose, ← hy]
    have hvv : (V *ᵥ y) ⬝ᵥ (V *ᵥ y) = y ⬝ᵥ y := by
      rw [Matrix.dotProduct_mulVec, ← Matrix.mulVec_transpose, Matrix.mulVec_mulVec, h.right, Matrix.one_mulVec]
    have hnn : 0 ≤ (x - V *ᵥ y) ⬝ᵥ (x - V *ᵥ y) := by
      simp only [dotProduct]
      exact Finset.sum_nonneg fun i _ => mul_self_nonneg _
    rw [sub_dotProduct, dotProduct_sub, dotProduct_sub, dotProduct_comm (V *ᵥ y) x, hxy, hvv] at hnn
    rw [← hy2]
    linarith
  rw [h1]
  have hc : ∀ i, τ i ^ 2 ≤ c ^ 2 := fun i => pow_le_pow_left₀ (hτ i).1 (hτ i).2 2
  calc ∑ i, τ i ^ 2 * y i ^ 2 ≤ ∑ i, c ^ 2 * y i ^ 2 :=
        Finset.sum_le_sum fun i _ => mul_le_mul_of_nonneg_right (hc i) (sq_nonneg _)
    _ = c ^ 2 * ∑ i, y i ^ 2 := by rw [Finset.mul_sum]
    _ ≤ c ^ 2 * (x ⬝ᵥ x) := mul_le_mul_of_nonneg_left h2 (sq_nonneg _)

end

variable {m n : Nat}

/-- **C92**, the update has spectral norm at most 1.2025, so no entry is larger. -/
theorem C92_spectral_norm (steps : Nat) (b : Bool) (G : Matrix (Fin m) (Fin n) ℝ) (x : Fin n → ℝ) :
    (zeropower steps b G *ᵥ x) ⬝ᵥ (zeropower steps b G *ᵥ x) ≤ 1.2025 ^ 2 * (x ⬝ᵥ x) := by
  obtain ⟨k, _, _, U, σ, V, h, hpos⟩ := C92_svd_exists G
  refine norm_le_of_svd (C92_singular_values steps b G U σ V h) 1.2025 (fun i => ?_) x
  have := C92_bounds steps G U σ V h hpos i
  exact ⟨this.1.le, this.2.1⟩

theorem C92_entries (steps : Nat) (b : Bool) (G : Matrix (Fin m) (Fin n) ℝ) (i : Fin m) (j : Fin n) :
    |zeropower steps b G i j| ≤ 1.2025 := by
  have h := C92_spectral_norm steps b G (Pi.single j 1)
  have e : zeropower steps b G *ᵥ Pi.single j 1 = fun i => zeropower steps b G i j := by
    funext i; simp
  rw [e] at h
  have h1 : (Pi.single j (1 : ℝ) : Fin n → ℝ) ⬝ᵥ Pi.single j 1 = 1 := by simp
  rw [h1, mul_one] at h
  have h2 : zeropower steps b G i j ^ 2 ≤ 1.2025 ^ 2 := by
    refine le_trans ?_ h
    simp only [dotProduct]
    rw [pow_two]
    exact Finset.single_le_sum (f := fun i => zeropower steps b G i j * zeropower steps b G i j)
      (fun i _ => mul_self_nonneg _) (Finset.mem_univ i)
  exact abs_le_of_sq_le_sq h2 (by norm_num)

/-- **C92**, the update points along the matrix: their inner product is positive unless the matrix is zero. -/
theorem C92_ascent (steps : Nat) (b : Bool) (G : Matrix (Fin m) (Fin n) ℝ) (hG : G ≠ 0) :
    0 < ∑ i, ∑ j, G i j * zeropower steps b G i j := by
  obtain ⟨k, _, _, U, σ, V, h, hpos⟩ := C92_svd_exists G
  have hz := C92_singular_values steps b G U σ V h
  have e : ∑ i, ∑ j, G i j * zeropower steps b G i j = (G * (zeropower steps b G)ᵀ).trace := by
    simp [Matrix.trace, Matrix.mul_apply]
  obtain ⟨τ, hτ⟩ : ∃ τ, τ = fun i => quintic^[steps] (σ i / max (frob G) (1 / 10 ^ 7)) := ⟨_, rfl⟩
  rw [← hτ] at hz
  have e2 : (G * (zeropower steps b G)ᵀ).trace = ∑ i, σ i * τ i := by
    rw [hz.transpose.eq]
    conv_lhs => rw [h.eq]
    calc (U * diagonal σ * Vᵀ * (V * diagonal τ * Uᵀ)).trace = (U * diagonal σ * (Vᵀ * V) * diagonal τ * Uᵀ).trace := by
          simp only [Matrix.mul_assoc]
      _ = (U * (diagonal σ * diagonal τ) * Uᵀ).trace := by rw [h.right]; simp only [Matrix.mul_assoc, Matrix.one_mul]
      _ = (Uᵀ * (U * (diagonal σ * diagonal τ))).trace := by rw [Matrix.trace_mul_comm]
      _ = (diagonal σ * diagonal τ).trace := by rw [← Matrix.mul_assoc, h.left, Matrix.one_mul]
      _ = _ := by rw [diagonal_mul_diagonal, Matrix.trace_diagonal]
  rw [e, e2]
  have hk : Nonempty k := by
    by_contra hk
    rw [not_nonempty_iff] at hk
    apply hG
    rw [h.eq]
    ext i j
    simp [Matrix.mul_apply]
  refine Finset.sum_pos (fun i _ => ?_) Finset.univ_nonempty
  rw [hτ]
  exact mul_pos (hpos i) (C92_bounds steps G U σ V h hpos i).1

/-- **C92**, equivariance: the transpose, the negative and (above the norm floor) any positive multiple. -/
theorem C92_transpose (steps : Nat) (b b' : Bool) (G : Matrix (Fin m) (Fin n) ℝ) : zeropower steps b Gᵀ = (zeropower steps b' G)ᵀ := by
  obtain ⟨k, _, _, U, σ, V, h, hpos⟩ := C92_svd_exists G
  rw [(C92_singular_values steps b Gᵀ V σ U h.transpose).eq, (C92_singular_values steps b' G U σ V h).transpose.eq, frob_transpose]

theorem C92_scale (steps : Nat) (b : Bool) (G : Matrix (Fin m) (Fin n) ℝ) (t : ℝ) (ht : 0 < t) (h1 : 1 / 10 ^ 7 ≤ frob G)
    (h2 : 1 / 10 ^ 7 ≤ frob (t • G)) : zeropower steps b (t • G) = zeropower steps b G := by
  obtain ⟨k, _, _, U, σ, V, h, hpos⟩ := C92_svd_exists G
  have hf : frob (t • G) = t * frob G := by
    have e1 := (h.smul t).sum_sq
    have e2 := h.sum_sq
    have e3 : frob (t • G) ^ 2 = (t * frob G) ^ 2 := by
      rw [e1, mul_pow, e2, Finset.mul_sum]
      exact Finset.sum_congr rfl fun i _ => by ring
    have p1 : 0 ≤ frob (t • G) := Real.sqrt_nonneg _
    have p2 : 0 ≤ t * frob G := mul_nonneg ht.le (Real.sqrt_nonneg _)
    exact (pow_left_inj₀ p1 p2 (by norm_num)).mp e3
  rw [(C92_singular_values steps b _ U _ V (h.smul t)).eq, (C92_singular_values steps b G U σ V h).eq,
    max_eq_left h1, max_eq_left h2, hf]
  congr 3
  funext i
  rw [mul_div_mul_left _ _ (ne_of_gt ht)]

end Verif.Muon
