import Verif.Norm.Props112
import Mathlib.Data.List.Induction
import Mathlib.Data.List.GetD

/-!
# C112, continued: what the forward pass and the running statistics do
-/
namespace Verif.Norm

variable {ι : Type} [Fintype ι]

/-- **C112 (forward).** The output is the normalised input and the statistics handed on are the mean and variance of the real cells. -/
theorem C112_forward (eps : ℝ) (mask : Option (ι → ℝ)) (h : GoodMask mask) (x : ι → ℝ) (scale : Option ℝ) :
    (∀ w b, (fwd eps x mask (some (w, b)) scale).out = normOf eps mask w b (scale.getD 1) x) ∧
    (fwd eps x mask none scale).out = normOf eps mask 1 0 (scale.getD 1) x ∧
    (∀ affine, (fwd eps x mask affine scale).mean = meanOf mask x ∧ (fwd eps x mask affine scale).var = varOf mask x) ∧
    0 ≤ varOf mask x := by
  refine ⟨fun w b => ?_, ?_, fun affine => ?_, varOf_nonneg mask h x⟩
  · rw [fwd_out eps x mask h]; rfl
  · rw [fwd_out eps x mask h]; rfl
  · unfold fwd
    simp only []
    cases affine with
    | none => exact ⟨mean_code mask x, var_code mask h x⟩
    | some a => obtain ⟨w, b⟩ := a; exact ⟨mean_code mask x, var_code mask h x⟩

/-- The mean of an affine image. -/
theorem meanOf_affine (mask : Option (ι → ℝ)) (h : GoodMask mask) (x : ι → ℝ) (a b : ℝ) :
    meanOf mask (fun i => weightOf mask i * (a * (x i - meanOf mask x) + b)) = b := by
  have hn := (size_pos mask h).ne'
  have h1 : ∀ i, weightOf mask i * (weightOf mask i * (a * (x i - meanOf mask x) + b)) =
      a * (weightOf mask i * (x i - meanOf mask x)) + b * weightOf mask i := by
    intro i
    have := sq_weight mask h i
    calc _ = weightOf mask i ^ 2 * (a * (x i - meanOf mask x) + b) := by ring
      _ = _ := by rw [this]; ring
  rw [show meanOf mask (fun i => weightOf mask i * (a * (x i - meanOf mask x) + b)) =
    (∑ i, weightOf mask i * (weightOf mask i * (a * (x i - meanOf mask x) + b))) / size mask from rfl,
    Finset.sum_congr rfl fun i _ => h1 i, Finset.sum_add_distrib, ← Finset.mul_sum, ← Finset.mul_sum, sum_dev mask h, mul_zero, zero_add]
  show b * size mask / size mask = b
  field_simp

/-- **C112 (normalised).** Over the real cells the output has mean `bias` and variance `(weight · scale)² · var / (var + eps)`. -/
theorem C112_normalised (eps : ℝ) (heps : 0 < eps) (mask : Option (ι → ℝ)) (h : GoodMask mask) (x : ι → ℝ) (w b : ℝ) (scale : Option ℝ) :
    meanOf mask (fwd eps x mask (some (w, b)) scale).out = b ∧
    varOf mask (fwd eps x mask (some (w, b)) scale).out = (w * scale.getD 1) ^ 2 * (varOf mask x / (varOf mask x + eps)) := by
  rw [fwd_out eps x mask h]
  have hvp : 0 < varOf mask x + eps := by have := varOf_nonneg mask h x; linarith
  obtain ⟨s, hs⟩ : ∃ s, s = Real.sqrt (varOf mask x + eps) := ⟨_, rfl⟩
  have hss : s ^ 2 = varOf mask x + eps := by rw [hs]; exact Real.sq_sqrt hvp.le
  have hsp : s ≠ 0 := by rw [hs]; exact (Real.sqrt_pos.mpr hvp).ne'
  obtain ⟨a, ha⟩ : ∃ a, a = w * scale.getD 1 / s := ⟨_, rfl⟩
  have he : normOf eps mask (wOf (some (w, b))) (bOf (some (w, b))) (scale.getD 1) x =
      fun i => weightOf mask i * (a * (x i - meanOf mask x) + b) := by
    funext i
    unfold normOf wOf bOf
    simp only []
    rw [← hs, ha]
    ring
  rw [he]
  have hm := meanOf_affine mask h x a b
  refine ⟨hm, ?_⟩
  have hv : varOf mask (fun i => weightOf mask i * (a * (x i - meanOf mask x) + b)) = a ^ 2 * varOf mask x := by
    rw [show varOf mask (fun i => weightOf mask i * (a * (x i - meanOf mask x) + b)) =
      (∑ i, weightOf mask i * (weightOf mask i * (a * (x i - meanOf mask x) + b) -
        meanOf mask (fun i => weightOf mask i * (a * (x i - meanOf mask x) + b))) ^ 2) / size mask from rfl, hm]
    have h1 : ∀ i, weightOf mask i * (weightOf mask i * (a * (x i - meanOf mask x) + b) - b) ^ 2 =
        a ^ 2 * (weightOf mask i * (x i - meanOf mask x) ^ 2) := by
      intro i
      rcases h.binary i with h | h <;> rw [h] <;> ring
    rw [Finset.sum_congr rfl fun i _ => h1 i, ← Finset.mul_sum]
    unfold varOf
    ring
  rw [hv, ha, div_pow, hss]
  field_simp

/-- **C112 (padding).** Masked cells get zero output and zero gradient, and what they hold changes nothing else: neither outputs, statistics nor
gradients. -/
theorem C112_padding (eps : ℝ) (mask : Option (ι → ℝ)) (h : GoodMask mask) (affine : Option (ℝ × ℝ)) (scale : Option ℝ) (x g : ι → ℝ) :
    (∀ i, weightOf mask i = 0 → (fwd eps x mask affine scale).out i = 0 ∧ (bwd (fwd eps x mask affine scale).ctx g).x i = 0) ∧
    ∀ x' g' : ι → ℝ, (∀ i, weightOf mask i = 1 → x' i = x i ∧ g' i = g i) →
      (fwd eps x' mask affine scale).out = (fwd eps x mask affine scale).out ∧
      (fwd eps x' mask affine scale).mean = (fwd eps x mask affine scale).mean ∧
      (fwd eps x' mask affine scale).var = (fwd eps x mask affine scale).var ∧
      (bwd (fwd eps x' mask affine scale).ctx g').x = (bwd (fwd eps x mask affine scale).ctx g).x ∧
      (bwd (fwd eps x' mask affine scale).ctx g').weight = (bwd (fwd eps x mask affine scale).ctx g).weight ∧
      (bwd (fwd eps x' mask affine scale).ctx g').bias = (bwd (fwd eps x mask affine scale).ctx g).bias := by
  refine ⟨fun i hi => ⟨?_, ?_⟩, fun x' g' hxg => ?_⟩
  · rw [fwd_out eps x mask h]
    unfold normOf
    rw [hi, zero_mul]
  · rw [bwd_x eps x mask h, hi, zero_mul, zero_mul]
  · have hw : ∀ i (f f' : ℝ), (weightOf mask i = 1 → f' = f) → weightOf mask i * f' = weightOf mask i * f := by
      intro i f f' hf
      rcases h.binary i with h | h
      · rw [h, zero_mul, zero_mul]
      · rw [hf h]
    have hmean : meanOf mask x' = meanOf mask x := by
      unfold meanOf
      rw [Finset.sum_congr rfl fun i _ => hw i (x i) (x' i) fun h => (hxg i h).1]
    have hvar : varOf mask x' = varOf mask x := by
      unfold varOf
      rw [hmean, Finset.sum_congr rfl fun i _ => hw i ((x i - meanOf mask x) ^ 2) ((x' i - meanOf mask x) ^ 2) fun h => by rw [(hxg i h).1]]
    have hg : ∑ j, weightOf mask j * g' j = ∑ j, weightOf mask j * g j :=
      Finset.sum_congr rfl fun i _ => hw i (g i) (g' i) fun h => (hxg i h).2
    have hd : ∑ j, weightOf mask j * g' j * ((x' j - meanOf mask x) * rsqrt (varOf mask x + eps)) =
        ∑ j, weightOf mask j * g j * ((x j - meanOf mask x) * rsqrt (varOf mask x + eps)) := by
      refine Finset.sum_congr rfl fun i _ => ?_
      rw [mul_assoc, mul_assoc]
      exact hw i _ _ fun h => by rw [(hxg i h).1, (hxg i h).2]
    have hf := (C112_forward eps mask h x scale).2.2.1 affine
    have hf' := (C112_forward eps mask h x' scale).2.2.1 affine
    refine ⟨?_, by rw [hf.1, hf'.1, hmean], by rw [hf.2, hf'.2, hvar], ?_, ?_, ?_⟩
    · rw [fwd_out eps x mask h, fwd_out eps x' mask h]
      funext i
      unfold normOf
      rw [hmean, hvar]
      exact hw i _ _ fun h => by rw [(hxg i h).1]
    · funext i
      rw [bwd_x eps x' mask h, bwd_x eps x mask h, hmean, hvar, hg, hd, mul_assoc (weightOf mask i), mul_assoc (weightOf mask i)]
      refine hw i _ _ fun hi => ?_
      rw [(hxg i hi).1, (hxg i hi).2]
    · cases affine with
      | none => rfl
      | some a =>
        obtain ⟨w, b⟩ := a
        rw [(bwd_weight eps x' mask h w b scale g').1, (bwd_weight eps x mask h w b scale g).1, hmean, hvar, hd]
    · cases affine with
      | none => rfl
      | some a =>
        obtain ⟨w, b⟩ := a
        rw [(bwd_weight eps x' mask h w b scale g').2, (bwd_weight eps x mask h w b scale g).2, hg]

/-! ### Running statistics -/

/-- The running statistics after a history of training batches (each with its mask), oldest first. -/
noncomputable def history (eps mom : ℝ) (affine : Option (ℝ × ℝ)) (r : Running) (bs : List (Option (ι → ℝ) × (ι → ℝ))) : Running :=
  bs.foldl (fun r b => (trainStep eps mom affine b.1 r b.2).2) r

/-- The exponential average of `vs` (oldest first) started at `a`: the newest has weight `mom`, the one before it `mom · (1 - mom)`, and so on,
the start the rest. -/
noncomputable def expAverage (mom a : ℝ) (vs : List ℝ) : ℝ :=
  (1 - mom) ^ vs.length * a + ∑ k ∈ Finset.range vs.length, mom * (1 - mom) ^ (vs.length - 1 - k) * vs.getD k 0

theorem expAverage_snoc (mom a v : ℝ) (vs : List ℝ) : expAverage mom a (vs ++ [v]) = expAverage mom a vs + mom * (v - expAverage mom a vs) := by
  unfold expAverage
  rw [List.length_append, List.length_singleton, Finset.sum_range_succ]
  have h1 : ∑ k ∈ Finset.range vs.length, mom * (1 - mom) ^ (vs.length + 1 - 1 - k) * (vs ++ [v]).getD k 0 =
      (1 - mom) * ∑ k ∈ Finset.range vs.length, mom * (1 - mom) ^ (vs.length - 1 - k) * vs.getD k 0 := by
    rw [Finset.mul_sum]
    refine Finset.sum_congr rfl fun k hk => ?_
    have hk' := Finset.mem_range.mp hk
    rw [List.getD_append _ _ _ _ hk', show vs.length + 1 - 1 - k = (vs.length - 1 - k) + 1 by omega, pow_succ]
    ring
  have h2 : (vs ++ [v]).getD vs.length 0 = v := by
    rw [List.getD_append_right _ _ _ _ (Nat.le_refl _), Nat.sub_self]
    rfl
  rw [h1, h2, show vs.length + 1 - 1 - vs.length = 0 by omega, pow_zero, pow_succ]
  ring

/-- **C112 (running statistics).** After any history of training batches from a reset, the running mean and variance are the exponential averages
of the batch means and variances, started at 0 and 1. -/
theorem C112_running (eps mom : ℝ) (affine : Option (ℝ × ℝ)) (bs : List (Option (ι → ℝ) × (ι → ℝ))) (hb : ∀ b ∈ bs, GoodMask b.1) :
    (history eps mom affine reset bs).mean = expAverage mom 0 (bs.map fun b => meanOf b.1 b.2) ∧
    (history eps mom affine reset bs).var = expAverage mom 1 (bs.map fun b => varOf b.1 b.2) := by
  induction bs using List.reverseRecOn with
  | nil =>
    unfold history expAverage reset
    simp
  | append_singleton bs b ih =>
    obtain ⟨h1, h2⟩ := ih fun b hb' => hb b (List.mem_append_left _ hb')
    have hg := hb b (List.mem_append_right _ (List.mem_singleton_self b))
    have hf := (C112_forward eps b.1 hg b.2 none).2.2.1 affine
    have hstep : history eps mom affine reset (bs ++ [b]) = (trainStep eps mom affine b.1 (history eps mom affine reset bs) b.2).2 := by
      unfold history
      rw [List.foldl_append]
      rfl
    rw [hstep, List.map_append, List.map_append, List.map_singleton, List.map_singleton, expAverage_snoc, expAverage_snoc, ← h1, ← h2, ← hf.1, ← hf.2]
    exact ⟨rfl, rfl⟩

/-- **C112 (evaluation never divides by zero).** With a momentum in [0, 1], the running variance stays non-negative after every history. -/
theorem C112_running_nonneg (eps mom : ℝ) (h0 : 0 ≤ mom) (h1 : mom ≤ 1) (affine : Option (ℝ × ℝ)) (bs : List (Option (ι → ℝ) × (ι → ℝ)))
    (hb : ∀ b ∈ bs, GoodMask b.1) : 0 ≤ (history eps mom affine reset bs).var := by
  induction bs using List.reverseRecOn with
  | nil => unfold history reset; simp
  | append_singleton bs b ih =>
    have h2 := ih fun b hb' => hb b (List.mem_append_left _ hb')
    have hg := hb b (List.mem_append_right _ (List.mem_singleton_self b))
    have hf := (C112_forward eps b.1 hg b.2 none).2.2.1 affine
    have hstep : history eps mom affine reset (bs ++ [b]) = (trainStep eps mom affine b.1 (history eps mom affine reset bs) b.2).2 := by
      unfold history
      rw [List.foldl_append]
      rfl
    rw [hstep]
    have hv := varOf_nonneg b.1 hg b.2
    have : (trainStep eps mom affine b.1 (history eps mom affine reset bs) b.2).2.var =
        (history eps mom affine reset bs).var + mom * (varOf b.1 b.2 - (history eps mom affine reset bs).var) := by
      rw [← hf.2]
      rfl
    rw [this]
    nlinarith [mul_nonneg h0 hv, mul_nonneg (sub_nonneg.mpr h1) h2]

/-- **C112 (evaluation).** Evaluation normalises by the running statistics — zero at masked cells, one cell's output depending on that cell only —
and gives exactly the training output when the running statistics are the batch's. -/
theorem C112_eval (eps : ℝ) (mask : Option (ι → ℝ)) (h : GoodMask mask) (r : Running) (x : ι → ℝ) :
    (∀ w b i, evalStep eps (some (w, b)) mask r x i = weightOf mask i * (w * ((x i - r.mean) / Real.sqrt (r.var + eps)) + b)) ∧
    (∀ i, evalStep eps none mask r x i = weightOf mask i * ((x i - r.mean) / Real.sqrt (r.var + eps))) ∧
    (∀ affine mom r0, r = ⟨meanOf mask x, varOf mask x⟩ → evalStep eps affine mask r x = (trainStep eps mom affine mask r0 x).1) := by
  have h1 : ∀ w b i, evalStep eps (some (w, b)) mask r x i = weightOf mask i * (w * ((x i - r.mean) / Real.sqrt (r.var + eps)) + b) := by
    intro w b i
    unfold evalStep
    rw [masked_eq]
    show weightOf mask i * ((x i - r.mean) / Real.sqrt (r.var + eps) * w + b) = _
    ring
  have h2 : ∀ i, evalStep eps none mask r x i = weightOf mask i * ((x i - r.mean) / Real.sqrt (r.var + eps)) := by
    intro i
    unfold evalStep
    rw [masked_eq]
    rfl
  refine ⟨h1, h2, ?_⟩
  intro affine mom r0 hr
  have ho : (trainStep eps mom affine mask r0 x).1 = (fwd eps x mask affine none).out := rfl
  rw [ho, fwd_out eps x mask h]
  funext i
  cases affine with
  | none =>
    rw [h2, hr]
    unfold normOf wOf bOf
    simp only [Option.getD_none]
    ring
  | some a =>
    obtain ⟨w, b⟩ := a
    rw [h1, hr]
    unfold normOf wOf bOf
    simp only [Option.getD_none]
    ring

end Verif.Norm
