import Mathlib.Analysis.Real.Sqrt
import Mathlib.Algebra.BigOperators.Ring.Finset

/-!
# Model of masked batch normalisation (`model/layers/normalization.py:72-282`)

Over the real numbers. One channel: the sums are over batch, row and column only, the mask has one channel, and all other operations are
channel by channel, so `ι` is the cells (batch index, row, column) and every channel is normalised by these functions. The conversions to
and from half precision are not modelled.
-/
namespace Verif.Norm

variable {ι : Type} [Fintype ι]

/-- `torch.Tensor.reciprocal`, `rsqrt`. -/
noncomputable def rsqrt (a : ℝ) : ℝ := 1 / Real.sqrt a

/-- `x * mask` if there is a mask. -/
def masked (mask : Option (ι → ℝ)) (x : ι → ℝ) : ι → ℝ :=
  match mask with
  | none => x
  | some m => fun i => x i * m i

/-- Lines 92-98: `inv_count`. -/
noncomputable def invCount (mask : Option (ι → ℝ)) : ℝ :=
  match mask with
  | none => 1 / (Fintype.card ι : ℝ)
  | some m => 1 / ∑ i, m i

/-- What `save_for_backward` keeps (line 122). -/
structure Ctx (ι : Type) where
  x : ι → ℝ
  mask : Option (ι → ℝ)
  mean : ℝ
  invStd : ℝ
  invCount : ℝ
  gain : ℝ
  scale : ℝ
  affine : Bool

structure Out (ι : Type) where
  out : ι → ℝ
  mean : ℝ
  var : ℝ
  ctx : Ctx ι

/-- `_MaskedBatchNormFunction.forward` (lines 76-126); `affine` is (weight, bias). -/
noncomputable def fwd (eps : ℝ) (x : ι → ℝ) (mask : Option (ι → ℝ)) (affine : Option (ℝ × ℝ)) (scale : Option ℝ) : Out ι :=
  let mx := masked mask x
  let ic := invCount mask
  let mean := (∑ i, mx i) * ic
  let second := (∑ i, mx i ^ 2) * ic
  let var := max (second - mean ^ 2) 0
  let invStd := rsqrt (var + eps)
  let normalized := fun i => (x i - mean) * invStd
  let s := scale.getD 1
  match affine with
  | some (w, b) => ⟨masked mask fun i => normalized i * s * w + b, mean, var, ⟨x, mask, mean, invStd, ic, w * s, s, true⟩⟩
  | none => ⟨masked mask fun i => normalized i * s, mean, var, ⟨x, mask, mean, invStd, ic, s, s, false⟩⟩

/-- The gradients returned: of `x`, and of weight and bias. -/
structure Grad (ι : Type) where
  x : ι → ℝ
  weight : Option ℝ
  bias : Option ℝ

/-- `_MaskedBatchNormFunction.backward` (lines 128-153). -/
noncomputable def bwd (c : Ctx ι) (g : ι → ℝ) : Grad ι :=
  let normalized := fun i => (c.x i - c.mean) * c.invStd
  let grad := masked c.mask g
  let gradSum := ∑ i, grad i
  let gradDot := ∑ i, grad i * normalized i
  let g1 := fun i => grad i * c.gain
  let g2 := fun i => g1 i - gradSum * c.gain * c.invCount
  let g3 := fun i => g2 i - normalized i * (gradDot * c.gain) * c.invCount
  let g4 := fun i => g3 i * c.invStd
  ⟨masked c.mask g4, if c.affine = true then some (gradDot * c.scale) else none, if c.affine = true then some gradSum else none⟩

/-- The running statistics of `MaskNorm`. -/
structure Running where
  mean : ℝ
  var : ℝ

/-- `MaskNorm.reset_running_stats` (lines 214-217). -/
def reset : Running := ⟨0, 1⟩

/-- The training branch of `MaskNorm.forward` (lines 234-247). -/
noncomputable def trainStep (eps mom : ℝ) (affine : Option (ℝ × ℝ)) (mask : Option (ι → ℝ)) (r : Running) (x : ι → ℝ) : (ι → ℝ) × Running :=
  let o := fwd eps x mask affine none
  (o.out, ⟨r.mean + mom * (o.mean - r.mean), r.var + mom * (o.var - r.var)⟩)

/-- `_apply_affine_transform` (lines 225-228). -/
def applyAffine (affine : Option (ℝ × ℝ)) (x : ι → ℝ) : ι → ℝ :=
  match affine with
  | none => x
  | some (w, b) => fun i => x i * w + b

/-- The evaluation branch (lines 248-270, 273-275), not exporting. -/
noncomputable def evalStep (eps : ℝ) (affine : Option (ℝ × ℝ)) (mask : Option (ι → ℝ)) (r : Running) (x : ι → ℝ) : ι → ℝ :=
  masked mask (applyAffine affine fun i => (x i - r.mean) / Real.sqrt (r.var + eps))

end Verif.Norm
