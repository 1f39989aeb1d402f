/-
Model of the quantised inference path of the Mix9 networks and of their weight export:

* `utils/quant_utils.py:4-18`                       (`fake_quant`)
* `model/ops/aggregation.py:9-60`, `model/ops/dynamic.py:7-22`, `model/ops/quantized.py:10-35, 53-73`
* `model/layers/linear.py:70-91`, `model/layers/star.py:11-31`,
  `model/layers/convolution.py:195-256`             (quantised blocks)
* `model/mixnet_components.py:116-261`              (policy and value heads)
* `model/mixnet.py:493-578`                         (`Mix9Net.get_feature`, `forward`)
* `model/serialization/mixnet.py:1609-1751`         (the exported integers)

Simplifications.  Arithmetic is exact (rationals): float32 rounding, NaN and infinities are not
modelled.  Only values are modelled, not gradients.  One sample of the batch is followed.  A tensor
is a function of its indices together with the dimensions that occur in sums; the entries outside
the dimensions are never read by a sum.  The mapping networks are a parameter: their output
`[4, dim_feature, H, W]` is the input of the model.  Tracing and printing are not modelled.
-/
import Verif.Export.Bits
import Mathlib.Algebra.BigOperators.Group.Finset.Basic
import Mathlib.Algebra.BigOperators.Intervals

namespace Verif.Quant

open Verif.Export (roundEven quantFeature)
open Finset

/-- `torch.clamp(x, lo, hi)` and `np.clip(x, lo, hi)`. -/
def clampQ (x lo hi : ℚ) : ℚ := min (max x lo) hi

/-- `np.clip` on integer-valued arrays. -/
def clampZ (z lo hi : Int) : Int := min (max z lo) hi

/-- utils/quant_utils.py:4-18 `fake_quant` (value only; the gradient of `x - x.detach()` is not
modelled, its value is kept). -/
def fakeQuant (x : ℚ) (scale : ℚ := 128) (zeroPoint : ℚ := 0) (numBits : Option Nat := some 8)
    (signed : Bool := true) (floor : Bool := false) : ℚ :=
  let x := match numBits with
    | none => x
    | some n =>
      let qmin : ℚ := if signed then -(2 ^ (n - 1)) else 0
      let qmax : ℚ := if signed then 2 ^ (n - 1) - 1 else 2 ^ n - 1
      clampQ x (qmin / scale) (qmax / scale)
  let xq := x * scale + zeroPoint
  let xr : ℚ := if floor then (⌊xq⌋ : Int) else (roundEven xq : Int)
  let xd := (xr - zeroPoint) / scale
  x - x + xd

/-- A vector of activations. -/
abbrev Vec := Nat → ℚ

/-- Weight and bias of `nn.Linear` / of a 1x1 convolution: `w out in`, `b out`. -/
structure Lin where
  w : Nat → Nat → ℚ
  b : Nat → ℚ

/-- `F.linear(x, w, b)` with `n` inputs. -/
def linear (n : Nat) (w : Nat → Nat → ℚ) (b x : Vec) : Vec :=
  fun o => ∑ i ∈ range n, x i * w o i + b o

/-- `nn.ReLU`. -/
def relu (x : ℚ) : ℚ := max x 0

/-- model/layers/linear.py:70-91 `LinearBlock.forward` with `quant=True`, the default scales and
bits (input 128/8, weight 128/8, bias 32 bits) and no norm: as all heads build it. -/
def linearBlock (n : Nat) (act : Bool) (L : Lin) (x : Vec) : Vec :=
  let x := fun i => fakeQuant (x i) (floor := true)
  let w := fun o i => fakeQuant (L.w o i)
  let b := fun o => fakeQuant (L.b o) (scale := 128 * 128) (numBits := some 32)
  let out := linear n w b x
  if act then fun o => relu (out o) else out

/-- model/layers/star.py:12-16. -/
structure Star where
  up1 : Lin
  up2 : Lin
  down : Lin

/-- model/layers/star.py:17-31 `StarBlock.forward` with `n` inputs and `m` outputs. `view(.., -1, 2)
.sum(-1)` adds the entries `2j` and `2j+1`. -/
def starBlock (n m : Nat) (S : Star) (x : Vec) : Vec :=
  let x1 := linearBlock n true S.up1 x
  let x2 := linearBlock n false S.up2 x
  let x1 := fun o => fakeQuant (x1 o) (floor := true)
  let x2 := fun o => fakeQuant (x2 o) (floor := true)
  let p := fun j => x1 (2 * j) * x2 (2 * j) + x1 (2 * j + 1) * x2 (2 * j + 1)
  let p := fun j => fakeQuant (p j) (floor := true)
  linearBlock m true S.down p

/-- model/mixnet_components.py:150-159: a value group block is a linear block (`no_star_block`) or a
star block. -/
inductive Group where
  | lin (l : Lin)
  | star (s : Star)

/-- The block called on `n` inputs with `m` outputs. -/
def Group.run (n m : Nat) : Group → Vec → Vec
  | .lin l => linearBlock n true l
  | .star s => starBlock n m s

/-- model/ops/aggregation.py:52-60 `quantized_avg4`. -/
def avg4 (a b c d : ℚ) : ℚ :=
  let a := fakeQuant a (floor := true)
  let b := fakeQuant b (floor := true)
  let c := fakeQuant c (floor := true)
  let d := fakeQuant d (floor := true)
  let ab := fakeQuant ((a + b + 1 / 128) / 2) (floor := true)
  let cd := fakeQuant ((c + d + 1 / 128) / 2) (floor := true)
  fakeQuant ((ab + cd + 1 / 128) / 2) (floor := true)

/-- A feature map `[C, H, W]`. -/
abbrev FMap := Nat → Nat → Nat → ℚ

/-- The cuts of a side (model/ops/aggregation.py:17-20): `0, s1, s2, n`. -/
def cut (n : Nat) : Nat → Nat
  | 0 => 0
  | 1 => n / 3 + (if n % 3 = 2 then 1 else 0)
  | 2 => n / 3 * 2 + (if n % 3 > 0 then 1 else 0)
  | _ => n

/-- model/ops/aggregation.py:9-36, 44-49 `quantized_sum_3x3_regions`: region `(r, s)`. -/
def regionSum (H W : Nat) (f : FMap) (r s : Nat) : Vec := fun c =>
  fakeQuant ((∑ y ∈ Ico (cut H r) (cut H (r + 1)), ∑ x ∈ Ico (cut W s) (cut W (s + 1)), f c y x) / 32)
    (numBits := some 32) (floor := true)

/-- model/mixnet_components.py:116-138: the policy head's convolution. -/
inductive PolicyHead where
  | static (l : Lin)
  | dynamic (l1 l2 : Lin)

/-- model/mixnet_components.py:140-164: the value head. -/
inductive ValueHead where
  | plain (l1 l2 l3 : Lin)
  | grouped (corner edge center quad : Group) (l1 l2 l3 : Lin)

/-- The weights behind the mapping (model/mixnet.py:437-491), with the dimensions. -/
structure Net where
  dimFeature : Nat
  dimPolicy : Nat
  dimValue : Nat
  dimDw : Nat
  dwW : Nat → Nat → ℚ
  dwB : Nat → ℚ
  policy : PolicyHead
  outW : Nat → ℚ
  outB : ℚ
  value : ValueHead

/-- `policy_middle_dim` (model/mixnet_components.py:117). -/
def policyMid : Nat := 16

/-- `F.unfold` with kernel 3, padding 1, stride 1: entry `k` of the patch around `(y, x)`
(row-major), zero outside the board. -/
def patch (H W : Nat) (f : Nat → Nat → ℚ) (y x k : Nat) : ℚ :=
  if 1 ≤ y + k / 3 ∧ y + k / 3 - 1 < H ∧ 1 ≤ x + k % 3 ∧ x + k % 3 - 1 < W then
    f (y + k / 3 - 1) (x + k % 3 - 1)
  else 0

/-- One product of the depthwise convolution, quantised (model/layers/convolution.py:242-248 and
model/ops/quantized.py:70-76; both code paths compute this value): bias scale 128, 16 bits, floor. -/
def dwProduct (x w : ℚ) : ℚ :=
  fakeQuant (x * w) (numBits := some 16) (floor := true)

/-- model/layers/convolution.py:195-256 `Conv2dBlock.forward` for `feature_dwconv`
(model/mixnet.py:472-488): input 128/16, weight 65536/16, bias 128/16, `pixel-dwconv-floor`, relu. -/
def dwConv (H W : Nat) (w : Nat → Nat → ℚ) (b : Nat → ℚ) (f : FMap) : FMap := fun c y x =>
  let g := fun y x => fakeQuant (f c y x) (numBits := some 16)
  let wq := fun k => fakeQuant (w c k) (scale := 65536) (numBits := some 16)
  let bq := fakeQuant (b c) (numBits := some 16)
  relu (∑ k ∈ range 9, dwProduct (patch H W g y x k) (wq k) + bq)

/-- model/mixnet.py:505-529 `get_feature` after the mapping: `m d c y x` is the mapping output. -/
def getFeature (N : Net) (H W : Nat) (m : Nat → FMap) : FMap :=
  let m := fun d c y x => fakeQuant (clampQ (m d c y x) (-16) (511 / 32)) (scale := 32)
    (numBits := some 16)
  let f : FMap := fun c y x => (∑ d ∈ range 4, m d c y x) / 4
  let f : FMap := fun c y x => relu (f c y x)
  let dw := dwConv H W N.dwW N.dwB fun c y x => f c y x * 4
  fun c y x =>
    if c < N.dimDw then fakeQuant (dw c y x) (numBits := some 16)
    else fakeQuant (f c y x) (numBits := some 16)

/-- `feature_sum` (model/mixnet.py:538-541). -/
def featureSum (H W : Nat) (f : FMap) : Vec := fun c =>
  fakeQuant ((∑ y ∈ range H, ∑ x ∈ range W, f c y x) / 256) (numBits := some 32) (floor := true)

/-- model/layers/convolution.py:195-256 for `policy_pwconv` (model/mixnet_components.py:119-131):
1x1 convolution, input 128/16, weight 128²/16, bias 128³/32, relu. -/
def staticPw (n : Nat) (l : Lin) (f : FMap) (y x : Nat) : Vec := fun o =>
  let g := fun c => fakeQuant (f c y x) (numBits := some 16)
  let w := fun c => fakeQuant (l.w o c) (scale := 128 * 128) (numBits := some 16)
  let b := fakeQuant (l.b o) (scale := 128 * 128 * 128) (numBits := some 32)
  relu (∑ c ∈ range n, g c * w c + b)

/-- model/mixnet_components.py:179-196: the per-sample pointwise convolution.  The weight of output
`o` and input `c` is entry `o * dim_policy + c` of the generated vector, its bias entry
`16 * dim_policy + o`. -/
def dynamicPw (nf np : Nat) (l1 l2 : Lin) (f : FMap) (fs : Vec) (y x : Nat) : Vec := fun o =>
  let out := linearBlock (np * 2) false l2 (linearBlock nf true l1 fs)
  let w := fun k => fakeQuant (out k) (scale := 128 * 128) (numBits := some 16) (floor := true)
  let g := fun c => fakeQuant (f c y x) (numBits := some 16)
  let p := ∑ c ∈ range np, w (o * np + c) * g c
  let b := out (policyMid * np + o)
  max (p + b) 0

/-- The choice between the two convolutions (model/mixnet_components.py:172-197). -/
def policyMiddle (N : Net) (f : FMap) (fs : Vec) (y x : Nat) : Vec :=
  match N.policy with
  | .static l => staticPw N.dimPolicy l f y x
  | .dynamic l1 l2 => dynamicPw N.dimFeature N.dimPolicy l1 l2 f fs y x

/-- model/mixnet_components.py:171-201 `_forward_quantized_policy`: the logit at `(y, x)`. -/
def policyForward (N : Net) (f : FMap) (fs : Vec) (y x : Nat) : ℚ :=
  ∑ o ∈ range policyMid, policyMiddle N f fs y x o * N.outW o + N.outB

/-- `torch.cat` of `feature_sum` (length `n`) and the four quadrants (length `m` each)
(model/mixnet_components.py:252-261). -/
def cat5 {α : Type} (n m : Nat) (a q00 q01 q10 q11 : Nat → α) : Nat → α := fun k =>
  if k < n then a k
  else if k < n + m then q00 (k - n)
  else if k < n + 2 * m then q01 (k - (n + m))
  else if k < n + 3 * m then q10 (k - (n + 2 * m))
  else q11 (k - (n + 3 * m))

/-- The three last layers (model/mixnet.py:547-552, model/mixnet_components.py:263-267). -/
def valueTail (n m : Nat) (l1 l2 l3 : Lin) (v : Vec) : Vec :=
  linearBlock m false l3 (linearBlock m true l2 (linearBlock n true l1 v))

/-- model/mixnet_components.py:203-267 `_forward_quantized_grouped_value` and
model/mixnet.py:547-552 (`no_value_group`): the three value outputs. -/
def valueForward (N : Net) (H W : Nat) (f : FMap) (fs : Vec) : Vec :=
  match N.value with
  | .plain l1 l2 l3 => valueTail N.dimFeature N.dimValue l1 l2 l3 fs
  | .grouped corner edge center quad l1 l2 l3 =>
    let F := N.dimFeature
    let V := N.dimValue
    let r := regionSum H W f
    let v00 := corner.run F V (r 0 0)
    let v01 := edge.run F V (r 0 1)
    let v02 := corner.run F V (r 0 2)
    let v10 := edge.run F V (r 1 0)
    let v11 := center.run F V (r 1 1)
    let v12 := edge.run F V (r 1 2)
    let v20 := corner.run F V (r 2 0)
    let v21 := edge.run F V (r 2 1)
    let v22 := corner.run F V (r 2 2)
    let q00 := quad.run V V fun j => avg4 (v00 j) (v01 j) (v10 j) (v11 j)
    let q01 := quad.run V V fun j => avg4 (v01 j) (v02 j) (v11 j) (v12 j)
    let q10 := quad.run V V fun j => avg4 (v10 j) (v11 j) (v20 j) (v21 j)
    let q11 := quad.run V V fun j => avg4 (v11 j) (v12 j) (v21 j) (v22 j)
    valueTail (F + 4 * V) V l1 l2 l3 (cat5 F V fs q00 q01 q10 q11)

/-- What `Mix9Net.forward` returns for one sample (model/mixnet.py:531-578). -/
structure Output where
  value : Vec
  policy : Nat → Nat → ℚ

/-- model/mixnet.py:531-578. -/
def forward (N : Net) (H W : Nat) (m : Nat → FMap) : Output :=
  let f := getFeature N H W m
  let fs := featureSum H W f
  { value := valueForward N H W f fs, policy := policyForward N f fs }

/-! ### The export -/

/-- Exported integer weight and bias. -/
structure ILin where
  w : Nat → Nat → Int
  b : Nat → Int

structure IStar where
  up1 : ILin
  up2 : ILin
  down : ILin

inductive IGroup where
  | lin (l : ILin)
  | star (s : IStar)

inductive IPolicyHead where
  | static (l : ILin)
  | dynamic (l1 l2 : ILin)

inductive IValueHead where
  | plain (l1 l2 l3 : ILin)
  | grouped (corner edge center quad : IGroup) (l1 l2 l3 : ILin)

/-- The integers (and the float policy output layer) handed to the writer. -/
structure INet where
  dimFeature : Nat
  dimPolicy : Nat
  dimValue : Nat
  dimDw : Nat
  dwW : Nat → Nat → Int
  dwB : Nat → Int
  policy : IPolicyHead
  outW : Nat → ℚ
  outB : ℚ
  value : IValueHead

/-- `np.clip(np.around(w * 128), -128, 127)`, `np.clip(np.around(b * 128 * 128), -(2**31), 2**31 - 1)`
(model/serialization/mixnet.py:1685-1688, 1709-1714, 1725-1726, 1745-1750). -/
def exportLin (l : Lin) : ILin where
  w := fun o i => clampZ (roundEven (l.w o i * 128)) (-128) 127
  b := fun o => clampZ (roundEven (l.b o * 128 * 128)) (-(2 ^ 31)) (2 ^ 31 - 1)

/-- model/serialization/mixnet.py:1693-1715 `_export_star_block`. -/
def exportStar (s : Star) : IStar where
  up1 := exportLin s.up1
  up2 := exportLin s.up2
  down := exportLin s.down

/-- model/serialization/mixnet.py:1780-1791. -/
def exportGroup : Group → IGroup
  | .lin l => .lin (exportLin l)
  | .star s => .star (exportStar s)

/-- model/serialization/mixnet.py:1648-1691 `_export_policy_pwconv`, without the output layer. -/
def exportPolicy : PolicyHead → IPolicyHead
  | .static l => .static {
      w := fun o i => clampZ (roundEven (l.w o i * (128 * 128))) (-32768) 32767
      b := fun o => clampZ (roundEven (l.b o * (128 * 128 * 128))) (-(2 ^ 31)) (2 ^ 31 - 1) }
  | .dynamic l1 l2 => .dynamic (exportLin l1) (exportLin l2)

/-- model/serialization/mixnet.py:1780-1792, 1729-1751. -/
def exportValue : ValueHead → IValueHead
  | .plain l1 l2 l3 => .plain (exportLin l1) (exportLin l2) (exportLin l3)
  | .grouped corner edge center quad l1 l2 l3 =>
    .grouped (exportGroup corner) (exportGroup edge) (exportGroup center) (exportGroup quad)
      (exportLin l1) (exportLin l2) (exportLin l3)

/-- `conv_weight_clipped` (model/serialization/mixnet.py:1626). -/
def dwWClipped (N : Net) (c k : Nat) : ℚ := clampQ (N.dwW c k) (-32768 / 65536) (32767 / 65536)

/-- `conv_bias_clipped` (model/serialization/mixnet.py:1627-1629). -/
def dwBClipped (N : Net) (c : Nat) : ℚ := clampQ (N.dwB c) (-64) 64

/-- The overflow assertion for channel `c` (model/serialization/mixnet.py:1642-1644). -/
def dwCheck (N : Net) (c : Nat) : Prop :=
  (∑ k ∈ range 9, |dwWClipped N c k|) / 2 * 16 * 4 * 128 < 32767

/-- model/serialization/mixnet.py:1619-1647 (depthwise convolution) together with the other export
functions: all integers of the network behind the mapping. -/
def exportNet (N : Net) : INet where
  dimFeature := N.dimFeature
  dimPolicy := N.dimPolicy
  dimValue := N.dimValue
  dimDw := N.dimDw
  dwW := fun c k => clampZ (roundEven (dwWClipped N c k * 65536)) (-32768) 32767
  dwB := fun c => clampZ (roundEven (dwBClipped N c * 128)) (-32768) 32767
  policy := exportPolicy N.policy
  outW := fun o => N.outW o / (128 * 128 * 128)
  outB := N.outB
  value := exportValue N.value

end Verif.Quant
