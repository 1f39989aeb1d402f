import Verif.Quant.Layout

/-!
# Model of the Mix10 network and its export

* `model/mixnet.py:1026-1343` (`Mix10Net`: `get_feature`, the four heads, `forward`)
* `model/serialization/mixnet.py:2362-2745` (`Mix10NetSerializer`)

The quantised blocks (`fake_quant`, `LinearBlock`, depthwise convolution, regions, `avg4`) are those of `Verif.Quant`, and the same
simplifications apply: exact arithmetic, one sample, the mapping output is the input of the model, no tracing; no feature norm (the exporter
does not write one). `F.normalize(feature, p=2, dim=2)` of `spherical_feature` divides by an arbitrary function of the channel vector (its
norm).
-/
namespace Verif.Mix10
open Finset
open Verif.Quant (Vec Lin FMap ILin Net linearBlock avg4 cat5 cut clampQ fakeQuant relu dwConv featureSum exportLin Write linWrites rowMajor
  vecList writeBytes clampZ)
open Verif.Export (packBytes roundEven)

/-- model/mixnet.py:1029-1133. -/
structure Net10 where
  dimFeature : Nat
  dimDw : Nat
  dimValue : Nat
  /-- `spherical_feature`: the norm of a channel vector -/
  norm : Option (Vec → ℚ)
  dwW : Nat → Nat → ℚ
  dwB : Nat → ℚ
  policySmall1 : Lin
  policySmall2 : Lin
  smallOutW : Nat → ℚ
  smallOutB : ℚ
  policyLarge0 : Lin
  policyLarge1 : Lin
  policyLarge2 : Lin
  largeOutW : Nat → ℚ
  largeOutB : ℚ
  small1 : Lin
  small2 : Lin
  small3 : Lin
  gate : Lin
  corner : Lin
  edge : Lin
  center : Lin
  quad : Lin
  large1 : Lin
  large2 : Lin
  large3 : Lin

/-- model/mixnet.py:1081-1082, 1095-1097 (and 1238-1239, 1264-1266). -/
def smallIn (dw : Nat) : Nat := max (dw / 2) 16
def smallOut (dw : Nat) : Nat := max (dw / 4) 16
def largeIn (dw : Nat) : Nat := max dw 16
def largeMid (dw : Nat) : Nat := max (dw / 2) 16
def largeOut (dw : Nat) : Nat := max (dw / 4) 16

/-- model/mixnet.py:1148-1152: the direction-wise features before quantisation. -/
def limit (N : Net10) (m : Nat → FMap) : Nat → FMap := fun d c y x =>
  let v := match N.norm with
    | none => m d c y x
    | some f => m d c y x / max (f fun k => m d k y x) (1 / 10 ^ 12) * (511 / 32)
  clampQ v (-511 / 32) (511 / 32)

/-- model/mixnet.py:1138-1188 `get_feature` after the mapping. -/
def getFeature (N : Net10) (H W : Nat) (m : Nat → FMap) : FMap :=
  let m := limit N m
  let m := fun d c y x => fakeQuant (clampQ (m d c y x) (-16) (511 / 32)) (scale := 32) (numBits := some 16)
  let f : FMap := fun c y x => (∑ d ∈ range 4, m d c y x) / 4
  let f : FMap := fun c y x => relu (f c y x)
  let dw := dwConv H W N.dwW N.dwB fun c y x => f c y x * 4
  fun c y x =>
    if c < N.dimDw then fakeQuant (dw c y x) (numBits := some 16)
    else fakeQuant (f c y x) (numBits := some 16)

/-- model/mixnet.py:1190-1199 `value_head_small`: `value_small_feature`. -/
def smallFeature (N : Net10) (H W : Nat) (f : FMap) : Vec :=
  linearBlock N.dimValue true N.small2 (linearBlock N.dimFeature true N.small1 (featureSum H W f))

/-- model/mixnet.py:1201-1202. -/
def valueSmall (N : Net10) (v : Vec) : Vec := linearBlock N.dimValue false N.small3 v

/-- model/mixnet.py:1208-1209 `feature_mod`. -/
def modulation (N : Net10) (v : Vec) : Vec := fun k => fakeQuant (linearBlock N.dimValue false N.gate v k) (floor := true)

/-- model/mixnet.py:1212-1220 `get_group_feature` of region `(r, s)`. -/
def groupFeature (N : Net10) (H W : Nat) (f : FMap) (mod : Vec) (r s : Nat) : Vec :=
  let g : Vec := fun c => fakeQuant ((∑ y ∈ Ico (cut H r) (cut H (r + 1)), ∑ x ∈ Ico (cut W s) (cut W (s + 1)), f c y x) / 32) (floor := true)
  let g2 : Vec := fun k => if k < N.dimFeature then g k else g (k - N.dimFeature)
  fun j => fakeQuant (g2 (2 * j) * mod (2 * j) + g2 (2 * j + 1) * mod (2 * j + 1)) (floor := true)

/-- model/mixnet.py:1205-1258 `value_head_large`: `value_large_feature`. -/
def largeFeature (N : Net10) (H W : Nat) (f : FMap) (v : Vec) : Vec :=
  let F := N.dimFeature
  let V := N.dimValue
  let r := groupFeature N H W f (modulation N v)
  let v00 := linearBlock F true N.corner (r 0 0)
  let v01 := linearBlock F true N.edge (r 0 1)
  let v02 := linearBlock F true N.corner (r 0 2)
  let v10 := linearBlock F true N.edge (r 1 0)
  let v11 := linearBlock F true N.center (r 1 1)
  let v12 := linearBlock F true N.edge (r 1 2)
  let v20 := linearBlock F true N.corner (r 2 0)
  let v21 := linearBlock F true N.edge (r 2 1)
  let v22 := linearBlock F true N.corner (r 2 2)
  let q00 := linearBlock V true N.quad fun j => avg4 (v00 j) (v01 j) (v10 j) (v11 j)
  let q01 := linearBlock V true N.quad fun j => avg4 (v01 j) (v02 j) (v11 j) (v12 j)
  let q10 := linearBlock V true N.quad fun j => avg4 (v10 j) (v11 j) (v20 j) (v21 j)
  let q11 := linearBlock V true N.quad fun j => avg4 (v11 j) (v12 j) (v21 j) (v22 j)
  linearBlock V true N.large2 (linearBlock (V * 5) true N.large1 (cat5 V V v q00 q01 q10 q11))

/-- model/mixnet.py:1260-1261. -/
def valueLarge (N : Net10) (v : Vec) : Vec := linearBlock N.dimValue false N.large3 v

/-- `dynamic_pointwise_conv2d` (model/ops/dynamic.py:7-22) with weights quantised to 16 bits at scale 128², then the bias and `clamp(min=0)`:
model/mixnet.py:1246-1258, 1275-1287, 1292-1300. `out` is the generated vector: `outDim * inDim` weights, then the biases. -/
def dynamicLayer (inDim outDim : Nat) (out g : Vec) : Vec := fun o =>
  let w := fun k => fakeQuant (out k) (scale := 128 * 128) (numBits := some 16) (floor := true)
  max (∑ c ∈ range inDim, w (o * inDim + c) * g c + out (inDim * outDim + o)) 0

/-- model/mixnet.py:1236-1261 `policy_head_small` at `(y, x)`. -/
def policySmall (N : Net10) (f : FMap) (v : Vec) (y x : Nat) : ℚ :=
  let out := linearBlock N.dimValue false N.policySmall2 (linearBlock N.dimValue true N.policySmall1 v)
  let g : Vec := fun c => fakeQuant (f c y x) (numBits := some 16)
  let p := dynamicLayer (smallIn N.dimDw) (smallOut N.dimDw) out g
  ∑ o ∈ range (smallOut N.dimDw), p o * N.smallOutW o + N.smallOutB

/-- model/mixnet.py:1263-1305 `policy_head_large` at `(y, x)`. -/
def policyLarge (N : Net10) (f : FMap) (v : Vec) (y x : Nat) : ℚ :=
  let shared := linearBlock N.dimValue true N.policyLarge0 v
  let out1 := linearBlock N.dimValue false N.policyLarge1 shared
  let g : Vec := fun c => fakeQuant (f c y x) (numBits := some 16)
  let p := dynamicLayer (largeIn N.dimDw) (largeMid N.dimDw) out1 g
  let out2 := linearBlock N.dimValue false N.policyLarge2 shared
  let p : Vec := fun c => fakeQuant (p c) (numBits := some 16) (floor := true)
  let q := dynamicLayer (largeMid N.dimDw) (largeOut N.dimDw) out2 p
  ∑ o ∈ range (largeOut N.dimDw), q o * N.largeOutW o + N.largeOutB

structure Output10 where
  valueSmall : Vec
  policySmall : Nat → Nat → ℚ
  value : Vec
  policy : Nat → Nat → ℚ

/-- model/mixnet.py:1307-1343 `forward`. -/
def forward (N : Net10) (H W : Nat) (m : Nat → FMap) : Output10 :=
  let f := getFeature N H W m
  let vs := smallFeature N H W f
  let vl := largeFeature N H W f vs
  { valueSmall := valueSmall N vs
    value := valueLarge N vl
    policySmall := policySmall N f vs
    policy := policyLarge N f vl }

/-! ### The export -/

structure INet10 where
  dimFeature : Nat
  dimDw : Nat
  dimValue : Nat
  dwW : Nat → Nat → Int
  dwB : Nat → Int
  policySmall1 : ILin
  policySmall2 : ILin
  smallOutW : Nat → ℚ
  smallOutB : ℚ
  policyLarge0 : ILin
  policyLarge1 : ILin
  policyLarge2 : ILin
  largeOutW : Nat → ℚ
  largeOutB : ℚ
  small1 : ILin
  small2 : ILin
  small3 : ILin
  gate : ILin
  corner : ILin
  edge : ILin
  center : ILin
  quad : ILin
  large1 : ILin
  large2 : ILin
  large3 : ILin

/-- model/serialization/mixnet.py:2511-2538 (depthwise convolution), 2540-2566 (small policy), 2568-2602 (large policy), 2604-2614 (linear
layers), called at 2616-2648. -/
def exportNet (N : Net10) : INet10 where
  dimFeature := N.dimFeature
  dimDw := N.dimDw
  dimValue := N.dimValue
  dwW := fun c k => clampZ (roundEven (clampQ (N.dwW c k) (-32768 / 65536) (32767 / 65536) * 65536)) (-32768) 32767
  dwB := fun c => clampZ (roundEven (clampQ (N.dwB c) (-64) 64 * 128)) (-32768) 32767
  policySmall1 := exportLin N.policySmall1
  policySmall2 := exportLin N.policySmall2
  smallOutW := fun o => N.smallOutW o / (128 * 128 * 128)
  smallOutB := N.smallOutB
  policyLarge0 := exportLin N.policyLarge0
  policyLarge1 := exportLin N.policyLarge1
  policyLarge2 := exportLin N.policyLarge2
  largeOutW := fun o => N.largeOutW o / (128 * 128 * 128)
  largeOutB := N.largeOutB
  small1 := exportLin N.small1
  small2 := exportLin N.small2
  small3 := exportLin N.small3
  gate := exportLin N.gate
  corner := exportLin N.corner
  edge := exportLin N.edge
  center := exportLin N.center
  quad := exportLin N.quad
  large1 := exportLin N.large1
  large2 := exportLin N.large2
  large3 := exportLin N.large3

/-- `write_linear(..., zero_padding=1)` (model/serialization/mixnet.py:2684-2692) of a layer with three outputs. -/
def paddedWrites (i : Nat) (L : ILin) : List Write :=
  [(1, rowMajor 3 i L.w ++ List.replicate i 0), (4, vecList 3 L.b ++ [0])]

/-- model/serialization/mixnet.py:2694-2745: the head bucket. -/
def bucketWrites (f32 : ℚ → Int) (N : INet10) : List Write :=
  let F := N.dimFeature
  let V := N.dimValue
  let D := N.dimDw
  linWrites V V N.policySmall1 ++ linWrites (smallOut D * (smallIn D + 1)) V N.policySmall2
    ++ linWrites V V N.policyLarge0 ++ linWrites (largeMid D * (largeIn D + 1)) V N.policyLarge1
    ++ linWrites (largeOut D * (largeMid D + 1)) V N.policyLarge2
    ++ linWrites V F N.small1 ++ linWrites V V N.small2 ++ paddedWrites V N.small3
    ++ [(1, List.replicate 48 0)]
    ++ linWrites (F * 2) V N.gate ++ linWrites V F N.corner ++ linWrites V F N.edge ++ linWrites V F N.center ++ linWrites V V N.quad
    ++ linWrites V (V * 5) N.large1 ++ linWrites V V N.large2 ++ paddedWrites V N.large3
    ++ [(1, List.replicate 48 0)]
    ++ [(4, vecList (smallOut D) fun o => f32 (N.smallOutW o)), (4, vecList (largeOut D) fun o => f32 (N.largeOutW o)),
        (4, [f32 N.smallOutB]), (4, [f32 N.largeOutB]), (1, List.replicate 56 0)]

/-- model/serialization/mixnet.py:2616-2745: the file; the depthwise weight is transposed (2513). -/
def fileBytes (f32 : ℚ → Int) (tables : List (List Int)) (N : INet10) : List Nat :=
  tables.flatMap (packBytes 10)
    ++ ([(2, rowMajor 9 N.dimDw fun k c => N.dwW c k), (2, vecList N.dimDw N.dwB)] ++ bucketWrites f32 N).flatMap writeBytes

/-- The size part of `arch_hash` (model/serialization/mixnet.py:2434-2449); `none`: an assertion failed. -/
def archSize (f d v : Nat) : Option Nat :=
  if f % 8 = 0 ∧ d % 8 = 0 ∧ v % 8 = 0 then some ((f / 8) ||| ((d / 8) <<< 8) ||| ((v / 8) <<< 16)) else none

end Verif.Mix10
