/-
Model of the flat 7x7 networks that have an exporter, and of the exporters:

* `model/flatnet.py:17-25`       (`FlatValueModel._forward_value_linears`)
* `model/flatnet.py:103-121`     (`LadderConvLayer`)
* `model/flatnet.py:125-211`     (`FlatLadder7x7NNUEv1`), `220-320` (`v2`)
* `model/flatnet.py:937-1031`    (`FlatSquare7x7NNUEv2`), `1040-1130` (`v3`), `1139-1248` (`v4`),
  `1257-1310` (`v4VQ`, the quantised feature only)
* `model/layers/linear.py:70-91` (`LinearBlock`, quantised)
* `model/serialization/flatnet.py:19-156` (helpers), `198-210, 298-315, 394-428, 502-549, 640-664,
  741-784` (feature tables)

Simplifications.  Arithmetic is exact (rationals): float32/float16 rounding (autocast in the v4
exporters), NaN and infinities are not modelled.  One sample of the batch is followed, networks are in
evaluation mode.  The input is the two stone planes (`basic-nostm`, the default).  A tensor
`[C, H, W]` is a grid of channel vectors.  What a network does at one point only (1x1 convolutions,
batch normalisation with stored statistics, activations, unit normalisation of a feature) is an
arbitrary function of the channel vector of that point.  Policy heads, tracing and printing are not
modelled.
-/
import Verif.Quant.Model

namespace Verif.Flat

open Verif.Export (roundEven)
open Verif.Quant (clampQ clampZ fakeQuant Vec Lin ILin linear)
open Finset

/-! ### Chunks of the board -/

/-- The board: `0` empty, `1` own stone, `2` opponent stone at row `y`, column `x`. -/
abbrev Board := Nat → Nat → Nat

/-- A tensor `[C, H, W]`: size, and the channel vector of every point. -/
structure Grid where
  h : Nat
  w : Nat
  at_ : Nat → Nat → Vec

/-- `BasicInputPlane(with_stm=False)` on a 7x7 board (model/input.py): own stones, opponent
stones. -/
def planes (b : Board) : Grid where
  h := 7
  w := 7
  at_ := fun y x c => if b y x = c + 1 then 1 else 0

/-- `input_plane[:, :, y0:y1, x0:x1]`. -/
def Grid.slice (g : Grid) (y0 y1 x0 x1 : Nat) : Grid where
  h := y1 - y0
  w := x1 - x0
  at_ := fun y x => g.at_ (y0 + y) (x0 + x)

/-- `torch.transpose(chunk, 2, 3)`. -/
def Grid.transpose (g : Grid) : Grid where
  h := g.w
  w := g.h
  at_ := fun y x => g.at_ x y

/-- `torch.rot90(chunk, 1, (2, 3))`. -/
def Grid.rot (g : Grid) : Grid where
  h := g.w
  w := g.h
  at_ := fun y x => g.at_ x (g.w - 1 - y)

/-- `torch.rot90(chunk, k, (2, 3))`; `k` is taken modulo 4. -/
def Grid.rot90 (g : Grid) (k : Int) : Grid :=
  if k % 4 = 0 then g
  else if k % 4 = 1 then g.rot
  else if k % 4 = 2 then g.rot.rot
  else g.rot.rot.rot

/-! ### Mapping networks -/

/-- One valid (no padding, stride 1) convolution and what follows it at each point. -/
structure Conv where
  kh : Nat
  kw : Nat
  dimIn : Nat
  weight : Nat → Nat → Nat → Nat → ℚ
  bias : Vec
  post : Vec → Vec

/-- `F.conv2d(x, weight, bias, padding=0)` followed by the point-wise part. -/
def Conv.run (l : Conv) (g : Grid) : Grid where
  h := g.h - (l.kh - 1)
  w := g.w - (l.kw - 1)
  at_ := fun y x => l.post fun o =>
    ∑ i ∈ range l.dimIn, ∑ dy ∈ range l.kh, ∑ dx ∈ range l.kw,
      l.weight o i dy dx * g.at_ (y + dy) (x + dx) i + l.bias o

/-- `nn.Sequential` of convolutions. -/
def runAll : List Conv → Grid → Grid
  | [], g => g
  | l :: ls, g => runAll ls (l.run g)

/-- The feature of a chunk: the mapping's output after `squeeze(-1).squeeze(-1)`. -/
def featureOf (ls : List Conv) (g : Grid) : Vec := (runAll ls g).at_ 0 0

/-- The parameters of `LadderConvLayer` (model/flatnet.py:104-108) and what follows it. -/
structure Ladder where
  dimIn : Nat
  weight : Nat → Nat → Nat → ℚ
  bias : Vec
  post : Vec → Vec

/-- model/flatnet.py:114-121: the 2x2 kernel `[w[0], 0, w[1], w[2]]`, row by row. -/
def Ladder.conv (l : Ladder) : Conv where
  kh := 2
  kw := 2
  dimIn := l.dimIn
  weight := fun o i dy dx =>
    ([l.weight 0 o i, 0, l.weight 1 o i, l.weight 2 o i].getD (2 * dy + dx) 0)
  bias := l.bias
  post := l.post

/-- model/flatnet.py:137-148, 250-262: three ladder convolutions with point-wise layers between. -/
def ladderMapping (l1 l2 l3 : Ladder) : List Conv := [l1.conv, l2.conv, l3.conv]

/-! ### Quantised features -/

/-- `fake_quant(torch.clamp(feat, min=-1, max=127/128), scale=128)`
(model/flatnet.py:187-188, 286-287, 996, 1010, 1093, 1209, 1238). -/
def feat8 (x : ℚ) : ℚ := fakeQuant (clampQ x (-1) (127 / 128)) (scale := 128)

/-- `fake_quant(torch.clamp(feat, min=-1, max=7/8), scale=8, num_bits=4)` (model/flatnet.py:994,
1091). -/
def feat4 (x : ℚ) : ℚ := fakeQuant (clampQ x (-1) (7 / 8)) (scale := 8) (numBits := some 4)

/-- model/flatnet.py:181-186: one chunk of the ladder networks (transpose, then rotate). -/
def ladderChunk (b : Board) (v : Nat × Nat × Nat × Nat × Int × Bool) : Grid :=
  match v with
  | (y0, y1, x0, x1, k, t) =>
    let c := (planes b).slice y0 y1 x0 x1
    let c := if t then c.transpose else c
    c.rot90 k

/-- model/flatnet.py:170-179 and 268-277: the eight views. -/
def ladderIndex : List (Nat × Nat × Nat × Nat × Int × Bool) :=
  [(0, 4, 0, 4, 0, false),
   (0, 4, 0, 4, 0, true),
   (0, 4, 3, 7, 1, false),
   (0, 4, 3, 7, -1, true),
   (3, 7, 3, 7, 2, false),
   (3, 7, 3, 7, 2, true),
   (3, 7, 0, 4, -1, false),
   (3, 7, 0, 4, 1, true)]

/-- model/flatnet.py:167-190 `FlatLadder7x7NNUEv1.get_feature_sum`. -/
def ladderSum1 (m : List Conv) (b : Board) : Vec := fun c =>
  (ladderIndex.map fun v => feat8 (featureOf m (ladderChunk b v) c)).sum

/-- model/flatnet.py:288-293. -/
def ladderIndex2 : List (Nat × Nat × Nat × Nat × Int) :=
  [(0, 4, 0, 4, 1),
   (0, 4, 3, 7, 2),
   (3, 7, 3, 7, -1),
   (3, 7, 0, 4, 0)]

/-- `torch.rot90(input_plane[:, :, y0:y1, x0:x1], k, (2, 3))` (model/flatnet.py:295, 990, 1008,
1089, 1202). -/
def rotChunk (b : Board) (v : Nat × Nat × Nat × Nat × Int) : Grid :=
  match v with
  | (y0, y1, x0, x1, k) => ((planes b).slice y0 y1 x0 x1).rot90 k

/-- model/flatnet.py:264-299 `FlatLadder7x7NNUEv2.get_feature_sum`: the stack of all twelve. -/
def ladderSum2 (m1 m2 : List Conv) (b : Board) : Vec := fun c =>
  ((ladderIndex.map fun v => feat8 (featureOf m1 (ladderChunk b v) c))
    ++ ladderIndex2.map fun v => feat8 (featureOf m2 (rotChunk b v) c)).sum

/-- `torch.cat(features, dim=1)` of vectors of length `n`. -/
def cat (n : Nat) (fs : List Vec) : Vec := fun c => (fs.getD (c / n) fun _ => 0) (c % n)

/-- model/flatnet.py:982-987. -/
def cornerIndex : List (Nat × Nat × Nat × Nat × Int) :=
  [(0, 4, 0, 4, 0),
   (0, 4, 3, 7, 1),
   (3, 7, 3, 7, 2),
   (3, 7, 0, 4, 3)]

/-- model/flatnet.py:1000-1005. -/
def middleIndex : List (Nat × Nat × Nat × Nat × Int) :=
  [(0, 4, 2, 5, 0),
   (2, 5, 3, 7, 1),
   (3, 7, 2, 5, 2),
   (2, 5, 0, 4, -1)]

/-- The quantisation of the corner features of v2 and of all features of v3. -/
def feat48 (int4 : Bool) (x : ℚ) : ℚ := if int4 then feat4 x else feat8 x

/-- model/flatnet.py:981-1024 `FlatSquare7x7NNUEv2`: the feature handed to the value head, `F` is
`dim_feature`. -/
def squareFeature2 (int4 : Bool) (F : Nat) (m44 m43 : List Conv) (b : Board) : Vec :=
  let corner := cat F (cornerIndex.map fun v c => feat48 int4 (featureOf m44 (rotChunk b v) c))
  let middle := cat F (middleIndex.map fun v c => feat8 (featureOf m43 (rotChunk b v) c))
  fun c => corner c + middle c

/-- model/flatnet.py:1076-1088: the views of `fs_corner1`, `fs_corner2`, `fs_middle`. -/
def v3Corner1 : List (Nat × Nat × Nat × Nat × Int) :=
  [(0, 3, 0, 4, 0), (0, 4, 4, 7, 1), (4, 7, 3, 7, 2), (3, 7, 0, 3, 3)]

def v3Corner2 : List (Nat × Nat × Nat × Nat × Int) :=
  [(0, 4, 0, 3, 3), (0, 3, 3, 7, 0), (3, 7, 4, 7, 1), (4, 7, 0, 4, 2)]

def v3Middle : List (Nat × Nat × Nat × Nat × Int) :=
  [(0, 4, 2, 5, 3), (2, 5, 3, 7, 0), (3, 7, 2, 5, 1), (2, 5, 0, 4, 2)]

/-- model/flatnet.py:1074-1112 `FlatSquare7x7NNUEv3`: the feature handed to the value head. -/
def squareFeature3 (int4 : Bool) (F : Nat) (mc1 mc2 mm : List Conv) (b : Board) : Vec :=
  let get (m : List Conv) (v : List (Nat × Nat × Nat × Nat × Int)) : Vec :=
    cat F (v.map fun v c => feat48 int4 (featureOf m (rotChunk b v) c))
  let f1 := get mc1 v3Corner1
  let f2 := get mc2 v3Corner2
  let fm := get mm v3Middle
  fun c => fakeQuant ((f1 c + f2 c + 1 / 128) / 2) (floor := true) + fm c

/-- model/flatnet.py:1181-1202: the three groups of views of v4. -/
def v4Index : List (List (Nat × Nat × Nat × Nat × Int × Bool)) :=
  [[(0, 4, 0, 4, 0, false),
    (0, 4, 3, 7, 1, false),
    (3, 7, 3, 7, 2, false),
    (3, 7, 0, 4, 3, false)],
   [(0, 4, 1, 5, 0, false),
    (1, 5, 3, 7, 1, false),
    (3, 7, 2, 6, 2, false),
    (2, 6, 0, 4, 3, false),
    (1, 5, 0, 4, 0, true),
    (0, 4, 2, 6, 1, true),
    (2, 6, 3, 7, 2, true),
    (3, 7, 1, 5, 3, true)],
   [(1, 5, 1, 5, 0, false),
    (1, 5, 2, 6, 1, false),
    (2, 6, 2, 6, 2, false),
    (2, 6, 1, 5, 3, false)]]

/-- model/flatnet.py:1208-1210: one chunk of v4 (rotate, then transpose). -/
def v4Chunk (b : Board) (v : Nat × Nat × Nat × Nat × Int × Bool) : Grid :=
  match v with
  | (y0, y1, x0, x1, k, t) =>
    let c := ((planes b).slice y0 y1 x0 x1).rot90 k
    if t then c.transpose else c

/-- model/flatnet.py:1211-1217: the clamped feature vector of one view of group `j`.  The unit
normalisation is part of the last layer's point-wise function. -/
def v4Vector (m : Nat → List Conv) (b : Board) (j : Nat) (v : Nat × Nat × Nat × Nat × Int × Bool) :
    Vec := fun c => clampQ (featureOf (m j) (v4Chunk b v) c) (-1) (127 / 128)

/-- model/flatnet.py:1180-1240: `vq j` is what `_do_vector_quantize` does with a feature vector of
group `j` (the identity for v4); then int8 quantisation and the sum over all views. -/
def squareFeature4 (vq : Nat → Vec → Vec) (m : Nat → List Conv) (b : Board) : Vec := fun c =>
  (((List.range 3).flatMap fun j =>
    (v4Index.getD j []).map fun v => fakeQuant (vq j (v4Vector m b j v) c) (scale := 128))).sum

/-- model/vq.py:999-1005 in evaluation mode, as a function of the chosen code: `x + (q - x)`; for
`rotation_trick` see C94. -/
def vqOut (pick : Vec → Nat) (code : Nat → Vec) (x : Vec) : Vec := fun c => x c + (code (pick x) c - x c)

/-! ### The value head -/

/-- model/layers/linear.py:70-91 with `quant=True`, weight scale `s`, no norm, `activation="none"`. -/
def quantLinear (s : ℚ) (n : Nat) (L : Lin) (x : Vec) : Vec :=
  let x := fun i => fakeQuant (x i) (scale := 128) (floor := true)
  let w := fun o i => fakeQuant (L.w o i) (scale := s)
  let b := fun o => fakeQuant (L.b o) (scale := s * 128) (numBits := some 32)
  linear n w b x

/-- One layer of a value head: weight scale, input dimension, parameters. -/
structure Layer where
  scale : ℚ
  dimIn : Nat
  lin : Lin

/-- model/flatnet.py:18-25 `_forward_value_linears`, from the layer with lower clamp `lo`. -/
def valueLinears (lo : ℚ) : List Layer → Vec → Vec
  | [], v => v
  | l :: ls, v =>
    let v := fun i => clampQ (v i) lo (127 / 128)
    valueLinears 0 ls (quantLinear l.scale l.dimIn l.lin v)

/-- model/flatnet.py:158-165, 241-248: the value head of the ladder networks. -/
def ladderValue (V : Nat) (l1 l2 l3 l4 : Lin) (f : Vec) : Vec :=
  valueLinears 0 [⟨128, V, l1⟩, ⟨128, 32, l2⟩, ⟨128, 32, l3⟩, ⟨128, 32, l4⟩] f

/-- `feature[:, dim_policy:]` (model/flatnet.py:209, 318). -/
def dropPolicy (P : Nat) (f : Vec) : Vec := fun c => f (P + c)

/-- model/flatnet.py:192-211 `FlatLadder7x7NNUEv1.forward`: `value`. -/
def ladderForward1 (m : List Conv) (P V : Nat) (l1 l2 l3 l4 : Lin) (b : Board) : Vec :=
  ladderValue V l1 l2 l3 l4 (dropPolicy P (ladderSum1 m b))

/-- model/flatnet.py:301-320 `FlatLadder7x7NNUEv2.forward`: `value`. -/
def ladderForward2 (m1 m2 : List Conv) (P V : Nat) (l1 l2 l3 l4 : Lin) (b : Board) : Vec :=
  ladderValue V l1 l2 l3 l4 (dropPolicy P (ladderSum2 m1 m2 b))

/-- model/flatnet.py:951-957, 1055-1061, 1160-1165: the value head of the square networks: `n` inputs,
`h` hidden units after the first layer (64 for v3, 32 otherwise); the first layer has weight scale
256. -/
def squareValue (n h : Nat) (l1 l2 l3 : Lin) (f : Vec) : Vec :=
  valueLinears (-1) [⟨256, n, l1⟩, ⟨128, h, l2⟩, ⟨128, 32, l3⟩] f

/-- model/flatnet.py:1015-1031. -/
def squareForward2 (int4 : Bool) (F : Nat) (m44 m43 : List Conv) (l1 l2 l3 : Lin) (b : Board) : Vec :=
  squareValue (F * 4) 32 l1 l2 l3 (squareFeature2 int4 F m44 m43 b)

/-- model/flatnet.py:1102-1119. -/
def squareForward3 (int4 : Bool) (F : Nat) (mc1 mc2 mm : List Conv) (l1 l2 l3 : Lin) (b : Board) : Vec :=
  squareValue (F * 4) 64 l1 l2 l3 (squareFeature3 int4 F mc1 mc2 mm b)

/-- model/flatnet.py:1224-1248. -/
def squareForward4 (vq : Nat → Vec → Vec) (F : Nat) (m : Nat → List Conv) (l1 l2 l3 : Lin) (b : Board) :
    Vec :=
  squareValue F 32 l1 l2 l3 (squareFeature4 vq m b)

/-! ### The exporters: indices and inputs -/

/-- model/serialization/flatnet.py:20-25: the loop of `_index_to_ladder_chunk` (remainders, least
significant first). -/
def remainders (index : Nat) : List Nat :=
  if h : index / 3 = 0 then [index % 3] else index % 3 :: remainders (index / 3)
termination_by index
decreasing_by omega

/-- model/serialization/flatnet.py:19-29 `_index_to_ladder_chunk`. -/
def indexToLadderChunk (index : Nat) : List Nat :=
  let chunk := (remainders index).reverse
  List.replicate (10 - chunk.length) 0 ++ chunk

/-- model/serialization/flatnet.py:34. -/
def lowerTriangle : List Nat := [0, 4, 5, 8, 9, 10, 12, 13, 14, 15]

/-- model/serialization/flatnet.py:32-40 `_make_ladder_mapping_input`: plane `chunk[i] - 1` is set to
one at cell `lower_triangle_index[i]` when `chunk[i] > 0`. -/
def ladderMappingInput (chunk : List Nat) : Grid where
  h := 4
  w := 4
  at_ := fun y x c =>
    if (List.range 10).any fun i =>
        decide (lowerTriangle.getD i 0 / 4 = y ∧ lowerTriangle.getD i 0 % 4 = x
          ∧ chunk.getD i 0 > 0 ∧ chunk.getD i 0 - 1 = c) then 1 else 0

/-- model/serialization/flatnet.py:43-62 `_make_base3_mapping_input`: the input of one index. -/
def base3Input (h w index : Nat) : Grid where
  h := h
  w := w
  at_ := fun y x c =>
    if (List.range (h * w)).any fun i =>
        decide (i / w = y ∧ i % w = x ∧ index / 3 ^ i % 3 = c + 1) then 1 else 0

/-- `torch.cat([f(range(i, min(i + batch, N))) for i in range(0, N, batch)])`
(model/serialization/flatnet.py:398-409, 510-516, 651-662, 754-767): rows in the order produced. -/
def batched {α : Type} (N batch : Nat) (f : Nat → α) : List α :=
  (List.range ((N + batch - 1) / batch)).flatMap fun k =>
    (List.range' (k * batch) (min (k * batch + batch) N - k * batch)).map f

/-! ### The exporters: integers -/

/-- `torch.clamp(-1, 127/128)`, then `np.clip(np.around(x * 128), -128, 127)`
(model/serialization/flatnet.py:206-209, 307-314, 416-427, 530-541). -/
def table8 (x : ℚ) : Int := clampZ (roundEven (clampQ x (-1) (127 / 128) * 128)) (-128) 127

/-- The int4 variant (model/serialization/flatnet.py:413-414, 423-424, 525-526, 536-537). -/
def table4 (x : ℚ) : Int := clampZ (roundEven (clampQ x (-1) (7 / 8) * 8)) (-8) 7

/-- `feature.mul_(128).round_().clamp_(-128, 127)` (model/serialization/flatnet.py:660-661). -/
def tableV4 (x : ℚ) : Int := clampZ (roundEven (x * 128)) (-128) 127

/-- model/serialization/flatnet.py:774-782: `fake_quant` on the codebook, then rounding and clipping. -/
def tableCode (x : ℚ) : Int := clampZ (roundEven (fakeQuant x (scale := 128) * 128)) (-128) 127

/-- Row `index` of a ladder table, with an entry quantiser. -/
def ladderRow (m : List Conv) (index c : Nat) : Int :=
  table8 (featureOf m (ladderMappingInput (indexToLadderChunk index)) c)

/-- Row `index` of a square table. -/
def squareRow (q : ℚ → Int) (h w : Nat) (m : List Conv) (index c : Nat) : Int :=
  q (featureOf m (base3Input h w index) c)

/-- The quantiser of the corner table of v2 and of the tables of v3. -/
def table48 (int4 : Bool) (x : ℚ) : Int := if int4 then table4 x else table8 x

/-- model/serialization/flatnet.py:755-767: the code index written for `index` in table `j`. -/
def codeRow (pick : Vec → Nat) (m : List Conv) (index : Nat) : Nat :=
  pick fun c => clampQ (featureOf m (base3Input 4 4 index) c) (-1) (127 / 128)

/-- `np.clip(np.around(w * s), -128, 127)` and
`np.clip(np.around(b * s * 128), -(2**31), 2**31 - 1)` (model/serialization/flatnet.py:105-114,
148-155). -/
def exportLin (s : ℚ) (l : Lin) : ILin where
  w := fun o i => clampZ (roundEven (l.w o i * s)) (-128) 127
  b := fun o => clampZ (roundEven (l.b o * s * 128)) (-(2 ^ 31)) (2 ^ 31 - 1)

/-- Python's `int(x)`: truncation towards zero. -/
def pyInt (x : ℚ) : Int := if 0 ≤ x then ⌊x⌋ else ⌈x⌉

/-- model/serialization/flatnet.py:83-90: `int(w.min() * s) >= -128 and int(w.max() * s) <= 127`.
Multiplication by a positive `s` and truncation are monotone, so the test on the minimum (maximum) is
the test on all entries. -/
def truncCheck (s : ℚ) (o i : Nat) (l : Lin) : Prop :=
  ∀ r < o, ∀ c < i, -128 ≤ pyInt (l.w r c * s) ∧ pyInt (l.w r c * s) ≤ 127

/-- model/serialization/flatnet.py:143-147. -/
def roundCheck (s : ℚ) (o i : Nat) (l : Lin) : Prop :=
  ∀ r < o, ∀ c < i, -128 ≤ roundEven (l.w r c * s) ∧ roundEven (l.w r c * s) ≤ 127

/-- Rows of zeros appended to the last layer: the network has `rows` outputs
(model/serialization/flatnet.py:92-97, 131-136). -/
def padRows (rows : Nat) (l : Lin) : Lin where
  w := fun o i => if o < rows then l.w o i else 0
  b := fun o => if o < rows then l.b o else 0

/-- `dim_vhead`. -/
def valueRows (noDraw : Bool) : Nat := if noDraw then 1 else 3

/-- Rows of zeros added by the exporter. -/
def padCount (noDraw : Bool) : Nat := if noDraw then 3 else 1

end Verif.Flat
