/-
Model of the mapping networks of the Mix9 family and of the lookup table exported from them:

* `model/layers/directional.py:37-121`        (`DirectionalConvLayer`, zero padding)
* `model/layers/convolution.py:42-58, 75-90`  (`pointwise_matmul`, `PointwiseConv2d`)
* `model/mixnet_components.py:17-110`         (`DirectionalConvResBlock`, `Conv0dResBlock`, `Mapping`)
* `model/mixnet.py:493-506, 655-664`          (which mapping serves which direction)
* `model/serialization/mixnet.py:1558-1619`   (`_export_map_table`, `_export_feature_map`; the same code
  at 2155-2183/2208-2215 for Mix9s-VQ and 2451-2511 for Mix10)

Simplifications.  Arithmetic is exact, over any commutative ring; the activation is any function.  One
sample of the batch is followed.  A tensor `[C, H, W]` is a function of channel, row and column; its
sizes are passed along, entries outside are never read.  Normalisation is any function applied to the
channel vector of one cell (this covers "none" and batch norm in eval mode; statistics over the board
are not covered).  `use_nonzero_padding=True` (never passed by `Mapping`) and the mask are not modelled.
-/
import Verif.LineEnc.Props56
import Mathlib.Algebra.BigOperators.Group.Finset.Basic
import Mathlib.Algebra.BigOperators.Intervals
import Mathlib.Algebra.Ring.Defs

set_option linter.dupNamespace false

namespace Verif.Mapping

open Finset
open Verif.LineEnc (Board)

variable {R : Type} [CommRing R]

/-- A tensor `[C, H, W]`. -/
abbrev Tensor (R : Type) := Nat → Nat → Nat → R

/-- `F.pad(x, (q, q, p, p))` of a tensor with `H` rows and `W` columns, with zeros. -/
def pad (p q H W : Nat) (x : Tensor R) : Tensor R := fun c i j =>
  if p ≤ i ∧ i < p + H ∧ q ≤ j ∧ j < q + W then x c (i - p) (j - q) else 0

/-- `F.conv2d(x, w, b, padding=(p, q))` with a `kh × kw` kernel and `n` input channels. -/
def conv2d (n kh kw p q H W : Nat) (w : Nat → Nat → Nat → Nat → R) (b : Nat → R) (x : Tensor R) :
    Tensor R := fun o y j =>
  ∑ c ∈ range n, ∑ i ∈ range kh, ∑ k ∈ range kw, w o c i k * pad p q H W x c (y + i) (j + k) + b o

/-- model/layers/convolution.py:42-58 `pointwise_matmul` with `n` input channels. -/
def pointwise (n : Nat) (w : Nat → Nat → R) (b : Nat → R) (x : Tensor R) : Tensor R := fun o y j =>
  ∑ c ∈ range n, x c y j * w o c + b o

/-- `torch.cat((a, b, c), dim)` of three parts of `n` entries each. -/
def cat3 {α : Type} (n : Nat) (a b c : Nat → α) : Nat → α := fun k =>
  if k < n then a k else if k < 2 * n then b (k - n) else c (k - 2 * n)

/-- model/layers/directional.py:11-28: `weight` has shape `(out, in, 3)` when `channelLast`, else
`(3, out, in)`. -/
structure DirConv (R : Type) where
  dimIn : Nat
  channelLast : Bool
  weight : Nat → Nat → Nat → R
  bias : Nat → R

/-- model/layers/directional.py:38-43 `weight_1d`, shape `(out, in, 3)`. -/
def DirConv.weight1d (l : DirConv R) : Nat → Nat → Nat → R :=
  if l.channelLast then l.weight else fun o c t => l.weight t o c

/-- model/layers/directional.py:37-84 `_conv1d_direction` for `use_nonzero_padding = False`; `fix` is
`fix_direction_order`. -/
def DirConv.run (l : DirConv R) (fix : Bool) (H W d : Nat) (x : Tensor R) : Tensor R :=
  if d = 0 then
    conv2d l.dimIn 1 3 0 1 H W (fun o c _ t => l.weight1d o c t) l.bias x
  else if d = 1 then
    conv2d l.dimIn 3 1 1 0 H W (fun o c t _ => l.weight1d o c t) l.bias x
  else
    let padded := pad 1 1 H W x
    let shifted : Tensor R × Tensor R × Tensor R :=
      if d = (if fix then 3 else 2) then
        (fun c y j => padded c y j, x, fun c y j => padded c (y + 2) (j + 2))
      else
        (fun c y j => padded c (y + 2) j, x, fun c y j => padded c y (j + 2))
    let input1x1 := cat3 l.dimIn shifted.1 shifted.2.1 shifted.2.2
    let weight1x1 := fun o => cat3 l.dimIn (fun c => l.weight1d o c 0) (fun c => l.weight1d o c 1)
      (fun c => l.weight1d o c 2)
    pointwise (3 * l.dimIn) weight1x1 l.bias input1x1

/-- A `PointwiseConv2d`. -/
structure Pw (R : Type) where
  dimIn : Nat
  w : Nat → Nat → R
  b : Nat → R

def Pw.run (l : Pw R) (x : Tensor R) : Tensor R := pointwise l.dimIn l.w l.b x

/-- An activation layer, applied to every entry. -/
def mapEntries (f : R → R) (x : Tensor R) : Tensor R := fun c y j => f (x c y j)

/-- A normalisation that looks at one cell at a time. -/
def perCell (f : (Nat → R) → Nat → R) (x : Tensor R) : Tensor R := fun c y j => f (fun k => x k y j) c

/-- `x + y`. -/
def addT (x y : Tensor R) : Tensor R := fun c i j => x c i j + y c i j

/-- model/mixnet_components.py:25-31. -/
structure ResBlock (R : Type) where
  conv : DirConv R
  norm : (Nat → R) → Nat → R
  pw : Pw R

/-- model/mixnet_components.py:33-42 `DirectionalConvResBlock.forward` of one direction. -/
def ResBlock.run (act : R → R) (B : ResBlock R) (fix : Bool) (H W d : Nat) (x : Tensor R) : Tensor R :=
  let residual := x
  let x := B.conv.run fix H W d x
  let x := perCell B.norm x
  let x := mapEntries act x
  let x := B.pw.run x
  let x := mapEntries act x
  addT x residual

/-- model/mixnet_components.py:63-99.  `fix_direction_order` is passed to all directional layers. -/
structure Mapping (R : Type) where
  fix : Bool
  dimOut : Nat
  act : R → R
  conv : DirConv R
  norm : (Nat → R) → Nat → R
  blocks : List (ResBlock R)
  conv1 : Pw R
  conv2 : Pw R
  final : Pw R

/-- model/mixnet_components.py:53-60 `Conv0dResBlock.forward`. -/
def Mapping.conv0d (m : Mapping R) (x : Tensor R) : Tensor R :=
  let residual := x
  let x := m.conv1.run x
  let x := mapEntries m.act x
  let x := m.conv2.run x
  let x := mapEntries m.act x
  addT x residual

/-- model/mixnet_components.py:101-109 `Mapping.forward` for one direction. -/
def Mapping.run (m : Mapping R) (H W d : Nat) (x : Tensor R) : Tensor R :=
  let x := m.conv.run m.fix H W d x
  let x := perCell m.norm x
  let x := mapEntries m.act x
  let x := m.blocks.foldl (fun x B => B.run m.act m.fix H W d x) x
  let x := m.conv0d x
  m.final.run x

/-- model/mixnet_components.py:101-110 `Mapping.forward`: the directions in `dirs`, in order, stacked. -/
def Mapping.forward (m : Mapping R) (dirs : List Nat) (H W : Nat) (x : Tensor R) : List (Tensor R) :=
  ((List.range 4).filter (fun i => decide (i ∈ dirs))).map (fun d => m.run H W d x)

/-- The mappings of a network: `mapping0` (Mix9 with `one_mapping`), or `mapping1` and `mapping2`. -/
inductive Mappings (R : Type) where
  | one (m : Mapping R)
  | two (m1 m2 : Mapping R)

/-- model/mixnet.py:496-502, 659-661: `feature[d]`, the network's features of direction `d`. -/
def Mappings.features (ms : Mappings R) (H W : Nat) (x : Tensor R) : List (Tensor R) :=
  match ms with
  | .one m => m.forward [0, 1, 2, 3] H W x
  | .two m1 m2 => m1.forward [0, 1] H W x ++ m2.forward [2, 3] H W x

/-- model/input.py:57-74 `basicns`: the stones of the side to move and of the opponent. -/
def boardPlanes (b : Board) : Tensor R := fun c y x =>
  if c = 0 then (if b.self y x then 1 else 0) else (if b.oppo y x then 1 else 0)

/-! ### The export -/

/-- model/serialization/mixnet.py:1566-1567: `us, opponent = line == 1, line == 2`, every line a row. -/
def linePlanes (lines : List (List Nat)) : Tensor R := fun c i x =>
  if c = 0 then (if (lines.getD i []).getD x 0 = 1 then 1 else 0)
  else (if (lines.getD i []).getD x 0 = 2 then 1 else 0)

/-- model/serialization/mixnet.py:1558-1585 `_export_map_table` for lines of length `len`, `batch` lines
at a time: `[N, len, dim_feature]`. -/
def mapTable (m : Mapping R) (batch len : Nat) (lines : List (List Nat)) : List (List (List R)) :=
  let N := lines.length
  (List.range (1 + (N - 1) / batch)).flatMap fun i =>
    let start := i * batch
    let stop := min ((i + 1) * batch) N
    let part := (lines.drop start).take (stop - start)
    let feature := (m.forward [0] part.length len (linePlanes part)).getD 0 (fun _ _ _ => 0)
    (List.range part.length).map fun r => (List.range len).map fun x =>
      (List.range m.dimOut).map fun c => feature c r x

/-- model/serialization/mixnet.py:1595-1607: all assignments `feature_map[idxs[r, x]] = map_table[r, x]`
in program order, `(row of the table, feature)`. -/
def tableWrites (m : Mapping R) (batch L : Nat) : List (Nat × List R) :=
  ((List.range L).reverse.map (· + 1)).flatMap fun l =>
    let lines := Export.base3Permutation l
    let table := mapTable m batch l lines
    lines.zipIdx.flatMap fun lr =>
      ((LineEnc.transformLine L lr.1).getD []).zipIdx.map fun cx =>
        (cx.1, (table.getD lr.2 []).getD cx.2 [])

/-- model/serialization/mixnet.py:1595-1607: `feature_map` before clipping, of width `dim_feature`. -/
def exportTable (m : Mapping R) (batch L : Nat) : Nat → List R :=
  (tableWrites m batch L).foldl (fun t w => fun i => if i = w.1 then w.2 else t i)
    (fun _ => List.replicate m.dimOut 0)

/-- model/serialization/mixnet.py:1756-1766: the exported tables; direction `d` of the engine reads
`mapping[d / 2]` when there are two. -/
def Mappings.table (ms : Mappings R) (batch L d : Nat) : Nat → List R :=
  match ms with
  | .one m => exportTable m batch L
  | .two m1 m2 => if d < 2 then exportTable m1 batch L else exportTable m2 batch L

end Verif.Mapping
