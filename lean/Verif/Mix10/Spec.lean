import Verif.Mix10.Model
import Verif.Quant.Spec

/-!
# Integer inference with an exported Mix10 network

Only sums of products, arithmetic shifts, rectification and saturation; nothing here refers to the trained weights. The primitive operations
are those of `Verif.Quant.Engine`.
-/
namespace Verif.Mix10.Engine
open Finset
open Verif.Mix10 (INet10)
open Verif.Quant.Engine (sat affine toI8 rect IVec IMap accum neighbour dwProduct total bound i8 avg4 concat quadrants)

/-- The features of every point (int16, scale 128). -/
def feature (N : INet10) (H W : Nat) (m : Nat → IMap) : IMap := fun c y x =>
  if c < N.dimDw then
    sat 16 (rect (∑ k ∈ range 9, dwProduct (neighbour H W (accum m c) y x k) (N.dwW c k) + N.dwB c))
  else accum m c y x

/-- int8 output of a rectified layer. -/
def layer (n : Nat) (L : Verif.Quant.ILin) (x : IVec) : IVec := fun j => toI8 (rect (affine n L x j))

/-- The small value feature (int8). -/
def small (N : INet10) (t : IVec) : IVec := layer N.dimValue N.small2 (layer N.dimFeature N.small1 (i8 t))

/-- Sum over a region shifted by 5, saturated to int8. -/
def region (H W : Nat) (f : IMap) (r s : Nat) : IVec := fun c =>
  sat 8 ((∑ y ∈ Ico (bound H r) (bound H (r + 1)), ∑ x ∈ Ico (bound W s) (bound W (s + 1)), f c y x) / 2 ^ 5)

/-- Gated region feature `j` (int8): the region vector twice in a row times the gate, adjacent pairs added. -/
def gated (F : Nat) (g mod : IVec) : IVec := fun j =>
  toI8 (g (2 * j % F) * mod (2 * j) + g ((2 * j + 1) % F) * mod (2 * j + 1))

/-- The large value feature (int8). -/
def large (N : INet10) (H W : Nat) (f : IMap) (v : IVec) : IVec :=
  let F := N.dimFeature
  let V := N.dimValue
  let mod := fun k => toI8 (affine V N.gate v k)
  let block := fun (L : Verif.Quant.ILin) (r s : Nat) (j : Nat) => rect (affine F L (gated F (region H W f r s) mod) j)
  let quad := fun (a b c d : IVec) => layer V N.quad fun j => avg4 (a j) (b j) (c j) (d j)
  let q00 := quad (block N.corner 0 0) (block N.edge 0 1) (block N.edge 1 0) (block N.center 1 1)
  let q01 := quad (block N.edge 0 1) (block N.corner 0 2) (block N.center 1 1) (block N.edge 1 2)
  let q10 := quad (block N.edge 1 0) (block N.center 1 1) (block N.corner 2 0) (block N.edge 2 1)
  let q11 := quad (block N.center 1 1) (block N.edge 1 2) (block N.edge 2 1) (block N.corner 2 2)
  layer V N.large2 (layer (V * 5) N.large1 (concat V V v (quadrants q00 q01 q10 q11)))

/-- One generated point-wise layer (int32, scale 128³): `g` holds `outDim` rows of `inDim` weights (int16 after saturation), then the biases. -/
def dynamic (inDim outDim : Nat) (g x : IVec) : IVec := fun o =>
  rect (∑ c ∈ range inDim, sat 16 (g (inDim * o + c)) * x c + g (inDim * outDim + o) * 2 ^ 7)

/-- The small policy at one point. -/
def policySmall (N : INet10) (f : IMap) (v : IVec) (y x : Nat) : ℚ :=
  let i := max (N.dimDw / 2) 16
  let o := max (N.dimDw / 4) 16
  let p := dynamic i o (affine N.dimValue N.policySmall2 (layer N.dimValue N.policySmall1 v)) fun c => f c y x
  ∑ k ∈ range o, (p k : ℚ) * N.smallOutW k + N.smallOutB

/-- The large policy at one point: two generated layers, int16 in between. -/
def policyLarge (N : INet10) (f : IMap) (v : IVec) (y x : Nat) : ℚ :=
  let i := max N.dimDw 16
  let h := max (N.dimDw / 2) 16
  let o := max (N.dimDw / 4) 16
  let s := layer N.dimValue N.policyLarge0 v
  let p := dynamic i h (affine N.dimValue N.policyLarge1 s) fun c => f c y x
  let q := dynamic h o (affine N.dimValue N.policyLarge2 s) fun c => sat 16 (p c / 2 ^ 14)
  ∑ k ∈ range o, (q k : ℚ) * N.largeOutW k + N.largeOutB

structure Result where
  valueSmall : IVec
  policySmall : Nat → Nat → ℚ
  value : IVec
  policy : Nat → Nat → ℚ

/-- Inference from the four table entries of every point; the values are int32 of scale 128². -/
def run (N : INet10) (H W : Nat) (m : Nat → IMap) : Result :=
  let f := feature N H W m
  let vs := small N (total H W f)
  let vl := large N H W f vs
  { valueSmall := affine N.dimValue N.small3 vs
    policySmall := policySmall N f vs
    value := affine N.dimValue N.large3 vl
    policy := policyLarge N f vl }

end Verif.Mix10.Engine
