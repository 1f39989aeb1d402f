/-
What "the exported file computes the trained network" means: integer-only inference.

Every quantity is an `Int`; the only operations are sums of products, arithmetic right shifts
(`/ 2 ^ k` on `Int` rounds towards minus infinity), rectification and saturation to a signed type.
The scales are those written in the comments of `model/mixnet.py` and
`model/mixnet_components.py`.  Nothing here refers to `fake_quant` or to the float weights; the types
are those of the documented C++ struct (`model/serialization/mixnet.py:1375-1561`).
-/
import Verif.Quant.Model

namespace Verif.Quant.Engine

open Finset
open Verif.Quant (ILin IStar IGroup IPolicyHead IValueHead INet)

/-- Saturation to a signed `n`-bit integer. -/
def sat (n : Nat) (z : Int) : Int := max (-(2 ^ (n - 1))) (min z (2 ^ (n - 1) - 1))

/-- An activation vector. -/
abbrev IVec := Nat → Int

/-- Integer dot product plus bias: `int8 × int8 → int32`, the result has scale 128². -/
def affine (n : Nat) (L : ILin) (x : IVec) : IVec := fun o => ∑ i ∈ range n, x i * L.w o i + L.b o

/-- From an int32 accumulator of scale 128² to an int8 of scale 128: shift by 7, saturate. -/
def toI8 (z : Int) : Int := sat 8 (z / 2 ^ 7)

/-- `relu`. -/
def rect (z : Int) : Int := max z 0

/-- One star block on an int8 input; the result is an int32 accumulator of scale 128². -/
def star (n m : Nat) (S : IStar) (x : IVec) : IVec :=
  let a := fun o => toI8 (rect (affine n S.up1 x o))
  let b := fun o => toI8 (affine n S.up2 x o)
  let p := fun j => toI8 (a (2 * j) * b (2 * j) + a (2 * j + 1) * b (2 * j + 1))
  fun o => rect (affine m S.down p o)

/-- One value group block on an int8 input. -/
def group (n m : Nat) : IGroup → IVec → IVec
  | .lin l, x => fun o => rect (affine n l x o)
  | .star s, x => star n m s x

/-- Rounding average of two int8 values. -/
def avg2 (a b : Int) : Int := (a + b + 1) / 2

/-- Average of four accumulators, as int8. -/
def avg4 (a b c d : Int) : Int := avg2 (avg2 (toI8 a) (toI8 b)) (avg2 (toI8 c) (toI8 d))

/-- A feature map of integers. -/
abbrev IMap := Nat → Nat → Nat → Int

/-- The accumulated feature (int16, scale 128): the four table entries, rectified. -/
def accum (m : Nat → IMap) : IMap := fun c y x => rect (m 0 c y x + m 1 c y x + m 2 c y x + m 3 c y x)

/-- The neighbour `k` (row-major 3 by 3 window) of `(y, x)`, zero outside the board. -/
def neighbour (H W : Nat) (f : Nat → Nat → Int) (y x k : Nat) : Int :=
  if 1 ≤ y + k / 3 ∧ y + k / 3 - 1 < H ∧ 1 ≤ x + k % 3 ∧ x + k % 3 - 1 < W then
    f (y + k / 3 - 1) (x + k % 3 - 1)
  else 0

/-- One product of the depthwise convolution: high half of the 32-bit product of two int16. -/
def dwProduct (x w : Int) : Int := 4 * x * w / 2 ^ 16

/-- The depthwise convolution before rectification and saturation. -/
def dwAcc (H W : Nat) (N : INet) (f : IMap) : IMap := fun c y x =>
  ∑ k ∈ range 9, dwProduct (neighbour H W (f c) y x k) (N.dwW c k) + N.dwB c

/-- The features of every point (int16, scale 128). -/
def feature (N : INet) (H W : Nat) (m : Nat → IMap) : IMap := fun c y x =>
  if c < N.dimDw then sat 16 (rect (dwAcc H W N (accum m) c y x)) else accum m c y x

/-- Sum over the whole board (int32), shifted by 8. -/
def total (H W : Nat) (f : IMap) : IVec := fun c => (∑ y ∈ range H, ∑ x ∈ range W, f c y x) / 2 ^ 8

/-- The three bands of a side of length `n`, symmetric: the outer bands have `(n + 1) / 3` lines
each, the middle band has the rest. -/
def bound (n : Nat) : Nat → Nat
  | 0 => 0
  | 1 => (n + 1) / 3
  | 2 => n - (n + 1) / 3
  | _ => n

/-- Sum over region `(r, s)` (int32), shifted by 5. -/
def region (H W : Nat) (f : IMap) (r s : Nat) : IVec := fun c =>
  (∑ y ∈ Ico (bound H r) (bound H (r + 1)), ∑ x ∈ Ico (bound W s) (bound W (s + 1)), f c y x) / 2 ^ 5

/-- Saturate an int32 vector of scale 128 to int8. -/
def i8 (v : IVec) : IVec := fun c => sat 8 (v c)

/-- The middle policy layer at one point (int32, scale 128³). -/
def policyMidAcc (N : INet) (f : IMap) (t : IVec) (y x : Nat) : IVec := fun o =>
  match N.policy with
  | .static l => rect (∑ c ∈ range N.dimPolicy, f c y x * l.w o c + l.b o)
  | .dynamic l1 l2 =>
    let h := fun j => toI8 (rect (affine N.dimFeature l1 (i8 t) j))
    let g := affine (N.dimPolicy * 2) l2 h
    rect (∑ c ∈ range N.dimPolicy, sat 16 (g (o * N.dimPolicy + c)) * f c y x
      + g (16 * N.dimPolicy + o) * 128)

/-- The policy logit at one point: float output layer on the int32 middle layer. -/
def policy (N : INet) (f : IMap) (t : IVec) (y x : Nat) : ℚ :=
  ∑ o ∈ range 16, (policyMidAcc N f t y x o : ℚ) * N.outW o + N.outB

/-- Last layers on an int8 input: int32 accumulators of scale 128². -/
def tail (n m : Nat) (l1 l2 l3 : ILin) (v : IVec) : IVec :=
  let h1 := fun j => toI8 (rect (affine n l1 v j))
  let h2 := fun j => toI8 (rect (affine m l2 h1 j))
  affine m l3 h2

/-- `n` entries of `a` followed by blocks of `m` entries: block `j` is `q j`. -/
def concat (n m : Nat) (a : IVec) (q : Nat → IVec) : IVec := fun k =>
  if k < n then a k else q ((k - n) / m) ((k - n) % m)

/-- Block `2 * r + s` is the quadrant `(r, s)`. -/
def quadrants (q00 q01 q10 q11 : IVec) : Nat → IVec
  | 0 => q00
  | 1 => q01
  | 2 => q10
  | _ => q11

/-- The three value accumulators (int32, scale 128²). -/
def value (N : INet) (H W : Nat) (f : IMap) (t : IVec) : IVec :=
  match N.value with
  | .plain l1 l2 l3 => tail N.dimFeature N.dimValue l1 l2 l3 (i8 t)
  | .grouped corner edge center quad l1 l2 l3 =>
    let F := N.dimFeature
    let V := N.dimValue
    let r := fun a b => i8 (region H W f a b)
    let v00 := group F V corner (r 0 0)
    let v01 := group F V edge (r 0 1)
    let v02 := group F V corner (r 0 2)
    let v10 := group F V edge (r 1 0)
    let v11 := group F V center (r 1 1)
    let v12 := group F V edge (r 1 2)
    let v20 := group F V corner (r 2 0)
    let v21 := group F V edge (r 2 1)
    let v22 := group F V corner (r 2 2)
    let q00 := group V V quad fun j => avg4 (v00 j) (v01 j) (v10 j) (v11 j)
    let q01 := group V V quad fun j => avg4 (v01 j) (v02 j) (v11 j) (v12 j)
    let q10 := group V V quad fun j => avg4 (v10 j) (v11 j) (v20 j) (v21 j)
    let q11 := group V V quad fun j => avg4 (v11 j) (v12 j) (v21 j) (v22 j)
    let q := fun (v : IVec) j => toI8 (v j)
    tail (F + 4 * V) V l1 l2 l3 (concat F V (i8 t) (quadrants (q q00) (q q01) (q q10) (q q11)))

/-- Both outputs. -/
structure Result where
  value : IVec
  policy : Nat → Nat → ℚ

/-- Integer inference from the four table entries of every point. -/
def run (N : INet) (H W : Nat) (m : Nat → IMap) : Result :=
  let f := feature N H W m
  let t := total H W f
  { value := value N H W f t, policy := policy N f t }

end Verif.Quant.Engine
