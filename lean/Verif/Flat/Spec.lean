/-
What an engine does with an exported flat network: integers only.

The board is a function `row, column ↦ 0 | 1 | 2` on a 7 by 7 board.  Instead of slicing and rotating
chunks, the engine turns the whole board; a chunk is then always read at the same place.  Nothing here
refers to the networks, to `fake_quant` or to float weights.
-/
import Mathlib.Algebra.BigOperators.Group.Finset.Basic
import Mathlib.Algebra.BigOperators.Intervals
import Mathlib.Logic.Function.Iterate
import Verif.Quant.Spec

namespace Verif.Flat.Engine

open Finset
open Verif.Quant (ILin)
open Verif.Quant.Engine (affine)

abbrev Board := Nat → Nat → Nat

/-- The board after a quarter turn (counter-clockwise). -/
def turn (b : Board) : Board := fun y x => b x (6 - y)

/-- The board after `k` quarter turns. -/
def turned (k : Nat) (b : Board) : Board := turn^[k] b

/-- The board reflected in its main diagonal. -/
def mirror (b : Board) : Board := fun y x => b x y

/-- The part of the board starting at row `y0`, column `x0`. -/
def part (y0 x0 : Nat) (b : Board) : Board := fun y x => b (y0 + y) (x0 + x)

/-- The number of a corner triangle: ten cells row by row, a base-3 number, most significant first. -/
def triNumber (b : Board) : Nat :=
  b 0 0 * 3 ^ 9
    + b 1 0 * 3 ^ 8 + b 1 1 * 3 ^ 7
    + b 2 0 * 3 ^ 6 + b 2 1 * 3 ^ 5 + b 2 2 * 3 ^ 4
    + b 3 0 * 3 ^ 3 + b 3 1 * 3 ^ 2 + b 3 2 * 3 + b 3 3

/-- The number of an `h` by `w` rectangle: cells row by row, a base-3 number, least significant
first. -/
def rectNumber (h w : Nat) (b : Board) : Nat :=
  ∑ y ∈ range h, ∑ x ∈ range w, b y x * 3 ^ (y * w + x)

/-- A table: row number, column. -/
abbrev Table := Nat → Nat → Int

/-- Ladder v1: the triangle seen from all eight sides. -/
def ladder1 (T : Table) (b : Board) (c : Nat) : Int :=
  ∑ k ∈ range 4, (T (triNumber (turned k b)) c + T (triNumber (mirror (turned k b))) c)

/-- Ladder v2: also the triangle at the lower left corner, seen from four sides. -/
def ladder2 (T1 T2 : Table) (b : Board) (c : Nat) : Int :=
  ladder1 T1 b c + ∑ k ∈ range 4, T2 (triNumber (part 3 0 (turned k b))) c

/-- Square v2: block `j` (of `F` entries) looks at the board after `j` turns: the 4x4 corner (entries
multiplied by `scale`: 1, or 16 for int4 tables) plus the 4x3 strip in the middle of the side. -/
def square2 (scale : Int) (F : Nat) (T44 T43 : Table) (b : Board) (c : Nat) : Int :=
  scale * T44 (rectNumber 4 4 (turned (c / F) b)) (c % F)
    + T43 (rectNumber 4 3 (part 0 2 (turned (c / F) b))) (c % F)

/-- Square v3: block `j` looks at the corner `j` with a lying and a standing 3x4 rectangle, averaged
(rounding up), plus a 3x4 rectangle in the middle of a side. -/
def square3 (scale : Int) (F : Nat) (T1 T2 Tm : Table) (b : Board) (c : Nat) : Int :=
  (scale * T1 (rectNumber 3 4 (turned (c / F) b)) (c % F)
      + scale * T2 (rectNumber 3 4 (part 0 3 (turned ((c / F + 3) % 4) b))) (c % F) + 1) / 2
    + scale * Tm (rectNumber 3 4 (part 2 3 (turned ((c / F + 3) % 4) b))) (c % F)

/-- Square v4: all sixteen 4x4 squares of the board. -/
def square4 (T0 T1 T2 : Table) (b : Board) (c : Nat) : Int :=
  ∑ k ∈ range 4, T0 (rectNumber 4 4 (turned k b)) c
    + ∑ k ∈ range 4, T1 (rectNumber 4 4 (part 0 1 (turned k b))) c
    + ∑ k ∈ range 4, T1 (rectNumber 4 4 (mirror (part 1 0 (turned k b)))) c
    + ∑ k ∈ range 4, T2 (rectNumber 4 4 (part 1 1 (turned k b))) c

/-- Clip to `[lo, 127]`. -/
def clip (lo z : Int) : Int := max lo (min z 127)

/-- Ladder value head on an int16 feature: the result has scale 2^14. -/
def ladderHead (V : Nat) (l1 l2 l3 l4 : ILin) (f : Nat → Int) : Nat → Int :=
  let h0 := fun i => clip 0 (f i)
  let h1 := fun i => clip 0 (affine V l1 h0 i / 2 ^ 7)
  let h2 := fun i => clip 0 (affine 32 l2 h1 i / 2 ^ 7)
  let h3 := fun i => clip 0 (affine 32 l3 h2 i / 2 ^ 7)
  affine 32 l4 h3

/-- Square value head: `n` inputs, `h` hidden units; the first layer's weights have scale 256. -/
def squareHead (n h : Nat) (l1 l2 l3 : ILin) (f : Nat → Int) : Nat → Int :=
  let h0 := fun i => clip (-128) (f i)
  let h1 := fun i => clip 0 (affine n l1 h0 i / 2 ^ 8)
  let h2 := fun i => clip 0 (affine h l2 h1 i / 2 ^ 7)
  affine 32 l3 h2

end Verif.Flat.Engine
