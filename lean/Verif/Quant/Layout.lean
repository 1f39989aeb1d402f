/-
Model of the binary writer of the Mix9 family: `model/serialization/mixnet.py:1890-2001`
(`Mix9NetSerializer.serialize`, binary branch), and of `arch_hash` (1540-1557, 2014-2031).

Simplifications: a numpy array handed to `tobytes()` is the list of its entries in C order; a float32
is its 32-bit pattern, given by an arbitrary function `f32`; the compressed mapping streams are the
writer of `Verif.Export.Bits` (C51) on the given tables.
-/
import Verif.Quant.Model

namespace Verif.Quant

open Verif.Export (packBytes)

/-- `arr.astype("<iN").tobytes()` for one entry: two's complement (wrapping), `n` bytes, little
endian. -/
def intBytes (n : Nat) (z : Int) : List Nat :=
  (List.range n).map fun i => (z % (256 ^ n : Nat)).toNat / 256 ^ i % 256

/-- One `o.write(...)`: bytes per entry and entries. -/
abbrev Write := Nat × List Int

def writeBytes (w : Write) : List Nat := w.2.flatMap (intBytes w.1)

/-- The entries of a 2-dimensional array in C order. -/
def rowMajor (rows cols : Nat) (a : Nat → Nat → Int) : List Int :=
  (List.range rows).flatMap fun r => (List.range cols).map (a r)

def vecList (n : Nat) (a : Nat → Int) : List Int := (List.range n).map a

/-- `o.write(weight.astype("<i1")...)`, `o.write(bias.astype("<i4")...)` for a layer with `o` outputs
and `i` inputs. -/
def linWrites (o i : Nat) (L : ILin) : List Write :=
  [(1, rowMajor o i L.w), (4, vecList o L.b)]

/-- model/serialization/mixnet.py:1968-1974 `write_star_block`: input dimension `n`, output `m`. -/
def starWrites (n m : Nat) (S : IStar) : List Write :=
  linWrites (m * 2) n S.up1 ++ linWrites (m * 2) n S.up2 ++ linWrites m m S.down

/-- model/serialization/mixnet.py:1944-1979: one value group block. -/
def groupWrites (n m : Nat) : IGroup → List Write
  | .lin l => linWrites m n l
  | .star s => starWrites n m s

/-- model/serialization/mixnet.py:1929-1942. -/
def policyWrites (N : INet) : List Write :=
  match N.policy with
  | .static l => [(2, rowMajor policyMid N.dimPolicy l.w), (4, vecList policyMid l.b)]
  | .dynamic l1 l2 =>
    linWrites (N.dimPolicy * 2) N.dimFeature l1
      ++ linWrites (policyMid * N.dimPolicy + policyMid) (N.dimPolicy * 2) l2

/-- model/serialization/mixnet.py:1981-1994: the last layers, the third padded with a zero row and a
zero bias. `n` is the input dimension of the first layer. -/
def tailWrites (n m : Nat) (l1 l2 l3 : ILin) : List Write :=
  linWrites m n l1 ++ linWrites m m l2
    ++ [(1, rowMajor 3 m l3.w ++ List.replicate m 0), (4, vecList 3 l3.b ++ [0])]

/-- model/serialization/mixnet.py:1944-1994: the value head. -/
def valueWrites (N : INet) : List Write :=
  match N.value with
  | .plain l1 l2 l3 => tailWrites N.dimFeature N.dimValue l1 l2 l3
  | .grouped corner edge center quad l1 l2 l3 =>
    groupWrites N.dimFeature N.dimValue corner ++ groupWrites N.dimFeature N.dimValue edge
      ++ groupWrites N.dimFeature N.dimValue center ++ groupWrites N.dimValue N.dimValue quad
      ++ tailWrites (N.dimFeature + 4 * N.dimValue) N.dimValue l1 l2 l3

/-- model/serialization/mixnet.py:1996-2001: the float output layer and 44 zero bytes. -/
def outWrites (f32 : ℚ → Int) (N : INet) : List Write :=
  [(4, vecList 16 fun o => f32 (N.outW o)), (4, [f32 N.outB]), (1, List.replicate 44 0)]

/-- model/serialization/mixnet.py:1924-2001: everything behind the mapping.  The depthwise weight is
exported transposed (1622), as `[9, dim_dwconv]`. -/
def writes (f32 : ℚ → Int) (N : INet) : List Write :=
  [(2, rowMajor 9 N.dimDw fun k c => N.dwW c k), (2, vecList N.dimDw N.dwB)]
    ++ policyWrites N ++ valueWrites N ++ outWrites f32 N

/-- model/serialization/mixnet.py:1890-2001: the file.  `tables` are the one or two feature maps
(1916-1922), each flattened. -/
def fileBytes (f32 : ℚ → Int) (tables : List (List Int)) (N : INet) : List Nat :=
  tables.flatMap (packBytes 10) ++ (writes f32 N).flatMap writeBytes

/-- The size part of `arch_hash` (model/serialization/mixnet.py:1547-1556, 2021-2030); `none`: an
assertion failed.  The hash is this number, xor the two `crc32` values. -/
def archSize (f p v d : Nat) : Option Nat :=
  if f % 8 = 0 ∧ p % 8 = 0 ∧ v % 8 = 0 ∧ d % 8 = 0 then
    some ((f / 8) ||| ((p / 8) <<< 8) ||| ((v / 8) <<< 14) ||| ((d / 8) <<< 20))
  else none

/-- The text writer's `print_linear_block` / `print_star_block` (1827-1833, 1854-1872) cast every
weight to int8 before printing it: this is the printed number. -/
def textWeight (z : Int) : Int := (z + 128) % 256 - 128

end Verif.Quant
