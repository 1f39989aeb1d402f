import Mathlib.Data.Rat.Floor

/-
Model of the compressed feature writers.

`model/serialization/mixnet.py:1894-1914` (`write_feature_map_compressed`) and
`model/serialization/mixnet.py:2270-2297` (`write_features_compressed`) contain the same loop.
Simplifications: the array reshape and the progress `print` are not modelled; `uint64.tobytes()` is
little-endian (the byte order of every platform the code runs on).
-/
namespace Verif.Export

/-- Loop state of the writer: `uint64`, `bits_used`, words passed to `o.write` so far
(mixnet.py:1898-1900). -/
structure Packer where
  word : Nat
  used : Nat
  out : List Nat

/-- `feature_map_i16[i].astype(np.uint64) & bitmask` with `bitmask = 2**feature_bits - 1`
(mixnet.py:1897, 1902): two's complement reinterpretation of the signed 16-bit value, masked. -/
def maskFeature (fb : Nat) (x : Int) : Nat :=
  (x % (2 ^ 64 : Int)).toNat &&& (2 ^ fb - 1)

/-- numpy `uint64 << uint64`: bits shifted out are dropped (shift counts of 64 or more give 0). -/
def shl64 (v n : Nat) : Nat := (v <<< n) % 2 ^ 64

/-- One iteration of the loop (mixnet.py:1901-1910). -/
def packStep (fb : Nat) (s : Packer) (x : Int) : Packer :=
  let v := maskFeature fb x
  let word := s.word ||| shl64 v s.used
  if 64 - s.used ≥ fb then
    { word := word, used := s.used + fb, out := s.out }
  else
    { word := v >>> (64 - s.used), used := fb - (64 - s.used), out := s.out ++ [word] }

/-- The whole writer: initial state, loop, final flush (mixnet.py:1898-1913); the result is the list
of 64-bit words written. -/
def packWords (fb : Nat) (xs : List Int) : List Nat :=
  let s := xs.foldl (packStep fb) { word := 0, used := 0, out := [] }
  if s.used > 0 then s.out ++ [s.word] else s.out

/-- `uint64.tobytes()` (mixnet.py:1907, 1912): eight bytes, least significant first. -/
def wordBytes (w : Nat) : List Nat :=
  (List.range 8).map fun i => w / 256 ^ i % 256

/-- The byte stream written to the file. -/
def packBytes (fb : Nat) (xs : List Int) : List Nat :=
  (packWords fb xs).flatMap wordBytes

/-- `np.around` / `torch.round`: nearest integer, ties to the even one. -/
def roundEven (q : ℚ) : Int :=
  let f := ⌊q⌋
  if q - f < 1 / 2 then f
  else if 1 / 2 < q - f then f + 1
  else if f % 2 = 0 then f else f + 1

/-- Feature quantisation (mixnet.py:1609-1611):
`np.around(np.clip(x, -16, 511 / 32) * 32).astype(np.int16)`.  The clip bounds and the scaling by a
power of two are exact in float32, so the model computes over the rationals; NaN is not modelled. -/
def quantFeature (x : ℚ) : Int :=
  roundEven (min (max x (-16)) (511 / 32) * 32)

end Verif.Export
