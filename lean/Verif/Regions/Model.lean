import Mathlib.Data.Rat.Floor
import Mathlib.Algebra.BigOperators.Group.List.Basic

/-!
# Model of the spatial aggregation primitives (`model/ops/aggregation.py`)

One sample and one channel: a tensor of shape `[H, W]` is a function of row and column, a view is the list of its rows. Arithmetic is exact.
-/
namespace Verif.Regions

/-- The indices of the Python slice `a:b` of an axis of length `n`. -/
def slice (n a b : Nat) : List Nat := ((List.range n).take b).drop a

/-- Lines 17-18: `h1`, `w1`. -/
def cut1 (n : Nat) : Nat := n / 3 + (if n % 3 = 2 then 1 else 0)

/-- Lines 19-20: `h2`, `w2`. -/
def cut2 (n : Nat) : Nat := n / 3 * 2 + (if n % 3 > 0 then 1 else 0)

/-- Lines 22-30: the slice of an axis taken by the regions of row (or column) `k` of the 3x3 arrangement. -/
def axis (n : Nat) : Nat → List Nat
  | 0 => slice n 0 (cut1 n)
  | 1 => slice n (cut1 n) (cut2 n)
  | _ => slice n (cut2 n) n

/-- Lines 9-31 `split_3x3_regions`: region `3 r + s` of the tuple, row by row. -/
def region {M : Type} (H W : Nat) (f : Nat → Nat → M) (r s : Nat) : List (List M) := (axis H r).map fun y => (axis W s).map fun x => f y x

/-- Lines 34-36 `sum_3x3_regions`. -/
def regionSum {M : Type} [AddCommMonoid M] (H W : Nat) (f : Nat → Nat → M) (r s : Nat) : M := ((region H W f r s).map List.sum).sum

/-- Lines 39-41 `mean_3x3_regions`; `none` is the NaN of the mean of an empty view. -/
def regionMean (H W : Nat) (f : Nat → Nat → ℚ) (r s : Nat) : Option ℚ :=
  if (region H W f r s).flatten.length = 0 then none
  else some (regionSum H W f r s / ((region H W f r s).flatten.length : ℚ))

/-- utils/quant_utils.py:4-18 with `scale=128`, `signed`, `floor=True`: value only. -/
def quant (bits : Nat) (x : ℚ) : ℚ :=
  ((⌊min (max x (-(2 ^ (bits - 1)) / 128)) ((2 ^ (bits - 1) - 1) / 128) * 128⌋ : Int) : ℚ) / 128

/-- Lines 44-49 `quantized_sum_3x3_regions`. -/
def qsum (H W : Nat) (f : Nat → Nat → ℚ) (r s : Nat) : ℚ := quant 32 (regionSum H W f r s / 32)

/-- Lines 52-60 `quantized_avg4`. -/
def avg4 (a b c d : ℚ) : ℚ :=
  quant 8 ((quant 8 ((quant 8 a + quant 8 b + 1 / 128) / 2) + quant 8 ((quant 8 c + quant 8 d + 1 / 128) / 2) + 1 / 128) / 2)

end Verif.Regions
