import Mathlib.Data.Real.Basic
import Mathlib.Algebra.BigOperators.Group.Finset.Basic
import Mathlib.Data.Int.Order.Basic

/-!
# Model of the hashed feature layer (`model/layers/hashing.py:13-116`)

One batch element. The feature vectors and the final linear map are not modelled: what counts is which table rows are read. Division of sizes
(line 46) is exact (the code divides floats).
-/
namespace Verif.Hash

/-- The constructor's arguments: `input_size`, `input_level`, `hash_logsize`, `sub_features`, `sub_divisor`. -/
structure Cfg where
  n : Nat
  level : Nat
  logsize : Nat
  subs : Nat
  divisor : Nat

/-- Line 35: `perfect_hash`. -/
def perfect (c : Cfg) : Bool := decide (c.level ^ c.n ≤ 2 ^ c.logsize)

/-- Lines 37, 40: `n_features`. -/
def features (c : Cfg) : Nat := if perfect c = true then c.level ^ c.n else 2 ^ c.logsize

/-- Line 46: the size of sub-table `i`, `ceil(n / d^i)`. -/
def subSize (c : Cfg) (i : Nat) : Nat := (features c + c.divisor ^ i - 1) / c.divisor ^ i

/-- Line 47: `offsets`. -/
def offset (c : Cfg) : Nat → Nat
  | 0 => 0
  | i + 1 => offset c i + subSize c i

/-- The number of rows of the embedding (line 50). -/
def rowsTotal (c : Cfg) : Nat := offset c c.subs

/-- Lines 84-86: some level is outside `[0, level)`. -/
def invalid (c : Cfg) (x : List Int) : Bool := x.any fun a => decide (a < 0) || decide ((c.level : Int) ≤ a)

/-- Lines 38, 89: `sum(x_long * idx_stride)`, from position `i`. -/
def dot (level : Nat) : Nat → List Int → Int
  | _, [] => 0
  | i, a :: r => a * (level : Int) ^ i + dot level (i + 1) r

/-- Lines 95-100: the sum of the hashes of the levels. -/
def hashSum (hashs : Nat → Int → Int) : Nat → List Int → Int
  | _, [] => 0
  | i, a :: r => hashs i a + hashSum hashs (i + 1) r

/-- Lines 88-102: `x_indices`, from the flag `inv` of lines 81, 84; `none` is the out-of-range error of `scatter_` (line 98). -/
def index (c : Cfg) (hashs : Nat → Int → Int) (inv : Bool) (x : List Int) : Option Int :=
  if perfect c = true then
    if inv = true then some (offset c c.subs : Int) else some (dot c.level 0 x)
  else
    if inv = true then none else some (hashSum hashs 0 x % ((2 : Int) ^ c.logsize))

/-- One embedding lookup: out of range is an error. -/
def lookup (c : Cfg) (k : Int) : Option Nat := if 0 ≤ k ∧ k < (rowsTotal c : Int) then some k.toNat else none

/-- Lines 106-108: the rows read, from sub-table `i` on, `left` of them. -/
def rowsFrom (c : Cfg) : Nat → Nat → Int → Option (List Nat)
  | _, 0, _ => some []
  | i, left + 1, k =>
    match lookup c (k + (offset c i : Int)) with
    | none => none
    | some r => (rowsFrom c (i + 1) left (k / (c.divisor : Int))).map fun l => r :: l

/-- Lines 88-112: the rows read. With one sub-table the code reads `features(x_indices)`, the same row. -/
def rowsOf (c : Cfg) (hashs : Nat → Int → Int) (inv : Bool) (x : List Int) : Option (List Nat) :=
  match index c hashs inv x with
  | none => none
  | some k => rowsFrom c 0 c.subs k

/-- Lines 83-112: the rows read for `x_long`. -/
def rows (c : Cfg) (hashs : Nat → Int → Int) (x : List Int) : Option (List Nat) := rowsOf c hashs (invalid c x) x

/-- Line 82: the levels of a float input; `rnd` is `torch.round`. -/
noncomputable def levels (c : Cfg) (rnd : ℝ → Int) (x : List ℝ) : List Int := x.map fun a => rnd (((c.level : ℝ) - 1) * a)

open Classical in
/-- Line 81: some value is outside `[0, 1]`. -/
noncomputable def floatInvalid (x : List ℝ) : Bool := x.any fun a => !decide (0 ≤ a ∧ a ≤ 1)

/-- Lines 80-82, 88-112: the rows read for the float input `x`. -/
noncomputable def floatRows (c : Cfg) (hashs : Nat → Int → Int) (rnd : ℝ → Int) (x : List ℝ) : Option (List Nat) :=
  rowsOf c hashs (floatInvalid x) (levels c rnd x)

end Verif.Hash
