import Verif.Export.Bits

/-
Model of `HashLayer` (model/layers/hashing.py:12-116): which embedding rows are read for an input.
Not modelled: the feature values, the final linear layer and the int8 fake quantisation.
-/
namespace Verif.Export

/-- Constructor arguments (hashing.py:15-35) and the random table `hashs` (hashing.py:44-47, 62-63). -/
structure HashCfg where
  inputSize : Nat
  inputLevel : Nat
  hashLogsize : Nat
  subFeatures : Nat
  subDivisor : Nat
  hashs : Nat → Nat → Int

/-- `self.perfect_hash` (hashing.py:37). -/
def HashCfg.perfect (c : HashCfg) : Bool := decide (2 ^ c.hashLogsize ≥ c.inputLevel ^ c.inputSize)

/-- `n_features` before it becomes a list (hashing.py:39, 42). -/
def HashCfg.nFeatures (c : HashCfg) : Nat :=
  if c.perfect then c.inputLevel ^ c.inputSize else 2 ^ c.hashLogsize

/-- Entry `i` of the `n_features` list, `math.ceil(n_features / sub_divisor**i)` (hashing.py:49).
The float division is exact enough for `ceil` below `2 ** 53`, far above any allocatable table. -/
def HashCfg.subSize (c : HashCfg) (i : Nat) : Nat :=
  (c.nFeatures + c.subDivisor ^ i - 1) / c.subDivisor ^ i

/-- `self.offsets[i] = sum(n_features[:i])` (hashing.py:50). -/
def HashCfg.offset (c : HashCfg) (i : Nat) : Nat := ((List.range i).map c.subSize).sum

/-- Number of rows of the embedding, `sum(n_features)` (hashing.py:52-55). -/
def HashCfg.rows (c : HashCfg) : Nat := ((List.range c.subFeatures).map c.subSize).sum

/-- `torch.any((x_long < 0) | (x_long >= self.input_level), dim=1)` for one sample
(hashing.py:84-86). -/
def HashCfg.invalidLong (c : HashCfg) (x : List Int) : Bool :=
  x.any fun v => decide (v < 0) || decide (v ≥ c.inputLevel)

/-- `torch.sum(x_long * self.idx_stride, dim=1)` (hashing.py:89), `idx_stride = level ** arange`
(hashing.py:40). -/
def strideSum (level : Nat) : List Int → Nat → Int
  | [], _ => 0
  | v :: vs, i => v * (level : Int) ^ i + strideSum level vs (i + 1)

/-- One-hot selection and sum (hashing.py:95-102): `scatter_` raises for an index outside
`[0, input_level)` (`none`). -/
def hashSum (c : HashCfg) : List Int → Nat → Option Int
  | [], _ => some 0
  | v :: vs, i =>
      if 0 ≤ v ∧ v < c.inputLevel then (hashSum c vs (i + 1)).map (c.hashs i v.toNat + ·) else none

/-- `x_indices` (hashing.py:88-104) for one sample. -/
def HashCfg.index (c : HashCfg) (invalid : Bool) (x : List Int) : Option Int :=
  if c.perfect then
    some (if invalid then (c.offset c.subFeatures : Int) else strideSum c.inputLevel x 0)
  else
    (hashSum c (if invalid then x.map (fun _ => (c.inputLevel : Int)) else x) 0).map
      (· % (2 ^ c.hashLogsize : Int))

/-- One embedding lookup; `nn.Embedding` raises for an index outside the table. -/
def HashCfg.lookup (c : HashCfg) (i : Int) : Option Nat :=
  if 0 ≤ i ∧ i < c.rows then some i.toNat else none

/-- The sub-table loop (hashing.py:106-110). -/
def HashCfg.subLookups (c : HashCfg) : Nat → Nat → Int → Option (List Nat)
  | 0, _, _ => some []
  | n + 1, i, idx =>
      (c.lookup (idx + c.offset i)).bind fun r =>
        (c.subLookups n (i + 1) (idx / (c.subDivisor : Int))).map (r :: ·)

/-- The rows read for a sample given as levels (`x_long`), hashing.py:83-114. -/
def HashCfg.forwardWith (c : HashCfg) (invalid : Bool) (x : List Int) : Option (List Nat) :=
  (c.index invalid x).bind fun idx =>
    if c.subFeatures > 1 then c.subLookups c.subFeatures 0 idx
    else (c.lookup idx).map ([·])

/-- `forward(x, x_long)` with `x_long` given. -/
def HashCfg.forwardLong (c : HashCfg) (x : List Int) : Option (List Nat) :=
  c.forwardWith (c.invalidLong x) x

/-- `~((x >= 0) & (x <= 1))` for one entry (hashing.py:80); `none` is NaN, for which both
comparisons are false. -/
def floatInvalid : Option ℚ → Bool
  | none => true
  | some q => !(decide (q ≥ 0) && decide (q ≤ 1))

/-- `torch.round((self.input_level - 1) * x).long()` for one entry (hashing.py:81); the value of a
NaN is arbitrary, here 0. -/
def floatLevel (level : Nat) : Option ℚ → Int
  | none => 0
  | some q => roundEven (((level : ℚ) - 1) * q)

/-- `forward(x)` with float inputs (hashing.py:79-81).  Products are taken over the rationals:
`input_level - 1` is exactly representable, so float32 rounding of the product is monotone and stays
inside `[0, input_level - 1]`. -/
def HashCfg.forwardFloat (c : HashCfg) (x : List (Option ℚ)) : Option (List Nat) :=
  c.forwardWith (x.any floatInvalid) (x.map (floatLevel c.inputLevel))

end Verif.Export
