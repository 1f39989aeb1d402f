/-!
# Model of the dataset RNG (`dataset/core.py` lines 14-18 and 389-694)

blake2b is abstracted: `Digest` maps the complete hash input (header, TLV payload) to the 64-bit word that the
code extracts with `int.from_bytes(digest[:8], "little")`.  The digest size (32) and the personalisation string
are fixed constants in the code, so the word is a function of the payload bytes alone.
A Python exception is `none`.
-/
namespace Verif.Rng

/-- Values accepted as RNG key components (`dataset/core.py:389-405`).  Python tuples and lists are encoded
identically by `_tlv` (line 402), so they are one constructor here.  Python strings are Lean strings
(valid Unicode; a lone surrogate makes `str.encode` raise and is outside the domain). -/
inductive Val where
  | none
  | bool (b : Bool)
  | int (i : Int)
  | str (s : String)
  | bytes (b : List UInt8)
  | seq (xs : List Val)

/-- `struct.pack` little-endian of an unsigned value in `k` bytes (`dataset/core.py:397,400,402,403`). -/
def leBytes : Nat → Nat → List UInt8
  | 0, _ => []
  | k + 1, n => UInt8.ofNat n :: leBytes k (n / 256)

/-- `struct.pack("<I", n)`; raises when `n ≥ 2^32`. -/
def packU32 (n : Nat) : Option (List UInt8) :=
  if n < 2 ^ 32 then some (leBytes 4 n) else .none

/-- `struct.pack("<q", i)`: two's complement, eight bytes (range checked by the caller at line 395). -/
def packI64 (i : Int) : List UInt8 := leBytes 8 (i % 2 ^ 64).toNat

/-- UTF-8 encoding of a string (`value.encode("utf-8")`, line 399). -/
def utf8 (s : String) : List UInt8 := s.toUTF8.data.toList

mutual
/-- `_tlv` (`dataset/core.py:389-405`). -/
def tlv : Val → Option (List UInt8)
  | .none => some [0]
  | .bool b => some [1, if b then 1 else 0]
  | .int i => if -(2 ^ 63) ≤ i ∧ i < 2 ^ 63 then some (2 :: packI64 i) else Option.none
  | .str s => do let n ← packU32 (utf8 s).length; some (3 :: (n ++ utf8 s))
  | .bytes b => do let n ← packU32 b.length; some (4 :: (n ++ b))
  | .seq xs => do let n ← packU32 xs.length; let body ← tlvs xs; some (5 :: (n ++ body))
/-- `b"".join(_tlv(v) for v in value)` (`dataset/core.py:404`). -/
def tlvs : List Val → Option (List UInt8)
  | [] => some []
  | x :: xs => do let a ← tlv x; let b ← tlvs xs; some (a ++ b)
end

/-- Hash input bytes to the extracted 64-bit word (blake2b, uninterpreted). -/
abbrev Digest := List UInt8 → UInt64

/-- `_RNG_HEADER = b"NNUE-DATA-RNG\0" + struct.pack("<H", 1)` (`dataset/core.py:15`). -/
def rngHeader : List UInt8 :=
  [0x4e, 0x4e, 0x55, 0x45, 0x2d, 0x44, 0x41, 0x54, 0x41, 0x2d, 0x52, 0x4e, 0x47, 0, 1, 0]

/-- The identity of one random word: `_tlv((domain, int(root_seed), key, int(counter)))` (line 411). -/
def identity (domain : String) (seed : Int) (key : Val) (counter : Nat) : Val :=
  .seq [.str domain, .int seed, key, .int counter]

/-- Hash input of `rng_digest` (`dataset/core.py:408-412`). -/
def payload (seed : Int) (domain : String) (key : Val) (counter : Nat) : Option (List UInt8) :=
  if counter < 2 ^ 63 then (tlv (identity domain seed key counter)).map (rngHeader ++ ·) else .none

/-- `rng_u64` (`dataset/core.py:415-416`). -/
def rngU64 (H : Digest) (seed : Int) (domain : String) (key : Val) (counter : Nat) : Option Nat :=
  (payload seed domain key counter).map fun p => (H p).toNat

/-- `limit = (1 << 64) - ((1 << 64) % n)` (lines 439, 454). -/
def limit (n : Nat) : Nat := 2 ^ 64 - 2 ^ 64 % n

/-- The rejection loop `while True: ...` shared by `uniform_below` (lines 455-459) and
`_uniform_below_from_base` (lines 440-448).  `word c` is the word drawn at counter `c` or `none` when drawing
raises.  The loop ends at the latest when the counter leaves `[0, 2^63)`; `fuel` counts the remaining
admissible counter values, so fuel exhaustion is exactly that `ValueError`. -/
def rejectLoop (word : Nat → Option Nat) (n : Nat) : Nat → Nat → Option (Nat × Nat)
  | 0, _ => .none
  | fuel + 1, c =>
    match word c with
    | .none => .none
    | some v => if v < limit n then some (v % n, c + 1) else rejectLoop word n fuel (c + 1)

/-- Loop entry: bound check (lines 437-438, 452-453), then the loop with all remaining counters. -/
def boundedDraw (word : Nat → Option Nat) (n counter : Nat) : Option (Nat × Nat) :=
  if n = 0 ∨ 2 ^ 64 < n then .none else rejectLoop word n (2 ^ 63 - counter) counter

/-- `uniform_below` (`dataset/core.py:451-459`). -/
def uniformBelow (H : Digest) (n : Nat) (seed : Int) (domain : String) (key : Val) (counter : Nat) :
    Option (Nat × Nat) :=
  boundedDraw (fun c => rngU64 H seed domain key c) n counter

/-- `_counter_rng_base` (`dataset/core.py:419-433`): the pre-seeded hash object is represented by the bytes fed
so far; `copy().update(x).digest()` is the digest of the concatenation. -/
def counterRngBase (seed : Int) (domain : String) (key : Val) : Option (List UInt8) := do
  let n ← packU32 4
  let d ← tlv (.str domain)
  let s ← tlv (.int seed)
  let k ← tlv key
  some (rngHeader ++ 5 :: (n ++ (d ++ (s ++ (k ++ [2])))))

/-- `_uniform_below_from_base` (`dataset/core.py:436-448`). -/
def uniformBelowFromBase (H : Digest) (n : Nat) (base : List UInt8) (counter : Nat) : Option (Nat × Nat) :=
  boundedDraw
    (fun c => if c < 2 ^ 63 then some (H (base ++ packI64 c)).toNat else .none) n counter

/-- Python `values[i], values[j] = values[j], values[i]` (line 681). -/
def swap {α : Type} (l : List α) (i j : Nat) : List α :=
  match l[i]?, l[j]? with
  | some a, some b => (l.set i b).set j a
  | _, _ => l

/-- `for i in range(length - 1, 0, -1): j, counter = ...; swap` (lines 679-681), `i` counting down. -/
def fisherYates (draw : Nat → Nat → Option (Nat × Nat)) : Nat → Nat → List Nat → Option (List Nat)
  | 0, _, l => some l
  | i + 1, c, l => do
    let (j, c') ← draw (i + 2) c
    fisherYates draw i c' (swap l (i + 1) j)

/-- `deterministic_permutation` (`dataset/core.py:675-682`).  `fisherYates (length-1)` performs the iterations
`i = length-1, ..., 1`. -/
def deterministicPermutation (H : Digest) (length : Nat) (seed : Int) (domain : String) (key : Val) :
    Option (List Nat) := do
  let base ← counterRngBase seed domain key
  fisherYates (fun n c => uniformBelowFromBase H n base c) (length - 1) 0 (List.range length)

/-- `sample_is_admitted` (`dataset/core.py:685-692`).  `Q` is the type of rates and `quot u` the rounded
quotient `u / 2^64`; nothing is assumed about the rounding. -/
def sampleIsAdmitted {Q : Type} [LE Q] [LT Q] [DecidableLE Q] [DecidableLT Q] (zero one : Q) (quot : Nat → Q)
    (H : Digest) (rate : Q) (seed : Int) (epoch : Int) (sampleKey : Val) : Option Bool :=
  if ¬ (zero ≤ rate ∧ rate ≤ one) then .none
  else if rate ≤ zero then some false
  else if one ≤ rate then some true
  else (rngU64 H seed "sample" (.seq [.int epoch, sampleKey]) 0).map fun u => decide (quot u < rate)

/-! ### Batched draws for processed rows -/

/-- A processed sample key `(namespace, content_digest, kind, address)` with an address of one or two integers
(`dataset/core.py:490-495`). -/
structure SampleKey where
  ns : String
  digest : List UInt8
  kind : String
  address : List Int

/-- The key as an RNG value. -/
def SampleKey.val (k : SampleKey) : Val :=
  .seq [.str k.ns, .bytes k.digest, .str k.kind, .seq (k.address.map .int)]

/-- The RNG key tuple `(epoch, sample_key, occurrence)` of an independent `uniform_below` call. -/
def sampleRngKey (epoch : Int) (k : SampleKey) (occurrence : Int) : Val :=
  .seq [.int epoch, k.val, .int occurrence]

/-- Shared prefix bytes (`dataset/core.py:480-489`). -/
def processedPrefix (seed : Int) (domain : String) (epoch : Int) : Option (List UInt8) := do
  let n4 ← packU32 4
  let d ← tlv (.str domain)
  let s ← tlv (.int seed)
  let n3 ← packU32 3
  let e ← tlv (.int epoch)
  some (rngHeader ++ 5 :: (n4 ++ (d ++ (s ++ 5 :: (n3 ++ e)))))

/-- Per-file base (`dataset/core.py:498-516`). -/
def processedBase (pre : List UInt8) (k : SampleKey) : Option (List UInt8) := do
  let n4 ← packU32 4
  let nn ← packU32 (utf8 k.ns).length
  let nd ← packU32 k.digest.length
  let nk ← packU32 (utf8 k.kind).length
  let na ← packU32 k.address.length
  some (pre ++ 5 :: (n4 ++ (3 :: (nn ++ (utf8 k.ns ++ 4 :: (nd ++ (k.digest ++
    3 :: (nk ++ (utf8 k.kind ++ 5 :: na)))))))))

/-- One packed integer `tag 2, <q` of `_THREE_RNG_INTS`/`_FOUR_RNG_INTS` (lines 17-18, 522-545): out-of-range
integers raise `struct.error`. -/
def packTagged (i : Int) : Option (List UInt8) :=
  if -(2 ^ 63) ≤ i ∧ i < 2 ^ 63 then some (2 :: packI64 i) else .none

/-- The digest suffix for one draw (lines 520-546): address ints, occurrence, counter. -/
def processedSuffix (address : List Int) (occurrence : Int) (c : Nat) : Option (List UInt8) :=
  match address with
  | [a] => do
    let a' ← packTagged a; let o ← packTagged occurrence; let k ← packTagged c
    some (a' ++ (o ++ k))
  | [a, b] => do
    let a' ← packTagged a; let b' ← packTagged b; let o ← packTagged occurrence; let k ← packTagged c
    some (a' ++ (b' ++ (o ++ k)))
  | _ => .none

/-- The cache comparison key `(namespace, content_digest, kind, len(address))` (line 496). -/
def SampleKey.baseKey (k : SampleKey) : String × List UInt8 × String × Nat :=
  (k.ns, k.digest, k.kind, k.address.length)

/-- Reuse the previous base when the base key is unchanged, else build it (lines 497-517). -/
def chooseBase (pre : List UInt8) (k : SampleKey) :
    Option ((String × List UInt8 × String × Nat) × List UInt8) → Option (List UInt8)
  | some (bk, b) => if bk = k.baseKey then some b else processedBase pre k
  | .none => processedBase pre k

/-- The loop over sample keys, carrying the previously built base (lines 491-552). -/
def processedLoop (H : Digest) (n : Nat) (pre : List UInt8) (occurrence : Int) :
    List SampleKey → Option ((String × List UInt8 × String × Nat) × List UInt8) → Option (List Nat)
  | [], _ => some []
  | k :: ks, prev => do
    if k.address.length ≠ 1 ∧ k.address.length ≠ 2 then .none else
    let base ← chooseBase pre k prev
    let (v, _) ← boundedDraw
      (fun c => (processedSuffix k.address occurrence c).map fun s => (H (base ++ s)).toNat) n 0
    let rest ← processedLoop H n pre occurrence ks (some (k.baseKey, base))
    some (v :: rest)

/-- `_uniform_below_for_processed_sample_keys` (`dataset/core.py:462-553`). -/
def uniformBelowForKeys (H : Digest) (n : Nat) (seed : Int) (domain : String) (epoch : Int)
    (keys : List SampleKey) (occurrence : Int) : Option (List Nat) :=
  if n = 0 ∨ 2 ^ 64 < n then .none else do
    let pre ← processedPrefix seed domain epoch
    processedLoop H n pre occurrence keys .none

/-- SplitMix64 finaliser on `uint64` (numpy wrap-around; lines 613-619, 664-670; also `shuffle.py:148-150`
and `packed_shuffle.cpp`). -/
def mix (v : UInt64) : UInt64 :=
  let v := (v ^^^ (v >>> 30)) * 0xBF58476D1CE4E5B9
  let v := (v ^^^ (v >>> 27)) * 0x94D049BB133111EB
  v ^^^ (v >>> 31)

def rowGamma : UInt64 := 0x9E3779B97F4A7C15
def cycleGamma : UInt64 := 0xD1B54A32D192ED03

/-- `np.asarray(x, dtype=np.uint64)` of a Python int: raises outside `[0, 2^64)`. -/
def asU64 (i : Int) : Option UInt64 :=
  if 0 ≤ i ∧ i < 2 ^ 64 then some (UInt64.ofNat i.toNat) else .none

/-- `(cycle, row)` of an address (lines 590-596). -/
def cycleRow : List Int → Option (Int × Int)
  | [r] => some (0, r)
  | [c, r] => some (c, r)
  | _ => .none

/-- The RNG key `(epoch, *base_key, occurrence)` of one file group (lines 604-610). -/
def groupRngKey (epoch : Int) (bk : String × List UInt8 × String × Nat) (occurrence : Int) : Val :=
  .seq [.int epoch, .str bk.1, .bytes bk.2.1, .str bk.2.2.1, .int bk.2.2.2, .int occurrence]

/-- Base word of one file group (lines 603-611). -/
def groupBase (H : Digest) (seed : Int) (domain : String) (epoch : Int)
    (bk : String × List UInt8 × String × Nat) (occurrence : Int) : Option UInt64 :=
  (rngU64 H seed (domain ++ "_processed_splitmix_v1") (groupRngKey epoch bk occurrence) 0).map UInt64.ofNat

/-- `groups.setdefault(base_key, ...)` then appending `(position, cycle, row)` (lines 582-596); the dict keeps
first-insertion order. -/
def addToGroup {κ β : Type} [DecidableEq κ] (k : κ) (x : β) : List (κ × List β) → List (κ × List β)
  | [] => [(k, [x])]
  | (k', xs) :: gs => if k' = k then (k', xs ++ [x]) :: gs else (k', xs) :: addToGroup k x gs

/-- The grouping pass (lines 582-596); `position` is the index of the first key of the list. -/
def groupKeys : Nat → List SampleKey → List ((String × List UInt8 × String × Nat) × List (Nat × Int × Int)) →
    Option (List ((String × List UInt8 × String × Nat) × List (Nat × Int × Int)))
  | _, [], gs => some gs
  | pos, k :: ks, gs => do
    let (c, r) ← cycleRow k.address
    groupKeys (pos + 1) ks (addToGroup k.baseKey (pos, c, r) gs)

/-- One output word `values & mask` (lines 613-620). -/
def groupValue (base : UInt64) (mask : UInt64) (c r : Int) : Option UInt64 := do
  let r' ← asU64 r
  let c' ← asU64 c
  some (mix (base + r' * rowGamma + c' * cycleGamma) &&& mask)

/-- `output[positions] = values & mask` for the entries of one group (line 620). -/
def scatterGroup (base mask : UInt64) : List (Nat × Int × Int) → List UInt64 → Option (List UInt64)
  | [], out => some out
  | (p, c, r) :: es, out => do
    let v ← groupValue base mask c r
    scatterGroup base mask es (out.set p v)

/-- The loop over groups (lines 602-620). -/
def scatterGroups (H : Digest) (seed : Int) (domain : String) (epoch : Int) (occurrence : Int) (mask : UInt64) :
    List ((String × List UInt8 × String × Nat) × List (Nat × Int × Int)) → List UInt64 → Option (List UInt64)
  | [], out => some out
  | (bk, es) :: gs, out => do
    let base ← groupBase H seed domain epoch bk occurrence
    let out' ← scatterGroup base mask es out
    scatterGroups H seed domain epoch occurrence mask gs out'

/-- `_uniform_below_for_processed_sample_keys_v2` for a power of two bound (`dataset/core.py:556-622`);
`np.empty` is an arbitrary initial array, here zeros (every position is overwritten, as the theorem shows).
Non-powers of two delegate to `uniformBelowForKeys` (lines 573-576). -/
def uniformBelowForKeysV2 (H : Digest) (n : Nat) (seed : Int) (domain : String) (epoch : Int)
    (keys : List SampleKey) (occurrence : Int) : Option (List Nat) :=
  if n = 0 ∨ 2 ^ 64 < n then .none
  else if n &&& (n - 1) ≠ 0 then uniformBelowForKeys H n seed domain epoch keys occurrence
  else if keys = [] then some []
  else do
    let gs ← groupKeys 0 keys []
    let out ← scatterGroups H seed domain epoch occurrence (UInt64.ofNat (n - 1)) gs
      (List.replicate keys.length 0)
    some (out.map UInt64.toNat)

/-- `_uniform_below_for_packed_processed_rows_v2` (`dataset/core.py:625-672`).  The loop over
`np.unique(file_indices)` with boolean-mask scatter writes, at every position, the value computed from that
position's own file index; it is modelled position-wise (simplification: the mask scatter is not spelled out). -/
def uniformBelowForPackedRowsV2 (H : Digest) (n : Nat) (seed : Int) (domain : String) (epoch : Int)
    (contentDigests : List (List UInt8)) (rows : List (Nat × UInt64)) (occurrence : Int) :
    Option (List Nat) :=
  if n = 0 ∨ 2 ^ 64 < n ∨ n &&& (n - 1) ≠ 0 then .none
  else rows.mapM fun (fileIndex, row) => do
    let digest ← contentDigests[fileIndex]?
    let base ← groupBase H seed domain epoch ("root", digest, "npz-row", 1) occurrence
    some (mix (base + row * rowGamma) &&& UInt64.ofNat (n - 1)).toNat

end Verif.Rng
