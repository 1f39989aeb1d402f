import Mathlib.Algebra.BigOperators.Group.Finset.Basic
import Mathlib.Data.Rat.Defs
import Mathlib.Data.List.Basic
import Mathlib.Data.Finset.Basic

/-
Model of the validation side of the vector-quantised network: /repo/model/mixnet.py:823-935
(`_owned_unique_mask`, `_quantize_line_feature`) and the evaluation statistics of
/repo/model/vq.py:923-1120 (`VectorQuantize.forward` in evaluation mode, `ProductVectorQuantize.forward`).

Simplifications. Elements are exact rationals. The direction and board axes of a row are flattened into one list of
entries, each with its line encoding and its feature vector. `torch.unique(sorted=True)` is the sorted list of
distinct values; the codebook search (in evaluation never stochastic) is an arbitrary
function of the vector, the same on all ranks; the soft assignment used by the entropy term is an arbitrary function of the vector.
Gradients and the straight-through estimator are left out (its value is modelled in `Rotate`). Collectives deliver
every rank's message to all ranks in rank order.
-/

namespace Verif.Vq

/-- `x[mask]` -/
def select {α : Type} (xs : List α) (mask : List Bool) : List α :=
  ((xs.zip mask).filter (fun p => p.2)).map (fun p => p.1)

/-! ### Ownership of the distinct encodings -/

/-- a rank's distinct encodings and whether a real row has them -/
structure Uniq where
  ids : List Int
  real : List Bool

/-- mixnet.py:827 `unique_ids[unique_real]` -/
def Uniq.realIds (u : Uniq) : List Int := select u.ids u.real

/-- mixnet.py:828-834 what a rank sends to the first `all_gather` -/
def countMessage (u : Uniq) : Nat := u.realIds.length

/-- mixnet.py:835 `max(...)` -/
def maxCount (counts : List Nat) : Nat := counts.foldl max 0

/-- mixnet.py:835-842 what a rank sends to the second `all_gather`; `none`: it returns without calling it -/
def idMessage (counts : List Nat) (u : Uniq) : Option (List Int) :=
  if maxCount counts = 0 then none
  else some (u.realIds ++ List.replicate (maxCount counts - u.realIds.length) 0)

/-- mixnet.py:845-850 one lower rank's encodings are struck out -/
def strike (ids : List Int) (owned : List Bool) (count : Nat) (gathered : List Int) : List Bool :=
  if count ≠ 0 then List.zipWith (fun o e => o && !(gathered.take count).contains e) owned ids else owned

/-- mixnet.py:844-851 the loop over the lower ranks -/
def strikeLower (ids : List Int) (counts : List Nat) (gathered : List (List Int)) : List Nat → List Bool → List Bool
  | [], owned => owned
  | lower :: rest, owned =>
    strikeLower ids counts gathered rest (strike ids owned (counts.getD lower 0) (gathered.getD lower []))

/-- mixnet.py:824-852 `_owned_unique_mask` on rank `rank`, given what all ranks sent -/
def ownedMask (distributed : Bool) (rank : Nat) (counts : List Nat) (messages : List (Option (List Int))) (u : Uniq) :
    List Bool :=
  if !distributed then u.real
  else if maxCount counts = 0 then u.real
  else strikeLower u.ids counts (messages.map (fun m => m.getD [])) (List.range rank) u.real

/-- the masks of all ranks -/
def ownedMasks (distributed : Bool) (us : List Uniq) : List (List Bool) :=
  us.zipIdx.map (fun u => ownedMask distributed u.2 (us.map countMessage)
    (us.map (idMessage (us.map countMessage))) u.1)

/-! ### One rank's evaluation batch -/

/-- one entry: line encoding and feature -/
abbrev Entry := Int × List ℚ

/-- a rank's evaluation batch; `real` is `is_real`, `collecting` is `_collect_eval_stats` -/
structure EvalRank where
  rows : List (List Entry)
  real : List Bool
  collecting : Bool

/-- mixnet.py:866-867 the flattened entries -/
def EvalRank.entries (r : EvalRank) : List Entry := r.rows.flatten

/-- mixnet.py:870-872 `torch.unique(..., sorted=True)` -/
def uniqueIds (xs : List Int) : List Int := xs.dedup.mergeSort (fun a b => decide (a ≤ b))

/-- mixnet.py:870-872 `return_inverse=True` -/
def inverseIndices (uniq xs : List Int) : List Nat := xs.map (fun x => uniq.idxOf x)

/-- mixnet.py:880-884 `entry_real`: the flag of the row, for every entry of the row -/
def EvalRank.entryReal (r : EvalRank) : List Bool :=
  (List.zipWith (fun row f => List.replicate row.length f) r.rows r.real).flatten

/-- `scatter_reduce_(0, index, src, reduce=...)` -/
def scatter {α : Type} (f : α → α → α) (d : α) (acc : List α) : List (Nat × α) → List α
  | [] => acc
  | (i, v) :: rest => scatter f d (acc.set i (f (acc.getD i d) v)) rest

/-- mixnet.py:885-902 `unique_real` before the ranks are compared -/
def EvalRank.uniq (r : EvalRank) : Except String Uniq :=
  if r.real.length ≠ r.rows.length then .error "is_real must contain one flag per VQ evaluation row"
  else
    let enc := r.entries.map Prod.fst
    let ids := uniqueIds enc
    let inv := inverseIndices ids enc
    let real := scatter max 0 (List.replicate ids.length 0) (inv.zip (r.entryReal.map (fun b => if b then 1 else 0)))
    let real := real.map (fun n => decide (n ≠ 0))
    .ok ⟨ids, if r.collecting then real else List.replicate ids.length false⟩

/-- mixnet.py:906-920 the first position of every distinct encoding -/
def EvalRank.firstOccurrence (r : EvalRank) : List Nat :=
  let enc := r.entries.map Prod.fst
  let ids := uniqueIds enc
  scatter min 0 (List.replicate ids.length enc.length)
    ((inverseIndices ids enc).zip (List.range enc.length))

/-- mixnet.py:923 `feature[first_occurrence_indices]` -/
def EvalRank.uniqueFeatures (r : EvalRank) : List (List ℚ) :=
  r.firstOccurrence.map (fun i => (r.entries.map Prod.snd).getD i [])

/-! ### The quantizer (vq.py) -/

/-- a codebook: its vectors, the search, the soft assignment of a vector -/
structure Codebook where
  codes : List (List ℚ)
  nearest : List ℚ → Nat
  soft : List ℚ → List ℚ

/-- vq.py:999 `F.embedding(embed_indices, codebook)` -/
def Codebook.quantize (q : Codebook) (x : List ℚ) : List ℚ := q.codes.getD (q.nearest x) []

/-- `(a - b).square().sum()` of a row -/
def sqDist (a b : List ℚ) : ℚ := (List.zipWith (fun x y => (x - y) ^ 2) a b).sum

/-- `torch.bincount(minlength=n)` -/
def bincount (n : Nat) (xs : List Nat) : List Nat := (List.range n).map (fun c => xs.count c)

/-- vq.py:1083-1101 `loss_stats`, and the code usage (vq.py:1015-1027) -/
structure EvalStats where
  embedSum : ℚ
  commitSum : ℚ
  elements : Nat
  vectors : Nat
  probability : List ℚ
  usage : List Nat
deriving DecidableEq

/-- sums of vectors with `n` entries -/
def vecSum (n : Nat) (xs : List (List ℚ)) : List ℚ := (List.range n).map (fun i => (xs.map (fun x => x.getD i 0)).sum)

/-- vq.py:1006-1027, 1083-1101 the evaluation statistics of the entries in the mask -/
def evalStats (q : Codebook) (dim : Nat) (xs : List (List ℚ)) (mask : List Bool) : Except String EvalStats :=
  if mask.length ≠ xs.length then .error "evaluation VQ mask must contain one flag per quantizer entry"
  else
    let statsX := select xs mask
    let statsQ := select (xs.map q.quantize) mask
    let statsI := select (xs.map q.nearest) mask
    .ok { embedSum := (List.zipWith sqDist statsQ statsX).sum
          commitSum := (List.zipWith sqDist statsQ statsX).sum
          elements := statsX.length * dim
          vectors := statsX.length
          probability := vecSum q.codes.length (statsX.map q.soft)
          usage := bincount q.codes.length statsI }

/-- vq.py:1187-1188 group `g` of a feature vector split into groups of `dim` -/
def group (dim g : Nat) (x : List ℚ) : List ℚ := (x.drop (g * dim)).take dim

/-- vq.py:1190-1195 the statistics of all codebooks -/
def productStats (dim : Nat) (xs : List (List ℚ)) (mask : List Bool) :
    List (Codebook × Nat) → Except String (List EvalStats)
  | [] => .ok []
  | (q, g) :: rest =>
    match evalStats q dim (xs.map (group dim g)) mask with
    | .error e => .error e
    | .ok s =>
      match productStats dim xs mask rest with
      | .error e => .error e
      | .ok ss => .ok (s :: ss)

/-- vq.py:1197-1198 the quantised vector: the groups, quantised, put together -/
def productQuantize (dim : Nat) (qs : List (Codebook × Nat)) (x : List ℚ) : List ℚ :=
  qs.flatMap (fun qg => qg.1.quantize (group dim qg.2 x))

/-- mixnet.py:854-935 one layer on one rank, given its final mask: the quantised entries (938) and the statistics -/
def EvalRank.layer (dim : Nat) (qs : List (Codebook × Nat)) (r : EvalRank) (mask : List Bool) :
    Except String (List (List ℚ) × List EvalStats) :=
  match productStats dim r.uniqueFeatures mask qs with
  | .error e => .error e
  | .ok stats =>
    let vq := r.uniqueFeatures.map (productQuantize dim qs)
    let inv := inverseIndices (uniqueIds (r.entries.map Prod.fst)) (r.entries.map Prod.fst)
    .ok (inv.map (fun i => vq.getD i []), stats)

/-- the distinct encodings of all ranks -/
def uniqs : List EvalRank → Except String (List Uniq)
  | [] => .ok []
  | r :: rest =>
    match r.uniq with
    | .error e => .error e
    | .ok u =>
      match uniqs rest with
      | .error e => .error e
      | .ok us => .ok (u :: us)

def layers (dim : Nat) (qs : List (Codebook × Nat)) :
    List (EvalRank × List Bool) → Except String (List (List (List ℚ) × List EvalStats))
  | [] => .ok []
  | (r, m) :: rest =>
    match r.layer dim qs m with
    | .error e => .error e
    | .ok x =>
      match layers dim qs rest with
      | .error e => .error e
      | .ok xs => .ok (x :: xs)

/-- one layer on all ranks -/
def globalLayer (distributed : Bool) (dim : Nat) (qs : List (Codebook × Nat)) (ranks : List EvalRank) :
    Except String (List (List (List ℚ) × List EvalStats)) :=
  match uniqs ranks with
  | .error e => .error e
  | .ok us => layers dim qs (ranks.zip (ownedMasks distributed us))

end Verif.Vq
