import Mathlib.Data.Rat.Defs
import Mathlib.Algebra.Order.Field.Rat
import Mathlib.Order.WithBot

/-
Model of the accelerated nearest-code search: /repo/model/ops/vector_quantization.py:15-39 (configurations), 112-207
(`_coarse_l2_topk_kernel`), 209-300 (`_coarse_l2_top2_refined_kernel`, `_reduce_l2_tile_winners_kernel`), 303-443
(the cosine kernels), 446-585 (`_exact_l2_candidates_kernel`), 588-612, 707-883 (the callers), and its use in
/repo/model/vq.py:972-998.

Simplifications. One query at a time (the kernels treat queries independently; padding queries store nothing). Sums are exact
rationals, so there is no NaN; the rounding of the coarse operands to BF16 is an arbitrary function of a number. The
device, dtype and layout conditions of the specialisation are one flag.
-/

namespace Verif.Search

abbrev Vec := List ℚ
abbrev Score := WithTop ℚ

/-- vector_quantization.py:15-21 -/
structure Config where
  blockM : Nat
  blockN : Nat
  exactBlock : Nat
deriving DecidableEq

/-- vector_quantization.py:24-35 -/
def l2Config : Nat → Option Config
  | 32 => some ⟨32, 256, 64⟩
  | 64 => some ⟨32, 256, 128⟩
  | 96 => some ⟨32, 128, 32⟩
  | 128 => some ⟨16, 256, 64⟩
  | _ => none

/-- vector_quantization.py:36-39 -/
def cosineConfig : Nat → Option Config
  | 32 => some ⟨32, 256, 64⟩
  | 64 => some ⟨32, 256, 64⟩
  | _ => none

/-- `triton.cdiv` -/
def cdiv (a b : Nat) : Nat := (a + b - 1) / b

/-- vector_quantization.py:588-612 `supports_accelerated_l2_argmin`; `device`: triton, CUDA, one device, float32, contiguous, capability -/
def supportsL2 (device : Bool) (queries dim codes codeDim : Nat) : Bool :=
  device && decide (dim = codeDim) &&
  (let minQueries := if codes = 16384 || dim = 32 then 4096 else 16384
   decide (minQueries ≤ queries ∧ queries ≤ 65536)) &&
  (l2Config dim).isSome && (decide (codes = 16384) || decide (codes = 65536))

/-- vector_quantization.py:707-727 -/
def supportsCosine (device : Bool) (queries dim codes codeDim : Nat) : Bool :=
  device && decide (dim = codeDim) && decide (4096 ≤ queries ∧ queries ≤ 65536) &&
  (cosineConfig dim).isSome && (decide (codes = 16384) || decide (codes = 65536))

/-! ### Scores -/

def at' (v : Vec) (i : Nat) : ℚ := v.getD i 0

/-- `tl.dot` of the rounded operands -/
def coarseDot (round : ℚ → ℚ) (dim : Nat) (x c : Vec) : ℚ := ((List.range dim).map (fun i => round (at' x i) * round (at' c i))).sum

def norm2 (dim : Nat) (x : Vec) : ℚ := ((List.range dim).map (fun i => at' x i ^ 2)).sum

/-- vector_quantization.py:168-171, 241-244 the coarse distance -/
def coarseL2 (round : ℚ → ℚ) (dim : Nat) (x c : Vec) : ℚ := norm2 dim x + norm2 dim c - 2 * coarseDot round dim x c

/-- vector_quantization.py:267-270, 493-502 the refined distance -/
def exactL2 (dim : Nat) (x c : Vec) : ℚ := ((List.range dim).map (fun i => (at' c i - at' x i) ^ 2)).sum

/-- vector_quantization.py:571-580 the same as an ordered accumulation -/
def orderedL2 (dim : Nat) (x c : Vec) : ℚ :=
  (List.range dim).foldl (fun s i => (at' c i - at' x i) * (at' c i - at' x i) + s) 0

/-- vector_quantization.py:332-333 -/
def coarseCosine (round : ℚ → ℚ) (dim : Nat) (x c : Vec) : ℚ := - coarseDot round dim x c

/-- vector_quantization.py:362-364 -/
def exactCosine (dim : Nat) (x c : Vec) : ℚ := - ((List.range dim).map (fun i => at' c i * at' x i)).sum

/-- vector_quantization.py:424-434 the ordered score (larger is nearer) -/
def orderedCosine (dim : Nat) (x c : Vec) : ℚ :=
  (List.range dim).foldl (fun s i => at' c i * at' x i + s) 0

/-! ### Kernels, for one query. `coarse`, `exact`, `ordered` give the score of a code by its number. -/

/-- `tl.argmin(…, tie_break_left=True)` -/
def argminFrom (best : Score) (bi : Nat) : Nat → List Score → Nat
  | _, [] => bi
  | i, s :: l => if s < best then argminFrom s i (i + 1) l else argminFrom best bi (i + 1) l

def argmin : List Score → Nat
  | [] => 0
  | s :: l => argminFrom s 0 1 l

/-- vector_quantization.py:173-182 the `k` smallest, one after the other, each masked by infinity -/
def pick : Nat → List Score → List Nat
  | 0, _ => []
  | k + 1, l => argmin l :: pick k (l.set (argmin l) ⊤)

/-- the coarse scores of a tile -/
def tile (coarse : Nat → ℚ) (blockN t : Nat) : List Score := (List.range blockN).map (fun j => (coarse (t * blockN + j) : Score))

/-- vector_quantization.py:184-207 the shortlist of one tile -/
def shortlist (coarse : Nat → ℚ) (blockN topK t : Nat) : List Nat := (pick topK (tile coarse blockN t)).map (fun j => t * blockN + j)

/-- vector_quantization.py:184-207 all tiles, in the order they are stored -/
def candidates (coarse : Nat → ℚ) (blockN topK tiles : Nat) : List Nat :=
  (List.range tiles).flatMap (shortlist coarse blockN topK)

/-- `tl.min` -/
def minScore (l : List Score) : Score := l.foldl min ⊤

/-- the `2147483647` of the kernels -/
def intMax : Nat := 2147483647

/-- `tl.min(tl.where(dists == best, codes, 2147483647))` -/
def minCode (l : List (Score × Nat)) (best : Score) : Nat := (l.map (fun p => if p.1 = best then p.2 else intMax)).foldl min intMax

/-- the smallest score and its smallest code -/
def localBest (l : List (Score × Nat)) : Score × Nat := (minScore (l.map Prod.fst), minCode l (minScore (l.map Prod.fst)))

/-- `(a < b) | ((a == b) & (code < code'))` -/
def better (a b : Score × Nat) : Bool := decide (a.1 < b.1) || (decide (a.1 = b.1) && decide (a.2 < b.2))

/-- vector_quantization.py:480-484 consecutive blocks of the candidates; a last incomplete block would be read out of bounds -/
def blocks (n : Nat) (l : List Nat) : List (List Nat) := (List.range (cdiv l.length n)).map (fun b => (l.drop (b * n)).take n)

/-- vector_quantization.py:564-569 without the ordered replay -/
def updateBest (best : Score × Nat) (new : Score × Nat) : Score × Nat := if better new best then new else best

/-- vector_quantization.py:446-585 with `ORDERED_FINAL` off -/
def exactSearch (exact : Nat → ℚ) (block : Nat) (cands : List Nat) : Nat :=
  ((blocks block cands).foldl (fun best b => updateBest best (localBest (b.map (fun c => ((exact c : Score), c))))) (⊤, 0)).2

/-- vector_quantization.py:521-563 best and second best -/
def updateTwo (s : (Score × Nat) × (Score × Nat)) (new : Score × Nat) : (Score × Nat) × (Score × Nat) :=
  if better new s.1 then (new, s.1) else if better new s.2 then (s.1, new) else s

/-- vector_quantization.py:505-563 one block -/
def blockTwo (s : (Score × Nat) × (Score × Nat)) (l : List (Score × Nat)) : (Score × Nat) × (Score × Nat) :=
  let first := localBest l
  let second := localBest (l.map (fun p => if p.2 = first.2 then (⊤, p.2) else p))
  updateTwo (updateTwo s first) second

/-- vector_quantization.py:446-585 with `ORDERED_FINAL` on -/
def exactSearchOrdered (exact ordered : Nat → ℚ) (block : Nat) (cands : List Nat) : Nat :=
  let s := (blocks block cands).foldl (fun s b => blockTwo s (b.map (fun c => ((exact c : Score), c)))) ((⊤, 0), (⊤, 0))
  if ordered s.2.2 < ordered s.1.2 ∨ (ordered s.2.2 = ordered s.1.2 ∧ s.2.2 < s.1.2) then s.2.2 else s.1.2

/-- vector_quantization.py:246-279 the winner of a tile, refined -/
def tileWinner (coarse exact : Nat → ℚ) (blockN t : Nat) : Score × Nat :=
  let c := shortlist coarse blockN 2 t
  let first := c.getD 0 0
  let second := c.getD 1 0
  if exact second < exact first ∨ (exact second = exact first ∧ second < first) then ((exact second : Score), second)
  else ((exact first : Score), first)

/-- vector_quantization.py:282-300 -/
def tileSearch (coarse exact : Nat → ℚ) (blockN tiles : Nat) : Nat :=
  (localBest ((List.range tiles).map (tileWinner coarse exact blockN))).2

/-- vector_quantization.py:375-443 the three best candidates and the ordered replay. Padding lanes have infinite score and
the largest code. -/
def cosineReduce (exact ordered : Nat → ℚ) (pad : Nat) (cands : List Nat) : Nat :=
  let l0 : List (Score × Nat) := cands.map (fun c => ((exact c : Score), c)) ++ List.replicate pad (⊤, intMax)
  let b0 := (localBest l0).2
  let l1 := l0.map (fun p => if p.2 = b0 then (⊤, p.2) else p)
  let b1 := (localBest l1).2
  let l2 := l1.map (fun p => if p.2 = b1 then (⊤, p.2) else p)
  let b2 := (localBest l2).2
  let r1 := if ordered b1 > ordered b0 ∨ (ordered b1 = ordered b0 ∧ b1 < b0) then b1 else b0
  if ordered b2 > ordered r1 ∨ (ordered b2 = ordered r1 ∧ b2 < r1) then b2 else r1

/-! ### The search -/

/-- vector_quantization.py:749-754 -/
def topK (dim : Nat) : Nat := if dim = 32 then 4 else if dim = 64 then 2 else 3

/-- vector_quantization.py:731-830 `accelerated_l2_argmin`, for one of `queries` queries -/
def acceleratedL2 (round : ℚ → ℚ) (device : Bool) (queries dim codeDim : Nat) (codebook : List Vec) (x : Vec) : Option Nat :=
  if supportsL2 device queries dim codebook.length codeDim then
    match l2Config dim with
    | none => none
    | some cfg =>
      let tiles := cdiv codebook.length cfg.blockN
      let coarse := fun k => coarseL2 round dim x (codebook.getD k [])
      let exact := fun k => exactL2 dim x (codebook.getD k [])
      let ordered := fun k => orderedL2 dim x (codebook.getD k [])
      if dim = 64 then some (tileSearch coarse exact cfg.blockN tiles)
      else
        let cands := candidates coarse cfg.blockN (topK dim) tiles
        some (if dim = 32 then exactSearchOrdered exact ordered cfg.exactBlock cands else exactSearch exact cfg.exactBlock cands)
  else none

/-- `triton.next_power_of_2` -/
def nextPow2 (n : Nat) : Nat := if n ≤ 1 then 1 else 2 ^ ((n - 1).log2 + 1)

/-- vector_quantization.py:834-883 `accelerated_cosine_argmin` -/
def acceleratedCosine (round : ℚ → ℚ) (device : Bool) (queries dim codeDim : Nat) (codebook : List Vec) (x : Vec) : Option Nat :=
  if supportsCosine device queries dim codebook.length codeDim then
    match cosineConfig dim with
    | none => none
    | some cfg =>
      let tiles := cdiv codebook.length cfg.blockN
      let cands := candidates (fun k => coarseCosine round dim x (codebook.getD k [])) cfg.blockN 3 tiles
      some (cosineReduce (fun k => exactCosine dim x (codebook.getD k [])) (fun k => orderedCosine dim x (codebook.getD k []))
        (nextPow2 cands.length - cands.length) cands)
  else none

/-- the KeOps argmin over all codes -/
def fullArgmin (score : Nat → ℚ) (n : Nat) : Nat := argmin ((List.range n).map (fun k => (score k : Score)))

/-- vq.py:972-998 the search of a forward without stochastic sampling -/
def search (accelerated cosine : Bool) (round : ℚ → ℚ) (device : Bool) (queries dim codeDim : Nat) (codebook : List Vec)
    (x : Vec) : Nat :=
  let fast := if accelerated then
      (if cosine then acceleratedCosine round device queries dim codeDim codebook x
       else acceleratedL2 round device queries dim codeDim codebook x)
    else none
  match fast with
  | some k => k
  | none => fullArgmin (fun k => if cosine then exactCosine dim x (codebook.getD k []) else exactL2 dim x (codebook.getD k []))
      codebook.length

end Verif.Search
