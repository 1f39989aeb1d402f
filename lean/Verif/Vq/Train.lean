import Mathlib.Data.Rat.Defs
import Mathlib.Algebra.Order.Field.Rat
import Mathlib.Data.List.Basic

/-
Model of the training side of a codebook: /repo/model/vq.py:227-243 (`sample_vectors`), 303-304 (`ema_inplace`),
755-859 (`_expire_codes`, `_update_ema`), 923-1120 (the training part of `VectorQuantize.forward`), on any number of
ranks.

Simplifications. Elements are exact rationals (so the margins that absorb rounding are pure slack). The codebook
search (nearest code, or a random one with stochastic sampling, through the optional code transform) is an arbitrary
function of the codebook, the entries and the random state. The random generator is an arbitrary state with the two
calls the code makes. `scatter_add_` into zeros and `index_add_` are given by their defining sums. The normalisation of a codebook
vector (cosine similarity) is an arbitrary function; the fused kernel for it is taken to compute the same as the Python
fallback. Both host bounds are set and cleared together in the code, so they are one optional pair. `num_expired_codes` is an `Option` here: the code turns `None` into 0 later (vq.py:959-960).
Division by a zero total raises in the host checks.
-/

namespace Verif.Vq

abbrev Vec := List ℚ

/-- vq.py:18 -/
def boundEps : ℚ := 1 / 1000000

/-- vq.py:19 -/
def safeMultiplier : ℚ := 2

/-- a random generator: the state and the calls `torch.randperm(n)` and `torch.randint(0, n, (k,))` -/
structure Gen (G : Type) where
  randperm : G → Nat → List Nat × G
  randint : G → Nat → Nat → List Nat × G

/-- vq.py:363-470 the settings that matter in training -/
structure Cfg (G : Type) where
  size : Nat
  dim : Nat
  decay : ℚ
  threshold : ℚ
  reset : ℚ
  emaUpdate : Bool
  cosine : Bool
  normalise : Vec → Vec
  search : G → List Vec → List Vec → List Nat × G
  gen : Gen G

/-- the persistent buffers and the host bounds (lower bound of the smallest size, upper bound of the total) -/
structure Book where
  sizes : List ℚ
  embed : List Vec
  avg : List Vec
  cache : Option (ℚ × ℚ)

/-- vq.py:229-238 one rank's share of the samples -/
def sampleLocal {G : Type} (g : Gen G) (world : Nat) (rng : G) (inputs : List Vec) (num : Nat) :
    Except String (List Vec × G) :=
  let per := (num + world - 1) / world
  if inputs.length = 0 then .error "Can not sample empty input tensor"
  else
    let draw := if per ≤ inputs.length
      then (((g.randperm rng inputs.length).1).take per, (g.randperm rng inputs.length).2)
      else g.randint rng inputs.length per
    .ok (draw.1.map (fun i => inputs.getD i []), draw.2)

/-- vq.py:239-243 after the gather -/
def sampleGather (num : Nat) (parts : List (List Vec)) : Except String (List Vec) :=
  if parts.flatten.length < num then .error "assert sampled.shape[0] >= num_samples"
  else .ok (parts.flatten.take num)

/-- `tensor[mask] = values` -/
def maskedSet {α : Type} : List Bool → List α → List α → List α
  | true :: m, _ :: xs, v :: vs => v :: maskedSet m xs vs
  | true :: m, x :: xs, [] => x :: maskedSet m xs []
  | false :: m, x :: xs, vs => x :: maskedSet m xs vs
  | [], xs, _ => xs
  | _, [], _ => []

/-- `tensor.min()` -/
def minOf : List ℚ → ℚ
  | [] => 0
  | x :: xs => xs.foldl min x

/-- vq.py:787, 906-911 `normalized_cluster_size < threshold` -/
def expiredMask {G : Type} (c : Cfg G) (b : Book) : List Bool :=
  b.sizes.map (fun s => decide (s * ((c.size : ℚ) / b.sizes.sum) < c.threshold))

/-- vq.py:787-789 the exact check on the device -/
def exactCheck {G : Type} (c : Cfg G) (b : Book) : Option (List Bool) :=
  if (expiredMask c b).any id then some (expiredMask c b) else none

/-- vq.py:773-785 the host check on the current sizes; `none`: the exact check decides -/
def hostCheck {G : Type} (c : Cfg G) (b : Book) : Except String (Option (ℚ × ℚ)) :=
  if b.sizes.sum = 0 then .error "ZeroDivisionError"
  else if minOf b.sizes * c.size / b.sizes.sum ≥ safeMultiplier * c.threshold then
    .ok (some (minOf b.sizes * (1 - boundEps), b.sizes.sum * (1 + boundEps)))
  else .ok none

/-- vq.py:761-771 the cached bounds show that no code can have expired -/
def cacheShows {G : Type} (c : Cfg G) (b : Book) : Except String Bool :=
  match b.cache with
  | none => .ok false
  | some (lower, upper) =>
    if upper = 0 then .error "ZeroDivisionError"
    else .ok (decide (lower * c.size / upper ≥ safeMultiplier * c.threshold))

/-- vq.py:757-789 does this rank find expired codes, and the book with its bounds after the check -/
def expireDecision {G : Type} (c : Cfg G) (world : Nat) (b : Book) : Except String (Option (List Bool) × Book) :=
  if c.threshold = 0 then .ok (none, b)
  else if world = 1 then
    match cacheShows c b with
    | .error e => .error e
    | .ok true => .ok (none, b)
    | .ok false =>
      match hostCheck c b with
      | .error e => .error e
      | .ok (some bounds) => .ok (none, { b with cache := some bounds })
      | .ok none => .ok (exactCheck c b, b)
  else .ok (exactCheck c b, b)

/-- vq.py:791 `expired_codes.sum()` -/
def maskCount (mask : List Bool) : Nat := mask.count true

/-- vq.py:794-801 the expired codes are replaced -/
def replaceCodes {G : Type} (c : Cfg G) (b : Book) (mask : List Bool) (sampled : List Vec) : Book :=
  { sizes := maskedSet mask b.sizes (List.replicate (maskCount mask) c.reset)
    embed := maskedSet mask b.embed sampled
    avg := maskedSet mask b.avg (sampled.map (fun v => v.map (fun q => q * c.reset)))
    cache := none }

/-- `torch.bincount(indices, minlength=n)` as numbers -/
def codeCounts (n : Nat) (idx : List Nat) : List ℚ := (List.range n).map (fun k => (idx.count k : ℚ))

/-- vq.py:303-304 `tensor.lerp_(new, 1 - decay)` -/
def lerp (decay t new : ℚ) : ℚ := t + (1 - decay) * (new - t)

/-- entry `(k, i)` of `scatter_add_` into zeros -/
def scatterSum (idx : List Nat) (xs : List Vec) (k i : Nat) : ℚ :=
  ((idx.zip xs).map (fun p => if p.1 = k then p.2.getD i 0 else 0)).sum

/-- a matrix from its entries -/
def matrix (n m : Nat) (f : Nat → Nat → ℚ) : List Vec := (List.range n).map (fun k => (List.range m).map (f k))

def entry (a : List Vec) (k i : Nat) : ℚ := (a.getD k []).getD i 0

/-- vq.py:828-834 `mul_`, `index_add_` on a single rank -/
def avgSingle {G : Type} (c : Cfg G) (avg : List Vec) (idx : List Nat) (xs : List Vec) : List Vec :=
  matrix c.size c.dim (fun k i => entry avg k i * c.decay +
    ((idx.zip xs).map (fun p => if p.1 = k then (1 - c.decay) * p.2.getD i 0 else 0)).sum)

/-- vq.py:836-840 `scatter_add_`, the sum over the ranks, `lerp_` -/
def avgReduced {G : Type} (c : Cfg G) (avg : List Vec) (parts : List (List Nat × List Vec)) : List Vec :=
  matrix c.size c.dim (fun k i => lerp c.decay (entry avg k i) ((parts.map (fun p => scatterSum p.1 p.2 k i)).sum))

/-- vq.py:851-853 `laplace_smoothing` with eps = 1e-5 -/
def smooth (n : Nat) (sizes : List ℚ) : List ℚ :=
  sizes.map (fun s => sizes.sum * (s + 1 / 100000) / (sizes.sum + n * (1 / 100000)))

/-- vq.py:844-859 the codebook is rebuilt from the averages -/
def rebuild {G : Type} (c : Cfg G) (sizes : List ℚ) (avg : List Vec) : List Vec :=
  List.zipWith (fun row s => if c.cosine then c.normalise (row.map (fun q => q / s)) else row.map (fun q => q / s))
    avg (smooth c.size sizes)

/-- vq.py:809-820 the host bounds after the sizes moved; `n` is the number of entries of this rank -/
def advanceCache {G : Type} (c : Cfg G) (world n : Nat) (cache : Option (ℚ × ℚ)) : Option (ℚ × ℚ) :=
  if world = 1 then
    cache.map (fun p => (p.1 * (c.decay * (1 - boundEps)), (p.2 * c.decay + n * (1 - c.decay)) * (1 + boundEps)))
  else cache

/-- vq.py:806-859 `_update_ema`; `counts` are the usage counts of all ranks, `parts` the indices and entries of all
ranks, `own` the rank's own -/
def updateEma {G : Type} (c : Cfg G) (world : Nat) (b : Book) (counts : List ℚ) (own : List Nat × List Vec)
    (parts : List (List Nat × List Vec)) : Book :=
  let sizes := List.zipWith (lerp c.decay) b.sizes counts
  let avg := if c.emaUpdate then (if world = 1 then avgSingle c b.avg own.1 own.2 else avgReduced c b.avg parts) else b.avg
  { sizes := sizes
    embed := if c.emaUpdate then rebuild c sizes avg else b.embed
    avg := avg
    cache := advanceCache c world own.2.length b.cache }

/-- one rank -/
structure Rank (G : Type) where
  book : Book
  rng : G

/-- the ranks one after the other, stopping at the first error -/
def traverse {α β : Type} (f : α → Except String β) : List α → Except String (List β)
  | [] => .ok []
  | x :: xs =>
    match f x with
    | .error e => .error e
    | .ok y =>
      match traverse f xs with
      | .error e => .error e
      | .ok ys => .ok (y :: ys)

/-- vq.py:956-958 the expiry phase on all ranks. If the ranks disagree about which of them sample, their collective calls do
not match (the run hangs), which is an error here. The result has each rank's number of expired codes. -/
def expirePhase {G : Type} (c : Cfg G) (ranks : List (Rank G × List Vec)) :
    Except String (List (Rank G × Option Nat)) :=
  match traverse (fun r => expireDecision c ranks.length r.1.book) ranks with
  | .error e => .error e
  | .ok ds =>
    if ds.all (fun d => d.1.isNone) then
      .ok (List.zipWith (fun r d => (⟨d.2, r.1.rng⟩, none)) ranks ds)
    else if ds.any (fun d => d.1.isNone) then .error "the ranks disagree about sampling"
    else
      match traverse (fun x => sampleLocal c.gen ranks.length x.1.1.rng x.1.2 (maskCount (x.2.1.getD [])))
          (ranks.zip ds) with
      | .error e => .error e
      | .ok drawn =>
        traverse (fun x => match sampleGather (maskCount (x.1.1.getD [])) (drawn.map Prod.fst) with
          | .error e => .error e
          | .ok sampled =>
            .ok (⟨replaceCodes c x.1.2 (x.1.1.getD []) sampled, x.2.2⟩, some (maskCount (x.1.1.getD []))))
          (ds.zip drawn)

/-- vq.py:962-1027, 1117-1118 search, usage counts, update -/
def updatePhase {G : Type} (c : Cfg G) (ranks : List (Rank G × List Vec)) : List (Rank G) :=
  let found := ranks.map (fun r => c.search r.1.rng r.1.book.embed r.2)
  let parts := List.zipWith (fun f r => (f.1, r.2)) found ranks
  let counts := (List.range c.size).map (fun k => (parts.map (fun p => (codeCounts c.size p.1).getD k 0)).sum)
  List.zipWith (fun f r => ⟨updateEma c ranks.length r.1.book counts (f.1, r.2) parts, f.2⟩) found ranks

/-- one training forward of an initialised codebook on all ranks: the new states and each rank's number of expired codes -/
def trainStep {G : Type} (c : Cfg G) (ranks : List (Rank G × List Vec)) :
    Except String (List (Rank G) × List (Option Nat)) :=
  match expirePhase c ranks with
  | .error e => .error e
  | .ok rs => .ok (updatePhase c (List.zipWith (fun r x => (r.1, x.2)) rs ranks), rs.map Prod.snd)

/-- vq.py:452-481 `_load_from_state_dict`: the buffers come from the file, the host bounds are forgotten -/
def loadBook (sizes : List ℚ) (embed avg : List Vec) : Book := ⟨sizes, embed, avg, none⟩

/-- what happens to a codebook on a single process: a training forward, a state dict load (or an initialisation, which
also sets all buffers and forgets the bounds, vq.py:748-753), an optimizer step on a learnable codebook -/
inductive Event where
  | forward (xs : List Vec)
  | load (sizes : List ℚ) (embed avg : List Vec)
  | optimise (embed : List Vec)

/-- a history on a single process: final state and the numbers of expired codes -/
def history {G : Type} (c : Cfg G) (r : Rank G) : List Event → Except String (Rank G × List (Option Nat))
  | [] => .ok (r, [])
  | .load s e a :: rest => history c ⟨loadBook s e a, r.rng⟩ rest
  | .optimise e :: rest => history c ⟨{ r.book with embed := e }, r.rng⟩ rest
  | .forward xs :: rest =>
    match trainStep c [(r, xs)] with
    | .error e => .error e
    | .ok (rs, outs) =>
      match history c (rs.getD 0 r) rest with
      | .error e => .error e
      | .ok (r', outs') => .ok (r', outs ++ outs')

end Verif.Vq
