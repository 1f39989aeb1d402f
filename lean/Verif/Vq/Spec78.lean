import Verif.Vq.Train

/-!
Specification for C78: training of one codebook without any cached bounds. In every step the codes whose share of
the total usage is below the threshold (relative to a uniform share) are replaced, then usage and averages move.
-/

namespace Verif.Vq

/-- the state a user sees -/
structure Plain (G : Type) where
  sizes : List ℚ
  embed : List Vec
  avg : List Vec
  rng : G

/-- a code is dead if its usage is less than `threshold` times the mean usage -/
def dead (threshold : ℚ) (sizes : List ℚ) : List Bool :=
  sizes.map (fun s => decide (s * sizes.length < threshold * sizes.sum))

/-- the dead codes are replaced by entries of the batch -/
def plainExpire {G : Type} (c : Cfg G) (s : Plain G) (xs : List Vec) : Except String (Plain G × Option Nat) :=
  let mask := dead c.threshold s.sizes
  if mask.any id then
    match sampleLocal c.gen 1 s.rng xs (mask.count true) with
    | .error e => .error e
    | .ok (v, rng) => .ok (⟨maskedSet mask s.sizes (List.replicate (mask.count true) c.reset), maskedSet mask s.embed v,
        maskedSet mask s.avg (v.map (fun q => q.map (fun y => y * c.reset))), rng⟩, some (mask.count true))
  else .ok (s, none)

/-- usage and averages move towards those of a batch `xs` whose entries were assigned to the codes `idx`; with EMA
updates a code becomes its average divided by its smoothed usage, normalised for cosine similarity -/
def move {G : Type} (c : Cfg G) (sizes : List ℚ) (embed avg : List Vec) (idx : List Nat) (xs : List Vec) :
    List ℚ × List Vec × List Vec :=
  let sizes' := sizes.zipIdx.map (fun p => c.decay * p.1 + (1 - c.decay) * (idx.count p.2 : ℚ))
  let avg' := matrix c.size c.dim (fun k i => c.decay * entry avg k i + (1 - c.decay) *
    ((idx.zip xs).map (fun p => if p.1 = k then p.2.getD i 0 else 0)).sum)
  let total := sizes'.sum
  let code := fun (row : Vec) (s : ℚ) => row.map (fun q => q * (total + c.size / 100000) / (total * (s + 1 / 100000)))
  (sizes', if c.emaUpdate then List.zipWith (fun row s => if c.cosine then c.normalise (code row s) else code row s) avg' sizes'
    else embed, if c.emaUpdate then avg' else avg)

def plainUpdate {G : Type} (c : Cfg G) (s : Plain G) (xs : List Vec) : Plain G :=
  let idx := (c.search s.rng s.embed xs).1
  let m := move c s.sizes s.embed s.avg idx xs
  ⟨m.1, m.2.1, m.2.2, (c.search s.rng s.embed xs).2⟩

def plainHistory {G : Type} (c : Cfg G) (s : Plain G) : List Event → Except String (Plain G × List (Option Nat))
  | [] => .ok (s, [])
  | .load z e a :: rest => plainHistory c ⟨z, e, a, s.rng⟩ rest
  | .optimise e :: rest => plainHistory c { s with embed := e } rest
  | .forward xs :: rest =>
    match plainExpire c s xs with
    | .error e => .error e
    | .ok (s', out) =>
      match plainHistory c (plainUpdate c s' xs) rest with
      | .error e => .error e
      | .ok (s'', outs) => .ok (s'', out :: outs)

/-- sensible settings -/
structure Cfg.Valid {G : Type} (c : Cfg G) : Prop where
  decay0 : 0 ≤ c.decay
  decay1 : c.decay ≤ 1
  threshold0 : 0 ≤ c.threshold
  reset0 : 0 < c.reset
  search_length : ∀ g e xs, (c.search g e xs).1.length = xs.length
  search_range : ∀ g e xs, ∀ i ∈ (c.search g e xs).1, i < c.size
  randperm_perm : ∀ g n, ((c.gen.randperm g n).1).Perm (List.range n)
  randint_length : ∀ g n k, 0 < n → (c.gen.randint g n k).1.length = k
  randint_range : ∀ g n k, 0 < n → ∀ i ∈ (c.gen.randint g n k).1, i < n

/-- usage numbers of a codebook: none negative, not all zero -/
def GoodSizes (n : Nat) (sizes : List ℚ) : Prop := sizes.length = n ∧ (∀ s ∈ sizes, 0 ≤ s) ∧ 0 < sizes.sum

/-- batches are not empty, loaded usage numbers are sensible -/
def Event.Valid (n : Nat) : Event → Prop
  | .forward xs => xs ≠ []
  | .load s _ _ => GoodSizes n s
  | .optimise _ => True

end Verif.Vq
