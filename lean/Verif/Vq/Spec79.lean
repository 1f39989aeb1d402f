import Verif.Vq.Exact
import Verif.Vq.Init

/-!
Specification for C79: the life of a codebook on all ranks, without restarts, cached bounds or per-rank copies. Before
initialisation the inputs of each rank are only remembered; as soon as every rank has seen `target` entries, the
codebook is made from the first `target` entries of every rank; from then on it is trained.
-/

namespace Verif.Vq

variable {G : Type}

/-- Lloyd's step on all inputs: every mean with inputs nearest to it becomes their average (normalised for cosine
similarity), the others stay -/
def lloyd (c : InitCfg G) (xs : List Vec) (means : List Vec) : List Vec :=
  (List.range c.base.size).map (fun k =>
    let mine := xs.filter (fun x => decide (c.assign means x = k))
    let row := (List.range c.base.dim).map (fun i => (mine.map (fun x => x.getD i 0)).sum / mine.length)
    if mine = [] then means.getD k [] else if c.base.cosine then c.base.normalise row else row)

/-- the codebook from the inputs of all ranks: usage, codes, averages; and the generators. `gx` are the ranks'
generators and inputs. -/
def initSpec (c : InitCfg G) (gx : List (G × List Vec)) : (List ℚ × List Vec × List Vec) × List G :=
  let xs := gx.flatMap Prod.snd
  if xs.length = c.base.size then ((List.replicate c.base.size 1, xs, xs), gx.map Prod.fst)
  else
    let draws := gx.map (drawOf c.base gx.length c.base.size)
    let means0 := (draws.flatMap Prod.fst).take c.base.size
    let last := (lloyd c xs)^[c.iters - 1] means0
    let means := lloyd c xs last
    let usage := (List.range c.base.size).map (fun k => ((xs.filter (fun x => decide (c.assign last x = k))).length : ℚ))
    ((usage, means, List.zipWith (fun v n => v.map (fun q => q * n)) means usage), draws.map Prod.snd)

/-- the state of all ranks: what each rank has seen so far, or the common codebook; and the generators -/
inductive Ideal (G : Type) where
  | collecting (seen : List (List Vec)) (rngs : List G)
  | trained (d : List ℚ × List Vec × List Vec) (rngs : List G)

/-- one training forward with the ranks' batches `xs`; `none`: no quantisation yet -/
def idealForward (c : InitCfg G) (world : Nat) (st : Ideal G) (xs : List (List Vec)) :
    Ideal G × Option (List (Option Nat)) :=
  match st with
  | .collecting seen rngs =>
    let seen' := List.zipWith (fun s x => s ++ x) seen xs
    if seen'.all (fun s => decide (target c world ≤ s.length)) then
      let r := initSpec c (rngs.zip (seen'.map (fun s => s.take (target c world))))
      (.trained r.1 r.2, none)
    else (.collecting seen' rngs, none)
  | .trained d rngs =>
    let r := stepSpec c.base d (rngs.zip xs)
    (.trained r.1 r.2.1, some (List.replicate world r.2.2))

/-- a life; restarts do nothing -/
def idealLife (c : InitCfg G) (world : Nat) : Ideal G → List LifeEvent → Ideal G × List (Option (List (Option Nat)))
  | st, [] => (st, [])
  | st, .restart :: rest => idealLife c world st rest
  | st, .forward xs :: rest =>
    let r := idealForward c world st xs
    let q := idealLife c world r.1 rest
    (q.1, r.2 :: q.2)

/-- the ranks are in the ideal state -/
def Matches (c : InitCfg G) (world : Nat) (ranks : List (InitRank G)) : Ideal G → Prop
  | .collecting seen rngs => ranks.map (fun r => r.rng) = rngs ∧ seen.length = ranks.length ∧
      ∀ x ∈ ranks.zip seen, x.1.inited = false ∧ ∃ p, x.1.pending = some p ∧ p.target = target c world ∧
        p.batches.flatten = x.2.take (target c world) ∧ p.count = p.batches.flatten.length
  | .trained d rngs => ranks.map (fun r => r.rng) = rngs ∧ ∀ r ∈ ranks, r.inited = true ∧ r.book.data = d

/-- sensible settings -/
structure InitCfg.Valid (c : InitCfg G) : Prop where
  base : c.base.Valid
  size : 0 < c.base.size
  multiplier : 0 < c.multiplier
  iters : 0 < c.iters
  assign_range : ∀ means x, c.assign means x < c.base.size

/-- every rank has a batch of vectors, none empty -/
def LifeEvent.Valid (c : InitCfg G) (world : Nat) : LifeEvent → Prop
  | .forward xs => xs.length = world ∧ (∀ x ∈ xs, x ≠ []) ∧ ∀ x ∈ xs, ∀ v ∈ x, v.length = c.base.dim
  | .restart => True

end Verif.Vq
