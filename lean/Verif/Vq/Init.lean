import Verif.Vq.Train

/-
Model of the initialisation of a codebook from its first training inputs: /repo/model/vq.py:246-300 (`kmeans`),
422-433 (the target), 489-640 (saving and restoring the pending inputs), 665-685 (`_accumulate_input_batch`),
726-753 (`_init_embed`), 948-953 (the part of `forward` before initialisation), on any number of ranks.

Simplifications. Exact rationals, so all samples are finite and of one dtype; the distance argmin of k-means is an
arbitrary function of the means and a vector. `scatter_add_` into zeros is given by its sums. The descriptor of the saved payload is one
value of a type with equality (the code compares a dictionary of settings, which contains the target). The three `_init_input_*` attributes,
deleted after initialisation, are one optional record. The first-forward check (687-724) that all ranks have the same settings and initialisation status is not
modelled: ranks here share their settings.
-/

namespace Verif.Vq

/-- settings of the initialisation -/
structure InitCfg (G : Type) where
  base : Cfg G
  multiplier : Nat
  iters : Nat
  assign : List Vec → Vec → Nat

/-- vq.py:426-428 -/
def target {G : Type} (c : InitCfg G) (world : Nat) : Nat := (c.base.size * c.multiplier + world - 1) / world

/-- vq.py:429-433 -/
structure Pending where
  target : Nat
  batches : List (List Vec)
  count : Nat
deriving DecidableEq

/-- one rank before and after initialisation -/
structure InitRank (G : Type) where
  inited : Bool
  pending : Option Pending
  book : Book
  rng : G

/-- vq.py:422-433 a new codebook that will be initialised from its inputs -/
def freshRank {G : Type} (c : InitCfg G) (world : Nat) (rng : G) : InitRank G :=
  ⟨false, some ⟨target c world, [], 0⟩,
    ⟨List.replicate c.base.size 1, matrix c.base.size c.base.dim (fun _ _ => 0), matrix c.base.size c.base.dim (fun _ _ => 0), none⟩, rng⟩

/-- vq.py:666-672 -/
def accumulate (p : Pending) (x : List Vec) : Pending :=
  if p.count < p.target then
    let x := if x.length > p.target - p.count then x.take (p.target - p.count) else x
    { p with batches := p.batches ++ [x], count := p.count + x.length }
  else p

/-- vq.py:675 -/
def enough (p : Pending) : Bool := decide (p.target ≤ p.count)

/-- vq.py:278-298 one iteration of k-means on all ranks: each rank's means and inputs; new means and counts -/
def kmeansIter {G : Type} (c : InitCfg G) (ranks : List (List Vec × List Vec)) : List (List Vec × List Nat) :=
  let buckets := ranks.map (fun r => r.2.map (c.assign r.1))
  let bins := (List.range c.base.size).map (fun k => (buckets.map (fun b => b.count k)).sum)
  let clamped := bins.map (fun n => if n = 0 then 1 else n)
  let sums := fun k i => ((List.zipWith (fun b r => scatterSum b r.2 k i) buckets ranks)).sum
  let new := matrix c.base.size c.base.dim (fun k i => sums k i / (clamped.getD k 1 : ℕ))
  let new := if c.base.cosine then new.map c.base.normalise else new
  ranks.map (fun r => ((List.range c.base.size).map (fun k => if bins.getD k 0 = 0 then r.1.getD k [] else new.getD k []), bins))

/-- vq.py:277-298 the iterations; without any, `bins` is not bound -/
def kmeansLoop {G : Type} (c : InitCfg G) (inputs : List (List Vec)) : Nat → List (List Vec) →
    List (List Vec × Option (List Nat))
  | 0, ms => ms.map (fun m => (m, none))
  | 1, ms => (kmeansIter c (ms.zip inputs)).map (fun r => (r.1, some r.2))
  | n + 2, ms => kmeansLoop c inputs (n + 1) ((kmeansIter c (ms.zip inputs)).map Prod.fst)

/-- vq.py:246-300 `kmeans` on all ranks: each rank's means and counts, and its generator after the draw -/
def kmeans {G : Type} (c : InitCfg G) (ranks : List (G × List Vec)) : Except String (List ((List Vec × List Nat) × G)) :=
  if ranks.any (fun r => decide (r.2.length * ranks.length < c.base.size)) then
    .error "Number of samples < number of clusters"
  else
    match traverse (fun r => sampleLocal c.base.gen ranks.length r.1 r.2 c.base.size) ranks with
    | .error e => .error e
    | .ok drawn =>
      match traverse (fun _ => sampleGather c.base.size (drawn.map Prod.fst)) drawn with
      | .error e => .error e
      | .ok means =>
        traverse (fun x => match x.1.2 with
          | none => .error "UnboundLocalError: bins"
          | some bins => .ok ((x.1.1, bins), x.2.2))
          ((kmeansLoop c (ranks.map Prod.snd) c.iters means).zip drawn)

/-- vq.py:734-753 the buffers after k-means -/
def fromKmeans (embed : List Vec) (sizes : List Nat) : Book :=
  ⟨sizes.map (fun (n : Nat) => (n : ℚ)), embed,
    List.zipWith (fun (v : Vec) (n : Nat) => v.map (fun q => q * (n : ℚ))) embed sizes, none⟩

/-- vq.py:743-753 exactly as many inputs as codes -/
def fromInputs {G : Type} (c : InitCfg G) (inputs : List Vec) : Book := ⟨List.replicate c.base.size 1, inputs, inputs, none⟩

/-- vq.py:726-753 `_init_embed` on all ranks -/
def initEmbed {G : Type} (c : InitCfg G) (ranks : List (G × List Vec)) : Except String (List (InitRank G)) :=
  if ranks.any (fun r => decide (r.2.length * ranks.length < c.base.size)) then
    .error "Number of inputs < codebook size"
  else if ranks.all (fun r => decide (r.2.length * ranks.length > c.base.size)) then
    match kmeans c ranks with
    | .error e => .error e
    | .ok rs => .ok (rs.map (fun r => ⟨true, none, fromKmeans r.1.1 r.1.2, r.2⟩))
  else if ranks.any (fun r => decide (r.2.length * ranks.length > c.base.size)) then
    .error "the ranks disagree about k-means"
  else .ok (ranks.map (fun r => ⟨true, none, fromInputs c (ranks.flatMap Prod.snd), r.1⟩))

/-- vq.py:666-672 one rank's part; the attributes are deleted by the initialisation -/
def accumulateRank {G : Type} (r : InitRank G × List Vec) : Except String (Pending × InitRank G) :=
  match r.1.pending with
  | none => .error "AttributeError: _init_input_samples_per_process"
  | some p => .ok (accumulate p r.2, r.1)

/-- vq.py:665-685 `_accumulate_input_batch` on all ranks -/
def accumulateStep {G : Type} (c : InitCfg G) (ranks : List (InitRank G × List Vec)) : Except String (List (InitRank G)) :=
  match traverse accumulateRank ranks with
  | .error e => .error e
  | .ok ps =>
    if ps.all (fun p => enough p.1) then initEmbed c (ps.map (fun p => (p.2.rng, p.1.batches.flatten)))
    else .ok (ps.map (fun p => { p.2 with pending := some p.1 }))

/-- vq.py:948-960 one training forward on all ranks: before initialisation the inputs are collected (and returned unchanged,
with no info), afterwards the codebook is trained -/
def forwardStep {G : Type} (c : InitCfg G) (ranks : List (InitRank G × List Vec)) :
    Except String (List (InitRank G) × Option (List (Option Nat))) :=
  if ranks.all (fun r => !r.1.inited) then
    match accumulateStep c ranks with
    | .error e => .error e
    | .ok rs => .ok (rs, none)
  else if ranks.all (fun r => r.1.inited) then
    match trainStep c.base (ranks.map (fun r => (⟨r.1.book, r.1.rng⟩, r.2))) with
    | .error e => .error e
    | .ok (rs, outs) => .ok (List.zipWith (fun r q => { r.1 with book := q.book, rng := q.rng }) ranks rs, some outs)
  else .error "initialization status differs across ranks"

/-! ### Saving and restoring the pending inputs -/

/-- vq.py:563-570 the payload; `dim` is the second dimension of the sample tensor -/
structure Payload (D : Type) where
  version : Nat
  descriptor : D
  inited : Bool
  count : Int
  rows : Nat
  dim : Nat
  samples : List Vec

/-- vq.py:506-570 `_vq_init_continuation_state` -/
def savePending {G D : Type} (c : InitCfg G) (world : Nat) (descriptor : D) (r : InitRank G) : Except String (Payload D) :=
  let batches := if r.inited then [] else (r.pending.map Pending.batches).getD []
  let count := if r.inited then 0 else (r.pending.map Pending.count).getD 0
  if ¬ count ≤ target c world then .error "pending VQ sample count is outside the target"
  else if (batches.map List.length).sum ≠ count then .error "pending VQ sample batches do not match their count"
  else if batches.flatten.any (fun v => decide (v.length ≠ c.base.dim)) then
    .error "pending VQ sample batch shape or dtype is inconsistent"
  else .ok ⟨1, descriptor, r.inited, count, count, c.base.dim, batches.flatten⟩

/-- vq.py:572-640 `_load_vq_init_continuation_state` into a rank whose buffers (and `inited`) were loaded -/
def loadPending {G D : Type} [DecidableEq D] (c : InitCfg G) (world : Nat) (descriptor : D) (r : InitRank G)
    (s : Payload D) : Except String (InitRank G) :=
  if s.version ≠ 1 then .error "unsupported VQ continuation version"
  else if s.descriptor ≠ descriptor then .error "VQ continuation descriptor differs"
  else if r.inited ≠ s.inited then .error "VQ continuation inited flag differs from loaded model state"
  else if ¬ (0 ≤ s.count ∧ s.count ≤ target c world) then .error "VQ continuation count is outside the target"
  else if ¬ ((s.rows : Int) = s.count ∧ s.dim = c.base.dim) then
    .error "VQ continuation sample shape differs from count/feature dimension"
  else if s.inited && s.count ≠ 0 then .error "initialized VQ cannot restore pending samples"
  else if s.inited then .ok r
  else .ok { r with pending := r.pending.map (fun p =>
    { p with batches := if s.count ≠ 0 then [s.samples] else [], count := s.count.toNat }) }

/-- the rank in a new process: a fresh module, the buffers and flag from the checkpoint, then the pending inputs -/
def restart {G D : Type} [DecidableEq D] (c : InitCfg G) (world : Nat) (descriptor : D) (r : InitRank G) :
    Except String (InitRank G) :=
  match savePending c world descriptor r with
  | .error e => .error e
  | .ok s => loadPending c world descriptor
    { freshRank c world r.rng with inited := r.inited, book := { r.book with cache := none } } s

/-- what happens to the ranks: a training forward, an evaluation forward (which before initialisation leaves everything as it is),
or a stop and restart of all processes -/
inductive LifeEvent where
  | forward (xs : List (List Vec))
  | restart

/-- a whole life; the results are those of the training forwards -/
def life {G D : Type} [DecidableEq D] (c : InitCfg G) (descriptor : D) :
    List (InitRank G) → List LifeEvent → Except String (List (InitRank G) × List (Option (List (Option Nat))))
  | ranks, [] => .ok (ranks, [])
  | ranks, .forward xs :: rest =>
    match forwardStep c (ranks.zip xs) with
    | .error e => .error e
    | .ok (rs, out) =>
      match life c descriptor rs rest with
      | .error e => .error e
      | .ok (rs', outs) => .ok (rs', out :: outs)
  | ranks, .restart :: rest =>
    match traverse (restart c ranks.length descriptor) ranks with
    | .error e => .error e
    | .ok rs => life c descriptor rs rest

end Verif.Vq
