/-
Model of /repo/trainer/base.py:4905-5047 `_iter_collective_safe_batches` executed by all ranks, with the
phase synchronisation of trainer/base.py:3670-3705 `_synchronize_phase_errors`.

Every rank runs its own copy of the generator on its own data loader. A data loader is the list of the
results of `next`: a batch or an exception, then StopIteration. The ranks meet in collectives; a collective
completes only if all ranks call the same one, otherwise the run is `stuck`. The consumer between two
yields is not modelled (it is assumed to come back for the next batch on all ranks).

Simplifications: the text of errors, `send_to_device`, the iterator creation phase (an error there is
raised on all ranks like an error of the first fetch) and the `BatchEnvelope` unpacking (a batch is an
opaque value).
-/

namespace Verif.Eval

/-- Result of one `next` of a data loader. -/
inductive Item (α : Type) where
  | batch (a : α)
  | fails
  deriving DecidableEq, Repr

/-- The local variables of the generator at one rank. -/
structure Rank (α : Type) where
  src : List (Item α)
  last : Option α := none
  batchIndex : Nat := 0
  numReal : Nat := 0
  /-- what the generator has yielded so far, oldest first -/
  out : List (α × Bool) := []
  deriving DecidableEq, Repr

/-- What one rank brings to the collectives of an iteration. -/
structure Fetched (α : Type) where
  rank : Rank α
  data : Option α
  error : Bool
  deriving DecidableEq, Repr

/-- `max_batches is not None and n >= max_batches` (base.py:4925, 4977, 4992). -/
def atLimit (maxBatches : Option Nat) (n : Nat) : Bool :=
  match maxBatches with
  | some m => decide (m ≤ n)
  | none => false

/-- base.py:4990-5002 (map datasets): nothing is fetched once `max_batches` real batches were seen. -/
def fetchMap {α : Type} (maxBatches : Option Nat) (r : Rank α) : Fetched α :=
  if atLimit maxBatches r.numReal then ⟨r, none, false⟩
  else match r.src with
    | [] => ⟨r, none, false⟩
    | .batch a :: rest => ⟨{ r with src := rest }, some a, false⟩
    | .fails :: rest => ⟨{ r with src := rest }, none, true⟩

/-- base.py:4927-4936 (planned datasets). -/
def fetchPlanned {α : Type} (r : Rank α) : Fetched α :=
  match r.src with
  | [] => ⟨r, none, false⟩
  | .batch a :: rest => ⟨{ r with src := rest }, some a, false⟩
  | .fails :: rest => ⟨{ r with src := rest }, none, true⟩

/-- What a rank does after the availability of all ranks was gathered. -/
inductive Action where
  /-- the generator returns -/
  | stop
  /-- the generator raises RuntimeError -/
  | raise
  /-- call `gather_object` to obtain a batch of another rank -/
  | exchange
  /-- go on without another collective -/
  | go
  deriving DecidableEq, Repr

/-- base.py:5009-5021: the decision of one rank from its own batch index and the gathered flags. -/
def decideMap {α : Type} (r : Rank α) (avail : List Bool) : Action :=
  if ¬ avail.any id then .stop
  else if r.batchIndex = 0 ∧ ¬ avail.all id then .exchange
  else .go

/-- base.py:4941-4962. -/
def decidePlanned (avail : List Bool) : Action :=
  if ¬ avail.any id then .stop
  else if ¬ avail.all id then .raise
  else .go

/-- base.py:5021-5047: the rest of the iteration at one rank; `candidates` is the result of
`gather_object` when there was one. `none`: the name `data` is unbound (UnboundLocalError). -/
def finishMap {α : Type} (candidates : Option (List (Option α))) (f : Fetched α) : Option (Rank α) :=
  match f.data with
  | some a =>
    some { f.rank with last := some a, numReal := f.rank.numReal + 1,
                       out := f.rank.out ++ [(a, true)], batchIndex := f.rank.batchIndex + 1 }
  | none =>
    match f.rank.last with
    | some a => some { f.rank with out := f.rank.out ++ [(a, false)], batchIndex := f.rank.batchIndex + 1 }
    | none =>
      match candidates with
      | none => none
      | some cs =>
        match cs.filterMap id with
        | [] => none
        | a :: _ => some { f.rank with last := some a, out := f.rank.out ++ [(a, false)],
                                       batchIndex := f.rank.batchIndex + 1 }

/-- base.py:4963-4969. -/
def finishPlanned {α : Type} (f : Fetched α) : Option (Rank α) :=
  match f.data with
  | some a => some { f.rank with out := f.rank.out ++ [(a, true)], batchIndex := f.rank.batchIndex + 1 }
  | none => none

/-- How the run of all ranks ends. -/
inductive Run (α : Type) where
  /-- every generator returned -/
  | done (ranks : List (Rank α))
  /-- every generator raised the same RuntimeError in the same iteration -/
  | raised (ranks : List (Rank α))
  /-- the ranks called different collectives -/
  | stuck
  /-- a rank crashed between collectives -/
  | crashed
  deriving DecidableEq, Repr

/-- all elements of a list of options -/
def allSome {β : Type} : List (Option β) → Option (List β)
  | [] => some []
  | none :: _ => none
  | some b :: r => match allSome r with | some l => some (b :: l) | none => none

/-- The common decision, if there is one. -/
def agree (acts : List Action) : Option Action :=
  match acts with
  | [] => none
  | a :: r => if r.all (fun b => decide (b = a)) then some a else none

/-- base.py:4988-5047 one loop after another, all ranks (more than one process). `fuel` bounds the number
of iterations; `runMap` gives enough. -/
def loopMap {α : Type} (maxBatches : Option Nat) : Nat → List (Rank α) → Run α
  | 0, _ => .stuck
  | fuel + 1, ranks =>
    let fs := ranks.map (fetchMap maxBatches)
    -- `_synchronize_phase_errors`: an error of any rank is raised on all
    if fs.any (·.error) then .raised (fs.map (·.rank))
    else
      let avail := fs.map (fun f => f.data.isSome)
      match agree (fs.map (fun f => decideMap f.rank avail)) with
      | none => .stuck
      | some .stop => .done (fs.map (·.rank))
      | some .raise => .raised (fs.map (·.rank))
      | some .exchange =>
        match allSome (fs.map (finishMap (some (fs.map (·.data))))) with
        | none => .crashed
        | some ranks' => loopMap maxBatches fuel ranks'
      | some .go =>
        match allSome (fs.map (finishMap none)) with
        | none => .crashed
        | some ranks' => loopMap maxBatches fuel ranks'

/-- base.py:4923-4971 for planned datasets; every rank counts its own `batch_index`, and the ranks must
leave the loop together. -/
def loopPlanned {α : Type} (maxBatches : Option Nat) : Nat → List (Rank α) → Run α
  | 0, _ => .stuck
  | fuel + 1, ranks =>
    let stops := ranks.map (fun r => atLimit maxBatches r.batchIndex)
    if stops.all id then .done ranks
    else if stops.any id then .stuck
    else
      let fs := ranks.map fetchPlanned
      if fs.any (·.error) then .raised (fs.map (·.rank))
      else
        let avail := fs.map (fun f => f.data.isSome)
        match agree (fs.map (fun _ => decidePlanned avail)) with
        | none => .stuck
        | some .stop => .done (fs.map (·.rank))
        | some .go =>
          match allSome (fs.map finishPlanned) with
          | none => .crashed
          | some ranks' => loopPlanned maxBatches fuel ranks'
        | some _ => .raised (fs.map (·.rank))

/-- base.py:4973-4984 a single process. -/
def loopSingle {α : Type} (maxBatches : Option Nat) : Nat → Rank α → Run α
  | 0, _ => .stuck
  | fuel + 1, r =>
    if atLimit maxBatches r.numReal then .done [r]
    else match r.src with
      | [] => .done [r]
      | .fails :: rest => .raised [{ r with src := rest }]
      | .batch a :: rest =>
        loopSingle maxBatches fuel { r with src := rest, numReal := r.numReal + 1, out := r.out ++ [(a, true)] }

/-- The generators of all ranks on their data loaders. -/
def start {α : Type} (loaders : List (List (Item α))) : List (Rank α) :=
  loaders.map (fun l => { src := l })

def fuelFor {α : Type} (loaders : List (List (Item α))) : Nat := (loaders.map List.length).sum + 1

def runMap {α : Type} (maxBatches : Option Nat) (loaders : List (List (Item α))) : Run α :=
  match loaders with
  | [l] => loopSingle maxBatches (fuelFor loaders) { src := l }
  | _ => loopMap maxBatches (fuelFor loaders) (start loaders)

def runPlanned {α : Type} (maxBatches : Option Nat) (loaders : List (List (Item α))) : Run α :=
  loopPlanned maxBatches (fuelFor loaders) (start loaders)

end Verif.Eval
