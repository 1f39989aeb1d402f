import Mathlib.Data.List.Basic

/-!
# Model of the observed prefetcher with adjustable limits (`dataset/telemetry.py:1077-1137`)

`active_prefetch_batches` and `active_prefetch_workers` are the tuner's current settings; the tuner runs in the consumer, so they change only
while the generator is suspended at a `yield`: they are a function of the number of batches yielded so far. A chunk's future returns what
`_run_decode_batches` returns on it, whenever it is done (the interleavings of the workers are the subject of C31).
-/
namespace Verif.Tuned

structure Settings where
  batches : Nat
  workers : Nat

/-- The generator's state, `prefetch_audit`'s counters and the queue depths recorded at submissions (`record_queue`, line 1114) with the
number of batches yielded until then. -/
structure St (α β : Type) where
  plan : List α
  exhausted : Bool
  pending : List (List α)
  count : Nat
  yielded : Nat
  out : List (α × β)
  submitted : Nat
  completed : Nat
  maxQueued : Nat
  depths : List (Nat × Nat × Nat)

variable {α β : Type}

def start (plan : List α) : St α β := ⟨plan, false, [], 0, 0, [], 0, 0, 0, []⟩

/-- Line 1089. -/
def chunkSize (l : Settings) : Nat := max 1 (l.batches / max 2 l.workers)

/-- Lines 1092-1099: the next items, and whether the plan ended before the last one. -/
def takeItems (k : Nat) (plan : List α) : List α × Bool := (plan.take k, decide (plan.length < k))

/-- `submit_chunk` (lines 1083-1114). -/
def submit (lim : Nat → Settings) (s : St α β) : St α β :=
  let l := lim s.yielded
  if s.exhausted = true ∨ l.batches ≤ s.count then s
  else
    let k := min (chunkSize l) (l.batches - s.count)
    let t := takeItems k s.plan
    if t.1.isEmpty = true then { s with exhausted := t.2 }
    else
      let c := s.count + t.1.length
      { s with
        plan := s.plan.drop k
        exhausted := t.2
        pending := s.pending ++ [t.1]
        count := c
        submitted := s.submitted + t.1.length
        maxQueued := max s.maxQueued c
        depths := s.depths ++ [(s.yielded, c, t.1.length)] }

/-- `while pending_batches < self.active_prefetch_batches and not exhausted: submit_chunk(executor)` (lines 1118-1119, 1136-1137). -/
def fill (lim : Nat → Settings) : Nat → St α β → St α β
  | 0, s => s
  | f + 1, s => if s.count < (lim s.yielded).batches ∧ s.exhausted = false then fill lim f (submit lim s) else s

/-- The loop at lines 1129-1133: publish the decoded batches of a chunk. -/
def emit : List (α × β) → St α β → St α β
  | [], s => s
  | p :: l, s => emit l { s with count := s.count - 1, completed := s.completed + 1, yielded := s.yielded + 1, out := s.out ++ [p] }

/-- `while pending:` (lines 1120-1137). -/
def drain (lim : Nat → Settings) (decode : List α → Except String (List β)) : Nat → St α β → St α β × Option String
  | 0, s => (s, some "out of fuel")
  | f + 1, s =>
    match s.pending with
    | [] => (s, none)
    | items :: rest =>
      match decode items with
      | .error e => ({ s with pending := rest }, some e)
      | .ok r =>
        if r.length ≠ items.length then ({ s with pending := rest }, some "prefetch worker changed the batch count")
        else
          let s' := emit (items.zip r) { s with pending := rest }
          drain lim decode f (fill lim (s'.plan.length + 1) s')

/-- `_iter_prefetched`, run until it returns or raises. -/
def run (lim : Nat → Settings) (decode : List α → Except String (List β)) (plan : List α) : St α β × Option String :=
  drain lim decode (plan.length + 1) (fill lim (plan.length + 1) (start plan))

end Verif.Tuned
