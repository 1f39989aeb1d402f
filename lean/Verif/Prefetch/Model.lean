import Mathlib.Data.List.Basic

/-!
# Model of decode prefetching (`dataset/source_dataset.py:199-276`) and of the device loaders
(`utils/training_utils.py:352-752`)
-/
namespace Verif.Prefetch

/-! ## Background decoding (`_iter_prefetched`, `source_dataset.py:227-276`)

A transition system of the consumer thread and the pool's workers.  `planned` yields the items (batch, token) in order; a
worker runs `_decode_batches` on a chunk; futures complete in any order. -/

/-- The state of a submitted future. -/
inductive Status
  | queued | running | done
deriving DecidableEq

/-- Where the consumer thread is: in a `while pending_batches < …: submit_chunk` loop (lines 263-264, 273-274), at the
head of `while pending` (line 265), yielding a chunk (lines 270-272), returned, or raised. -/
inductive Phase
  | fill | drain | emit | finished | failed
deriving DecidableEq

structure St (α β : Type) where
  plan : List α                       -- what `planned` still yields
  exhausted : Bool
  pending : List (List α × Status)    -- the deque of (items, future)
  count : Nat                         -- `pending_batches`
  phase : Phase
  cur : List β                        -- decoded batches of the current chunk, not yet yielded
  out : List β                        -- yielded so far

/-- Parameters: `prefetch_batches`, workers, and `_decode_batches` (`none` when it raises). -/
structure Cfg (α β : Type) where
  depth : Nat
  workers : Nat
  decode : List α → Option (List β)

/-- `chunk_size` (lines 232-235). -/
def Cfg.chunk {α β : Type} (c : Cfg α β) : Nat := max 1 (c.depth / max 2 c.workers)

variable {α β : Type}

def start (plan : List α) : St α β := ⟨plan, false, [], 0, .fill, [], []⟩

/-- `submit_chunk` (lines 237-259). -/
def submit (c : Cfg α β) (s : St α β) : St α β :=
  let k := min c.chunk (c.depth - s.count)
  let items := s.plan.take k
  { s with
    plan := s.plan.drop k
    exhausted := s.exhausted || decide (s.plan.length < k)
    pending := if items = [] then s.pending else s.pending ++ [(items, .queued)]
    count := s.count + items.length }

/-- One step of the consumer thread; `none` when it has to wait (for a future) or has ended. -/
def mainStep (c : Cfg α β) (s : St α β) : Option (St α β) :=
  match s.phase with
  | .fill =>
    if s.count < c.depth ∧ s.exhausted = false then some (submit c s) else some { s with phase := .drain }
  | .drain =>
    match s.pending with
    | [] => some { s with phase := .finished }
    | (items, .done) :: rest =>
      match c.decode items with
      | none => some { s with pending := rest, phase := .failed }
      | some ds =>
        if ds.length ≠ items.length then some { s with pending := rest, phase := .failed }
        else some { s with pending := rest, phase := .emit, cur := ds }
    | _ => none
  | .emit =>
    match s.cur with
    | [] => some { s with phase := .fill }
    | d :: ds => some { s with count := s.count - 1, cur := ds, out := s.out ++ [d] }
  | .finished => none
  | .failed => none

/-- Number of running futures. -/
def running (s : St α β) : Nat := s.pending.countP fun p => p.2 == .running

/-- Steps: the consumer, a worker taking the oldest queued task, a worker finishing any running task. -/
inductive Step (c : Cfg α β) : St α β → St α β → Prop
  | main {s s'} : mainStep c s = some s' → Step c s s'
  | take {s a items b} : s.pending = a ++ (items, .queued) :: b → (∀ p ∈ a, p.2 ≠ .queued) → running s < c.workers →
      Step c s { s with pending := a ++ (items, .running) :: b }
  | finish {s a items b} : s.pending = a ++ (items, .running) :: b → Step c s { s with pending := a ++ (items, .done) :: b }

/-- Executions of `n` steps. -/
inductive Exec (c : Cfg α β) (s0 : St α β) : Nat → St α β → Prop
  | refl : Exec c s0 0 s0
  | step {n s s'} : Exec c s0 n s → Step c s s' → Exec c s0 (n + 1) s'

/-- `_iter_synchronous` (lines 199-225): every planned batch is decoded and yielded before the one after next is planned;
`none` marks that decoding raised. -/
def syncRun (dec : α → Option β) : List α → List β × Bool
  | [] => ([], true)
  | x :: xs =>
    match dec x with
    | none => ([], false)
    | some y => ((y :: (syncRun dec xs).1), (syncRun dec xs).2)

end Verif.Prefetch
