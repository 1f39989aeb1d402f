import Mathlib.Data.List.Basic

/-!
# Model of the CUDA prefetch loader (`utils/training_utils.py:352-628`) and the static-slot loader (`631-752`)
-/
namespace Verif.Prefetch.Cuda

/-! ## `CudaPrefetchLoaderWrapper.__iter__` (lines 497-628)

One host thread and one copy stream.  A batch is `(content, is_terminal)`, the flag being `_is_terminal_batch` (lines 466-473).
The `i`-th submitted copy has event `i`; copies complete in submission order, at any time (`copied` counts them), so
`query` of event `i` is `i < copied` and `synchronize` waits for it.  Timing and audit counters are omitted. -/

/-- Where the generator is: filling (lines 587-588, or 622-623 with the popped batch in hand), at the head of `while pending`
and in the `while … query()` loop (lines 589-591, 527-528), before the bounded wait (lines 529-531), before `popleft`
(lines 592-598), in `finally` (line 627), closed. -/
inductive Phase (α : Type)
  | fill (cur : Option (Nat × α)) | head | sync | pop | closing | closed

/-- Work enqueued on the consumer's stream: waiting for copy event `i`, or computing with batch `i`. -/
inductive Op
  | wait (i : Nat) | use (i : Nat)
deriving DecidableEq

structure St (α : Type) where
  rest : List (α × Bool)          -- what `next(source)` still returns
  taken : List (α × Bool)         -- returned so far
  pulls : Nat                     -- calls of `next(source)`
  exhausted : Bool
  pending : List (Nat × α)
  retired : List Nat              -- `retired_hosts`, by event
  copied : Nat                    -- copies the device has completed
  compute : List Op               -- the consumer's stream
  out : List α                    -- yielded
  phase : Phase α
  early : Bool                    -- the consumer closed the generator before its end

variable {α : Type}

def start (src : List (α × Bool)) : St α := ⟨src, [], 0, false, [], [], 0, [], [], .fill none, false⟩

/-- `enqueue_one` when not exhausted (lines 533-584). -/
def enqueue (s : St α) : St α :=
  match s.rest with
  | [] => { s with pulls := s.pulls + 1, exhausted := true }
  | (x, t) :: r =>
    { s with rest := r, taken := s.taken ++ [(x, t)], pulls := s.pulls + 1, pending := s.pending ++ [(s.taken.length, x)],
             exhausted := t }

/-- The `yield` after filling. -/
def yielded (s : St α) : Option (Nat × α) → St α
  | none => { s with phase := .head }
  | some (i, x) => { s with phase := .head, out := s.out ++ [x], compute := s.compute ++ [.use i] }

/-- `retired_hosts` after a pop at its left end. -/
def unretire (s : St α) (ph : Phase α) : St α := { s with retired := s.retired.tail, phase := ph }

/-- Steps.  `P` is `prefetch_batches`. -/
inductive Step (P : Nat) : St α → St α → Prop
  | fill {s cur} : s.phase = .fill cur → s.pending.length < P → s.exhausted = false → Step P s (enqueue s)
  | filled {s cur} : s.phase = .fill cur → ¬ (s.pending.length < P ∧ s.exhausted = false) → Step P s (yielded s cur)
  | finish {s} : s.phase = .head → s.pending = [] → Step P s { s with phase := .closing }
  | release {s i r} : s.phase = .head → s.pending ≠ [] → s.retired = i :: r → i < s.copied → Step P s (unretire s .head)
  | queried {s} : s.phase = .head → s.pending ≠ [] → (∀ i r, s.retired = i :: r → ¬ i < s.copied) →
      Step P s { s with phase := .sync }
  | sync {s i r} : s.phase = .sync → P + 1 ≤ s.retired.length → s.retired = i :: r → i < s.copied → Step P s (unretire s .pop)
  | nosync {s} : s.phase = .sync → ¬ P + 1 ≤ s.retired.length → Step P s { s with phase := .pop }
  | pop {s i x r} : s.phase = .pop → s.pending = (i, x) :: r →
      Step P s { s with pending := r, compute := s.compute ++ [.wait i], retired := s.retired ++ [i], phase := .fill (some (i, x)) }
  | close {s} : s.phase = .head → s.out ≠ [] → Step P s { s with phase := .closing, early := true }
  | finally_ {s} : s.phase = .closing → s.copied = s.taken.length →
      Step P s { s with phase := .closed, pending := [], retired := [] }
  | copy {s} : s.copied < s.taken.length → Step P s { s with copied := s.copied + 1 }

inductive Exec (P : Nat) (src : List (α × Bool)) : Nat → St α → Prop
  | refl : Exec P src 0 (start src)
  | step {n s s'} : Exec P src n s → Step P s s' → Exec P src (n + 1) s'

/-! ## `StaticSlotLoaderWrapper.__iter__` (lines 631-752)

Two device queues.  `n` batches with slot names `names`; `uses i` are the reads the consumer enqueues for step `i`.  The most
permissive schedule is modelled: the host has enqueued everything and the device runs the two queues in any interleaving that
respects event waits.  (A host that lags only removes interleavings.) -/

/-- Device operations. `ready i` is recorded after copy `i`; `done i` before copy `i` (line 693 for `i = 0`, lines 744-745
after step `i-1`). -/
inductive SOp (ν : Type)
  | waitDone (i : Nat) | write (i : Nat) (name : ν) | recReady (i : Nat)
  | recDone (i : Nat) | waitReady (i : Nat) | read (i : Nat) (name : ν) | readOld (name : ν)

variable {ν : Type}

/-- Copy-stream work of batch `i` (lines 716-721). -/
def copyOps (names : List ν) (i : Nat) : List (SOp ν) :=
  .waitDone i :: (names.map (.write i)) ++ [.recReady i]

/-- Compute-stream work of step `i` (lines 728, 737-745). -/
def stepOps (uses : Nat → List ν) (i : Nat) : List (SOp ν) :=
  .waitReady i :: ((uses i).map (.read i)) ++ [.recDone (i + 1)]

/-- The whole queues. -/
def copyQueue (names : List ν) (n : Nat) : List (SOp ν) := (List.range n).flatMap (copyOps names)
/-- `old` are reads of the previous epoch's last step still queued when the iterator starts (lines 689-693). -/
def computeQueue (old : List ν) (uses : Nat → List ν) (n : Nat) : List (SOp ν) :=
  old.map .readOld ++ .recDone 0 :: (List.range n).flatMap (stepOps uses)

/-- Device state: remaining queues, recorded events, slot contents (the batch last written, `none` before), and the reads
made: (step, name, content seen), the step being `none` for the previous epoch's reads. -/
structure Dev (ν : Type) where
  copy : List (SOp ν)
  compute : List (SOp ν)
  ready : List Nat
  done : List Nat
  slot : ν → Option Nat
  reads : List (Option Nat × ν × Option Nat)

/-- Effect of an operation at the head of a queue; `none` when it has to wait. -/
def exec [DecidableEq ν] (d : Dev ν) : SOp ν → Option (Dev ν)
  | .waitDone i => if i ∈ d.done then some d else none
  | .waitReady i => if i ∈ d.ready then some d else none
  | .write i name => some { d with slot := fun m => if m = name then some i else d.slot m }
  | .read i name => some { d with reads := d.reads ++ [(some i, name, d.slot name)] }
  | .readOld name => some { d with reads := d.reads ++ [(none, name, d.slot name)] }
  | .recReady i => some { d with ready := i :: d.ready }
  | .recDone i => some { d with done := i :: d.done }

inductive DStep [DecidableEq ν] : Dev ν → Dev ν → Prop
  | copy {d op r d'} : d.copy = op :: r → exec d op = some d' → DStep d { d' with copy := r }
  | compute {d op r d'} : d.compute = op :: r → exec d op = some d' → DStep d { d' with compute := r }

def dstart (names old : List ν) (uses : Nat → List ν) (n : Nat) (slot : ν → Option Nat) : Dev ν :=
  ⟨copyQueue names n, computeQueue old uses n, [], [], slot, []⟩

inductive DExec [DecidableEq ν] (d0 : Dev ν) : Dev ν → Prop
  | refl : DExec d0 d0
  | step {d d'} : DExec d0 d → DStep d d' → DExec d0 d'

/-- Schema handling across batches (lines 706-714): the schema of the first batch is fixed, a different one raises.
Returns how many batches are accepted. -/
def schemaRun {σ : Type} [DecidableEq σ] : Option σ → List σ → Nat × Bool
  | _, [] => (0, true)
  | none, s :: l => ((schemaRun (some s) l).1 + 1, (schemaRun (some s) l).2)
  | some t, s :: l => if s ≠ t then (0, false) else ((schemaRun (some t) l).1 + 1, (schemaRun (some t) l).2)

end Verif.Prefetch.Cuda
