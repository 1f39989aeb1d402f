import Mathlib.Data.List.Basic

/-!
# Model of `AsyncCheckpointWriter` (`utils/async_checkpoint.py:62-157`)

One caller thread and at most one writer thread, interleaved step by step.  Whether a finalizer or the hook raises, whether staging runs
out of device memory and whether `NNUE_SYNC_CHECKPOINT` is set are chosen freely at each step.  The log records what happened.
-/
namespace Verif.Ckpt.Writer

/-- One call of `submit`: `n` payloads and possibly a post-write hook. -/
structure Job where
  id : Nat
  n : Nat
  hook : Bool
deriving DecidableEq

inductive Ev
  | accept (J : Job) (async : Bool)      -- `submit` got past its `flush` and staged (or runs synchronously)
  | write (j p : Nat)                    -- finalizer `p` of job `j` has committed its file
  | hook (j : Nat)                       -- the hook of job `j` has run
  | fail (j : Nat)                       -- a finalizer or the hook of job `j` raised
  | report (j : Nat)                     -- `flush` (or the `flush` inside `submit`) raised the stored error of job `j`
  | flushed                              -- `flush` returned normally
  | raised (j : Nat)                     -- the synchronous path let the error of job `j` propagate out of `submit`
deriving DecidableEq

/-- A run of a job's finalizers and hook: `pos` operations have succeeded; `fin` when the thread has ended. -/
structure Run where
  job : Job
  pos : Nat
  fin : Bool
deriving DecidableEq

structure Writer where
  cuda : Bool                -- `_copy_stream is not None`
  disabled : Bool
  thread : Option Run
  sync : Option Run          -- the caller is inside the synchronous path
  error : Option Nat         -- `_error`, by the job it came from
  log : List Ev

/-- What the loop of `_write` (lines 147-155), and the synchronous loops (lines 104-108, 125-129), does next. -/
def next (r : Run) : Option Ev :=
  if r.pos < r.job.n then some (.write r.job.id r.pos)
  else if r.pos = r.job.n && r.job.hook then some (.hook r.job.id)
  else none

/-- `flush` (lines 80-88), once the thread has been joined. -/
def flush (w : Writer) : Writer × Bool :=
  match w.error with
  | some j => ({ w with thread := none, error := none, log := w.log ++ [.report j] }, false)
  | none => ({ w with thread := none }, true)

/-- The writer thread can be joined. -/
def joinable (w : Writer) : Prop := ∀ r, w.thread = some r → r.fin = true

inductive Step : Writer → Writer → Prop
  /-- the writer thread completes one finalizer or the hook -/
  | work {w r e} : w.thread = some r → r.fin = false → next r = some e →
      Step w { w with thread := some { r with pos := r.pos + 1 }, log := w.log ++ [e] }
  /-- it raises (lines 156-157) -/
  | workFail {w r e} : w.thread = some r → r.fin = false → next r = some e →
      Step w { w with thread := some { r with fin := true }, error := some r.job.id, log := w.log ++ [.fail r.job.id] }
  /-- it ends -/
  | workEnd {w r} : w.thread = some r → r.fin = false → next r = none →
      Step w { w with thread := some { r with fin := true } }
  /-- the caller calls `flush` -/
  | flushCall {w} : w.sync = none → joinable w →
      Step w (if (flush w).2 then { (flush w).1 with log := (flush w).1.log ++ [.flushed] } else (flush w).1)
  /-- the caller calls `submit`, whose `flush` raises -/
  | submitFail {w} (J : Job) : w.sync = none → joinable w → (flush w).2 = false → Step w (flush w).1
  /-- `submit` on the asynchronous path (lines 110-145) -/
  | submitAsync {w} (J : Job) : w.sync = none → joinable w → (flush w).2 = true → w.cuda = true → w.disabled = false →
      Step w { (flush w).1 with thread := some ⟨J, 0, false⟩, log := (flush w).1.log ++ [.accept J true] }
  /-- `submit` on the synchronous path (lines 99-109), or after running out of memory while staging (lines 117-130, `oom`) -/
  | submitSync {w} (J : Job) (oom : Bool) : w.sync = none → joinable w → (flush w).2 = true →
      Step w { (flush w).1 with sync := some ⟨J, 0, false⟩, disabled := w.disabled || oom, log := (flush w).1.log ++ [.accept J false] }
  | syncWork {w r e} : w.sync = some r → next r = some e →
      Step w { w with sync := some { r with pos := r.pos + 1 }, log := w.log ++ [e] }
  | syncFail {w r e} : w.sync = some r → next r = some e →
      Step w { w with sync := none, log := w.log ++ [.fail r.job.id, .raised r.job.id] }
  | syncEnd {w r} : w.sync = some r → next r = none → Step w { w with sync := none }

/-- `__init__` (lines 71-78). -/
def Writer.init (cuda : Bool) : Writer := ⟨cuda, false, none, none, none, []⟩

inductive Exec (cuda : Bool) : Writer → Prop
  | init : Exec cuda (Writer.init cuda)
  | step {w w'} : Exec cuda w → Step w w' → Exec cuda w'

end Verif.Ckpt.Writer
