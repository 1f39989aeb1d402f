/-
Model of `_AdjustableConcurrencyGate` (dataset/telemetry.py:971-994): a fixed pool of threads (the
executor's workers), each calling `run` any number of times, and a controller calling `set_limit`.

Every block under `with self._condition` is one atomic step; between the steps any other thread may run.
-/
namespace Verif.Telemetry

/-- Where a thread is in `run`; `β` is what a callback ends with (its value or its exception). -/
inductive Phase (β : Type) where
  /-- not in `run` (or back from it with this outcome) -/
  | out (last : Option β)
  /-- before the test of `while self._active >= self._limit` (telemetry.py:986) -/
  | entering
  /-- in `self._condition.wait()` (telemetry.py:987), not notified -/
  | asleep
  /-- inside `callback(*args)` (telemetry.py:990), slot taken -/
  | running
  /-- the callback has ended; before the `finally` block (telemetry.py:992) -/
  | ended (b : β)
deriving DecidableEq, Repr

/-- `_limit`, `_active` and the threads. -/
structure Gate (β : Type) where
  limit : Int
  active : Int
  threads : List (Phase β)
deriving DecidableEq, Repr

/-- `notify_all()`: every waiting thread goes back to the loop test. -/
def wakeAll {β : Type} (ts : List (Phase β)) : List (Phase β) :=
  ts.map fun
    | .asleep => .entering
    | p => p

/-- Constructor (telemetry.py:974-977) with `n` threads outside. -/
def Gate.new (β : Type) (limit : Int) (n : Nat) : Gate β := ⟨limit, 0, List.replicate n (.out none)⟩

/-- Actions: what thread `i` does next, or a call of `set_limit`. -/
inductive Act (β : Type) where
  | call (i : Nat)
  | test (i : Nat)
  | finish (i : Nat) (b : β)
  | leave (i : Nat)
  | setLimit (limit : Int)

/-- One atomic step; `none` when the action is not possible in this state. -/
def Gate.step {β : Type} (g : Gate β) : Act β → Option (Gate β)
  -- a worker calls `run` (telemetry.py:984)
  | .call i =>
      match g.threads[i]? with
      | some (.out _) => some { g with threads := g.threads.set i .entering }
      | _ => none
  -- the loop test, then `wait()` or `self._active += 1` (telemetry.py:985-988)
  | .test i =>
      match g.threads[i]? with
      | some .entering =>
          if g.active ≥ g.limit then some { g with threads := g.threads.set i .asleep }
          else some { g with active := g.active + 1, threads := g.threads.set i .running }
      | _ => none
  -- the callback returns or raises (telemetry.py:989-991)
  | .finish i b =>
      match g.threads[i]? with
      | some .running => some { g with threads := g.threads.set i (.ended b) }
      | _ => none
  -- the `finally` block, then the outcome leaves `run` (telemetry.py:991-994)
  | .leave i =>
      match g.threads[i]? with
      | some (.ended b) =>
          some { g with active := g.active - 1, threads := wakeAll (g.threads.set i (.out (some b))) }
      | _ => none
  -- `set_limit` (telemetry.py:979-982)
  | .setLimit n => some { g with limit := n, threads := wakeAll g.threads }

/-- Run a schedule. -/
def Gate.exec {β : Type} (g : Gate β) : List (Act β) → Option (Gate β)
  | [] => some g
  | a :: as => do (← g.step a).exec as

end Verif.Telemetry
