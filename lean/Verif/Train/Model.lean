import Mathlib.Logic.Function.Basic
import Mathlib.Data.List.Basic

/-!
# The training loop of a single-process run, with its pipelined finite checks

`trainer/base.py`: `_enqueue_step_validity`, `_drain_pending_step_validity`, `_discard_pending_step_validity` (3603-3668),
the skeleton of `_run_train_step` (3707-3958), `_is_save_iteration` (1738-1748) and `run` (3987-4126).

What the step, the validation pass and the checkpoint writer compute is outside the model: only whether each of them raises, and whether
the combined check of a step is finite, comes from an arbitrary environment.
-/

namespace Verif.Train

/-- how a checkpoint attempt ends (`_save_checkpoint`, base.py:1968-2093): most failures set `_checkpoint_attempt_failed`, some do not -/
inductive SaveOutcome
  | ok
  | failMarked
  | failUnmarked
deriving DecidableEq

/-- what happens while one iteration runs -/
structure Iter where
  /-- `_fetch_batch` returns (4219-4316) -/
  fetchOk : Bool
  /-- hook, forward, structural checks and backward return (3722-3806) -/
  beforeOk : Bool
  /-- the loss, the metrics and the gradient norm are finite (3552-3565) -/
  finite : Bool
  /-- commit preparation, optimizers and schedulers return (3834-3911) -/
  mutateOk : Bool
  /-- post-step hook and cursor commit return (3929-3956) -/
  afterOk : Bool
  /-- metric gathering, logging and progress return (4038-4062) -/
  logOk : Bool
  /-- how many queued device copies have landed by themselves when the checks are drained -/
  landed : Nat
  valOk : Bool
  profOk : Bool
  /-- an asynchronous exception (a signal) arrives between base.py:4087 and 4013 -/
  interrupt : Bool
  save : SaveOutcome

/-- what happens around the loop -/
structure Env where
  iter : Nat → Iter
  /-- `_restore_continuation_state` and the data iterator (4002-4011) -/
  restoreOk : Bool
  finalLanded : Nat
  finalSave : SaveOutcome
  flushOk : Bool
  emergencySave : SaveOutcome

structure Cfg where
  iterations : Nat
  valInterval : Nat
  hasVal : Bool
  saveInterval : Nat
  tempSaveInterval : Nat
  stateSaveInterval : Option Nat
  rowsPerStep : Nat
  /-- a gradient scaler is in use: the check is read before backward (3779-3784, 3821-3844) -/
  scaled : Bool
  /-- the run is on CUDA: the check is copied asynchronously to a pinned slot (3605-3620) -/
  cuda : Bool

inductive Event
  /-- the optimizers were given the gradient of step `k` -/
  | stepped (k : Nat)
  /-- a validation pass ran on the weights after step `k` -/
  | validated (k : Nat)
  /-- a checkpoint of the weights after step `k` was committed -/
  | committed (k : Nat)
deriving DecidableEq

inductive Err
  /-- "iteration k …: non-finite loss, metric, or gradient norm" -/
  | nonFinite (k : Nat)
  | interrupted
  | other
deriving DecidableEq

structure St where
  iteration : Nat
  rows : Nat
  /-- host contents of the slots -/
  slots : Nat → Bool
  /-- device copies that have not landed, oldest first -/
  pending : List (Nat × Bool)
  counter : Nat
  /-- `_validity_checks_in_flight` (slot, iteration) -/
  inFlight : List (Nat × Nat)
  known : Bool
  safe : Bool
  attemptFailed : Bool
  lastState : Option Nat
  events : List Event

/-- copies landing in order -/
def land (slots : Nat → Bool) : List (Nat × Bool) → Nat → Bool
  | [] => slots
  | (i, b) :: rest => land (Function.update slots i b) rest

/-- the first `n` pending copies land -/
def landN (n : Nat) (s : St) : St :=
  { s with slots := land s.slots (s.pending.take n), pending := s.pending.drop n }

/-- position after the last pending copy into `slot` (its event was recorded right after it, base.py:3618-3620) -/
def eventPos (slot : Nat) : List (Nat × Bool) → Nat
  | [] => 0
  | (i, _) :: rest =>
    if eventPos slot rest = 0 then (if i = slot then 1 else 0) else eventPos slot rest + 1

/-- base.py:3645-3646 `event.synchronize()` -/
def synchronize (slot : Nat) (s : St) : St := landN (eventPos slot s.pending) s

/-- base.py:3603-3622 -/
def enqueue (c : Cfg) (check : Bool) (s : St) : St :=
  let i := s.counter % 2
  let s1 := { s with counter := s.counter + 1, inFlight := s.inFlight ++ [(i, s.iteration)] }
  if c.cuda then { s1 with pending := s1.pending ++ [(i, check)] }
  else { s1 with slots := Function.update s1.slots i check }

/-- base.py:3642-3654 -/
def drainN : Nat → St → Except (St × Err) St
  | 0, s => .ok s
  | n + 1, s =>
    match s.inFlight with
    | [] => .ok s
    | (slot, it) :: rest =>
      let s1 := synchronize slot { s with inFlight := rest }
      if s1.slots slot then drainN n s1
      else .error ({ s1 with known := true }, .nonFinite it)

/-- base.py:3624-3641 -/
def drain (includeCurrent : Bool) (s : St) : Except (St × Err) St :=
  drainN (if includeCurrent then s.inFlight.length else s.inFlight.length - 1) s

/-- base.py:3656-3668 -/
def discard (s : St) : St :=
  { s.inFlight.foldl (fun s e => synchronize e.1 s) s with inFlight := [] }

/-- base.py:1738-1748 -/
def saveDue (c : Cfg) (i : Nat) : Bool :=
  i % c.saveInterval == 0 || i % c.tempSaveInterval == 0 ||
    (match c.stateSaveInterval with
     | some n => i % n == 0
     | none => false)

/-- base.py:4063-4066 -/
def valDue (c : Cfg) (i : Nat) : Bool := i % c.valInterval == 0 && c.hasVal

/-- base.py:1977-1981 -/
def savesState (c : Cfg) (force : Bool) (i : Nat) : Bool :=
  force ||
    (match c.stateSaveInterval with
     | some n => i % n == 0
     | none => true)

/-- base.py:1968-2093; an existing valid state file of the same iteration counts as a commit -/
def save (c : Cfg) (o : SaveOutcome) (force : Bool) (s : St) : Except (St × Err) St :=
  match o with
  | .ok =>
    .ok { s with
      events := s.events ++ [.committed s.iteration]
      lastState := if savesState c force s.iteration then some s.iteration else s.lastState }
  | .failMarked => .error ({ s with attemptFailed := true }, .other)
  | .failUnmarked => .error (s, .other)

/-- base.py:3707-3958; the iteration counter is already advanced -/
def trainStep (c : Cfg) (e : Iter) (s : St) : Except (St × Err) St :=
  if !e.beforeOk then .error (s, .other)
  else if c.scaled && !e.finite then .error ({ s with known := true }, .nonFinite s.iteration)
  else
    let s1 := if c.scaled then s else enqueue c e.finite s
    let s2 := { s1 with events := s1.events ++ [.stepped s1.iteration] }
    if !e.mutateOk || !e.afterOk then .error ({ s2 with known := true }, .other) else .ok s2

/-- base.py:4071-4089, the part of an iteration after the drain -/
def tail (c : Cfg) (e : Iter) (s : St) : Except (St × Err) St :=
  let s1 := if valDue c s.iteration then { s with events := s.events ++ [.validated s.iteration] } else s
  if valDue c s.iteration && !e.valOk then .error (s1, .other)
  else if !e.profOk then .error (s1, .other)
  else
    let s2 := { s1 with safe := true }
    if e.interrupt then .error (s2, .interrupted)
    else if saveDue c s2.iteration then save c e.save false s2 else .ok s2

/-- base.py:4013-4089, one iteration -/
def body (c : Cfg) (e : Iter) (s : St) : Except (St × Err) St :=
  let s0 := { s with safe := false }
  if !e.fetchOk then .error (s0, .other)
  else
    match trainStep c e { s0 with iteration := s0.iteration + 1, rows := s0.rows + c.rowsPerStep } with
    | .error (s2, err) => .error ({ s2 with iteration := s2.iteration - 1, rows := s2.rows - c.rowsPerStep }, err)
    | .ok s2 =>
      if !e.logOk then .error (s2, .other)
      else
        match drain (saveDue c s2.iteration || valDue c s2.iteration) (landN e.landed s2) with
        | .error r => .error r
        | .ok s3 => tail c e s3

/-- base.py:4012 `while st.iteration < self.iterations`; the argument counts the iterations that remain -/
def loop (c : Cfg) (env : Env) : Nat → St → Except (St × Err) St
  | 0, s => .ok s
  | n + 1, s =>
    match body c (env.iter (s.iteration + 1)) s with
    | .error r => .error r
    | .ok s1 => loop c env n s1

/-- base.py:4091-4098, after the loop -/
def finish (c : Cfg) (env : Env) (s : St) : Except (St × Err) St :=
  let last : Except (St × Err) St :=
    if s.lastState ≠ some s.iteration then
      match drain true (landN env.finalLanded s) with
      | .error r => .error r
      | .ok s1 => save c env.finalSave true s1
    else .ok s
  match last with
  | .error r => .error r
  | .ok s1 => if env.flushOk then .ok s1 else .error ({ s1 with attemptFailed := true }, .other)

/-- base.py:3993-3997; `safe` is set at 4011, once the continuation state is restored -/
def begin (s : St) (safe : Bool) : St := { discard { s with known := false } with safe := safe }

/-- base.py:3993-4098 -/
def attempt (c : Cfg) (env : Env) (s : St) : Except (St × Err) St :=
  if !env.restoreOk then .error (begin s false, .other)
  else
    match loop c env (c.iterations - s.iteration) (begin s true) with
    | .error r => .error r
    | .ok s1 => finish c env s1

/-- base.py:4099-4115 -/
def emergency (c : Cfg) (env : Env) (s : St) : St :=
  if s.safe && !s.known && !s.attemptFailed && s.lastState ≠ some s.iteration then
    match save c env.emergencySave true s with
    | .ok s1 => s1
    | .error (s1, _) => s1
  else s

/-- base.py:3987-4126 `run`: the state it leaves and the exception it raises, if any -/
def run (c : Cfg) (env : Env) (s : St) : St × Option Err :=
  match attempt c env s with
  | .ok s1 => (discard s1, none)
  | .error (s1, err) => (discard (emergency c env s1), some err)

end Verif.Train
