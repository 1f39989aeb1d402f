import Mathlib.Data.Fintype.Basic
import Mathlib.Data.List.OfFn
import Mathlib.Data.Fintype.Pi

/-!
# The training loop of a multi-process run

`trainer/base.py`: `_synchronize_step_validity` (3461-3601), `_synchronize_phase_errors` (3670-3705), `_run_train_step` (3707-3958),
`_fetch_batch` (4219-4316), `_run_synchronized_operation` (2149-2177), `_save_checkpoint` (1968-2093) and `run` (3987-4126),
for any number of processes.

Each process is a program that computes locally and takes part in collectives. A collective completes when every process calls the
same one; a process that is in a different collective, or has ended, blocks the others for ever.
-/

namespace Verif.Ranks

/-- the collectives used by the loop -/
inductive Kind
  /-- `accelerator.reduce(…, reduction="sum")` of one flag -/
  | reduce
  /-- `gather_object` -/
  | gatherObject
  /-- `accelerator.gather` of a tensor -/
  | gather
  /-- `accelerator.wait_for_everyone` -/
  | barrier
  /-- the gradient reduction inside `accelerator.backward` -/
  | backward
deriving DecidableEq

/-- what a process contributes -/
inductive Val
  | unit
  | flag (b : Bool)
  /-- the local error, if any -/
  | error (e : Option (List String))
  /-- a metric schema -/
  | schema (s : Nat)
  /-- a stream or sampler descriptor -/
  | descriptor (d : Nat)
deriving DecidableEq

/-- a process of a group of `n` -/
inductive Prog (n : Nat) (α : Type) where
  | done (a : α)
  | coll (kind : Kind) (send : Val) (recv : (Fin n → Val) → Prog n α)

/-- the group completes with these results; there is no constructor for processes in different collectives -/
inductive Runs {n : Nat} {α : Type} : (Fin n → Prog n α) → (Fin n → α) → Prop
  | done (out : Fin n → α) : Runs (fun r => .done (out r)) out
  | coll (kind : Kind) (send : Fin n → Val) (recv : Fin n → (Fin n → Val) → Prog n α) (out : Fin n → α) :
      Runs (fun r => recv r send) out → Runs (fun r => .coll kind (send r) (recv r)) out

/-- the exception every failure path builds: the phase and, for each reporting process, its messages -/
structure Failure where
  phase : String
  ranks : List (Nat × List String)
deriving DecidableEq

/-- the trainer attributes that steer the loop -/
structure St where
  iteration : Nat
  /-- `_train_metric_schema` -/
  schema : Option Nat
  /-- `_known_divergent` -/
  known : Bool
  /-- `_checkpoint_safe` -/
  safe : Bool
  /-- `_checkpoint_attempt_failed` -/
  attemptFailed : Bool
  /-- `_last_state_save_iteration` -/
  lastState : Option Nat
  /-- `_optimizer_state_mutated` -/
  mutated : Bool
  /-- iterations whose gradient was given to this process's optimizers -/
  stepped : List Nat
  /-- the committed checkpoints: iteration and the steps in the saved weights -/
  committed : List (Nat × List Nat)
deriving DecidableEq

/-- the messages of the processes that reported one, in rank order -/
def reports {n : Nat} (v : Fin n → Val) : List (Nat × List String) :=
  (List.finRange n).filterMap fun r =>
    match v r with
    | .error (some m) => some (r.1, m)
    | _ => none

def flagOf : Val → Bool
  | .flag b => b
  | _ => false

/-- base.py:3670-3705 -/
def syncPhase {n : Nat} {α : Type} (rank : Nat) (phase : String) (errors : List String) (divergent : Bool) (st : St)
    (k : St → Option Failure → Prog n α) : Prog n α :=
  if n = 1 then
    if errors = [] then k st none
    else k { st with known := st.known || divergent } (some ⟨phase, [(rank, errors)]⟩)
  else
    .coll .reduce (.flag (decide (errors = []))) fun flags =>
      if ∀ r, flagOf (flags r) = true then k st none
      else
        .coll .gatherObject (.error (if errors = [] then none else some errors)) fun all =>
          k { st with known := st.known || divergent } (some ⟨phase, reports all⟩)

/-- what a process knows when it checks its loss and metrics -/
structure Check where
  schema : Nat
  lossValid : Bool
  finite : Bool
  errors : List String

/-- base.py:3509-3601, once the metric schema has been compared -/
def validityTail {n : Nat} {α : Type} (rank : Nat) (phase : String) (chk : Check) (errors0 : List String) (st : St)
    (k : St → Option Failure → Prog n α) : Prog n α :=
  let errors := errors0 ++ (if chk.lossValid then [] else ["loss must be a scalar tensor"])
  let message := if errors = [] then ["non-finite loss, metric, or gradient norm"] else errors
  if n = 1 then
    if errors = [] ∧ chk.finite = true then k st none
    else k { st with known := true } (some ⟨phase, [(rank, message)]⟩)
  else
    .coll .reduce (.flag (decide (errors = []) && chk.finite)) fun flags =>
      if ∀ r, flagOf (flags r) = true then k st none
      else
        .coll .gatherObject (.error (some message)) fun all =>
          k { st with known := true } (some ⟨phase, reports all⟩)

/-- base.py:3461-3601 `_synchronize_step_validity`. The deferred readback of a one-process run is modelled in `Verif/Train`; here the
check is read at once. -/
def validity {n : Nat} {α : Type} (rank : Nat) (phase : String) (chk : Check) (st : St)
    (k : St → Option Failure → Prog n α) : Prog n α :=
  match st.schema with
  | some expected =>
    validityTail rank phase chk (chk.errors ++ (if chk.schema = expected then [] else ["metric schema changed"])) st k
  | none =>
    if n = 1 then validityTail rank phase chk chk.errors { st with schema := some chk.schema } k
    else
      .coll .gatherObject (.schema chk.schema) fun all =>
        validityTail rank phase chk (chk.errors ++ (if ∀ r q, all r = all q then [] else ["metric schema differs across ranks"]))
          { st with schema := some chk.schema } k

/-- base.py:2149-2177; with `mainOnly` only process 0 runs the callback -/
def runSync {n : Nat} {α : Type} (rank : Nat) (operation : String) (mainOnly : Bool) (errors : List String) (st : St)
    (k : St → Option Failure → Prog n α) : Prog n α :=
  .coll .barrier .unit fun _ =>
    let mine := if mainOnly && rank ≠ 0 then [] else errors
    .coll .barrier .unit fun _ =>
      .coll .gatherObject (.error (if mine = [] then none else some mine)) fun all =>
        k st (if reports all = [] then none else some ⟨operation, reports all⟩)

/-- the pattern of base.py:565-587, 1920-1943, 1394-1418, 2022-2046, 2051-2075: exchange the local error with `gather_object` -/
def gatherPhase {n : Nat} {α : Type} (rank : Nat) (phase : String) (errors : List String) (st : St)
    (k : St → Option Failure → Prog n α) : Prog n α :=
  if n = 1 then k st (if errors = [] then none else some ⟨phase, [(rank, errors)]⟩)
  else
    .coll .gatherObject (.error (if errors = [] then none else some errors)) fun all =>
      k st (if reports all = [] then none else some ⟨phase, reports all⟩)

/-- the outcome of `next(self._train_data_iter)` with its epoch restart (base.py:4221-4239) -/
inductive Fetch
  | batch (descriptor : Nat)
  | exhausted
  | raised (e : List String)

/-- base.py:4219-4316; `stream`: the loader yields `BatchEnvelope`s, whose descriptors are compared -/
def fetchBatch {n : Nat} {α : Type} (rank : Nat) (stream : Bool) (f : Fetch) (st : St)
    (k : St → Option Failure → Prog n α) : Prog n α :=
  let errors := match f with | .raised e => e | _ => []
  let available := match f with | .batch _ => true | _ => false
  let descriptor := match f with | .batch d => d | _ => 0
  gatherPhase rank "training batch fetch" errors st fun st failed =>
    match failed with
    | some e => k { st with known := true } (some e)
    | none =>
      let next : Bool → Prog n α := fun allAvailable =>
        if allAvailable = false then k st (some ⟨"training data availability", []⟩)
        else if stream = false then k st none
        else if n = 1 then k st none
        else
          .coll .gatherObject (.descriptor descriptor) fun all =>
            if ∀ r q, all r = all q then k st none
            else k { st with known := true } (some ⟨"training stream token differs across ranks", []⟩)
      if n = 1 then next available
      else .coll .gather (.flag available) fun flags => next (decide (∀ r, flagOf (flags r) = true))

/-- what one process meets in one micro-step -/
structure Micro where
  fetch : Fetch
  /-- errors of `on_before_step` -/
  hook : List String
  /-- the check before backward; errors of `train_step` and of the metric dictionaries included -/
  before : Check
  /-- errors while zero-link gradients are cleared and gradients clipped (3811-3815) -/
  clip : List String
  /-- the check of the gradient norm (3832-3844) -/
  after : Check
  /-- errors of `prepare_commit` (3847-3850, 3882-3887) -/
  prepare : List String
  /-- the descriptor of the prepared commit -/
  descriptor : Nat
  /-- errors of optimizer and scheduler steps (3893-3911) -/
  optimizer : List String

/-- the configuration shared by all processes -/
structure Cfg where
  iterations : Nat
  accumulation : Nat
  stream : Bool
  /-- tokens of a resumable stream or sampler are pending, so a commit is prepared (3845, 3880) -/
  resumable : Bool
  /-- a gradient scaler is in use: there is no check after backward (3821) -/
  scaled : Bool
  logInterval : Nat
  showInterval : Nat
  valInterval : Nat
  hasVal : Bool
  /-- a profiler is active (4076-4086) -/
  profiled : Bool
  saveDue : Nat → Bool
  savesState : Nat → Bool

/-- what one process meets in one iteration -/
structure Iter where
  micro : Nat → Micro
  /-- errors of `on_after_step` -/
  afterHook : List String
  log : List String
  display : List String
  validation : List String
  profiler : List String

/-- what one process meets in one checkpoint -/
structure Save where
  flush : List String
  /-- `os.path.exists` of the state file (1983) -/
  fileExists : Bool
  collision : List String
  directory : List String
  generation : List String
  capture : List String
  resume : List String
  /-- `_validate_rank_resume_states` of the gathered states rejects them (2056-2058) -/
  rejected : Bool
  validation : List String
  commit : List String

/-- base.py:3893-3911, 3916-3920: the optimizers run, then the errors of the mutation block are exchanged -/
def finishMicro {n : Nat} {α : Type} (rank : Nat) (sync : Bool) (m : Micro) (caught : Option (List String)) (st : St)
    (k : St → Option Failure → Prog n α) : Prog n α :=
  match caught with
  | some e => syncPhase rank "optimizer mutation" e true st k
  | none =>
    syncPhase rank "optimizer mutation" m.optimizer true
      { st with mutated := true, stepped := if sync then st.stepped ++ [st.iteration] else st.stepped } k

/-- base.py:3834-3892: commit preparation, on the synchronizing micro-step -/
def prepareCommit {n : Nat} {α : Type} (c : Cfg) (m : Micro) (st : St) (k : St → Option (List String) → Prog n α) : Prog n α :=
  if c.resumable = false then k st none
  else if m.prepare ≠ [] then k st (some m.prepare)
  else if n = 1 then k st none
  else
    .coll .gatherObject (.descriptor m.descriptor) fun all =>
      if ∀ r q, all r = all q then k st none else k st (some ["stream commit digest differs across ranks"])

/-- base.py:3809-3920: from backward to the end of the micro-step -/
def backwardAndMutate {n : Nat} {α : Type} (rank : Nat) (c : Cfg) (sync : Bool) (m : Micro) (st : St)
    (k : St → Option Failure → Prog n α) : Prog n α :=
  let body : Prog n α :=
    if sync = false then finishMicro rank false m none st k
    else if m.clip ≠ [] then finishMicro rank true m (some m.clip) st k
    else if c.scaled then prepareCommit c m st fun st e => finishMicro rank true m e st k
    else
      validity rank "after backward" m.after st fun st failed =>
        match failed with
        | some _ => finishMicro rank true m (some ["step validation failed"]) st k
        | none => prepareCommit c m st fun st e => finishMicro rank true m e st k
  if sync && n ≠ 1 then .coll .backward .unit fun _ => body else body

/-- base.py:3730-3922, one micro-step; `first` micro-steps got their batch from `run` -/
def microStep {n : Nat} {α : Type} (rank : Nat) (c : Cfg) (first sync : Bool) (m : Micro) (st : St)
    (k : St → Option Failure → Prog n α) : Prog n α :=
  let rest : St → Prog n α := fun st =>
    syncPhase rank "pre-step hook" m.hook false st fun st failed =>
      match failed with
      | some e => k st (some e)
      | none =>
        validity rank "before backward" m.before st fun st failed =>
          match failed with
          | some e => k st (some e)
          | none => backwardAndMutate rank c sync m st k
  if first then rest st
  else
    fetchBatch rank c.stream m.fetch st fun st failed =>
      match failed with
      | some e => k st (some e)
      | none => rest st

/-- base.py:3730: the micro-steps `i … i + rem - 1`; gradients synchronize on the last one (`sync_with_dataloader=False`, 515-521) -/
def microLoop {n : Nat} {α : Type} (rank : Nat) (c : Cfg) (e : Iter) : Nat → Nat → St → (St → Option Failure → Prog n α) → Prog n α
  | _, 0, st, k => k st none
  | i, rem + 1, st, k =>
    microStep rank c (i == 0) (rem == 0) (e.micro i) st fun st failed =>
      match failed with
      | some f => k st (some f)
      | none => microLoop rank c e (i + 1) rem st k

/-- base.py:3707-3958; committing the prepared cursor does not fail (C23, C33) -/
def trainStep {n : Nat} {α : Type} (rank : Nat) (c : Cfg) (e : Iter) (st : St) (k : St → Option Failure → Prog n α) : Prog n α :=
  microLoop rank c e 0 c.accumulation st fun st failed =>
    match failed with
    | some f => k st (some f)
    | none => syncPhase rank "post-step hook" e.afterHook true { st with mutated := true } k

/-- a guarded phase whose failure marks the checkpoint attempt -/
def marked {n : Nat} {α : Type} (k : St → Option Failure → Prog n α) (next : St → Prog n α) (st : St) : Option Failure → Prog n α
  | some f => k { st with attemptFailed := true } (some f)
  | none => next st

/-- run a phase, then the rest; a failure of the phase marks the checkpoint attempt -/
def guarded {n : Nat} {α : Type} (op next : St → (St → Option Failure → Prog n α) → Prog n α) (st : St) (k : St → Option Failure → Prog n α) : Prog n α :=
  op st fun st failed => marked k (fun st => next st k) st failed

/-- base.py:2076-2090: the commit and what follows it -/
def commitPhase {n : Nat} {α : Type} (rank : Nat) (saves : Bool) (s : Save) (st : St)
    (k : St → Option Failure → Prog n α) : Prog n α :=
  guarded (runSync rank "checkpoint commit" true s.commit)
    (fun st k => k { st with
      committed := st.committed ++ [(st.iteration, st.stepped)]
      lastState := if saves then some st.iteration else st.lastState } none) st k

/-- base.py:2047-2090: once the continuation states are gathered -/
def saveGathered {n : Nat} {α : Type} (rank : Nat) (s : Save) (st : St) (k : St → Option Failure → Prog n α) : Prog n α :=
  if s.rejected then k st (some ⟨"rank continuation states", []⟩)
  else guarded (gatherPhase rank "checkpoint runtime-sidecar validation" s.validation) (commitPhase rank true s) st k

/-- base.py:1977-2090: after the flush -/
def saveBody {n : Nat} {α : Type} (rank : Nat) (c : Cfg) (force : Bool) (s : Save) (st : St)
    (k : St → Option Failure → Prog n α) : Prog n α :=
  if (force || c.savesState st.iteration) = false then commitPhase rank false s st k
  else if s.fileExists then
    guarded (gatherPhase rank "checkpoint collision validation" s.collision) (fun st k => k { st with lastState := some st.iteration } none) st k
  else
    guarded (gatherPhase rank "checkpoint directory preparation" s.directory)
      (guarded (gatherPhase rank "checkpoint runtime generation" (if rank = 0 then s.generation else []))
        (guarded (gatherPhase rank "checkpoint runtime-sidecar capture" s.capture)
          (guarded (gatherPhase rank "checkpoint continuation-state capture" s.resume) (saveGathered rank s)))) st k

/-- base.py:1968-2093 `_save_checkpoint` -/
def save {n : Nat} {α : Type} (rank : Nat) (c : Cfg) (force : Bool) (s : Save) (st : St)
    (k : St → Option Failure → Prog n α) : Prog n α :=
  guarded (runSync rank "async checkpoint flush" true s.flush) (saveBody rank c force s) st k

/-- base.py:4038-4048: metrics are gathered when logging or display is due -/
def metrics {n : Nat} {α : Type} (c : Cfg) (st : St) (k : St → Option Failure → Prog n α) : Prog n α :=
  if st.iteration % c.logInterval = 0 ∨ st.iteration % c.showInterval = 0 then .coll .gather .unit fun _ => k st none else k st none

/-- run a guarded operation only when it is due -/
def whenDue {n : Nat} {α : Type} (due : Bool) (op : St → (St → Option Failure → Prog n α) → Prog n α) (st : St)
    (k : St → Option Failure → Prog n α) : Prog n α :=
  if due then op st k else k st none

/-- continue unless a phase failed -/
def andThen {n : Nat} {α : Type} (next : St → (St → Option Failure → Prog n α) → Prog n α) (k : St → Option Failure → Prog n α) (st : St) :
    Option Failure → Prog n α
  | some f => k st (some f)
  | none => next st k

/-- one operation after the other; an exception in the first one skips the second -/
def chain {n : Nat} {α : Type} (op next : St → (St → Option Failure → Prog n α) → Prog n α) (st : St) (k : St → Option Failure → Prog n α) : Prog n α :=
  op st fun st failed => andThen next k st failed

/-- base.py:4049-4056 -/
def logPhase {n : Nat} {α : Type} (rank : Nat) (c : Cfg) (e : Iter) (st : St) (k : St → Option Failure → Prog n α) : Prog n α :=
  whenDue (decide (st.iteration % c.logInterval = 0)) (runSync rank "training metric logging" false e.log) st k

/-- base.py:4057-4062 -/
def showPhase {n : Nat} {α : Type} (rank : Nat) (c : Cfg) (e : Iter) (st : St) (k : St → Option Failure → Prog n α) : Prog n α :=
  whenDue (decide (st.iteration % c.showInterval = 0)) (runSync rank "progress display" false e.display) st k

/-- base.py:4063-4075; the validation pass is represented by one guarded phase -/
def validationPhase {n : Nat} {α : Type} (rank : Nat) (c : Cfg) (e : Iter) (st : St) (k : St → Option Failure → Prog n α) : Prog n α :=
  whenDue (decide (st.iteration % c.valInterval = 0) && c.hasVal) (syncPhase rank "validation" e.validation false) st k

/-- base.py:4079-4086 -/
def profilerPhase {n : Nat} {α : Type} (rank : Nat) (c : Cfg) (e : Iter) (st : St) (k : St → Option Failure → Prog n α) : Prog n α :=
  whenDue c.profiled (runSync rank "profiler step" false e.profiler) st k

/-- base.py:4087-4089 -/
def checkpointPhase {n : Nat} {α : Type} (rank : Nat) (c : Cfg) (s : Save) (st : St) (k : St → Option Failure → Prog n α) : Prog n α :=
  whenDue (c.saveDue st.iteration) (save rank c false s) { st with safe := true } k

/-- base.py:4038-4086: between the step and the checkpoint -/
def reporting {n : Nat} {α : Type} (rank : Nat) (c : Cfg) (e : Iter) : St → (St → Option Failure → Prog n α) → Prog n α :=
  chain (metrics c) (chain (logPhase rank c e) (chain (showPhase rank c e) (chain (validationPhase rank c e)
    (profilerPhase rank c e))))

/-- base.py:4021-4037: the counter is advanced, the step runs, a failure takes the counter back -/
def countedStep {n : Nat} {α : Type} (rank : Nat) (c : Cfg) (e : Iter) (st : St) (k : St → Option Failure → Prog n α) : Prog n α :=
  trainStep rank c e { st with iteration := st.iteration + 1 } fun st failed =>
    match failed with
    | some f => k { st with iteration := st.iteration - 1, known := st.known || st.mutated } (some f)
    | none => k st none

/-- base.py:4013-4089, one iteration -/
def iteration {n : Nat} {α : Type} (rank : Nat) (c : Cfg) (e : Iter) (s : Save) (st : St)
    (k : St → Option Failure → Prog n α) : Prog n α :=
  chain (fetchBatch rank c.stream (e.micro 0).fetch) (chain (countedStep rank c e) (chain (reporting rank c e) (checkpointPhase rank c s)))
    { st with safe := false, mutated := false } k

/-- everything one process meets during a run -/
structure Env where
  iter : Nat → Iter
  save : Nat → Save
  finalSave : Save
  finalFlush : List String
  emergencySave : Save
  close : List String

/-- base.py:4012 -/
def loop {n : Nat} {α : Type} (rank : Nat) (c : Cfg) (env : Env) : Nat → St → (St → Option Failure → Prog n α) → Prog n α
  | 0, st, k => k st none
  | rem + 1, st, k =>
    iteration rank c (env.iter (st.iteration + 1)) (env.save (st.iteration + 1)) st fun st failed =>
      match failed with
      | some f => k st (some f)
      | none => loop rank c env rem st k

/-- base.py:4091-4098 -/
def finish {n : Nat} {α : Type} (rank : Nat) (c : Cfg) (env : Env) (st : St) (k : St → Option Failure → Prog n α) : Prog n α :=
  chain (fun st => whenDue (decide (st.lastState ≠ some st.iteration)) (save rank c true env.finalSave) st)
    (guarded (runSync rank "async checkpoint flush" true env.finalFlush) (fun st k => k st none)) st k

/-- base.py:4114-4126: a failing shutdown does not replace the first exception -/
def primary : Option Failure → Option Failure → Option Failure
  | some f, _ => some f
  | none, closing => closing

/-- base.py:4099-4126: the emergency checkpoint and the shutdown -/
def conclude {n : Nat} (rank : Nat) (c : Cfg) (env : Env) (st : St) (failed : Option Failure) : Prog n (St × Option Failure) :=
  let shutdown : St → Prog n (St × Option Failure) := fun st =>
    runSync rank "final resource shutdown" false env.close st fun st closing =>
      .done (st, primary failed closing)
  if failed.isSome && st.safe && !st.known && !st.attemptFailed && decide (st.lastState ≠ some st.iteration) then
    save rank c true env.emergencySave st fun st _ => shutdown st
  else shutdown st

/-- base.py:3987-4126 `run`, after the continuation state is restored (4012) -/
def run {n : Nat} (rank : Nat) (c : Cfg) (env : Env) (st : St) : Prog n (St × Option Failure) :=
  chain (loop rank c env (c.iterations - st.iteration)) (finish rank c env) { st with known := false, safe := true, schema := none }
    fun st failed => conclude rank c env st failed

end Verif.Ranks
