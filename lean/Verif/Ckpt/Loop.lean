import Mathlib.Data.List.Basic

/-!
# Model of the training loop (`trainer/base.py:3987-4126` `run`, `3707-3958` `_run_train_step`, `3603-3660` finite checks, `4219-4293` `_fetch_batch`)

The parameters of the network are represented by the list of optimizer updates applied so far, each with the truth of "loss, metrics and
gradient norm were finite".  Data positions count micro-batches.  Whether an operation raises is free at every step.  `intr` allows an
asynchronous exception (Ctrl-C) at the points where `_checkpoint_safe` is set.
-/
namespace Verif.Ckpt.Loop

structure Cfg where
  N : Nat                        -- `iterations`
  a : Nat                        -- `gradient_accumulation_steps`
  B : Nat                        -- `batch_size`
  deferred : Bool                -- single process, no scaler: the finite check is read back late
  saveDue : Nat → Bool           -- `_is_save_iteration` (1738-1747)
  valDue : Nat → Bool
  stateDue : Nat → Bool          -- the training state is part of the periodic save (1974-1978)
  intr : Bool

/-- What a checkpoint captures. -/
structure Snap where
  it : Nat
  rows : Nat
  applied : List Bool
  pos : Nat                      -- committed data position

inductive Pc
  | head | body | fetched | stepped | drained | safe | final | flush | raised | done (ok : Bool)
deriving DecidableEq

structure T where
  pc : Pc
  it : Nat
  rows : Nat
  applied : List Bool
  pend : List Bool               -- `_validity_checks_in_flight`
  yielded : Nat                  -- data position of the loader
  committed : Nat                -- committed data position
  tokens : Nat                   -- staged, uncommitted micro-batches
  safe : Bool                    -- `_checkpoint_safe`
  div : Bool                     -- `_known_divergent`
  att : Bool                     -- `_checkpoint_attempt_failed`
  last : Option Nat              -- `_last_state_save_iteration`
  saves : List Snap              -- (ghost) every attempted checkpoint
  completed : Nat                -- (ghost) `_run_train_step` calls that returned

/-- `_drain_pending_step_validity` (3624-3655): pop `n` checks, stop at the first that is not finite. -/
def drainN : Nat → List Bool → Bool × List Bool
  | 0, q => (true, q)
  | _ + 1, [] => (true, [])
  | n + 1, b :: q => if b then drainN n q else (false, q)

def drain (includeCurrent : Bool) (q : List Bool) : Bool × List Bool :=
  drainN (if includeCurrent then q.length else q.length - 1) q

/-- What `_save_checkpoint` captures. -/
def T.snap (t : T) : Snap := ⟨t.it, t.rows, t.applied, t.committed⟩

/-- `run` before its loop (3987-4010): `last` is what loading a checkpoint left, checks of an earlier attempt are discarded. -/
def T.start (it rows : Nat) (pos : Nat) (last : Option Nat) : T :=
  ⟨.head, it, rows, [], [], pos, pos, 0, true, false, false, last, [], 0⟩

inductive Step (c : Cfg) : T → T → Prop
  /-- Ctrl-C while `_checkpoint_safe` is set -/
  | interrupt {t} : c.intr = true → t.pc = .head ∨ t.pc = .safe ∨ t.pc = .final ∨ t.pc = .flush → Step c t { t with pc := .raised }
  /-- lines 4012-4015 -/
  | enter {t} : t.pc = .head → t.it < c.N → Step c t { t with pc := .body, safe := false }
  | leave {t} : t.pc = .head → c.N ≤ t.it → Step c t { t with pc := .final }
  /-- line 4018 -/
  | fetch {t} : t.pc = .body → Step c t { t with pc := .fetched, yielded := t.yielded + 1, tokens := t.tokens + 1 }
  /-- the fetch raises (4251-4252 mark the run divergent, 4269-4277 do not); the loader may have moved -/
  | fetchFail {t} (k : Nat) (d : Bool) : t.pc = .body →
      Step c t { t with pc := .raised, yielded := t.yielded + k, div := t.div || d }
  /-- lines 4019-4022: a step that returns.  Its update is applied; the finite result is queued (deferred) or was checked before the
  optimizer step (3802-3811, 3835-3843) -/
  | step {t} (fin : Bool) : t.pc = .fetched → (c.deferred = false → fin = true) →
      Step c t { t with
        pc := .stepped, it := t.it + 1, rows := t.rows + c.B * c.a, applied := t.applied ++ [fin],
        pend := if c.deferred then t.pend ++ [fin] else t.pend,
        yielded := t.yielded + (c.a - 1), committed := t.yielded + (c.a - 1), tokens := 0, completed := t.completed + 1 }
  /-- lines 4023-4031: a step that raises after `k` further fetches, before the optimizer mutated anything, or after (`fin` of the applied
  update), before or after the data commit; the counters are restored and the sampler is rolled back -/
  | stepFail {t} (k : Nat) (mutated : Option Bool) (queued : List Bool) (commit d : Bool) : t.pc = .fetched → (commit = true → mutated ≠ none) →
      Step c t { t with
        pc := .raised, applied := t.applied ++ mutated.toList, pend := t.pend ++ queued,
        yielded := if commit then t.yielded + k else t.committed, committed := if commit then t.yielded + k else t.committed,
        tokens := 0, div := t.div || d || mutated.isSome }
  /-- metrics, logging, validation or the profiler raise -/
  | opFail {t} (d : Bool) : t.pc = .stepped ∨ t.pc = .drained → Step c t { t with pc := .raised, div := t.div || d }
  /-- lines 4065-4071 -/
  | drainOk {t} : t.pc = .stepped → (drain (c.saveDue t.it || c.valDue t.it) t.pend).1 = true →
      Step c t { t with pc := .drained, pend := (drain (c.saveDue t.it || c.valDue t.it) t.pend).2 }
  | drainFail {t} : t.pc = .stepped → (drain (c.saveDue t.it || c.valDue t.it) t.pend).1 = false →
      Step c t { t with pc := .raised, div := true, pend := (drain (c.saveDue t.it || c.valDue t.it) t.pend).2 }
  /-- lines 4073-4084 -/
  | ready {t} : t.pc = .drained → Step c t { t with pc := .safe, safe := true }
  /-- lines 4086-4089 -/
  | noSave {t} : t.pc = .safe → c.saveDue t.it = false → Step c t { t with pc := .head }
  | save {t} : t.pc = .safe → c.saveDue t.it = true →
      Step c t { t with pc := .head, saves := t.saves ++ [t.snap], last := if c.stateDue t.it then some t.it else t.last }
  | saveFail {t} (f : Bool) : t.pc = .safe → c.saveDue t.it = true →
      Step c t { t with pc := .raised, saves := t.saves ++ [t.snap], att := t.att || f }
  /-- lines 4091-4095 -/
  | finalSaved {t} : t.pc = .final → t.last = some t.it → Step c t { t with pc := .flush }
  | finalDrainFail {t} : t.pc = .final → t.last ≠ some t.it → (drain true t.pend).1 = false →
      Step c t { t with pc := .raised, div := true, pend := (drain true t.pend).2 }
  | finalSave {t} : t.pc = .final → t.last ≠ some t.it → (drain true t.pend).1 = true →
      Step c t { t with pc := .flush, pend := (drain true t.pend).2, saves := t.saves ++ [t.snap], last := some t.it }
  | finalSaveFail {t} (f : Bool) : t.pc = .final → t.last ≠ some t.it → (drain true t.pend).1 = true →
      Step c t { t with pc := .raised, pend := (drain true t.pend).2, saves := t.saves ++ [t.snap], att := t.att || f }
  /-- line 4098; a failing flush sets `_checkpoint_attempt_failed` (1957-1966) -/
  | finish {t} : t.pc = .flush → Step c t { t with pc := .done true }
  | flushFail {t} : t.pc = .flush → Step c t { t with pc := .raised, att := true }
  /-- lines 4099-4115: the handler -/
  | emergency {t} : t.pc = .raised → t.safe = true → t.div = false → t.att = false → t.last ≠ some t.it →
      Step c t { t with pc := .done false, saves := t.saves ++ [t.snap] }
  | giveUp {t} : t.pc = .raised → ¬ (t.safe = true ∧ t.div = false ∧ t.att = false ∧ t.last ≠ some t.it) →
      Step c t { t with pc := .done false }

inductive Exec (c : Cfg) (t0 : T) : T → Prop
  | refl : Exec c t0 t0
  | step {t t'} : Exec c t0 t → Step c t t' → Exec c t0 t'

end Verif.Ckpt.Loop
