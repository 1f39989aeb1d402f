import Mathlib.Data.List.Basic

/-!
# Model of the learning-rate schedules and their resume (`utils/training_utils.py:193-207`, `trainer/base.py:1010-1062, 1460-1480, 1535-1555, 2180-2192, 3893-3910`)

Numbers are of any type with any operations (`Num`), so the claims about resuming hold for floating point too; the closed forms are
proved for real numbers. An optimizer is its parameter groups, a group its current and initial rate and its number of parameters. The
three schedulers are torch's (`torch.optim.lr_scheduler`: `LRScheduler.__init__`, `step`, `load_state_dict` and the `get_lr` of
`ConstantLR`, `StepLR`, `CosineAnnealingLR`), modelled from torch 2's source, which is not in /repo. Step sizes are positive.
The optimizers and schedulers dictionaries have the same names (the second is built from the first), so they are one list of units.
-/
namespace Verif.Schedule

structure Num (K : Type) where
  mul : K → K → K
  add : K → K → K
  sub : K → K → K
  div : K → K → K
  one : K
  two : K
  /-- `math.cos(math.pi * a / b)`. -/
  cosPi : Int → Nat → K
  /-- the constants 0.9 and 1e-5. -/
  gamma0 : K
  eta0 : K

/-- A parameter group: `group["lr"]`, `group["initial_lr"]` if set, `len(group["params"])`. -/
structure Group (K : Type) where
  lr : K
  initial : Option K
  params : Nat
deriving DecidableEq

inductive Kind (K : Type)
  /-- `ConstantLR(factor=1.0, total_iters)`. -/
  | constant (total : Nat)
  | step (size : Nat) (gamma : K)
  | cosine (tmax : Nat) (etaMin : K)
deriving DecidableEq

/-- `lr_scheduler_args`. -/
structure Args (K : Type) where
  stepSize : Option Nat
  stepGamma : Option K
  etaMin : Option K
deriving DecidableEq

/-- The attributes of a scheduler (`state_dict()` is all of them). -/
structure Sched (K : Type) where
  kind : Kind K
  baseLrs : List K
  lastEpoch : Int
  stepCount : Nat
  lastLr : List K
deriving DecidableEq

/-- One entry of `self.optimizers` and `self.schedulers`. -/
structure Unit (K : Type) where
  name : String
  groups : List (Group K)
  sched : Sched K
deriving DecidableEq

/-- What the trainer is configured with: the groups of every optimizer as constructed (rate, number of parameters), and the schedule. -/
structure Config (K : Type) where
  opts : List (String × List (K × Nat))
  type : String
  args : Args K
  iterations : Nat

variable {K : Type}

/-- `build_lr_scheduler` (training_utils.py:193-207), up to the construction. -/
def buildKind (N : Num K) (type : String) (iterations : Nat) (args : Args K) : Except String (Kind K) :=
  if type = "constant" then .ok (.constant iterations)
  else if type = "step" then .ok (.step (args.stepSize.getD 50000) (args.stepGamma.getD N.gamma0))
  else if type = "cosine" then .ok (.cosine iterations (args.etaMin.getD N.eta0))
  else .error "Unsupported lr scheduler"

/-- torch: `get_lr()` for one group, after `last_epoch` and `_step_count` were advanced. -/
def nextLr (N : Num K) (s : Sched K) (base : K) (lr : K) : K :=
  match s.kind with
  | .constant total =>
    if s.lastEpoch = 0 then N.mul lr N.one
    else if s.lastEpoch ≠ total then lr
    else N.mul lr (N.div N.one N.one)
  | .step size gamma => if s.lastEpoch = 0 ∨ s.lastEpoch % (size : Int) ≠ 0 then lr else N.mul lr gamma
  | .cosine tmax eta =>
    if s.lastEpoch = 0 then lr
    else if s.stepCount = 1 ∧ 0 < s.lastEpoch then
      N.add eta (N.div (N.mul (N.sub base eta) (N.add N.one (N.cosPi s.lastEpoch tmax))) N.two)
    else if (s.lastEpoch - 1 - tmax) % (2 * (tmax : Int)) = 0 then
      N.add lr (N.div (N.mul (N.sub base eta) (N.sub N.one (N.cosPi 1 tmax))) N.two)
    else
      N.add (N.mul (N.div (N.add N.one (N.cosPi s.lastEpoch tmax)) (N.add N.one (N.cosPi (s.lastEpoch - 1) tmax))) (N.sub lr eta)) eta

/-- `for group, lr in zip(param_groups, lrs): group["lr"] = lr`. -/
def setLrs : List (Group K) → List K → List (Group K)
  | g :: gs, l :: ls => { g with lr := l } :: setLrs gs ls
  | gs, _ => gs

/-- torch: `LRScheduler.step()`. -/
def stepUnit (N : Num K) (u : Unit K) : Unit K :=
  let s := { u.sched with stepCount := u.sched.stepCount + 1, lastEpoch := u.sched.lastEpoch + 1 }
  let gs := setLrs u.groups (List.zipWith (nextLr N s) s.baseLrs (u.groups.map Group.lr))
  ⟨u.name, gs, { s with lastLr := gs.map Group.lr }⟩

/-- torch: `group.setdefault("initial_lr", group["lr"])`. -/
def setInitial (g : Group K) : Group K := { g with initial := some (g.initial.getD g.lr) }

/-- torch: `LRScheduler.__init__` with `last_epoch=-1`: initial rates, base rates, the initial step. -/
def newUnit (N : Num K) (kind : Kind K) (name : String) (gs : List (Group K)) : Unit K :=
  stepUnit N ⟨name, gs.map setInitial, ⟨kind, gs.map fun g => g.initial.getD g.lr, -1, 0, []⟩⟩

/-- A loop whose body may raise. -/
def each {α β : Type} (f : α → Except String β) : List α → Except String (List β)
  | [] => .ok []
  | a :: l => match f a with
    | .error e => .error e
    | .ok b => match each f l with
      | .error e => .error e
      | .ok r => .ok (b :: r)

/-- The dictionary comprehension at lines 1012-1021 for one optimizer. -/
def setupOne (N : Num K) (cfg : Config K) (o : String × List (Group K)) : Except String (Unit K) :=
  match buildKind N cfg.type cfg.iterations cfg.args with
  | .error e => .error e
  | .ok kind => .ok (newUnit N kind o.1 o.2)

/-- `build_optimizer`: groups without initial rates. -/
def freshOpt (o : String × List (K × Nat)) : String × List (Group K) := (o.1, o.2.map fun g => ⟨g.1, none, g.2⟩)

/-- A start without a checkpoint: `_setup_optimizer`, `_setup_scheduler`. -/
def start (N : Num K) (cfg : Config K) : Except String (List (Unit K)) := each (setupOne N cfg) (cfg.opts.map freshOpt)

/-- The loop at lines 3900-3907 after a synchronised step; `skipped` says whose optimizer step AMP skipped. -/
def update (N : Num K) (skipped : String → Bool) (us : List (Unit K)) : List (Unit K) :=
  us.map fun u => if skipped u.name = true then u else stepUnit N u

/-- The entries of the state file (lines 2184-2190). -/
structure Saved (K : Type) where
  opts : List (String × List (Group K))
  scheds : List (String × Sched K)
  optConfig : List (String × List (K × Nat))
  type : String
  args : Args K
  iterations : Nat

/-- `_build_training_state`: optimizer and scheduler states under their names. -/
def save (cfg : Config K) (us : List (Unit K)) : Saved K :=
  ⟨us.map fun u => (u.name, u.groups), us.map fun u => (u.name, u.sched), cfg.opts, cfg.type, cfg.args, cfg.iterations⟩

/-- `d[name]`. -/
def find {β : Type} (d : List (String × β)) (n : String) : Option β := (d.find? fun e => decide (e.1 = n)).map Prod.snd

/-- `set(a) == set(b)` for the names. -/
def sameNames (a b : List String) : Bool := a.all (fun n => b.contains n) && b.all (fun n => a.contains n)

/-- torch: `Optimizer.load_state_dict` (lines 1545-1546) for one optimizer: the groups must have the same sizes; the saved options are taken. -/
def loadOne (saved : List (String × List (Group K))) (o : String × List (Group K)) : Except String (String × List (Group K)) :=
  match find saved o.1 with
  | none => .error "optimizer names changed"
  | some gs =>
    if gs.map Group.params ≠ o.2.map Group.params then .error "loaded state dict has a different number of parameter groups or parameters"
    else .ok (o.1, gs)

/-- Lines 1029-1035 for one optimizer: load the scheduler, then put the saved rates back. -/
def restoreOne (scheds : List (String × Sched K)) (lrs : List (String × List K)) (u : Unit K) : Except String (Unit K) :=
  match find scheds u.name with
  | none => .error "scheduler names changed"
  | some s =>
    match find lrs u.name with
    | none => .ok ⟨u.name, u.groups, s⟩
    | some l => .ok ⟨u.name, setLrs u.groups l, s⟩

/-- A start with a state file: the checks and loads of `_load_state_checkpoint` that concern optimizers and schedulers (lines 1461-1477,
1541-1554), then `_setup_scheduler` (1010-1037). -/
def resume [DecidableEq K] (N : Num K) (cfg : Config K) (st : Saved K) : Except String (List (Unit K)) :=
  if st.optConfig ≠ cfg.opts then .error "configured optimizer layout/base learning rates changed"
  else if st.type ≠ cfg.type ∨ st.args ≠ cfg.args ∨ st.iterations ≠ cfg.iterations then .error "scheduler configuration changed"
  else if sameNames (st.opts.map Prod.fst) (cfg.opts.map Prod.fst) = false then .error "optimizer names changed"
  else match each (loadOne st.opts) (cfg.opts.map freshOpt) with
  | .error e => .error e
  | .ok os =>
    match each (setupOne N cfg) os with
    | .error e => .error e
    | .ok us =>
      if sameNames (st.scheds.map Prod.fst) (us.map Unit.name) = false then .error "scheduler names changed"
      else each (restoreOne st.scheds (os.map fun o => (o.1, o.2.map Group.lr))) us

end Verif.Schedule
