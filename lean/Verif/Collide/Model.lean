import Verif.Resume.Model

/-
Model of the collision check of a committed checkpoint (/repo/trainer/base.py:1748-1918) and of the
branch of `_save_checkpoint` (/repo/trainer/base.py:1968-2007) that keeps a checkpoint which is already
on disk instead of writing it again.

Values are the Python values of `Verif.Canon`, states and libraries as in `Verif.Resume.Model`; reading
files (`torch.load`, `load_torch_ckpt`) is outside: the loaded values are arguments. Devices are not
modelled. `torch.equal` on two tensors of equal shape and dtype is a parameter.
-/

namespace Verif.Collide

open Verif.Canon Verif.Resume

/-- Library behaviour. -/
structure Lib where
  py : PyOps
  /-- `torch.equal` on tensors of equal shape and dtype -/
  torchEqual : Tensor → Tensor → Bool

/-- trainer/base.py:1749-1761 two tensors. -/
def tensorsEqual (L : Lib) (t u : Tensor) : Bool :=
  if t.shape != u.shape || t.dtype != u.dtype then false else L.torchEqual t u

mutual
/-- trainer/base.py:1748-1781 `_checkpoint_values_equal`. A dictionary has no repeated keys, so going
through two dictionaries with the same key list in step is the same as looking every key up. -/
def valuesEqual (L : Lib) (left right : Val) : Bool :=
  match left, right with
  | .tensor t, .tensor u => tensorsEqual L t u
  | .tensor _, _ => false
  | _, .tensor _ => false
  | .dict a, .dict b => a.map Prod.fst == b.map Prod.fst && dictEqual L a b
  | .dict _, _ => false
  | _, .dict _ => false
  | .seq p a, .seq q b => p == q && a.length == b.length && listEqual L a b
  | .seq _ _, _ => false
  | _, .seq _ _ => false
  | v, w => L.py.eqVal v w

/-- trainer/base.py:1776-1780 `all(... for a, b in zip(left, right))`. -/
def listEqual (L : Lib) (left right : List Val) : Bool :=
  match left, right with
  | a :: r, b :: s => valuesEqual L a b && listEqual L r s
  | _, _ => true

/-- trainer/base.py:1766-1771 the values of two dictionaries with the same keys. -/
def dictEqual (L : Lib) (left right : List (Key × Val)) : Bool :=
  match left, right with
  | a :: r, b :: s => valuesEqual L a.2 b.2 && dictEqual L r s
  | _, _ => true
end

/-- A model file: state and the text metadata. -/
structure ModelFile where
  state : Val
  /-- `int(metadata.get("iteration", -1))`; `none` when it is no number -/
  iteration : Option Int

/-- What the process that is about to save has. -/
structure Process where
  world : Nat
  index : Nat
  trainer : Trainer
  /-- for `_local_resume_state()` -/
  env : RankEnv
  /-- names and current states of the models that are checkpointed -/
  models : List (Str × Val)
  /-- the model file of a name at this iteration, if there is one -/
  modelFile : Str → Option ModelFile
  /-- `_validate_retained_vq_runtime_manifest(manifest, iteration, rank)` passes -/
  manifestValid : Int → Nat → Val → Bool
  /-- `_vq_runtime_schema(...)` of the current modules -/
  schema : Val
  /-- `_validate_current_vq_runtime_collision(manifest, iteration)` passes -/
  sidecarMatches : Int → Val → Bool
  /-- trainer/base.py:1566-1591 `_validate_v1_vq_compatibility` passes -/
  v1Compatible : Int → Bool

/-- trainer/base.py:1790-1805 version and counters. `state.get("metadata", {})` is a dictionary or the
attribute access raises. -/
def metadataMatches (P : PyOps) (st : Dict) (t : Trainer) : Except String Bool :=
  if pyEqInt P (get st kFormat) 2 = false then .ok false
  else match (find st kMeta).getD (.dict []) with
    | .dict md =>
      match metaInt P md kIter (-1), metaInt P md kEpoch (-1), metaInt P md kRows (-1) with
      | some i, some e, some r => .ok (i == t.iteration && e == t.epoch && r == t.rows)
      | _, _, _ => .error "ValueError"
    | _ => .error "AttributeError"

/-- trainer/base.py:1862-1869 the three entries that are left out of the comparison. -/
def comparable (d : Dict) : Dict := pop (pop (pop d kVq) kGlobal) kLocal

/-- trainer/base.py:1880-1898 one model. -/
def modelMatches (L : Lib) (p : Process) (name : Str) (current : Val) : Except String Unit :=
  match p.modelFile name with
  | none => .error "committed model is missing"
  | some f =>
    match f.iteration with
    | none => .error "ValueError"
    | some i =>
      if i ≠ p.trainer.iteration then .error "committed model differs"
      else if valuesEqual L f.state current = false then .error "committed model differs"
      else .ok ()

/-- trainer/base.py:1880-1898 all models. -/
def modelsMatch (L : Lib) (p : Process) : List (Str × Val) → Except String Unit
  | [] => .ok ()
  | (name, current) :: r =>
    match modelMatches L p name current with
    | .error e => .error e
    | .ok () => modelsMatch L p r

/-- trainer/base.py:1903-1916 the manifest of every process, from process `rank` on. -/
def manifestsMatch (L : Lib) (p : Process) (rank : Nat) : List Val → Except String Unit
  | [] => .ok ()
  | .dict s :: r =>
    if p.manifestValid p.trainer.iteration rank (get s kVq) = false then .error "VQ runtime manifest"
    else match get s kVq with
      | .dict m =>
        if L.py.eqVal (get m kSchema) p.schema = false then .error "VQ runtime schema differs"
        else manifestsMatch L p (rank + 1) r
      | _ => .error "AttributeError"
  | _ :: _ => .error "AttributeError"

/-- trainer/base.py:1829-1860 configurations, optimizers, schedulers, gradient scaler. -/
def trainerMatches (L : Lib) (st : Dict) (t : Trainer) : Except String Unit :=
  if L.py.eqVal (get st kOptCfg) t.optimizerConfig = false then .error "optimizer or scheduler state differs"
  else if L.py.eqVal (get st kSchedCfg) t.schedulerConfig = false then
    .error "optimizer or scheduler state differs"
  else if valuesEqual L (get st kOpts) (.dict t.optimizers) = false then
    .error "optimizer or scheduler state differs"
  else if valuesEqual L (get st kScheds) (.dict t.schedulers) = false then
    .error "optimizer or scheduler state differs"
  else if valuesEqual L (get st kScaler) (t.scaler.getD .null) = false then
    .error "scaler state differs"
  else .ok ()

/-- trainer/base.py:1862-1878 the continuation state of this process. The current one is built without
a quantiser manifest. -/
noncomputable def localMatches (L : Lib) (p : Process) (ranks : List Val) : Except String Unit :=
  match ranks[p.index]? with
  | some (.dict saved) =>
    match localState L.py { p.env with vqRuntime := none } p.index with
    | .error e => .error e
    | .ok current =>
      if valuesEqual L (.dict (comparable saved)) (.dict (comparable current)) = false then
        .error "rank-local cursor or RNG state differs"
      else .ok ()
  | _ => .error "IndexError"

/-- trainer/base.py:1899-1918 the quantiser part. -/
def runtimeMatches (L : Lib) (p : Process) (version : Int) (ranks : List Val) : Except String Unit :=
  if version = 2 then
    match manifestsMatch L p 0 ranks with
    | .error e => .error e
    | .ok () =>
      match ranks[p.index]? with
      | some (.dict s) =>
        if p.sidecarMatches p.trainer.iteration (get s kVq) = false then .error "VQ runtime sidecar differs"
        else .ok ()
      | _ => .error "no local manifest"
  else if p.v1Compatible p.trainer.iteration = false then .error "version-1 VQ"
  else .ok ()

/-- trainer/base.py:1828-1918 everything after the list of continuation states is validated. -/
noncomputable def restMatches (L : Lib) (p : Process) (st : Dict) (version : Int) (ranks : List Val) :
    Except String Unit :=
  match trainerMatches L st p.trainer with
  | .error e => .error e
  | .ok () =>
    match localMatches L p ranks with
    | .error e => .error e
    | .ok () =>
      match modelsMatch L p p.models with
      | .error e => .error e
      | .ok () => runtimeMatches L p version ranks

/-- trainer/base.py:1783-1918 `_validate_committed_checkpoint_set` on the loaded state file. -/
noncomputable def committedMatches (L : Lib) (p : Process) (state : Val) : Except String Unit :=
  match state with
  | .dict st =>
    match metadataMatches L.py st p.trainer with
    | .error e => .error e
    | .ok false => .error "committed state metadata differs"
    | .ok true =>
      match get st kResume with
      | .dict r =>
        match versionOf L.py r with
        | none => .error "committed resume metadata differs"
        | some version =>
          if pyEqInt L.py (get r kWorld) p.world = false then .error "committed resume metadata differs"
          else match get r kRanks with
            | .seq false states =>
              if states.length ≠ p.world then .error "committed resume metadata differs"
              else match validate L.py p.world states with
                | .error e => .error e
                | .ok (ranks, _) => restMatches L p st version ranks
            | _ => .error "committed resume metadata differs"
      | _ => .error "committed resume metadata differs"
  | _ => .error "committed state metadata differs"

/-! ### Keeping or writing -/

/-- What a call of `_save_checkpoint` does. -/
inductive Decision where
  /-- the committed files stay as they are -/
  | keep
  /-- every process raises -/
  | collision
  /-- go on to write: with or without the training state -/
  | write (state : Bool)
  deriving DecidableEq

/-- trainer/base.py:1968-1972 whether this save includes the training state; an interval of 0 raises in Python and
is outside. -/
def savesState (force : Bool) (interval : Option Nat) (iteration : Nat) : Bool :=
  force || (match interval with | none => true | some n => iteration % n == 0)

/-- trainer/base.py:1986-2001 a gathered result is an error. -/
def failed (r : Except String Unit) : Bool :=
  match r with
  | .error _ => true
  | .ok () => false

/-- trainer/base.py:1968-2007 the decision of `_save_checkpoint`; `exists_` says the state file of this
iteration is there, `results` are the gathered validation results of all processes. -/
def decision (force : Bool) (interval : Option Nat) (iteration : Nat) (exists_ : Bool)
    (results : List (Except String Unit)) : Decision :=
  if savesState force interval iteration && exists_ then
    if results.any failed then .collision else .keep
  else .write (savesState force interval iteration)

end Verif.Collide
