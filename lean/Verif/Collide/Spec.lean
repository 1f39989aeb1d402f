import Verif.Collide.Model

/-!
Specification for C107: two Python values agree everywhere. Nothing here uses the comparison function.
-/

namespace Verif.Collide

open Verif.Canon Verif.Resume

/-- The `n`-th child of a container. -/
def child : Val → Nat → Option Val
  | .seq _ xs, n => xs[n]?
  | .dict kvs, n => (kvs[n]?).map Prod.snd
  | _, _ => none

/-- What is found by walking down a path of child positions. -/
def descend (v : Val) : List Nat → Option Val
  | [] => some v
  | n :: r => match child v n with
    | some w => descend w r
    | none => none

/-- Neither a tensor nor a container. -/
def IsScalar : Val → Prop
  | .tensor _ => False
  | .seq _ _ => False
  | .dict _ => False
  | _ => True

/-- Two values agree at the top: equal tensors, dictionaries with the same keys in the same order, two
lists or two tuples of the same length, or scalars equal for Python. -/
def Alike (L : Lib) : Val → Val → Prop
  | .tensor t, .tensor u => t.shape = u.shape ∧ t.dtype = u.dtype ∧ L.torchEqual t u = true
  | .dict a, .dict b => a.map Prod.fst = b.map Prod.fst
  | .seq p a, .seq q b => p = q ∧ a.length = b.length
  | v, w => IsScalar v ∧ IsScalar w ∧ L.py.eqVal v w = true

/-- Agreement of what two values have at the same place. -/
def AlikeAt (L : Lib) : Option Val → Option Val → Prop
  | some v, some w => Alike L v w
  | none, none => True
  | _, _ => False

/-- Two values agree at every place. -/
def SameValue (L : Lib) (v w : Val) : Prop := ∀ path, AlikeAt L (descend v path) (descend w path)

/-- Nothing inside the value differs from itself (a NaN does). -/
def Calm (L : Lib) (v : Val) : Prop := ∀ path x, descend v path = some x → Alike L x x

/-- The dictionary without the quantiser manifest and the two digests. -/
def withoutRuntime (d : Dict) : Dict :=
  d.filter fun e => e.1 ≠ .str "vq_runtime".toList ∧ e.1 ≠ .str "global_digest".toList ∧
    e.1 ≠ .str "local_digest".toList

/-- A committed state file describes exactly what this process would save. -/
structure Describes (L : Lib) (p : Process) (st r md : Dict) (states ranks : List Val) (saved current : Dict)
    (version : Int) : Prop where
  format : pyEqInt L.py (get st "format_version".toList) 2 = true
  counters : (find st "metadata".toList = some (.dict md) ∨ find st "metadata".toList = none ∧ md = []) ∧
    metaInt L.py md "iteration".toList (-1) = some p.trainer.iteration ∧
    metaInt L.py md "epoch".toList (-1) = some p.trainer.epoch ∧
    metaInt L.py md "rows".toList (-1) = some p.trainer.rows
  resume : find st "resume".toList = some (.dict r)
  versionOk : (version = 1 ∧ pyEqInt L.py (get r "version".toList) 1 = true) ∨
    (version = 2 ∧ pyEqInt L.py (get r "version".toList) 1 = false ∧
      pyEqInt L.py (get r "version".toList) 2 = true)
  world : pyEqInt L.py (get r "world_size".toList) p.world = true
  statesOk : find r "ranks".toList = some (.seq false states) ∧ states.length = p.world
  /-- the continuation states pass the validation of C84 -/
  ranksOk : ∃ old, validate L.py p.world states = .ok (ranks, old)
  optimizerConfig : L.py.eqVal (get st "optimizer_config".toList) p.trainer.optimizerConfig = true
  schedulerConfig : L.py.eqVal (get st "scheduler_config".toList) p.trainer.schedulerConfig = true
  optimizers : SameValue L (get st "optimizers".toList) (.dict p.trainer.optimizers)
  schedulers : SameValue L (get st "schedulers".toList) (.dict p.trainer.schedulers)
  scaler : SameValue L (get st "scaler".toList) (p.trainer.scaler.getD .null)
  /-- the continuation state of this process, apart from quantiser manifest and digests -/
  loc : ranks[p.index]? = some (.dict saved) ∧
    localState L.py { p.env with vqRuntime := none } p.index = .ok current ∧
    SameValue L (.dict (withoutRuntime saved)) (.dict (withoutRuntime current))
  models : ∀ name state, (name, state) ∈ p.models → ∃ f, p.modelFile name = some f ∧
    f.iteration = some p.trainer.iteration ∧ SameValue L f.state state
  /-- quantiser manifests: all of them valid and for the current modules, the own one matching -/
  runtime : version = 2 → (∀ k v, ranks[k]? = some v → ∃ d m, v = .dict d ∧
      find d "vq_runtime".toList = some (.dict m) ∧
      p.manifestValid p.trainer.iteration k (.dict m) = true ∧
      L.py.eqVal (get m "schema".toList) p.schema = true) ∧
    p.sidecarMatches p.trainer.iteration (get saved "vq_runtime".toList) = true
  runtime1 : version = 1 → p.v1Compatible p.trainer.iteration = true

end Verif.Collide
