/-
Model of utils/chained_optimizer.py.
-/
import Mathlib.Data.List.Basic

namespace Verif.Utils

/-- Parameters by object identity. -/
abbrev P := Nat

/-- utils/chained_optimizer.py:10-16 `OptimizerSpec`: the `lr` in `init_args` if present, and the
filter (`None` accepts everything). The class and the other arguments are opaque. -/
structure Spec where
  lr : Option Int
  filter : Option (P → Bool)

/-- A parameter group of a sub-optimizer. -/
structure SubGroup where
  params : List P
  lr : Int
deriving Repr, DecidableEq

/-- A sub-optimizer: its default learning rate and its groups. -/
structure Sub where
  defaultLr : Int
  groups : List SubGroup
deriving Repr, DecidableEq

/-- An outer parameter group with the `optimizer_and_param_group_indices` set (as a list;
its order never matters because every pair gets the same value, see `copyLr`). -/
structure Group where
  params : List P
  lr : Int
  indices : List (Nat × Nat)
deriving Repr, DecidableEq

structure Chained where
  specs : List Spec
  lr : Int
  groups : List Group
  subs : List Sub

def Spec.accepts (s : Spec) (p : P) : Bool :=
  match s.filter with
  | none => true
  | some f => f p

/-- utils/chained_optimizer.py:53-60: `for index, spec in enumerate(specs): if ...: break`. -/
def firstMatch (i : Nat) (p : P) : List Spec → Option Nat
  | [] => none
  | s :: specs => if s.accepts p then some i else firstMatch (i + 1) p specs

/-- `params_for_optimizers[index].append(param)`. -/
def appendAt (i : Nat) (p : P) : List (List P) → List (List P)
  | [] => []
  | l :: ls => match i with
    | 0 => (l ++ [p]) :: ls
    | i + 1 => l :: appendAt i p ls

/-- utils/chained_optimizer.py:50-62 / 111-125: the loop over one group's parameters. `gidx` gives
the sub-optimizer group index recorded for a sub-optimizer (0 at construction,
`len(param_groups)` later). Result: lists per sub-optimizer, index set, whether all matched; on a
parameter without a match the loop stops there. -/
def assign (specs : List Spec) (gidx : Nat → Nat) :
    List P → List (List P) → List (Nat × Nat) → List (List P) × List (Nat × Nat) × Bool
  | [], acc, idx => (acc, idx, true)
  | p :: ps, acc, idx =>
    match firstMatch 0 p specs with
    | none => (acc, idx, false)
    | some i =>
      assign specs gidx ps (appendAt i p acc)
        (if (i, gidx i) ∈ idx then idx else idx ++ [(i, gidx i)])

/-- utils/chained_optimizer.py:45-62: all groups at construction (one set of lists for all
groups, index `(index, 0)`). -/
def assignAll (specs : List Spec) :
    List (List P × Int) → List (List P) → List Group → Option (List (List P) × List Group)
  | [], acc, done => some (acc, done)
  | (ps, lr) :: gs, acc, done =>
    let r := assign specs (fun _ => 0) ps acc []
    if r.2.2 then assignAll specs gs r.1 (done ++ [⟨ps, lr, r.2.1⟩]) else none

/-- `torch.optim.Optimizer.add_param_group`'s check: no parameter already in another group. -/
def disjointFrom (ps : List P) (groups : List (List P)) : Bool :=
  ps.all fun p => groups.all fun g => !g.contains p

/-- torch's base constructor (`super().__init__(params, defaults)`): at least one group, groups
pairwise disjoint. -/
def baseInit : List (List P × Int) → List (List P) → Bool
  | [], _ => true
  | (ps, _) :: gs, seen => disjointFrom ps seen && baseInit gs (seen ++ [ps])

/-- utils/chained_optimizer.py:64-70: build the sub-optimizers; torch rejects an empty list. -/
def buildSubs (lr : Int) : List Spec → List (List P) → Option (List Sub)
  | [], _ => some []
  | _, [] => some []
  | s :: specs, ps :: pss =>
    if ps = [] then none
    else match buildSubs lr specs pss with
      | none => none
      | some subs =>
        let l := s.lr.getD lr
        some (⟨l, [⟨ps, l⟩]⟩ :: subs)

/-- utils/chained_optimizer.py:28-70 `__init__`: initial groups are given as (params, lr), `lr`
being the group's own or the default. `none`: a `ValueError`. -/
def Chained.init (specs : List Spec) (lr : Int) (gs : List (List P × Int)) : Option Chained :=
  if gs = [] then none
  else if baseInit gs [] then
    match assignAll specs gs (specs.map fun _ => []) [] with
    | none => none
    | some (acc, groups) =>
      match buildSubs lr specs acc with
      | none => none
      | some subs => some ⟨specs, lr, groups, subs⟩
  else none

/-- utils/chained_optimizer.py:127-130: `if selected_params: optimizer.add_param_group(...)`. -/
def addSelected : List Sub → List (List P) → List Sub
  | s :: subs, ps :: pss =>
    (if ps = [] then s else { s with groups := s.groups ++ [⟨ps, s.defaultLr⟩] })
      :: addSelected subs pss
  | subs, _ => subs

/-- `len(self.optimizers[index].param_groups)`. -/
def groupCount (subs : List Sub) (i : Nat) : Nat :=
  match subs[i]? with
  | none => 0
  | some s => s.groups.length

/-- utils/chained_optimizer.py:99-130 `add_param_group` (after construction): the state and
whether it returned; torch's own check comes first, then the outer group is already added when
the assignment loop raises. -/
def Chained.add (c : Chained) (ps : List P) (lr : Int) : Chained × Bool :=
  if disjointFrom ps (c.groups.map Group.params) then
    let r := assign c.specs (groupCount c.subs) ps (c.specs.map fun _ => []) []
    let groups := c.groups ++ [⟨ps, lr, r.2.1⟩]
    if r.2.2 then ({ c with groups := groups, subs := addSelected c.subs r.1 }, true)
    else ({ c with groups := groups }, false)
  else (c, false)

/-- `self.optimizers[o].param_groups[g]["lr"] = lr`; `none`: IndexError. -/
def setSubLr (subs : List Sub) (o g : Nat) (lr : Int) : Option (List Sub) :=
  match subs[o]? with
  | none => none
  | some s =>
    match s.groups[g]? with
    | none => none
    | some sg => some (subs.set o { s with groups := s.groups.set g { sg with lr := lr } })

/-- utils/chained_optimizer.py:82-85: the inner loop for one outer group. -/
def copyGroup (lr : Int) : List (Nat × Nat) → List Sub → Option (List Sub)
  | [], subs => some subs
  | (o, g) :: rest, subs =>
    match setSubLr subs o g lr with
    | none => none
    | some subs' => copyGroup lr rest subs'

/-- utils/chained_optimizer.py:81-85 `_copy_lr_to_optimizers`. -/
def copyLr : List Group → List Sub → Option (List Sub)
  | [], subs => some subs
  | gr :: grs, subs =>
    match copyGroup gr.lr gr.indices subs with
    | none => none
    | some subs' => copyLr grs subs'

/-- What one `step()` of the sub-optimizers does: each updates each of its parameters with its
group's learning rate, in order. -/
def updates (subs : List Sub) : List (P × Int) :=
  subs.flatMap fun s => s.groups.flatMap fun g => g.params.map fun p => (p, g.lr)

/-- utils/chained_optimizer.py:87-97 `step`: learning rates are copied, then every sub-optimizer
steps once. Result: the optimizer and the updates made. -/
def Chained.step (c : Chained) : Option (Chained × List (P × Int)) :=
  match copyLr c.groups c.subs with
  | none => none
  | some subs => some ({ c with subs := subs }, updates subs)

/-- utils/chained_optimizer.py:77-79 `zero_grad`: the parameters whose gradients are cleared. -/
def Chained.zeroed (c : Chained) : List P := (updates c.subs).map Prod.fst

/-- A scheduler writing the learning rate of one outer group. -/
def Chained.setLr (c : Chained) (g : Nat) (lr : Int) : Chained :=
  match c.groups[g]? with
  | none => c
  | some gr => { c with groups := c.groups.set g { gr with lr := lr } }

end Verif.Utils
