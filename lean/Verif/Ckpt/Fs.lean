import Mathlib.Data.List.Sort

/-!
# Model of checkpoint writing and pruning (`trainer/base.py:110-114`, `2095-2147`, `3037-3156`, `utils/file_utils.py:120-126`)

File names are structured (`Names.lean` shows the strings are recognised with these iterations).  A crash is a prefix of the
primitive file-system operations.
-/
namespace Verif.Ckpt

/-- Files of the checkpoint directory. -/
inductive File
  | state (i : Nat)
  | model (m : Nat) (i : Nat)            -- the model named `m`
  | sidecar (i g r : Nat)                -- `runtime_{iteration}_{generation}_rank_{r}.pt`
  | other (n : Nat)
deriving DecidableEq

/-- What a file contains: incomplete bytes, or a complete payload.  Of a state payload the sidecars it refers to matter
(base.py:3081-3108). -/
structure Val where
  sidecars : List File
  tag : Nat
deriving DecidableEq

inductive Content
  | torn
  | full (v : Val)
deriving DecidableEq

/-- The directory: final paths and their `.tmp` companions. -/
structure Disk where
  fs : File → Option Content
  tmp : File → Option Content

/-- Primitive operations: opening and partly writing the temporary file, completing it, `os.replace`, `os.remove`. -/
inductive Prim
  | tmpTorn (f : File)
  | tmpFull (f : File) (v : Val)
  | replace (f : File)
  | remove (f : File)

def Prim.run (d : Disk) : Prim → Disk
  | .tmpTorn f => { d with tmp := fun g => if g = f then some .torn else d.tmp g }
  | .tmpFull f v => { d with tmp := fun g => if g = f then some (.full v) else d.tmp g }
  | .replace f => ⟨fun g => if g = f then d.tmp f else d.fs g, fun g => if g = f then none else d.tmp g⟩
  | .remove f => { d with fs := fun g => if g = f then none else d.fs g }

def runAll (d : Disk) (ops : List Prim) : Disk := ops.foldl Prim.run d

/-- `_atomic_torch_save` (base.py:110-114) and the end of `save_torch_ckpt` (file_utils.py:122-126). -/
def saveOps (f : File) (v : Val) : List Prim := [.tmpTorn f, .tmpFull f v, .replace f]

/-- One checkpoint: sidecars are written first (base.py:2000-2012), then every model file, then (if due) the training state
(base.py:2110-2147). -/
structure Save where
  iter : Nat
  models : List (Nat × Val)
  state : Option Val

def Save.ops (s : Save) : List Prim :=
  ((s.state.elim [] (·.sidecars)).flatMap fun f => saveOps f ⟨[], 0⟩) ++
  (s.models.flatMap fun m => saveOps (.model m.1 s.iter) m.2) ++
  (s.state.elim [] fun v => saveOps (.state s.iter) v)

def File.stateIter : File → Option Nat
  | .state i => some i
  | _ => none
def File.modelIter : File → Option Nat
  | .model _ i => some i
  | _ => none
def File.isSidecar : File → Bool
  | .sidecar .. => true
  | _ => false

/-- Sidecars a state refers to (base.py:3097-3108). -/
def sidecarsOf (d : Disk) (i : Nat) : List File :=
  match d.fs (.state i) with
  | some (.full v) => v.sidecars
  | _ => []

/-- `_cleanup_checkpoints` (base.py:3037-3156) for a directory listing `ls`, the session's `_temp_snapshot_iters` and
`num_keep_states`.  Malformed sidecar names and unreadable states make it raise before removing anything (no operation). -/
structure Cleanup where
  removed : List Nat         -- states deleted
  retained : List Nat
  ops : List Prim
  temp : List Nat            -- `_temp_snapshot_iters` afterwards

def stateIters (ls : List File) : List Nat := (ls.filterMap File.stateIter).insertionSort (· ≤ ·)

/-- `num_delete` (lines 3063-3064). -/
def numDelete (n : Nat) (keep : Int) : Nat := (max 0 ((n : Int) - (if keep < 0 then (n : Int) else keep))).toNat

/-- `max(model_groups, default=None)` (line 3148). -/
def latestModel (ls : List File) : Option Nat := (ls.filterMap File.modelIter).max?

def cleanup (d : Disk) (ls : List File) (temp : List Nat) (keep : Int) : Cleanup :=
  let its := stateIters ls
  let n := numDelete its.length keep
  let removed := its.take n
  let retained := its.drop n
  let prot := retained.flatMap (sidecarsOf d)
  let drop := temp.filter fun i => decide (some i ≠ latestModel ls) && decide (i ∉ retained)
  { removed := removed
    retained := retained
    ops := (removed.map fun i => .remove (.state i)) ++
      ((ls.filter fun f => f.isSidecar && decide (f ∉ prot)).map .remove) ++
      (drop.flatMap fun i => (ls.filter fun f => decide (f.modelIter = some i)).map .remove)
    temp := temp.filter fun i => !(decide (some i ≠ latestModel ls) && decide (i ∉ retained)) }

/-- A training session over the directory; `saved` records (as a ghost) the iterations this session has saved. -/
structure World where
  disk : Disk
  temp : List Nat
  saved : List Nat

/-- The listing `os.listdir` may return. -/
def Lists (d : Disk) (ls : List File) : Prop := ls.Nodup ∧ ∀ f, f ∈ ls ↔ d.fs f ≠ none

/-- `_temp_snapshot_iters.add` (base.py:2127-2128). -/
def addTemp (interval : Nat) (w : World) (s : Save) : List Nat :=
  if s.iter % interval ≠ 0 then s.iter :: w.temp else w.temp

/-- What may happen: a save of models `ms` that stops after `k` operations (all of them when `k` is large), a pruning that
stops after `k` operations with any subset of the pending iterations forgotten, and a crash followed by a new session. -/
inductive WStep (ms : List Nat) (interval : Nat) (keep : Int) : World → World → Prop
  | save {w} (s : Save) (k : Nat) : s.models.map (·.1) = ms →
      (∀ v, s.state = some v → w.disk.fs (.state s.iter) = none ∧ ∀ f ∈ v.sidecars, f.isSidecar = true) →
      WStep ms interval keep w ⟨runAll w.disk (s.ops.take k), addTemp interval w s, s.iter :: w.saved⟩
  | prune {w} (ls : List File) (k : Nat) (temp' : List Nat) : Lists w.disk ls → (∀ i ∈ temp', i ∈ w.temp) →
      WStep ms interval keep w ⟨runAll w.disk ((cleanup w.disk ls w.temp keep).ops.take k), temp', w.saved⟩
  | crash {w} : WStep ms interval keep w ⟨w.disk, [], []⟩

inductive WExec (ms : List Nat) (interval : Nat) (keep : Int) (w0 : World) : World → Prop
  | refl : WExec ms interval keep w0 w0
  | step {w w'} : WExec ms interval keep w0 w → WStep ms interval keep w w' → WExec ms interval keep w0 w'

end Verif.Ckpt
