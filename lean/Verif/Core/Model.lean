/-
Model of the dataset runtime context of /repo/dataset/core.py:22-63 and of the row slice that
`DatasetPlanner.local_slice` (/repo/dataset/planner.py:649-672) takes from a planned global batch.
-/

namespace Verif.Core

/-- dataset/core.py:22-30 `DatasetRuntimeContext` (Python integers as `Int`). -/
structure Ctx where
  globalBatch : Int
  localBatch : Int
  world : Int
  rank : Int
  seed : Int
  mode : String
  deriving DecidableEq, Repr

/-- dataset/core.py:48 the accepted modes. -/
def modes : List String := ["train", "validate", "test", "export", "visualize"]

/-- dataset/core.py:31-51 `__post_init__`: the checks in the order of the source; `Except.error` is
the `ValueError` (only the kind of the message is kept). -/
def mkCtx (c : Ctx) : Except String Ctx :=
  if c.world < 1 then .error "world_size must be at least one"
  else if ¬ (0 ≤ c.rank ∧ c.rank < c.world) then .error "rank outside"
  else if c.globalBatch ≤ 0 ∨ c.localBatch ≤ 0 then .error "batch sizes must be positive"
  else if c.localBatch * c.world ≠ c.globalBatch then .error "local * world must equal global"
  else if ¬ modes.contains c.mode then .error "unsupported mode"
  else if ¬ (-(2:Int)^63 ≤ c.seed ∧ c.seed < (2:Int)^63) then .error "seed must be signed 64-bit"
  else .ok c

/-- dataset/core.py:84-90 `single_process_dataset_context`. -/
def singleProcess (batch seed : Int) (mode : String) : Except String Ctx :=
  mkCtx ⟨batch, batch, 1, 0, seed, mode⟩

/-- dataset/core.py:60-63 `rank_local_identity`: `(slice_start, slice_stop)`. -/
def Ctx.slice (c : Ctx) : Int × Int :=
  let start := c.rank * c.localBatch
  (start, start + c.localBatch)

/-- Python's normalisation of a slice bound for a sequence of length `n` (`slice.indices`, step 1). -/
def sliceBound (n : Nat) (i : Int) : Int :=
  if i < 0 then max (i + n) 0 else min i n

/-- Python `xs[a:b]` for a sequence, with Python's treatment of negative and out-of-range bounds. -/
def pySlice {α : Type} (xs : List α) (a b : Int) : List α :=
  (xs.drop (sliceBound xs.length a).toNat).take
    ((sliceBound xs.length b).toNat - (sliceBound xs.length a).toNat)

/-- dataset/planner.py:649-672 `local_slice`; `sharded` is `_rank_sharded`. The batch is the list of
planned rows, the second list its `is_real` flags. -/
def localSlice {α : Type} (c : Ctx) (sharded : Bool) (rows : List α) (real : List Bool) :
    Except String (List α × List Bool) :=
  let out := if sharded then (rows, real)
    else (pySlice rows c.slice.1 c.slice.2, pySlice real c.slice.1 c.slice.2)
  if (out.1.length : Int) ≠ c.localBatch then .error "planner produced wrong number of local rows"
  else .ok out

end Verif.Core
