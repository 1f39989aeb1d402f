import Mathlib.Data.List.Basic

/-!
# Model of map-style sampling: `utils/training_utils.py:755-1000`, `1263-1289`, `dataset/stream.py:226-309`,
`dataset/__init__.py:72-141`
-/
namespace Verif.Sampler

/-! ## `ResumableSampler` (`training_utils.py:778-1000`) -/

/-- Construction arguments (lines 786-810).  `perm e` is the index order of epoch `e`: `range(length)` or
`torch.randperm(length)` seeded with `seed + e` (lines 828-833); that it is a permutation is a hypothesis where needed. -/
structure Cfg where
  length : Nat
  shuffle : Bool
  seed : Int
  rank : Nat
  world : Nat
  perm : Nat → List Nat

/-- `local_length` (lines 812-814). -/
def Cfg.local (c : Cfg) : Nat := c.length / c.world

/-- The six cursors (lines 805-810). -/
structure St where
  epoch : Nat
  offset : Nat
  yE : Nat          -- `_yield_epoch`
  yO : Nat          -- `_yielded_offset`
  sE : Nat          -- `_staged_epoch`
  sO : Nat          -- `_staged_offset`
deriving DecidableEq

def St.init : St := ⟨0, 0, 0, 0, 0, 0⟩

/-- `SamplerBatchToken` (lines 755-760). -/
structure Token where
  bE : Nat
  bO : Nat
  aE : Nat
  aO : Nat
deriving DecidableEq

/-- One `next` of `__iter__` (lines 834-838): `none` at the end; an index outside the permutation would raise and is read as
`0` here (`perm` has `length` elements wherever this is used). -/
def next (c : Cfg) (s : St) : Option (Nat × St) :=
  if s.yO < c.local then some ((c.perm s.yE).getD (s.yO * c.world + c.rank) 0, { s with yO := s.yO + 1 }) else none

/-- The epoch adjustment of `stage_batch` (lines 852-859). -/
def stageEpoch (s : St) : Option St :=
  if s.yE = s.sE + 1 then some { s with sE := s.yE, sO := 0 }
  else if s.yE ≠ s.sE then none
  else some s

/-- `stage_batch` (lines 840-877); `none` is a raise. -/
def stage (c : Cfg) (s : St) (count : Nat) : Option (Token × St) :=
  if count = 0 then none else
  match stageEpoch s with
  | none => none
  | some s1 =>
    let delivered := min count (c.local - s1.sO)
    if delivered = 0 ∨ s1.sO + delivered > s1.yO then none
    else some (⟨s.sE, s.sO, s1.sE, s1.sO + delivered⟩, { s1 with sO := s1.sO + delivered })

/-- `advance_yield_epoch` (lines 879-885). -/
def advance (c : Cfg) (s : St) : Option St :=
  if s.yO < c.local then none else some { s with yE := s.yE + 1, yO := 0 }

/-- The loop of `prepare_commit` (lines 894-908). -/
def walk (c : Cfg) (s : St) : Nat × Nat → List Token → Option (Nat × Nat)
  | p, [] => some p
  | p, t :: ts =>
    if (t.bE, t.bO) ≠ p then none
    else if t.aE < s.epoch ∨ s.yE < t.aE then none
    else if c.local < t.aO then none
    else walk c s (t.aE, t.aO) ts

/-- `prepare_commit` (lines 887-913) followed by `commit_prepared` (lines 915-922). -/
def commit (c : Cfg) (s : St) (ts : List Token) : Option St :=
  if ts = [] then none
  else (walk c s (s.epoch, s.offset) ts).map fun p => { s with epoch := p.1, offset := p.2 }

/-- `rollback_uncommitted` (lines 924-929). -/
def rollback (s : St) : St := ⟨s.epoch, s.offset, s.epoch, s.offset, s.epoch, s.offset⟩

/-- `state_dict` (lines 931-941). -/
structure Saved where
  version : Nat
  length : Nat
  shuffle : Bool
  seed : Int
  world : Option Nat
  rank : Option Nat
  epoch : Nat
  offset : Nat
deriving DecidableEq

def save (c : Cfg) (s : St) : Saved := ⟨2, c.length, c.shuffle, c.seed, some c.world, some c.rank, s.epoch, s.offset⟩

/-- `load_state_dict` (lines 943-1000). -/
def load (c : Cfg) (v : Saved) : Option St :=
  if v.version = 1 then
    if c.world ≠ 1 ∨ c.rank ≠ 0 then none
    else if (v.length, v.shuffle, v.seed) ≠ (c.length, c.shuffle, c.seed) then none
    else if c.local < v.offset then none
    else some ⟨v.epoch, v.offset, v.epoch, v.offset, v.epoch, v.offset⟩
  else if (v.version, v.length, v.shuffle, v.seed, v.world, v.rank) ≠ (2, c.length, c.shuffle, c.seed, some c.world, some c.rank) then none
  else if c.local < v.offset then none
  else some ⟨v.epoch, v.offset, v.epoch, v.offset, v.epoch, v.offset⟩

/-! ### The training loop around it (`trainer/base.py:4219-4285`, `3945-3958`, `4020-4030`)

The data loader reads indices ahead (`buf`), forms batches of `B` in order (`drop` is `drop_last`), the trainer stages each
fetched batch, commits the tokens of a step after the optimizer step, and rolls back after a failure. -/
structure Run where
  s : St
  buf : List Nat                    -- indices read by the loader, not yet delivered
  outstanding : List (List Nat × Token)
  committed : List Nat              -- indices of committed batches, in order

inductive Op (c : Cfg) (B : Nat) (drop : Bool) : Run → Run → Prop
  /-- the loader (or a worker) reads one more index -/
  | pull {r i s'} : next c r.s = some (i, s') → Op c B drop r { r with s := s', buf := r.buf ++ [i] }
  /-- the loader delivers a full batch and the trainer stages it -/
  | deliver {r t s'} : B ≤ r.buf.length → stage c r.s B = some (t, s') →
      Op c B drop r { r with s := s', buf := r.buf.drop B, outstanding := r.outstanding ++ [(r.buf.take B, t)] }
  /-- the last, incomplete batch of an epoch -/
  | tail {r t s'} : drop = false → next c r.s = none → r.buf ≠ [] → r.buf.length < B → stage c r.s B = some (t, s') →
      Op c B drop r { r with s := s', buf := [], outstanding := r.outstanding ++ [(r.buf, t)] }
  /-- the loader is exhausted and restarted (`_fetch_batch` raises if it is empty again, so `yE = sE` here) -/
  | restart {r s'} : next c r.s = none → r.buf.length < B → (drop = false → r.buf = []) → r.s.yE = r.s.sE →
      advance c r.s = some s' → Op c B drop r { r with s := s', buf := [] }
  /-- an optimizer step consumed the first `k` outstanding batches -/
  | commit {r k s'} : commit c r.s ((r.outstanding.take k).map (·.2)) = some s' →
      Op c B drop r { r with s := s', outstanding := r.outstanding.drop k,
                             committed := r.committed ++ ((r.outstanding.take k).map (·.1)).flatten }
  /-- failure: lookahead is dropped -/
  | rollback {r} : Op c B drop r { r with s := rollback r.s, buf := [], outstanding := [] }
  /-- crash and resume in a new process from the saved state -/
  | resume {r s'} : load c (save c r.s) = some s' → Op c B drop r { r with s := s', buf := [], outstanding := [] }

inductive Hist (c : Cfg) (B : Nat) (drop : Bool) : Run → Prop
  | init : Hist c B drop ⟨.init, [], [], []⟩
  | step {r r'} : Hist c B drop r → Op c B drop r r' → Hist c B drop r'

/-! ## `BatchByBoardSizeDataset.__iter__` (`training_utils.py:1269-1289`) -/

/-- Buffers by board size.  One sample: append; a full buffer is emptied from its end (`pop`). -/
def boardStep {σ : Type} [DecidableEq σ] {α : Type} (size : α → σ) (B : Nat) (bufs : σ → List α) (x : α) : List α × (σ → List α) :=
  let b := bufs (size x) ++ [x]
  if b.length = B then (b.reverse, fun z => if z = size x then [] else bufs z)
  else ([], fun z => if z = size x then b else bufs z)

/-- The stream of a whole source; each processed sample contributes the (possibly empty) group it emits. -/
def boardRun {σ : Type} [DecidableEq σ] {α : Type} (size : α → σ) (B : Nat) : (σ → List α) → List α → List (List α) × (σ → List α)
  | bufs, [] => ([], bufs)
  | bufs, x :: xs =>
    let r := boardStep size B bufs x
    let q := boardRun size B r.2 xs
    (r.1 :: q.1, q.2)

/-! ## `EvaluationBatchPlannerDataset.__iter__` (`dataset/stream.py:255-309`) -/

/-- `buckets[shape].append(ref)` on an insertion-ordered dictionary (lines 260-264). -/
def bucketAdd {σ ρ : Type} [DecidableEq σ] (shape : σ) (x : ρ) : List (σ × List ρ) → List (σ × List ρ)
  | [] => [(shape, [x])]
  | (z, l) :: bs => if z = shape then (z, l ++ [x]) :: bs else (z, l) :: bucketAdd shape x bs

def buckets {σ ρ : Type} [DecidableEq σ] (shape : ρ → σ) (refs : List ρ) : List (σ × List ρ) :=
  refs.foldl (fun bs x => bucketAdd (shape x) x bs) []

/-- `while len(values) < global_size: values.append(real[(len(values) - len(real)) % len(real)])` (lines 271-272), `fuel` bounds the
number of iterations. -/
def padLoop {ρ : Type} (G : Nat) (real : List ρ) : Nat → List ρ → List ρ
  | 0, values => values
  | fuel + 1, values =>
    if values.length < G then
      match real[(values.length - real.length) % real.length]? with
      | some x => padLoop G real fuel (values ++ [x])
      | none => values
    else values

/-- One global batch: values and mask (lines 269-278). -/
def padded {ρ : Type} (G : Nat) (real : List ρ) : List ρ × List Bool :=
  (padLoop G real G real, List.replicate real.length true ++ List.replicate (G - real.length) false)

/-- The slices `bucket[start : start+G]` for `start in range(0, len(bucket), G)` (line 268). -/
def chunks {ρ : Type} (G : Nat) (l : List ρ) : List (List ρ) :=
  (List.range ((l.length + G - 1) / G)).map fun k => (l.drop (k * G)).take G

def globalBatches {σ ρ : Type} [DecidableEq σ] (shape : ρ → σ) (G : Nat) (refs : List ρ) : List (List ρ × List Bool) :=
  (buckets shape refs).flatMap fun b => (chunks G b.2).map (padded G)

/-- What one rank yields (lines 283-309): (refs, mask, is_last); `b` is the local batch size, the slice starts at `rank*b`
(`core.py:60-63`).  `none` when the dataset is empty (lines 256-257). -/
def rankBatches {σ ρ : Type} [DecidableEq σ] (shape : ρ → σ) (G b rank : Nat) (refs : List ρ) : Option (List (List ρ × List Bool × Bool)) :=
  if refs.length = 0 then none else
  let gs := globalBatches shape G refs
  some (gs.mapIdx fun i g => ((g.1.drop (rank * b)).take b, (g.2.drop (rank * b)).take b, decide (i + 1 = gs.length)))

/-! ## `MultiDataset` (`dataset/__init__.py:111-141`) -/

/-- Child and inner index of `__getitem__` / `map_record_ref`; `none` is `IndexError`. -/
def locate : List Nat → Int → Option (Nat × Int)
  | [], _ => none
  | n :: ns, i => if i < n then some (0, i) else (locate ns (i - n)).map fun p => (p.1 + 1, p.2)

/-- `__len__` (lines 111-112). -/
def total (ns : List Nat) : Nat := ns.sum

end Verif.Sampler
