import Verif.Planner.Finished
import Verif.Planner.Props29

/-!
# Model of batch transactions (`dataset/planner.py:771-973, 1179-1206`)

Digests are values of an abstract type; `initDg` is `_initial_digest`, `tokDg` is `_token_digest`.  Blobs are byte
strings.  The checks that a digest is a string of 64 characters hold for every SHA-256 value and are left out, as is the
coordination descriptor, which no planner method reads.
-/
namespace Verif.Planner
open Verif.Reservoir (Res Snapshot SameButCache)

abbrev Blob := List Nat

/-- `PipelineStateComposer` as used here: `prep` is `prepare_batch` (`none` when it raises), `valid` says that
`_decode_blob` accepts. -/
structure Composer (ε δ : Type) where
  prep : δ → Batch ε → Blob → Option (δ × Blob)
  valid : Blob → Bool
  initial : Blob

/-- A planner with its source's cursor codec, digests and pipelines. -/
structure TPlanner (σ κ ε δ Dg : Type) where
  P : Planner σ ε
  sc : σ → κ
  rc : κ → Option σ
  resumable : Bool
  initDg : Nat → Blob → Dg
  tokDg : Dg → Batch ε → Blob → Dg
  composer : Option (Composer ε δ)

/-- Mutable state: the planner, the `_yield_*` fields (`y…`) and the `_committed_*` fields (`c…`). -/
structure TS (σ κ ε Dg : Type) where
  st : St σ ε
  yState : Option (Saved κ ε)
  yDg : Dg
  yBlob : Blob
  cState : Option (Saved κ ε)
  cDg : Dg
  cBlob : Blob

/-- `PlannerBatchToken` (`planner.py:84-95`). -/
structure Token (κ ε Dg : Type) where
  epoch : Nat
  index : Nat
  beforeDg : Dg
  afterDg : Dg
  batch : Batch ε
  beforeState : Option (Saved κ ε)
  afterState : Option (Saved κ ε)
  beforeBlob : Blob
  afterBlob : Blob

/-- `PreparedPlannerCommit` (`planner.py:115-122`). -/
structure Prepared (κ ε Dg : Type) where
  beforeDg : Dg
  afterDg : Dg
  afterState : Option (Saved κ ε)
  afterBlob : Blob
  count : Nat

variable {σ κ ε δ Dg : Type}

/-- The effect of `state()` on the planner: the reservoir keeps the snapshot (`shuffle.py:281-300`). -/
def snap (P : Planner σ ε) (st : St σ ε) : St σ ε :=
  { st with res := (Reservoir.state (resCfg P st.epoch st.cycle) st.res).1 }

/-- `self.state() if self.source.capabilities.resumable else None`: the planner afterwards and the value. -/
def stateIf (T : TPlanner σ κ ε δ Dg) (st : St σ ε) : St σ ε × Option (Saved κ ε) :=
  if T.resumable then (snap T.P st, some (save T.P T.sc st)) else (st, none)

/-- The initial blob (`planner.py:163-166`). -/
def blob0 (T : TPlanner σ κ ε δ Dg) : Blob :=
  match T.composer with
  | some c => c.initial
  | none => []

/-- `__init__` (`planner.py:163-167, 198-204`). -/
def init (T : TPlanner σ κ ε δ Dg) : TS σ κ ε Dg :=
  let r := stateIf T (startEpoch T.P 0)
  ⟨r.1, r.2, T.initDg 0 (blob0 T), blob0 T, r.2, T.initDg 0 (blob0 T), blob0 T⟩

/-- `next_transactional_batch` (`planner.py:771-798`). -/
def nextTxn (T : TPlanner σ κ ε δ Dg) (ts : TS σ κ ε Dg) : Except Err (Option (Batch ε × Token κ ε Dg) × TS σ κ ε Dg) :=
  match nextBatch T.P ts.st with
  | .error e => .error e
  | .ok (none, st) => .ok (none, { ts with st := st })
  | .ok (some b, st) =>
    let r := stateIf T st
    let d := T.tokDg ts.yDg b ts.yBlob
    .ok (some (b, ⟨b.epoch, b.index, ts.yDg, d, b, ts.yState, r.2, ts.yBlob, ts.yBlob⟩),
      { ts with st := r.1, yState := r.2, yDg := d })

open Classical in
/-- `prepare_pipeline_batch` (`planner.py:800-832`); `none` when it raises, which leaves the planner as it is. -/
noncomputable def preparePipeline (T : TPlanner σ κ ε δ Dg) (ts : TS σ κ ε Dg) (b : Batch ε) (t : Token κ ε Dg) (data : δ) :
    Option (δ × Token κ ε Dg × TS σ κ ε Dg) :=
  if b ≠ t.batch then none
  else
    match T.composer with
    | none => some (data, t, ts)
    | some c =>
      if t.afterDg ≠ ts.yDg then none
      else
        match c.prep data b t.beforeBlob with
        | none => none
        | some (data', blob) =>
          let d := T.tokDg t.beforeDg b blob
          some (data', { t with afterDg := d, afterBlob := blob }, { ts with yBlob := blob, yDg := d })

open Classical in
/-- `finalize_terminal_token` (`planner.py:834-854`). -/
noncomputable def finalizeToken (T : TPlanner σ κ ε δ Dg) (ts : TS σ κ ε Dg) (t : Token κ ε Dg) :
    Option (Batch ε × Token κ ε Dg × TS σ κ ε Dg) :=
  if ts.st.finished = false then none
  else if t.afterDg ≠ ts.yDg then none
  else
    let b : Batch ε := { t.batch with last := true }
    let r := stateIf T ts.st
    let d := T.tokDg t.beforeDg b t.afterBlob
    some (b, { t with afterDg := d, batch := b, afterState := r.2 }, { ts with st := r.1, yState := r.2, yDg := d })

/-- The test of a pipeline blob (`planner.py:895-898, 1197-1200`): decodable if there are pipelines, else empty. -/
def blobOk (T : TPlanner σ κ ε δ Dg) (blob : Blob) : Bool :=
  match T.composer with
  | some c => c.valid blob
  | none => blob.isEmpty

/-- The expected epoch and batch index (`planner.py:862-871`). -/
def commitPos (ts : TS σ κ ε Dg) (t0 : Token κ ε Dg) : Int × Int :=
  match ts.cState with
  | some s => (s.epoch, s.batchIndex)
  | none => (t0.epoch, t0.index)

open Classical in
/-- The loop of `prepare_commit` (`planner.py:872-901`): digest, state and blob after the tokens. -/
noncomputable def checkTokens (T : TPlanner σ κ ε δ Dg) (epoch : Int) : List (Token κ ε Dg) → Int → Dg → Option (Saved κ ε) → Blob →
    Option (Dg × Blob)
  | [], _, d, _, blob => some (d, blob)
  | t :: l, idx, d, s, blob =>
    if t.beforeDg ≠ d then none
    else if ((t.epoch : Int), (t.index : Int)) ≠ (epoch, idx) then none
    else if t.beforeBlob ≠ blob then none
    else if T.resumable = true ∧ t.beforeState ≠ s then none
    else if blobOk T t.afterBlob = false then none
    else checkTokens T epoch l (idx + 1) t.afterDg t.afterState t.afterBlob

/-- `prepare_commit` (`planner.py:856-926`). -/
noncomputable def prepareCommit (T : TPlanner σ κ ε δ Dg) (ts : TS σ κ ε Dg) (l : List (Token κ ε Dg)) :
    Option (Prepared κ ε Dg) :=
  match l.head?, l.getLast? with
  | some t0, some tl =>
    match checkTokens T (commitPos ts t0).1 l (commitPos ts t0).2 ts.cDg ts.cState ts.cBlob with
    | none => none
    | some (d, blob) => some ⟨ts.cDg, d, tl.afterState, blob, l.length⟩
  | _, _ => none

open Classical in
/-- `commit_prepared` (`planner.py:928-936`): the planner afterwards and whether it raised.  The digest and the blob are
assigned before the missing state is noticed. -/
noncomputable def commitPrepared (T : TPlanner σ κ ε δ Dg) (ts : TS σ κ ε Dg) (c : Prepared κ ε Dg) : TS σ κ ε Dg × Bool :=
  if c.beforeDg ≠ ts.cDg then (ts, true)
  else if T.resumable = true then
    match c.afterState with
    | none => ({ ts with cDg := c.afterDg, cBlob := c.afterBlob }, true)
    | some s => ({ ts with cDg := c.afterDg, cBlob := c.afterBlob, cState := some s }, false)
  else ({ ts with cDg := c.afterDg, cBlob := c.afterBlob }, false)

open Classical in
/-- `begin_next_epoch` (`planner.py:941-953`). -/
noncomputable def beginNextEpoch (T : TPlanner σ κ ε δ Dg) (ts : TS σ κ ε Dg) : Option (TS σ κ ε Dg) :=
  if ts.st.finished = false then none
  else if ts.yDg ≠ ts.cDg then none
  else
    let r := stateIf T (startEpoch T.P (ts.st.epoch + 1))
    let d := T.initDg (ts.st.epoch + 1) ts.cBlob
    some ⟨r.1, r.2, d, ts.cBlob, r.2, d, ts.cBlob⟩

/-- `rollback_uncommitted` (`planner.py:955-961`); `none` when it raises. -/
noncomputable def rollback (T : TPlanner σ κ ε δ Dg) (ts : TS σ κ ε Dg) : Option (TS σ κ ε Dg) :=
  if T.resumable = false then none
  else
    match ts.cState with
    | none => none
    | some s =>
      match restore T.P T.rc s with
      | none => none
      | some st => some { ts with st := st, yState := ts.cState, yDg := ts.cDg, yBlob := ts.cBlob }

/-- `state_dict` (`planner.py:963-973`): the committed cursor, digest and blob (the version, algorithm and signature
entries, compared by `load_state_dict`, are functions of the planner's configuration). -/
def stateDict (T : TPlanner σ κ ε δ Dg) (ts : TS σ κ ε Dg) : Option (Saved κ ε × Dg × Blob) :=
  if T.resumable = false then none else ts.cState.map fun s => (s, ts.cDg, ts.cBlob)

/-- `load_state_dict` (`planner.py:1179-1206`) into a planner of the same contract. -/
noncomputable def loadStateDict (T : TPlanner σ κ ε δ Dg) (d : Saved κ ε × Dg × Blob) : Option (TS σ κ ε Dg) :=
  if blobOk T d.2.2 = false then none
  else
    match restore T.P T.rc d.1 with
    | none => none
    | some st => some ⟨st, some d.1, d.2.1, d.2.2, some d.1, d.2.1, d.2.2⟩

end Verif.Planner
