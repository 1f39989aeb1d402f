import Verif.Reservoir.Model

/-!
# Model of the batch planner (`dataset/planner.py`), object path

Records are values of a type `ε` with a shape code and a resident size; the source is abstract (cursors of type `σ`,
`next_envelope`, optional `next_envelopes`) - `Verif.Npz`, `Verif.Seq` and `Verif.Composite` model the sources.  The
reservoir is `Verif.Reservoir`.  Exceptions are `Except Err`; `Err.fuel` marks a loop that would not have ended and is
proved never to occur.  The packed path is in `Packed.lean`, token transactions are in `Stream.lean`.
-/
namespace Verif.Planner
open Verif.Rng (Val Digest)
open Verif.Reservoir (Res)

/-- Reasons for an exception. -/
inductive Err
  | reservoir   -- `StreamingShuffleReservoir` raised
  | shape       -- record outside the declared uniform shape (lines 498-501)
  | queueLimit  -- `_append_shape` (lines 560-563)
  | emptyCycles -- 16 consecutive empty cycles (lines 459-463, 618-622)
  | restart     -- `_restart_source_cycle` on an active cycle (lines 325-330)
  | fuel
deriving DecidableEq

/-- `PlannerConfig` (lines 33-55). -/
structure Config where
  shuffle : Bool
  bufferSize : Nat
  bufferBytes : Option Int
  maxQueues : Nat
  steps : Option Nat
deriving DecidableEq

/-- `__post_init__` (lines 40-55). -/
def Config.Valid (c : Config) : Prop :=
  0 < c.bufferSize ∧ (∀ b, c.bufferBytes = some b → 0 < b) ∧ 0 < c.maxQueues ∧ ∀ n, c.steps = some n → 0 < n

/-- A record source as the planner uses it; `start e y` is `start_cycle(e, y, rank)`, and `start_epoch(e, rank)` for
`y = 0` (all sources define the latter as the former, e.g. `sequential_source.py:306`); `left` is the number of records
a cursor still delivers and only bounds loops. -/
structure Source (σ ε : Type) where
  next1 : σ → Option ε × σ
  many : Option (Nat → σ → List ε × σ)
  start : Nat → Nat → σ
  left : σ → Nat
  zeroResident : Bool

/-- A planner (lines 121-197): source, runtime context and configuration.  `batch` is `planning_batch_size`
(lines 313-319), `sharded` is `_rank_sharded` (lines 140-143), `uniform` is `_uniform_shape_code` (lines 172-177). -/
structure Planner (σ ε : Type) where
  H : Digest
  src : Source σ ε
  shape : ε → Nat
  bytes : ε → Int
  cfg : Config
  train : Bool
  seed : Int
  batch : Nat
  sharded : Bool
  uniform : Option Nat
  manifest : String

/-- Mutable planner state (lines 185-193); `queues` is the insertion-ordered dict `_shape_queues`. -/
structure St (σ ε : Type) where
  epoch : Nat
  batchIndex : Nat
  cycle : Nat
  cursor : σ
  res : Res ε
  ready : List ε
  queues : List (Nat × List ε)
  exhausted : Bool
  finished : Bool

/-- `PlannedEnvelopeBatch` (lines 58-64). -/
structure Batch (ε : Type) where
  rows : List ε
  real : List Bool
  epoch : Nat
  index : Nat
  last : Bool
deriving DecidableEq

variable {σ ε : Type}

/-- Reservoir parameters of a cycle (`_new_reservoir`, lines 280-304). -/
def resCfg (P : Planner σ ε) (epoch cycle : Nat) : Reservoir.Cfg where
  capacity := if P.cfg.shuffle then P.cfg.bufferSize else 1
  maxBytes := P.cfg.bufferBytes
  seed := P.seed
  epoch := epoch
  streamKey := if cycle = 0 then [.str P.manifest] else [.str P.manifest, .str "source-cycle", .int cycle]

/-- `start_epoch` (lines 260-278). -/
def startEpoch (P : Planner σ ε) (epoch : Nat) : St σ ε :=
  ⟨epoch, 0, 0, P.src.start epoch 0, Res.init, [], [], false, false⟩

/-- `_restart_source_cycle` (lines 321-338). -/
def restartCycle (P : Planner σ ε) (st : St σ ε) : Except Err (St σ ε) :=
  if P.sharded = false ∨ st.exhausted = false ∨ st.ready ≠ [] then .error .restart
  else .ok { st with cycle := st.cycle + 1, cursor := P.src.start st.epoch (st.cycle + 1), res := Res.init,
                     exhausted := false }

/-- `self._ready.extend(self._reservoir.drain()); self._source_exhausted = True` (lines 407-409, 423-425). -/
def drainInto (P : Planner σ ε) (st : St σ ε) : Except Err (St σ ε) :=
  match Reservoir.drain P.H (resCfg P st.epoch st.cycle) st.res with
  | none => .error .reservoir
  | some (res, out) => .ok { st with res := res, ready := st.ready ++ out, exhausted := true }

/-- Offering a chunk to the reservoir (lines 411-420, 428-432). -/
def offerInto (P : Planner σ ε) (st : St σ ε) (items : List ε) : Except Err (St σ ε) :=
  match (if P.src.zeroResident && P.src.many.isSome then Reservoir.offerZero P.H (resCfg P st.epoch st.cycle) st.res items
    else Reservoir.offerMany P.H (resCfg P st.epoch st.cycle) st.res (items.map fun e => (e, P.bytes e))) with
  | none => .error .reservoir
  | some (res, out) => .ok { st with res := res, ready := st.ready ++ out }

/-- `SOURCE_CHUNK_SIZE` (line 30). -/
def chunkSize : Nat := 1024

/-- One chunk from the source (lines 401-405, 419-421): without `next_envelopes` the chunk is the single record, which
is offered with its resident size (lines 428-432; `offer` and `offer_many` of one record agree by C11). -/
def readChunk (P : Planner σ ε) (s : σ) : List ε × σ :=
  match P.src.many with
  | some f => f chunkSize s
  | none => ((P.src.next1 s).1.toList, (P.src.next1 s).2)

/-- `_refill_ready` (lines 395-432). -/
def refill (P : Planner σ ε) : Nat → St σ ε → Except Err (St σ ε)
  | 0, _ => .error .fuel
  | fuel + 1, st =>
    if st.ready ≠ [] ∨ st.exhausted = true then .ok st
    else
      let r := readChunk P st.cursor
      if r.1 = [] then drainInto P { st with cursor := r.2 }
      else
        match offerInto P { st with cursor := r.2 } r.1 with
        | .error e => .error e
        | .ok st => refill P fuel st

/-- Every iteration reads at least one record or is the last. -/
def refillFuel (P : Planner σ ε) (st : St σ ε) : Nat := P.src.left st.cursor + 2

/-- `_finish_budget_epoch` (lines 340-346). -/
def finishBudget (P : Planner σ ε) (st : St σ ε) : Except Err (St σ ε) :=
  if st.res.closed then
    .ok { st with ready := [], queues := [], exhausted := true, finished := true }
  else
    match Reservoir.drain P.H (resCfg P st.epoch st.cycle) st.res with
    | none => .error .reservoir
    | some (res, _) => .ok { st with res := res, ready := [], queues := [], exhausted := true, finished := true }

/-- The budget test of `_make_batch` (lines 577-580). -/
def budgetLast (P : Planner σ ε) (st : St σ ε) : Bool :=
  match P.cfg.steps with
  | none => false
  | some n => decide (n ≤ st.batchIndex + 1)

/-- `_make_batch` (lines 569-591). -/
def makeBatch (P : Planner σ ε) (st : St σ ε) (rows : List ε) (real : List Bool) (last : Bool) :
    Except Err (Batch ε × St σ ε) :=
  let b : Batch ε := ⟨rows, real, st.epoch, st.batchIndex, last || budgetLast P st⟩
  let st' := { st with batchIndex := st.batchIndex + 1 }
  if budgetLast P st then
    match finishBudget P st' with
    | .error e => .error e
    | .ok st => .ok (b, st)
  else .ok (b, st')

/-- The same with the batch as an optional result. -/
def makeSome (P : Planner σ ε) (st : St σ ε) (rows : List ε) (real : List Bool) (last : Bool) :
    Except Err (Option (Batch ε) × St σ ε) :=
  match makeBatch P st rows real last with
  | .error e => .error e
  | .ok (b, st) => .ok (some b, st)

/-- The condition for starting another source cycle (lines 447-451, 606-610). -/
def mayRestart (P : Planner σ ε) (st : St σ ε) : Bool :=
  P.sharded && (match P.cfg.steps with | none => false | some n => decide (st.batchIndex < n))

/-- The empty-cycle counter (lines 453-457, 612-616). -/
def countEmpty (st : St σ ε) (empty : Nat) : Nat := if st.res.offered = 0 then empty + 1 else 0

/-- Cyclic padding (lines 473-476, 635-637): row `j` of the padding is `real[(j - len(real)) % len(real)]`. -/
def padTo (rows : List ε) (n : Nat) : List ε :=
  rows ++ (List.range (n - rows.length)).filterMap fun j => rows[j % rows.length]?

/-- `(True,) * real + (False,) * (n - real)` (lines 480, 643). -/
def realFlags (real n : Nat) : List Bool := List.replicate real true ++ List.replicate (n - real) false

/-! ### Uniform path -/

/-- The end of the stream in `_next_uniform_batch` (lines 465-482). -/
def uniformTail (P : Planner σ ε) (acc : List ε) (st : St σ ε) : Except Err (Option (Batch ε) × St σ ε) :=
  if P.train = true ∨ acc = [] then .ok (none, { st with finished := true })
  else makeSome P { st with finished := true } (padTo acc P.batch) (realFlags acc.length P.batch) true

/-- `_next_uniform_batch` (lines 434-509); `acc` is `envelopes`. -/
def uniformLoop (P : Planner σ ε) (code : Nat) : Nat → List ε → Nat → St σ ε →
    Except Err (Option (Batch ε) × St σ ε)
  | 0, _, _, _ => .error .fuel
  | fuel + 1, acc, empty, st =>
    if acc.length < P.batch then
      match refill P (refillFuel P st) st with
      | .error e => .error e
      | .ok st =>
        if st.ready = [] then
          if mayRestart P st then
            if 16 < countEmpty st empty then .error .emptyCycles
            else
              match restartCycle P st with
              | .error e => .error e
              | .ok st' => uniformLoop P code fuel acc (countEmpty st empty) st'
          else uniformTail P acc st
        else
          let take := min (P.batch - acc.length) st.ready.length
          if (st.ready.take take).any (fun e => P.shape e != code) then .error .shape
          else uniformLoop P code fuel (acc ++ st.ready.take take) empty { st with ready := st.ready.drop take }
    else makeSome P st acc (List.replicate P.batch true) false

/-- Each record of a batch is preceded by at most 17 cycle restarts. -/
def uniformFuel (P : Planner σ ε) : Nat := 19 * (P.batch + 1)

/-! ### Generic path -/

/-- `self._shape_queues.get(code)`. -/
def qget (q : List (Nat × List ε)) (code : Nat) : Option (List ε) := (q.find? (·.1 == code)).map (·.2)

/-- `self._shape_queues[code] = l` for a present or a new key (dicts keep insertion order). -/
def qset : List (Nat × List ε) → Nat → List ε → List (Nat × List ε)
  | [], code, l => [(code, l)]
  | p :: q, code, l => if p.1 = code then (code, l) :: q else p :: qset q code l

/-- `_append_shape` (lines 557-567): the queue after appending, or the queue limit error. -/
def appendShape (P : Planner σ ε) (q : List (Nat × List ε)) (e : ε) : Except Err (List ε × List (Nat × List ε)) :=
  match qget q (P.shape e) with
  | some l => .ok (l ++ [e], qset q (P.shape e) (l ++ [e]))
  | none =>
    if P.cfg.maxQueues ≤ q.length then .error .queueLimit
    else .ok ([e], qset q (P.shape e) [e])

/-- `sorted(shape for shape, queue in items if queue)[0]` (lines 627-633). -/
def minShape : List (Nat × List ε) → Option Nat
  | [] => none
  | (s, l) :: q =>
    match minShape q with
    | none => if l = [] then none else some s
    | some m => if l = [] then some m else some (min s m)

/-- The end of the stream in `next_batch` (lines 623-646). -/
def genericTail (P : Planner σ ε) (st : St σ ε) : Except Err (Option (Batch ε) × St σ ε) :=
  if P.train then .ok (none, { st with queues := [], finished := true })
  else
    match minShape st.queues with
    | none => .ok (none, { st with finished := true })
    | some s =>
      let real := (qget st.queues s).getD []
      let queues := st.queues.filter fun p => p.1 != s
      let last := queues.all fun p => p.2.isEmpty
      makeSome P { st with queues := queues, finished := st.finished || last }
        (padTo real P.batch) (realFlags real.length P.batch) last

/-- The loop of `next_batch` (lines 600-657). -/
def genericLoop (P : Planner σ ε) : Nat → Nat → St σ ε → Except Err (Option (Batch ε) × St σ ε)
  | 0, _, _ => .error .fuel
  | fuel + 1, empty, st =>
    match refill P (refillFuel P st) st with
    | .error e => .error e
    | .ok st =>
      match st.ready with
      | [] =>
        if mayRestart P st then
          if 16 < countEmpty st empty then .error .emptyCycles
          else
            match restartCycle P st with
            | .error e => .error e
            | .ok st' => genericLoop P fuel (countEmpty st empty) st'
        else genericTail P st
      | e :: ready =>
        match appendShape P st.queues e with
        | .error err => .error err
        | .ok (queue, queues) =>
          if queue.length = P.batch then
            makeSome P { st with ready := ready, queues := qset queues (P.shape e) [] } queue
              (List.replicate P.batch true) false
          else genericLoop P fuel empty { st with ready := ready, queues := queues }

/-- At most `max_shape_queues` queues of fewer than `batch` records can be filled without completing one. -/
def genericFuel (P : Planner σ ε) : Nat := 19 * (P.cfg.maxQueues * P.batch + 2)

/-- `next_batch` (lines 593-657); `none` is the end of the epoch. -/
def nextBatch (P : Planner σ ε) (st : St σ ε) : Except Err (Option (Batch ε) × St σ ε) :=
  if st.finished then .ok (none, st)
  else
    match P.uniform with
    | some code => uniformLoop P code (uniformFuel P) [] 0 st
    | none => genericLoop P (genericFuel P) 0 st

/-- Calling `next_batch` until it returns `None`, at most `n` times: the batches and the final state.  The flag tells
whether the end was reached. -/
def runEpoch (P : Planner σ ε) : Nat → St σ ε → Except Err (List (Batch ε) × Bool × St σ ε)
  | 0, st => .ok ([], false, st)
  | n + 1, st =>
    match nextBatch P st with
    | .error e => .error e
    | .ok (none, st) => .ok ([], true, st)
    | .ok (some b, st) =>
      match runEpoch P n st with
      | .error e => .error e
      | .ok (bs, fin, st) => .ok (b :: bs, fin, st)

end Verif.Planner
