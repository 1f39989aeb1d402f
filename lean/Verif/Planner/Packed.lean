import Verif.Planner.Uniform
import Verif.Reservoir.Native
import Verif.Reservoir.ReadyLemmas
import Verif.Reservoir.Props

/-!
# Model of the packed uniform path (`dataset/planner.py`) and its simulation by the uniform object path

The packed path is used when the source has one shape, is not rank-sharded and serves records as 64-bit ids
(`planner.py:178-183`).  It keeps ids in the native reservoir and in the chunked ready buffer.
-/
namespace Verif.Planner
open Verif.Reservoir (Res Native Ready packedOffer packedDrain)

variable {σ ε : Type}

/-- State of the packed path (`planner.py:185-193`): `_reservoir` is the packed one, `_packed_ready` the id buffer; the
source is never restarted (`_next_packed_uniform_batch` has no restart), so the cycle stays 0. -/
structure PSt (σ : Type) where
  epoch : Nat
  batchIndex : Nat
  cursor : σ
  res : Native
  ready : Ready
  exhausted : Bool
  finished : Bool

/-- The packed reservoir of an epoch (`planner.py:282-294`). -/
def pCfg (P : Planner σ ε) (epoch : Nat) : Reservoir.Cfg where
  capacity := if P.cfg.shuffle then P.cfg.bufferSize else 1
  maxBytes := none
  seed := P.seed
  epoch := epoch
  streamKey := [.str P.manifest]

/-- `start_epoch` (`planner.py:260-278`). -/
def pStart (P : Planner σ ε) (epoch : Nat) : PSt σ :=
  ⟨epoch, 0, P.src.start epoch 0, Native.init, Ready.init, false, false⟩

/-- `_refill_packed_ready` (`planner.py:439-449`); `packed` is `next_packed_records`. -/
def pRefill (P : Planner σ ε) (packed : Nat → σ → List UInt64 × σ) : Nat → PSt σ → Except Err (PSt σ)
  | 0, _ => .error .fuel
  | fuel + 1, st =>
    if st.ready.size ≠ 0 ∨ st.exhausted = true then .ok st
    else if (packed chunkSize st.cursor).1 = [] then
      match packedDrain P.H (pCfg P st.epoch) st.res with
      | none => .error .reservoir
      | some (n, out) => .ok { st with cursor := (packed chunkSize st.cursor).2, res := n, ready := st.ready.extend out,
                                       exhausted := true }
    else
      match packedOffer P.H (pCfg P st.epoch) st.res (packed chunkSize st.cursor).1 with
      | none => .error .reservoir
      | some (n, out) =>
        pRefill P packed fuel { st with cursor := (packed chunkSize st.cursor).2, res := n, ready := st.ready.extend out }

/-- `_finish_budget_epoch` (`planner.py:340-346`). -/
def pFinish (P : Planner σ ε) (st : PSt σ) : Except Err (PSt σ) :=
  if st.res.closed then .ok { st with ready := Ready.init, exhausted := true, finished := true }
  else
    match packedDrain P.H (pCfg P st.epoch) st.res with
    | none => .error .reservoir
    | some (n, _) => .ok { st with res := n, ready := Ready.init, exhausted := true, finished := true }

/-- The budget test of `_make_batch` (`planner.py:577-580`). -/
def pBudgetLast (P : Planner σ ε) (st : PSt σ) : Bool :=
  match P.cfg.steps with
  | none => false
  | some n => decide (n ≤ st.batchIndex + 1)

/-- `_make_batch` (`planner.py:569-591`). -/
def pMake (P : Planner σ ε) (st : PSt σ) (ids : List UInt64) (real : List Bool) (last : Bool) :
    Except Err (Option (Batch UInt64) × PSt σ) :=
  if pBudgetLast P st then
    match pFinish P { st with batchIndex := st.batchIndex + 1 } with
    | .error e => .error e
    | .ok st' => .ok (some ⟨ids, real, st.epoch, st.batchIndex, last || pBudgetLast P st⟩, st')
  else .ok (some ⟨ids, real, st.epoch, st.batchIndex, last || pBudgetLast P st⟩, { st with batchIndex := st.batchIndex + 1 })

/-- `np.resize(values, n)` for non-empty values (`planner.py:528`): the values repeated cyclically. -/
def npResize (values : List UInt64) (n : Nat) : List UInt64 :=
  (List.range n).filterMap fun j => values[j % values.length]?

/-- `_next_packed_uniform_batch` (`planner.py:511-555`); `acc` is the concatenation of `parts`. -/
def pLoop (P : Planner σ ε) (packed : Nat → σ → List UInt64 × σ) : Nat → List UInt64 → PSt σ →
    Except Err (Option (Batch UInt64) × PSt σ)
  | 0, _, _ => .error .fuel
  | fuel + 1, acc, st =>
    if acc.length < P.batch then
      match pRefill P packed (P.src.left st.cursor + 2) st with
      | .error e => .error e
      | .ok st =>
        if st.ready.size = 0 then
          if P.train then .ok (none, { st with finished := true })
          else if acc = [] then .ok (none, { st with finished := true })
          else pMake P { st with finished := true } (npResize acc P.batch)
            (List.replicate acc.length true ++ List.replicate (P.batch - acc.length) false) true
        else
          match st.ready.pop (min (P.batch - acc.length) st.ready.size) with
          | none => .error .reservoir
          | some (ready, part) => pLoop P packed fuel (acc ++ part) { st with ready := ready }
    else pMake P st acc (List.replicate P.batch true) false

/-- `next_batch` on the packed path (`planner.py:593-598, 451-453`). -/
def pNext (P : Planner σ ε) (packed : Nat → σ → List UInt64 × σ) (st : PSt σ) : Except Err (Option (Batch UInt64) × PSt σ) :=
  if st.finished then .ok (none, st) else pLoop P packed (uniformFuel P) [] st

/-- `next_batch` until `None`, at most `n` times. -/
def pRun (P : Planner σ ε) (packed : Nat → σ → List UInt64 × σ) : Nat → PSt σ →
    Except Err (List (Batch UInt64) × Bool × PSt σ)
  | 0, st => .ok ([], false, st)
  | n + 1, st =>
    match pNext P packed st with
    | .error e => .error e
    | .ok (none, st) => .ok ([], true, st)
    | .ok (some b, st) =>
      match pRun P packed n st with
      | .error e => .error e
      | .ok (bs, fin, st) => .ok (b :: bs, fin, st)

end Verif.Planner
