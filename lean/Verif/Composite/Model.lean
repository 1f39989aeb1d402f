import Verif.Rng.Model

/-!
# Model of the composite (blended) source (`dataset/composite_source.py`) and the blend weights (`dataset/__init__.py`)

Child sources are abstract: child cursors are values of a type `σ`, child records values of a type `ρ`; child number `i`
is its `next_envelope` and, if it has one, its `next_envelopes`.  A wrapped record (`_wrap`, lines 188-211) is the pair
of the child index and the child's record: every field of the wrapped envelope is a function of this pair.  A child
that emits an undeclared shape code (which raises) is not modelled.  Closing cursors is not modelled.
-/
namespace Verif.Composite

/-! ### Weights -/

/-- `max(range(n), key=lambda child: (scores[child], -child))` (line 45): the first position of a maximal score. -/
def argmax : List Int → Nat
  | [] => 0
  | [_] => 0
  | a :: b :: rest =>
    let k := argmax (b :: rest)
    if (b :: rest).getD k 0 ≤ a then 0 else k + 1

/-- One round of the scheduling loop (lines 42-47): new scores and the selected child. -/
def round (weights : List Nat) (total : Nat) (scores : List Int) : List Int × Nat :=
  let scores := (scores.zip weights).map fun x => x.1 + (x.2 : Int)
  let selected := argmax scores
  (scores.modify selected (· - (total : Int)), selected)

/-- `n` rounds (lines 42-48). -/
def rounds (weights : List Nat) (total : Nat) : Nat → List Int → List Nat
  | 0, _ => []
  | n + 1, scores =>
    let r := round weights total scores
    r.2 :: rounds weights total n r.1

/-- `_weighted_cycle` (lines 35-49); `none` raises. -/
def weightedCycle (weights : List Nat) : Option (List Nat) :=
  if weights = [] ∨ weights.any (· == 0) = true then none
  else some (rounds weights weights.sum weights.sum (List.replicate weights.length 0))

/-- A reduced fraction, as `Fraction(str(ratio))` (`dataset/__init__.py:239`). -/
structure Ratio where
  num : Nat
  den : Nat
deriving DecidableEq

/-- `_integer_ratio_weights` (`dataset/__init__.py:231-252`); `none` raises.  A ratio that is not finite and positive
cannot be written as a `Ratio` with `0 < num`, so those tests are the test `num = 0`. -/
def integerWeights (ratios : List Ratio) : Option (List Nat) :=
  if ratios.any (fun r => r.num == 0) = true then none
  else if ratios.any (fun r => decide (1000000 < r.den)) = true then none
  else
    let denominator := (ratios.map (·.den)).foldl Nat.lcm 1
    let weights := ratios.map fun r => r.num * (denominator / r.den)
    match weights with
    | [] => none
    | w :: ws =>
      let divisor := ws.foldl Nat.gcd w
      some (weights.map (· / divisor))

/-! ### The source -/

/-- `CompositeRecordSource` (lines 52-117).  `ident i s` is the epoch, cycle and rank a child cursor exposes
(`getattr` with a default, lines 553-556). -/
structure Src (σ ρ : Type) where
  weights : List Nat
  schedule : List Nat
  sync : Bool
  next1 : Nat → σ → Option ρ × σ
  many : Nat → Option (Nat → σ → List ρ × σ)
  start : Nat → Nat → Nat → Nat → σ
  ident : Nat → σ → Option Nat × Option Nat × Option Nat
  world : Nat
  rank : Nat
  sharded : Bool

/-- `CompositeCursor` (lines 23-32). -/
structure Cursor (σ ρ : Type) where
  epoch : Nat
  cycle : Nat
  rank : Nat
  kids : List σ
  exhausted : List Bool
  pending : List (Nat × ρ)
  pos : Nat
  cycleIndex : Nat
  terminal : Bool

variable {σ ρ : Type}

/-- The rank a cursor carries (lines 174, 544). -/
def Src.cursorRank (S : Src σ ρ) : Nat := if S.sharded then S.rank else 0

/-- `start_cycle` (lines 156-186). -/
def startCycle (S : Src σ ρ) (epoch cycle rank : Nat) : Option (Cursor σ ρ) :=
  if rank ≠ S.rank ∨ ¬ rank < S.world then none
  else some ⟨epoch, cycle, S.cursorRank, (List.range S.weights.length).map fun i => S.start i epoch cycle rank,
    List.replicate S.weights.length false, [], 0, 0, false⟩

/-- `_next_child` (lines 213-221). -/
def nextChild (S : Src σ ρ) (c : Cursor σ ρ) (i : Nat) : Option (Nat × ρ) × Cursor σ ρ :=
  match c.kids[i]? with
  | none => (none, c)
  | some s =>
    let r := S.next1 i s
    match r.1 with
    | none => (none, { c with kids := c.kids.set i r.2, exhausted := c.exhausted.set i true })
    | some x => (some (i, x), { c with kids := c.kids.set i r.2 })

/-- The loop of `_next_child_many` (lines 233-251): records so far, child cursor, exhausted flag.  Every iteration but
the last adds a record, so `limit + 1` iterations suffice (`childManyLoop` with less fuel would stop early). -/
def childManyLoop (S : Src σ ρ) (i limit : Nat) : Nat → List ρ → σ → List ρ × σ × Bool
  | 0, acc, s => (acc, s, false)
  | fuel + 1, acc, s =>
    if acc.length < limit then
      match S.many i with
      | some f =>
        let r := f (limit - acc.length) s
        if r.1 = [] then (acc, r.2, true) else childManyLoop S i limit fuel (acc ++ r.1) r.2
      | none =>
        let r := S.next1 i s
        match r.1 with
        | none => (acc, r.2, true)
        | some x => childManyLoop S i limit fuel (acc ++ [x]) r.2
    else (acc, s, false)

/-- `_next_child_many` (lines 223-252) for child `i` with cursor `s` and exhausted flag `e`. -/
def childMany (S : Src σ ρ) (i limit : Nat) (s : σ) (e : Bool) : List ρ × σ × Bool :=
  if e then ([], s, true) else childManyLoop S i limit (limit + 1) [] s

/-- The inner loop over the schedule (lines 280-285): `positions` are the records of each child already used. -/
def walkPos (envs : List (List ρ)) : List Nat → List Nat → List (Nat × ρ) × List Nat
  | [], positions => ([], positions)
  | i :: rest, positions =>
    match (envs.getD i [])[positions.getD i 0]? with
    | none => walkPos envs rest positions
    | some x =>
      let r := walkPos envs rest (positions.modify i (· + 1))
      ((i, x) :: r.1, r.2)

/-- The outer loop (lines 278-286): the pending records and the number of nonempty cycles. -/
def walkCycles (envs : List (List ρ)) (schedule : List Nat) : Nat → List Nat → List (Nat × ρ) × Nat
  | 0, _ => ([], 0)
  | n + 1, positions =>
    let a := walkPos envs schedule positions
    let b := walkCycles envs schedule n a.2
    (a.1 ++ b.1, (if a.1 = [] then 0 else 1) + b.2)

/-- `min(len(envelopes) // weight ...)` (lines 260-263). -/
def completed (envs : List (List ρ)) (weights : List Nat) : Nat :=
  match (envs.zip weights).map fun x => x.1.length / x.2 with
  | [] => 0
  | a :: rest => rest.foldl min a

/-- The `_next_child_many` calls of `_fill_cycles` (lines 255-258); they touch disjoint parts of the cursor. -/
def pulled (S : Src σ ρ) (c : Cursor σ ρ) (count : Nat) : List (List ρ × σ × Bool) :=
  ((c.kids.zip c.exhausted).zip S.weights).mapIdx fun i x => childMany S i (x.2 * count) x.1.1 x.1.2

/-- `_fill_cycles` (lines 254-293). -/
def fillCycles (S : Src σ ρ) (c : Cursor σ ρ) (count : Nat) : Bool × Cursor σ ρ :=
  let r := pulled S c count
  let envs := r.map (·.1)
  let c : Cursor σ ρ := { c with kids := r.map (·.2.1), exhausted := r.map (·.2.2) }
  let n := if S.sync then completed envs S.weights else count
  if S.sync = true ∧ n = 0 then (false, { c with terminal := true, pending := [], pos := 0 })
  else if S.sync = false ∧ envs.all (·.isEmpty) = true then (false, { c with terminal := true })
  else
    let w := walkCycles envs S.schedule n (List.replicate S.weights.length 0)
    if w.1 = [] then (false, { c with terminal := true })
    else (true, { c with pending := w.1, pos := 0, cycleIndex := c.cycleIndex + w.2 })

/-- The loop of `_fill_cycle` with `sync_length` (lines 298-305): `none` when a child is exhausted. -/
def cycleSync (S : Src σ ρ) : List Nat → Cursor σ ρ → Option (List (Nat × ρ)) × Cursor σ ρ
  | [], c => (some [], c)
  | i :: rest, c =>
    let r := nextChild S c i
    match r.1 with
    | none => (none, r.2)
    | some x =>
      let t := cycleSync S rest r.2
      (t.1.map (x :: ·), t.2)

/-- The loop of `_fill_cycle` without `sync_length` (lines 310-315). -/
def cycleFree (S : Src σ ρ) : List Nat → Cursor σ ρ → List (Nat × ρ) × Cursor σ ρ
  | [], c => ([], c)
  | i :: rest, c =>
    if c.exhausted.getD i false then cycleFree S rest c
    else
      let r := nextChild S c i
      let t := cycleFree S rest r.2
      match r.1 with
      | none => t
      | some x => (x :: t.1, t.2)

/-- `_fill_cycle` (lines 295-322). -/
def fillCycle (S : Src σ ρ) (c : Cursor σ ρ) : Bool × Cursor σ ρ :=
  if S.sync then
    let r := cycleSync S S.schedule c
    match r.1 with
    | none => (false, { r.2 with terminal := true, pending := [], pos := 0 })
    | some p => (true, { r.2 with pending := p, pos := 0, cycleIndex := r.2.cycleIndex + 1 })
  else if c.exhausted.all id = true then (false, { c with terminal := true })
  else
    let r := cycleFree S S.schedule c
    if r.1 = [] then (false, { r.2 with terminal := true })
    else (true, { r.2 with pending := r.1, pos := 0, cycleIndex := r.2.cycleIndex + 1 })

/-- Clearing a consumed buffer (lines 330-331, 336-338, 353-354, 370-372). -/
def clearIfDone (c : Cursor σ ρ) : Cursor σ ρ :=
  if c.pending.length ≤ c.pos then { c with pending := [], pos := 0 } else c

/-- The end of `next_envelope` (lines 334-339). -/
def takeOne (c : Cursor σ ρ) : Option (Nat × ρ) × Cursor σ ρ :=
  (c.pending[c.pos]?, clearIfDone { c with pos := c.pos + 1 })

/-- `next_envelope` (lines 324-339). -/
def nextEnvelope (S : Src σ ρ) (c : Cursor σ ρ) : Option (Nat × ρ) × Cursor σ ρ :=
  if c.terminal then (none, c)
  else if c.pending.length ≤ c.pos then
    let f := fillCycle S { c with pending := [], pos := 0 }
    if f.1 then takeOne f.2 else (none, f.2)
  else takeOne c

/-- Taking what the buffer holds, up to the limit (lines 363-373). -/
def takeSome (c : Cursor σ ρ) (k : Nat) : List (Nat × ρ) × Cursor σ ρ :=
  let available := min k (c.pending.length - c.pos)
  ((c.pending.drop c.pos).take available, clearIfDone { c with pos := c.pos + available })

/-- The loop of `next_envelopes` (lines 350-373); `k` is what is still to be returned.  Every iteration returns at
least one record or ends the loop, so `limit + 1` iterations suffice. -/
def manyLoop (S : Src σ ρ) : Nat → Nat → Cursor σ ρ → List (Nat × ρ) × Cursor σ ρ
  | 0, _, c => ([], c)
  | fuel + 1, k, c =>
    if k = 0 ∨ c.terminal = true then ([], c)
    else if c.pending.length ≤ c.pos then
      let count := max 1 ((k + S.schedule.length - 1) / S.schedule.length)
      let f := fillCycles S { c with pending := [], pos := 0 } count
      if f.1 then
        let t := takeSome f.2 k
        let r := manyLoop S fuel (k - t.1.length) t.2
        (t.1 ++ r.1, r.2)
      else ([], f.2)
    else
      let t := takeSome c k
      let r := manyLoop S fuel (k - t.1.length) t.2
      (t.1 ++ r.1, r.2)

/-- `next_envelopes` (lines 341-374); `none` raises. -/
def nextEnvelopes (S : Src σ ρ) (c : Cursor σ ρ) (limit : Nat) : Option (List (Nat × ρ) × Cursor σ ρ) :=
  if limit = 0 then none else some (manyLoop S (limit + 1) limit c)

/-! ### Saving and restoring -/

/-- `COMPOSITE_SOURCE_SCHEMA` (line 12). -/
def schema : String := "composite-record-source-v3"

/-- Saved cursor (lines 502-523); `κ` and `π` are the saved forms of child cursors and of child records. -/
structure Saved (κ π : Type) where
  schema : String
  epoch : Int
  cycle : Int
  rank : Int
  kids : List κ
  exhausted : List Bool
  pending : List (Int × π)
  cycleIndex : Int
  terminal : Bool

/-- How children save and restore their cursors and records (`_save_child_envelope`, `_restore_child_envelope`,
`save_payload`, `restore_payload`, lines 413-497); `none` raises. -/
structure Codec (σ ρ κ π : Type) where
  saveKid : Nat → σ → κ
  restoreKid : Nat → κ → Option σ
  saveRec : Nat → ρ → π
  restoreRec : Nat → π → Option ρ

variable {κ π : Type}

/-- `save_cursor` (lines 499-523); `resumable` is `capabilities.resumable`. -/
def saveCursor (C : Codec σ ρ κ π) (resumable : Bool) (c : Cursor σ ρ) : Option (Saved κ π) :=
  if resumable = false then none
  else some
    { schema := schema, epoch := c.epoch, cycle := c.cycle, rank := c.rank,
      kids := c.kids.mapIdx C.saveKid, exhausted := c.exhausted,
      pending := (c.pending.drop c.pos).map fun x => ((x.1 : Int), C.saveRec x.1 x.2),
      cycleIndex := c.cycleIndex, terminal := c.terminal }

/-- The child cursor check (lines 551-560). -/
def restoreKidChecked (S : Src σ ρ) (C : Codec σ ρ κ π) (epoch cycle rank : Nat) (i : Nat) (k : κ) : Option σ := do
  let s ← C.restoreKid i k
  let d := S.ident i s
  if d.1.getD epoch ≠ epoch ∨ d.2.1.getD cycle ≠ cycle ∨ d.2.2.getD rank ≠ rank then none else some s

/-- `_restore_envelope` (lines 488-497, 466-479). -/
def restoreRecord (S : Src σ ρ) (C : Codec σ ρ κ π) (x : Int × π) : Option (Nat × ρ) :=
  if ¬ (0 ≤ x.1 ∧ x.1 < S.weights.length) then none
  else (C.restoreRec x.1.toNat x.2).map fun r => (x.1.toNat, r)

/-- `restore_cursor` (lines 525-600). -/
def restoreCursor (S : Src σ ρ) (C : Codec σ ρ κ π) (resumable : Bool) (s : Saved κ π) : Option (Cursor σ ρ) :=
  if resumable = false ∨ s.schema ≠ schema then none
  else if s.kids.length ≠ S.weights.length ∨ s.exhausted.length ≠ S.weights.length ∨ s.epoch < 0 ∨ s.cycle < 0 ∨
      s.rank ≠ S.cursorRank ∨ s.cycleIndex < 0 then none
  else do
    let kids ← (s.kids.mapIdx fun i k => restoreKidChecked S C s.epoch.toNat s.cycle.toNat S.cursorRank i k).mapM id
    let pending ← s.pending.mapM (restoreRecord S C)
    if s.terminal = true ∧ pending ≠ [] then none
    else some ⟨s.epoch.toNat, s.cycle.toNat, s.rank.toNat, kids, s.exhausted, pending, 0, s.cycleIndex.toNat, s.terminal⟩

end Verif.Composite
