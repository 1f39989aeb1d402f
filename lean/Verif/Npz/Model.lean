import Verif.Rng.Model

/-!
# Model of the NPZ row sources (`dataset/npz_source.py`)

`DenseNpzSource` and `IndexedNpzSource` run the same cursor code; they differ in the row table of a file
(`rows = none` for a dense file) and in the RNG domain of the file order.  File contents, board sizes and shape
codes are not modelled here: an envelope is its source id, record key and payload (the global row).
Dictionary keys of a saved cursor that are missing or of the wrong type raise before anything else happens
(lines 756-765) and are outside the model: a saved cursor is the record of its six values plus the schema.
-/
namespace Verif.Npz
open Verif.Rng (Val Digest deterministicPermutation)

/-- `DenseNpzFileDescriptor` / `IndexedNpzFileDescriptor` (`npz_source.py:36-44, 796-804`). -/
structure File where
  digest : List UInt8
  ordinal : Nat
  count : Nat
  begin : Nat
  rows : Option (List Nat)
deriving Inhabited, DecidableEq

/-- A record key: file digest and address (`npz_source.py:62-66, 315-321, 1042-1049`); the constant components
`"root"` and `"npz-row"` are omitted. -/
abbrev Key := List UInt8 × List Nat

/-- `_record_key` (`npz_source.py:315-321, 1042-1049`). -/
def recordKey (f : File) (row cycle : Nat) : Key := (f.digest, if cycle = 0 then [row] else [cycle, row])

/-- `_physical_row` (`npz_source.py:962-968`); dense files use the row itself. -/
def physicalRow (f : File) (row : Nat) : Nat :=
  match f.rows with
  | none => row
  | some l => l.getD row 0

/-- `RecordEnvelope` / `_DenseEnvelope` as seen by consumers. -/
structure Env where
  source : Nat
  key : Key
  payload : Nat
deriving DecidableEq

/-- Source object: constructor results and `configure_distributed` (`npz_source.py:218-262`).
`admit epoch key` is `sample_is_admitted(rate, seed, epoch, key)` (C05) and `full` is `sample_rate == 1.0`. -/
structure Src where
  files : List File
  seed : Int
  shuffle : Bool
  domain : String
  identity : List UInt8
  admit : Nat → Key → Bool
  full : Bool
  world : Nat
  rank : Nat
  sharded : Bool

/-- `configure_distributed` (`npz_source.py:252-263, 986-997`); raises on an invalid identity. -/
def Src.configure (S : Src) (world rank : Nat) (sharded : Bool) : Option Src :=
  if world = 0 ∨ ¬ rank < world then none else some { S with world, rank, sharded }

/-- `self.descriptors[i]`. -/
def Src.file (S : Src) (i : Nat) : File := S.files.getD i default

/-- The accumulation `global_row_begin=row_begin; row_begin += logical_row_count`
(`npz_source.py:190-219, 844-945`), on (digest, ordinal, count, row table). -/
def buildFiles : Nat → List (List UInt8 × Nat × Nat × Option (List Nat)) → List File
  | _, [] => []
  | b, (d, o, n, r) :: rest => ⟨d, o, n, b, r⟩ :: buildFiles (b + n) rest

/-- `DenseNpzCursor` (`npz_source.py:73-80`). -/
structure Cursor where
  epoch : Nat
  cycle : Nat
  rank : Nat
  order : List Nat
  fp : Nat
  row : Nat
deriving DecidableEq

/-- The file order of an epoch/cycle (`npz_source.py:293-307, 1021-1034`). -/
def fileOrder (H : Digest) (S : Src) (epoch cycle : Nat) : Option (List Nat) :=
  if S.shuffle then
    deterministicPermutation H S.files.length S.seed S.domain
      (if cycle = 0 then .seq [.int epoch, .bytes S.identity]
        else .seq [.int epoch, .int cycle, .bytes S.identity])
  else some (List.range S.files.length)

/-- `start_cycle` (`npz_source.py:288-312, 1016-1039`); `start_epoch` is cycle 0. -/
def startCycle (H : Digest) (S : Src) (epoch cycle rank : Nat) : Option Cursor :=
  if rank ≠ S.rank ∨ ¬ rank < S.world then none
  else (fileOrder H S epoch cycle).map fun order => ⟨epoch, cycle, if S.sharded then rank else 0, order, 0, 0⟩

/-- The appended envelope (`npz_source.py:361-364, 1083-1090`). -/
def mkEnv (f : File) (row cycle : Nat) : Env :=
  ⟨f.ordinal, recordKey f (physicalRow f row) cycle, f.begin + row⟩

/-- The admission test (`npz_source.py:354-360, 1078-1081`).  The dense source skips the call at rate 1.0, where
it would return `True` (C05). -/
def admitted (S : Src) (epoch cycle : Nat) (f : File) (row : Nat) : Bool :=
  S.full || S.admit epoch (recordKey f (physicalRow f row) cycle)

/-- Rank alignment: `row_position += (cursor.rank - global_row) % world_size` (`npz_source.py:346-348`), only
when sharded and the file is not exhausted. -/
def align (S : Src) (rank : Nat) (f : File) (row : Nat) : Nat :=
  if S.sharded = true ∧ row < f.count then
    row + (((rank : Int) - ((f.begin + row : Nat) : Int)) % (S.world : Int)).toNat
  else row

/-- The main loop of `next_envelopes` (`npz_source.py:341-364, 1061-1090`).  `need` is
`limit - len(envelopes)`.  Every iteration consumes at least one row or one file, see `fuelFor`. -/
def nextLoop (S : Src) (c : Cursor) : Nat → Nat → Nat → Nat → List Env × Nat × Nat
  | 0, fp, row, _ => ([], fp, row)
  | fuel + 1, fp, row, need =>
    if need = 0 ∨ c.order.length ≤ fp then ([], fp, row)
    else
      let f := S.file (c.order.getD fp 0)
      let row := align S c.rank f row
      if f.count ≤ row then nextLoop S c fuel (fp + 1) 0 need
      else
        let row' := row + (if S.sharded then S.world else 1)
        if admitted S c.epoch c.cycle f row then
          let r := nextLoop S c fuel fp row' (need - 1)
          (mkEnv f row c.cycle :: r.1, r.2)
        else nextLoop S c fuel fp row' need

/-- Iteration bound: one per row and one per file. -/
def fuelFor (S : Src) (order : List Nat) : Nat := (order.map fun i => (S.file i).count + 1).sum

/-- The settling loop and final reset (`npz_source.py:366-373, 1091-1097`, also in `next_packed_records`). -/
def settleLoop (S : Src) (order : List Nat) : Nat → Nat → Nat → Nat × Nat
  | 0, fp, row => (fp, row)
  | fuel + 1, fp, row =>
    if fp < order.length ∧ (S.file (order.getD fp 0)).count ≤ row then settleLoop S order fuel (fp + 1) 0
    else (fp, row)

def settle (S : Src) (order : List Nat) (fp row : Nat) : Nat × Nat :=
  let r := settleLoop S order (order.length - fp) fp row
  if r.1 = order.length then (r.1, 0) else r

/-- `next_envelopes` (`npz_source.py:333-382, 1055-1104`). -/
def nextEnvelopes (S : Src) (c : Cursor) (limit : Nat) : Option (List Env × Cursor) :=
  if limit = 0 then none
  else
    let r := nextLoop S c (fuelFor S c.order) c.fp c.row limit
    let s := settle S c.order r.2.1 r.2.2
    some (r.1, { c with fp := s.1, row := s.2 })

/-- The main loop of `next_packed_records` (`npz_source.py:393-422, 1112-1141`); the inner `while` over
`row_position < stop` appends the admitted rows of the block in order. -/
def packedLoop (S : Src) (c : Cursor) : Nat → Nat → Nat → Nat → List Nat × Nat × Nat
  | 0, fp, row, _ => ([], fp, row)
  | fuel + 1, fp, row, need =>
    if need = 0 ∨ c.order.length ≤ fp then ([], fp, row)
    else
      let f := S.file (c.order.getD fp 0)
      if f.count ≤ row then packedLoop S c fuel (fp + 1) 0 need
      else
        let take := min need (f.count - row)
        if S.full then
          let r := packedLoop S c fuel fp (row + take) (need - take)
          (List.range' (f.begin + row) take ++ r.1, r.2)
        else
          let part := ((List.range' row take).filter fun i =>
            S.admit c.epoch (recordKey f (physicalRow f i) c.cycle)).map (f.begin + ·)
          let r := packedLoop S c fuel fp (row + take) (need - part.length)
          (part ++ r.1, r.2)

/-- `next_packed_records` (`npz_source.py:384-448, 1106-1167`): record ids and cursor. -/
def nextPacked (S : Src) (c : Cursor) (limit : Nat) : Option (List Nat × Cursor) :=
  if limit = 0 then none
  else
    let r := packedLoop S c (fuelFor S c.order) c.fp c.row limit
    let s := settle S c.order r.2.1 r.2.2
    some (r.1, { c with fp := s.1, row := s.2 })

/-- `bisect_right(self._row_begins, id)` on the non-decreasing row begins, by its documented contract: the
number of leading entries `≤ id`. -/
def bisectRight (l : List Nat) (x : Nat) : Nat := (l.takeWhile (· ≤ x)).length

/-- `_resolve` (`npz_source.py:457-466, 1184-1193`): index of the file and its logical row. -/
def resolve (S : Src) (id : Nat) : Option (Nat × Nat) :=
  let k := bisectRight (S.files.map (·.begin)) id
  if k = 0 then none
  else
    let f := S.file (k - 1)
    if f.begin ≤ id ∧ id - f.begin < f.count then some (k - 1, id - f.begin) else none

/-- `envelopes_from_record_ids` (`npz_source.py:450-455, 1169-1182`). -/
def envelopesFromIds (S : Src) (ids : List Nat) : Option (List Env) :=
  ids.mapM fun id => (resolve S id).map fun (i, row) =>
    (⟨(S.file i).ordinal, recordKey (S.file i) (physicalRow (S.file i) row) 0, id⟩ : Env)

/-- Saved cursor (`npz_source.py:744-753`); values may be any integers. -/
structure Saved where
  schema : String
  epoch : Int
  cycle : Int
  rank : Int
  order : List Int
  fp : Int
  row : Int

/-- `save_cursor` (`npz_source.py:744-753, 1268-1271`). -/
def saveCursor (schema : String) (c : Cursor) : Saved :=
  ⟨schema, c.epoch, c.cycle, c.rank, c.order.map (fun i : Nat => (i : Int)), c.fp, c.row⟩

/-- `restore_cursor` (`npz_source.py:755-790, 1273-1278`). -/
def restoreCursor (H : Digest) (S : Src) (schema : String) (s : Saved) : Option Cursor :=
  if s.schema ≠ schema then none
  else if s.rank ≠ (if S.sharded then (S.rank : Int) else 0) then none
  else if s.epoch < 0 ∨ s.cycle < 0 then none
  else do
    let start ← startCycle H S s.epoch.toNat s.cycle.toNat S.rank
    if s.order ≠ start.order.map (fun i : Nat => (i : Int)) then none
    else if ¬ (0 ≤ s.fp ∧ s.fp ≤ start.order.length) then none
    else if s.fp = start.order.length then
      if s.row ≠ 0 then none
      else some ⟨s.epoch.toNat, s.cycle.toNat, s.rank.toNat, start.order, s.fp.toNat, s.row.toNat⟩
    else if ¬ (0 ≤ s.row ∧ s.row ≤ (S.file (start.order.getD s.fp.toNat 0)).count) then none
    else some ⟨s.epoch.toNat, s.cycle.toNat, s.rank.toNat, start.order, s.fp.toNat, s.row.toNat⟩

/-! ### Indexed catalogs -/

/-- Row-related fields of an indexed catalog (`npz_source.py:847-868`). -/
structure Catalog where
  digest : List UInt8
  ordinal : Nat
  physicalRows : Nat
  rowIndices : Option (List Int)

/-- Strictly increasing check `np.any(indices[1:] <= indices[:-1])` (`npz_source.py:876`). -/
def strictlyIncreasing : List Int → Bool
  | a :: b :: rest => decide (a < b) && strictlyIncreasing (b :: rest)
  | _ => true

/-- One catalog (`npz_source.py:847-905`): `none` raises, `some none` is a skipped empty file, otherwise count
and retained row table. The `2^64` row limits and shape metadata are not modelled. -/
def catalogRows (c : Catalog) : Option (Option (Nat × Option (List Nat))) :=
  match c.rowIndices with
  | none => if c.physicalRows = 0 then some none else some (some (c.physicalRows, none))
  | some idx =>
    if idx.length = 0 then some none
    else if idx.any (· < 0) || !strictlyIncreasing idx then none
    else if (c.physicalRows : Int) ≤ idx.getLastD 0 then none
    else if idx.length = c.physicalRows ∧ idx.headD 0 = 0 ∧ idx.getLastD 0 = (idx.length : Int) - 1 then
      some (some (idx.length, none))
    else some (some (idx.length, some (idx.map Int.toNat)))

/-- The catalog loop of `IndexedNpzSource.__init__` (`npz_source.py:844-943`): empty catalogs are skipped, the
others are appended with the running row offset; no admitted file raises. -/
def catalogTable : List Catalog → Option (List (List UInt8 × Nat × Nat × Option (List Nat)))
  | [] => some []
  | c :: cs => do
    let head ← catalogRows c
    let rest ← catalogTable cs
    some (match head with
      | none => rest
      | some (n, rows) => (c.digest, c.ordinal, n, rows) :: rest)

def indexedFiles (cs : List Catalog) : Option (List File) := do
  let table ← catalogTable cs
  if table = [] then none else some (buildFiles 0 table)

end Verif.Npz
