import Verif.Rng.Model

/-!
# Model of the interleaved sequential source (`dataset/sequential_source.py`)

A file is its byte content; a stream is the byte offset (`tell`), reading an entry is a function `entryLen` of the
remaining bytes (`none` = `EOFError`), so an entry is the bytes consumed.  `shape_of`, `subrecord_count` are functions
of the entry bytes (the code recomputes them from the raw entry on restore, lines 722-752).
The file identity (path, mtime, semantics) is the 32-byte `key`.  Materialisation of entries is not modelled here.
A Python exception is `none`.  Closing files is not modelled.
-/
namespace Verif.Seq
open Verif.Rng (Val Digest deterministicPermutation)

abbrev Bytes := List UInt8

/-- `SequentialFileDescriptor` with the file's content (`sequential_source.py:23-30`); `file_ordinal` is the index
(lines 130-151). -/
structure File where
  key : Bytes
  content : Bytes
  compressed : Bool
deriving Inhabited

/-- `size = st_size` (line 146): the size of an uncompressed file is its length.  Only used to balance ranks. -/
def File.size (f : File) : Nat := f.content.length

/-- `InterleavedSequentialSource` (lines 96-201).  `shapes` is the sorted list of declared output shapes, whose
positions are the shape codes (lines 152-165); `count = none` means `subrecord_count is None`.
`admit epoch key` is `sample_is_admitted` at the configured rate and seed (C05); `aug epoch cycle` is
`_augmentation_epoch` (lines 320-330). -/
structure Src where
  files : List File
  format : String
  seed : Int
  shuffle : Bool
  identity : Bytes
  activeStreams : Nat
  quantum : Nat
  shapes : List (List Nat)
  entryLen : Bytes → Option Nat
  shapeOf : Bytes → Option (List Nat)
  count : Option (Bytes → Int)
  aug : Nat → Nat → Nat
  admit : Nat → Bytes × List Nat → Bool
  world : Nat
  rank : Nat
  sharded : Bool

/-- `self.descriptors[i]`. -/
def Src.file (S : Src) (i : Nat) : File := S.files.getD i default

/-- `configure_distributed` (lines 203-219). -/
def Src.configure (S : Src) (world rank : Nat) (sharded : Bool) : Option Src :=
  if world = 0 ∨ ¬ rank < world then none
  else if sharded = true ∧ S.files.length < world then none
  else some { S with world, rank, sharded }

/-- `capabilities.resumable` (lines 197-199). -/
def Src.resumable (S : Src) : Bool := !S.files.any (·.compressed)

/-! ### File order -/

/-- `sorted(all_files, key=lambda index: (-size, index))` (lines 280-283). -/
def bySize (S : Src) : List Nat :=
  (List.range S.files.length).mergeSort fun i j =>
    decide ((S.file j).size < (S.file i).size ∨ ((S.file i).size = (S.file j).size ∧ i ≤ j))

/-- `min(range(world), key=lambda c: (loads[c], c))` (lines 288-291): the first position of a minimal load. -/
def argmin : List Nat → Nat
  | [] => 0
  | [_] => 0
  | a :: b :: rest =>
    let k := argmin (b :: rest)
    if a ≤ (b :: rest).getD k 0 then 0 else k + 1

/-- The assignment loop (lines 284-294): `position` counts the files already assigned. -/
def assignLoop (S : Src) : List Nat → Nat → List (List Nat) → List Nat → List (List Nat) × List Nat
  | [], _, asg, loads => (asg, loads)
  | i :: rest, position, asg, loads =>
    let r := if position < S.world then position else argmin loads
    assignLoop S rest (position + 1) (asg.modify r (· ++ [i])) (loads.modify r (· + (S.file i).size))

/-- The per-rank assignment (lines 278-294). -/
def assignments (S : Src) : List (List Nat) :=
  (assignLoop S (bySize S) 0 (List.replicate S.world []) (List.replicate S.world 0)).1

/-- `tuple(sorted(assignments[rank]))` (line 295). -/
def shard (S : Src) (rank : Nat) : List Nat := ((assignments S).getD rank []).mergeSort (fun a b => decide (a ≤ b))

/-- `_file_order` (lines 261-304). -/
def fileOrder (H : Digest) (S : Src) (epoch cycle rank : Nat) : Option (List Nat) :=
  if S.sharded = false then
    if S.shuffle = false then some (List.range S.files.length)
    else deterministicPermutation H S.files.length S.seed "sequential_file_order"
      (if cycle = 0 then .seq [.int epoch, .bytes S.identity]
        else .seq [.int epoch, .int cycle, .bytes S.identity])
  else if S.shuffle = false then some (shard S rank)
  else (deterministicPermutation H (shard S rank).length S.seed "sequential_shard_file_order"
      (.seq [.int epoch, .int cycle, .int rank, .bytes S.identity])).map
    fun p => p.map fun i => (shard S rank).getD i 0

/-! ### Cursor -/

/-- `_PendingEntry` (lines 40-46). -/
structure Pending where
  raw : Bytes
  entry : Nat
  code : Nat
  next : Nat
  total : Nat
deriving DecidableEq

/-- `_ActiveReader` (lines 49-54); the stream is the byte offset. -/
structure Reader where
  file : Nat
  offset : Nat
  entry : Nat
  pending : Option Pending
deriving DecidableEq

/-- `SequentialCursor` (lines 57-66). -/
structure Cursor where
  epoch : Nat
  cycle : Nat
  rank : Nat
  order : List Nat
  nextFile : Nat
  active : List Reader
  turn : Nat
  used : Nat
deriving DecidableEq

/-- `_open_reader` with entry index 0 (lines 253-259). -/
def openReader (i : Nat) : Reader := ⟨i, 0, 0, none⟩

/-- `start_cycle` (lines 309-318). -/
def startCycle (H : Digest) (S : Src) (epoch cycle rank : Nat) : Option Cursor :=
  if rank ≠ S.rank ∨ ¬ rank < S.world then none
  else (fileOrder H S epoch cycle rank).map fun order =>
    let n := min S.activeStreams order.length
    ⟨epoch, cycle, rank, order, n, (order.take n).map openReader, 0, 0⟩

/-- `_replace_or_remove` (lines 341-354); raises when the reader has pending subrecords. -/
def replaceOrRemove (c : Cursor) : Option Cursor :=
  match c.active[c.turn]? with
  | none => none
  | some r =>
    if r.pending.isSome then none
    else if c.nextFile < c.order.length then
      some { c with nextFile := c.nextFile + 1, used := 0,
                    active := c.active.set c.turn (openReader (c.order.getD c.nextFile 0)) }
    else
      let active := c.active.eraseIdx c.turn
      some { c with active, used := 0, turn := if active = [] then c.turn else c.turn % active.length }

/-- `_advance_turn` (lines 356-359). -/
def advanceTurn (c : Cursor) : Cursor :=
  { c with turn := if c.active = [] then c.turn else (c.turn + 1) % c.active.length, used := 0 }

/-- A delivered record: source id, key (file key and address), shape code, raw entry, subrecord, augmentation epoch
(lines 469-482). -/
structure Env where
  source : Nat
  key : Bytes × List Nat
  code : Nat
  raw : Bytes
  sub : Option Nat
  aug : Nat
deriving DecidableEq

/-- The record for one subrecord of an entry (lines 447-482). -/
def mkEnv (S : Src) (epoch cycle file : Nat) (p : Pending) (sub : Nat) : Env :=
  let base := if S.count.isNone then [p.entry] else [p.entry, sub]
  ⟨file, ((S.file file).key, if cycle = 0 then base else cycle :: base), p.code, p.raw,
    if S.count.isNone then none else some sub, S.aug epoch cycle⟩

/-- `sample_is_admitted(rate, seed, augmentation_epoch, record_key)` (lines 463-468). -/
def admitted (S : Src) (e : Env) : Bool := S.admit e.aug e.key

/-- `_next_pending_envelope` (lines 435-484) on the reader's pending entry: the delivered record, if any, and the
pending entry left.  `fuel` is the number of subrecords left. -/
def nextPending (S : Src) (epoch cycle file : Nat) : Nat → Pending → Option Env × Option Pending
  | 0, _ => (none, none)
  | fuel + 1, p =>
    let e := mkEnv S epoch cycle file p p.next
    let p' : Pending := { p with next := p.next + 1 }
    let left := if p'.next = p'.total then none else some p'
    if admitted S e then (some e, left)
    else
      match left with
      | none => (none, none)
      | some q => nextPending S epoch cycle file fuel q

/-- The bytes not yet read. -/
def rest (S : Src) (r : Reader) : Bytes := (S.file r.file).content.drop r.offset

/-- Reading the next entry of a reader with data (lines 379-397): raw bytes; `none` raises (truncated entry or an
entry of no bytes). -/
def readRaw (S : Src) (r : Reader) : Option Bytes := do
  let n ← S.entryLen (rest S r)
  if n = 0 ∨ (rest S r).length < n then none else some ((rest S r).take n)

/-- Shape code and subrecord count of an entry (lines 403-422): outer `none` raises (undeclared shape or negative
count), `some none` skips the entry. -/
def classify (S : Src) (raw : Bytes) : Option (Option (Nat × Nat)) :=
  match S.shapeOf raw with
  | none => some none
  | some shape =>
    if shape ∈ S.shapes then
      let n : Int := match S.count with
        | none => 1
        | some f => f raw
      if n < 0 then none
      else if n = 0 then some none
      else some (some (S.shapes.idxOf shape, n.toNat))
    else none

/-- After an entry was read from the current reader (lines 398-401). -/
def afterRead (S : Src) (c : Cursor) (r : Reader) (raw : Bytes) : Cursor :=
  let c := { c with active := c.active.set c.turn { r with offset := r.offset + raw.length, entry := r.entry + 1 },
                    used := c.used + 1 }
  if S.quantum ≤ c.used then advanceTurn c else c

/-- One iteration of the loop of `next_envelope` (lines 364-432) when `active` is nonempty: the record to return (if
this iteration returns) and the new cursor. -/
def iter (S : Src) (c : Cursor) : Option (Option Env × Cursor) :=
  match c.active[c.turn]? with
  | none => none
  | some r =>
    match r.pending with
    | some p =>
      let x := nextPending S c.epoch c.cycle r.file (p.total - p.next) p
      some (x.1, { c with active := c.active.set c.turn { r with pending := x.2 } })
    | none =>
      if rest S r = [] then (replaceOrRemove c).map fun c' => (none, c')
      else
        match readRaw S r with
        | none => none
        | some raw =>
          let c' := afterRead S c r raw
          match classify S raw with
          | none => none
          | some none => some (none, c')
          | some (some (code, n)) =>
            let x := nextPending S c.epoch c.cycle r.file n ⟨raw, r.entry, code, 0, n⟩
            let r' : Reader := { r with offset := r.offset + raw.length, entry := r.entry + 1, pending := x.2 }
            some (x.1, { c' with active := c'.active.set c.turn r' })

/-- `next_envelope` (lines 361-433); `fuel` bounds the iterations, see `fuelFor`. -/
def nextLoop (S : Src) : Nat → Cursor → Option (Option Env × Cursor)
  | 0, _ => none
  | fuel + 1, c =>
    if c.active = [] then some (none, c)
    else
      match iter S c with
      | none => none
      | some (some e, c') => some (some e, c')
      | some (none, c') => nextLoop S fuel c'

/-- Work left in a reader: unread bytes, the file itself, a pending entry. -/
def readerWork (S : Src) (r : Reader) : Nat := (rest S r).length + 1 + (if r.pending.isSome then 1 else 0)

/-- Iteration bound: one per byte, per file and per pending entry, and the final test. -/
def fuelFor (S : Src) (c : Cursor) : Nat :=
  (c.active.map (readerWork S)).sum + ((c.order.drop c.nextFile).map fun i => (S.file i).content.length + 1).sum + 1

def nextEnvelope (S : Src) (c : Cursor) : Option (Option Env × Cursor) := nextLoop S (fuelFor S c) c

/-! ### Saving and restoring -/

/-- Saved pending entry (lines 624-630). -/
structure SavedPending where
  raw : Bytes
  entry : Int
  code : Int
  next : Int
  total : Int

/-- Saved reader (lines 617-632). -/
structure SavedReader where
  file : Int
  entry : Int
  offset : Int
  pending : Option SavedPending

/-- Saved cursor (lines 607-635). -/
structure Saved where
  schema : String
  epoch : Int
  cycle : Int
  rank : Int
  order : List Int
  nextFile : Int
  turn : Int
  used : Int
  active : List SavedReader

/-- `SEQUENTIAL_SOURCE_SCHEMA` (line 19). -/
def schema : String := "sequential-record-source-v3"

/-- One saved reader (lines 617-632). -/
def saveReader (r : Reader) : SavedReader :=
  ⟨r.file, r.entry, r.offset, r.pending.map fun p =>
    { raw := p.raw, entry := p.entry, code := p.code, next := p.next, total := p.total }⟩

/-- `save_cursor` (lines 604-635). -/
def saveCursor (S : Src) (c : Cursor) : Option Saved :=
  if S.resumable = false then none
  else some
    { schema := schema, epoch := c.epoch, cycle := c.cycle, rank := c.rank,
      order := c.order.map (fun i : Nat => (i : Int)), nextFile := c.nextFile, turn := c.turn, used := c.used,
      active := c.active.map saveReader }

/-- Validation of a saved pending entry (lines 697-759).  The entry is re-read: its length must be exactly consumed
(lines 716-724; skipped by formats with `decode_raw_entry`), its shape code and subrecord count must be the saved ones.
An entry index of -1 (accepted by the code when the reader's index is 0, never saved) becomes 0 here. -/
def restorePending (S : Src) (entryIndex : Int) (p : SavedPending) : Option Pending :=
  if S.count.isNone ∨ p.raw = [] ∨ p.entry ≠ entryIndex - 1 ∨ ¬ (0 ≤ p.code ∧ p.code < S.shapes.length)
      ∨ ¬ (0 < p.next ∧ p.next < p.total) then none
  else if S.entryLen p.raw ≠ some p.raw.length then none
  else
    match classify S p.raw with
    | some (some (code, n)) =>
      if (code : Int) = p.code ∧ (n : Int) = p.total then some ⟨p.raw, p.entry.toNat, code, p.next.toNat, n⟩ else none
    | _ => none

/-- Restoring one reader (lines 687-762). -/
def restoreReader (S : Src) (s : SavedReader) : Option Reader :=
  if ¬ (0 ≤ s.file ∧ s.file < S.files.length) then none
  else if s.entry < 0 ∨ s.offset < 0 then none
  else
    match s.pending with
    | none => some ⟨s.file.toNat, s.offset.toNat, s.entry.toNat, none⟩
    | some p => (restorePending S s.entry p).map fun q => ⟨s.file.toNat, s.offset.toNat, s.entry.toNat, some q⟩

/-- `restore_cursor` (lines 637-772). -/
def restoreCursor (H : Digest) (S : Src) (s : Saved) : Option Cursor :=
  if S.resumable = false then none
  else if s.schema ≠ schema then none
  else if s.epoch < 0 ∨ s.cycle < 0 ∨ s.rank < 0 then none
  else do
    let initial ← startCycle H S s.epoch.toNat s.cycle.toNat s.rank.toNat
    if s.order ≠ initial.order.map (fun i : Nat => (i : Int)) then none
    else if ¬ (0 ≤ s.nextFile ∧ s.nextFile ≤ initial.order.length) then none
    else if s.active.isEmpty then
      if s.turn ≠ 0 ∨ s.used ≠ 0 ∨ s.nextFile ≠ initial.order.length then none
      else some ⟨s.epoch.toNat, s.cycle.toNat, s.rank.toNat, initial.order, s.nextFile.toNat, [], 0, 0⟩
    else if ¬ (0 ≤ s.turn ∧ s.turn < s.active.length) then none
    else if ¬ (0 ≤ s.used ∧ s.used < S.quantum) then none
    else if S.activeStreams < s.active.length then none
    else if ¬ (s.active.map (·.file)).Nodup ∨
        (s.active.map (·.file)).any (fun i => decide (i ∉ s.order.take s.nextFile.toNat)) then none
    else do
      let active ← s.active.mapM (restoreReader S)
      some ⟨s.epoch.toNat, s.cycle.toNat, s.rank.toNat, initial.order, s.nextFile.toNat, active,
        s.turn.toNat, s.used.toNat⟩

end Verif.Seq
