import Verif.Board.Props47

/-!
# Model of the binary record readers (`dataset/packed_binary.py:16-190`, `dataset/simple_binary.py:15-82`)

A file is the list of its remaining bytes.  Simplification: a read returns all the bytes asked for unless the file ends first (for the files
opened by `_open_binary_file`, buffered or lz4, this is the contract of `read` up to the retry loop, and of `readinto`).  `ctypes` bit fields are
laid out from the least significant bit and integers are little-endian, as on the platforms the project supports.
-/
namespace Verif.Board

abbrev Byte := Fin 256

inductive ReadErr
  | eof        -- EOFError
  | value      -- ValueError of `Rule(...)` / `Result(...)`
  | runtime    -- RuntimeError
deriving DecidableEq

def le16 (a b : Byte) : Nat := a.val + 256 * b.val
def le32 (a b c d : Byte) : Nat := a.val + 256 * b.val + 65536 * c.val + 16777216 * d.val
def toBytes16 (n : Nat) : List Byte := [Fin.ofNat 256 n, Fin.ofNat 256 (n / 256)]
def toBytes32 (n : Nat) : List Byte := [Fin.ofNat 256 n, Fin.ofNat 256 (n / 256), Fin.ofNat 256 (n / 65536), Fin.ofNat 256 (n / 16777216)]

/-- Exactly `n` bytes, or EOFError (`_readinto_exact`, `_read_exact_bytes`: packed_binary.py:94-99, 128-139). -/
def takeExact (n : Nat) (bs : List Byte) : Except ReadErr (List Byte × List Byte) :=
  if bs.length < n then .error .eof else .ok (bs.take n, bs.drop n)

/-- `Result(v)` and `Rule(v)` (`utils/data_utils.py:7-18`). -/
def Result.ofNat? (v : Nat) : Option Result := if h : v ≤ 2 then some ⟨v, h⟩ else none

inductive Rule
  | freestyle | standard | renju
deriving DecidableEq

def Rule.ofNat? : Nat → Option Rule
  | 0 => some .freestyle
  | 1 => some .standard
  | 4 => some .renju
  | _ => none

/-- The code of `Rule.value`. -/
def Rule.code : Rule → Nat
  | .freestyle => 0
  | .standard => 1
  | .renju => 4

/-- A list of `uint16` moves: `Move((m >> 5) & 31, m & 31)` (packed_binary.py:107-109, simple_binary.py:40-42). -/
def decodeMove (m : Nat) : Move := Move.at ((m / 32) % 32) (m % 32)

def decodeMoves : List Byte → List Move
  | a :: b :: rest => decodeMove (le16 a b) :: decodeMoves rest
  | _ => []

/-! ### Packed records -/
namespace Packed

/-- `EntryHead` (lines 16-25). -/
structure Head where
  boardSize : Nat
  rule : Nat
  result : Nat
  totalPly : Nat
  initPly : Nat
  gameTag : Nat
  moveCount : Nat
deriving DecidableEq

def Head.ofWords (lo hi : Nat) : Head :=
  ⟨lo % 32, (lo / 32) % 8, (lo / 256) % 16, (lo / 4096) % 1024, (lo / 4194304) % 1024, hi % 16384, (hi / 16384) % 262144⟩

/-- `EntryHead.from_buffer_copy` / `readinto` of the first eight bytes. -/
def Head.ofBytes : List Byte → Option Head
  | a :: b :: c :: d :: e :: f :: g :: h :: _ => some (Head.ofWords (le32 a b c d) (le32 e f g h))
  | _ => none

/-- `EntryMove` (lines 28-37). -/
structure EMove where
  isFirst : Bool
  isLast : Bool
  isNoEval : Bool
  isPass : Bool
  move : Nat
  eval : Int
deriving DecidableEq

def EMove.ofWords (lo hi : Nat) : EMove :=
  ⟨decide (lo % 2 = 1), decide (lo / 2 % 2 = 1), decide (lo / 4 % 2 = 1), decide (lo / 8 % 2 = 1), (lo / 64) % 1024,
    if hi < 32768 then (hi : Int) else (hi : Int) - 65536⟩

def EMove.ofBytes : List Byte → Option EMove
  | a :: b :: c :: d :: _ => some (EMove.ofWords (le16 a b) (le16 c d))
  | _ => none

/-- `MoveData` (lines 40-70): the alternatives of one position, best first. -/
structure MoveData where
  moves : List (Move × Option Int)
  ended : Bool
deriving DecidableEq

/-- `MoveData._append_entry_move` (lines 52-70). -/
def MoveData.append (d : MoveData) (m : EMove) : Except ReadErr MoveData :=
  if d.moves.length = 0 ∧ m.isFirst = false then .error .runtime
  else if d.ended then .error .runtime
  else .ok ⟨d.moves ++ [(if m.isPass then Move.pass else decodeMove m.move, if m.isNoEval then none else some m.eval)], m.isLast⟩

/-- `EntryData._append_entry_move` (lines 87-90); the newest group is the head of the list. -/
def appendMove (gs : List MoveData) (m : EMove) : Except ReadErr (List MoveData) :=
  match gs with
  | [] => (MoveData.append ⟨[], false⟩ m).map fun d => [d]
  | g :: rest =>
    if g.ended then (MoveData.append ⟨[], false⟩ m).map fun d => d :: g :: rest
    else (g.append m).map fun d => d :: rest

structure Entry where
  boardsize : Nat
  rule : Rule
  result : Result
  totalply : Nat
  gametag : Nat
  init : List Move
  moves : List MoveData
deriving DecidableEq

/-- The loop of `read_entry` (lines 119-122). -/
def readMoves : Nat → List MoveData → List Byte → Except ReadErr (List MoveData × List Byte)
  | 0, gs, bs => .ok (gs, bs)
  | n + 1, gs, bs =>
    match EMove.ofBytes bs with
    | none => .error .eof
    | some m =>
      match appendMove gs m with
      | .error e => .error e
      | .ok gs' => readMoves n gs' (bs.drop 4)

/-- `read_entry` (lines 102-124). -/
def readEntry (bs : List Byte) : Except ReadErr (Entry × List Byte) :=
  match Head.ofBytes bs with
  | none => .error .eof
  | some hd =>
    match takeExact (2 * hd.initPly) (bs.drop 8) with
    | .error e => .error e
    | .ok (pos, rest) =>
      match Rule.ofNat? hd.rule with
      | none => .error .value
      | some rule =>
        match Result.ofNat? hd.result with
        | none => .error .value
        | some result =>
          match readMoves hd.moveCount [] rest with
          | .error e => .error e
          | .ok (gs, rest) => .ok (⟨hd.boardSize, rule, result, hd.totalPly, hd.gameTag, decodeMoves pos, gs.reverse⟩, rest)

/-- `read_raw_entry` (lines 142-151). -/
def readRaw (bs : List Byte) : Except ReadErr (List Byte × List Byte) :=
  match takeExact 8 bs with
  | .error e => .error e
  | .ok (header, rest) =>
    match Head.ofBytes header with
    | none => .error .eof
    | some hd =>
      match takeExact (2 * hd.initPly + 4 * hd.moveCount) rest with
      | .error e => .error e
      | .ok (payload, rest) => .ok (header ++ payload, rest)

/-- `decode_raw_entry` (lines 154-159). -/
def decodeRaw (raw : List Byte) : Except ReadErr Entry :=
  match readEntry raw with
  | .error e => .error e
  | .ok (e, rest) => if rest = [] then .ok e else .error .runtime

/-- The loop of `raw_entry_metadata` (lines 175-186): `i` moves of `n + i` have been inspected. -/
def metaLoop (raw : List Byte) (off : Nat) : Nat → Nat → Nat → Bool → Except ReadErr Nat
  | 0, _, count, _ => .ok count
  | n + 1, i, count, ended =>
    match EMove.ofBytes (raw.drop (off + i * 4)) with
    | none => .error .value
    | some m =>
      if ended then
        if m.isFirst = false then .error .runtime else metaLoop raw off n (i + 1) (count + 1) m.isLast
      else metaLoop raw off n (i + 1) count (m.isLast || ended)

/-- `raw_entry_metadata` (lines 162-187). -/
def metadata (raw : List Byte) : Except ReadErr (Nat × Rule × Nat) :=
  if raw.length < 8 then .error .runtime
  else
    match Head.ofBytes raw with
    | none => .error .runtime
    | some hd =>
      if raw.length ≠ 8 + 2 * hd.initPly + 4 * hd.moveCount then .error .runtime
      else
        match metaLoop raw (8 + 2 * hd.initPly) hd.moveCount 0 0 true with
        | .error e => .error e
        | .ok count =>
          match Rule.ofNat? hd.rule with
          | none => .error .value
          | some rule => .ok (hd.boardSize, rule, count)

end Packed

/-! ### Simple records -/
namespace Simple

/-- `EntryHead` (simple_binary.py:15-22). -/
structure Head where
  result : Nat
  ply : Nat
  boardsize : Nat
  rule : Nat
  move : Nat

def Head.ofBytes : List Byte → Option Head
  | a :: b :: c :: d :: _ =>
    let lo := le16 a b
    let hi := le16 c d
    some ⟨lo % 4, (lo / 4) % 512, (lo / 2048) % 32, hi % 8, (hi / 8) % 8192⟩
  | _ => none

structure Entry where
  result : Result
  ply : Nat
  boardsize : Nat
  rule : Rule
  move : Move
  position : List Move
deriving DecidableEq

/-- `read_entry` (lines 33-48). -/
def readEntry (bs : List Byte) : Except ReadErr (Entry × List Byte) :=
  match Head.ofBytes bs with
  | none => .error .eof
  | some hd =>
    match Result.ofNat? hd.result with
    | none => .error .value
    | some result =>
      match Rule.ofNat? hd.rule with
      | none => .error .value
      | some rule =>
        match takeExact (2 * hd.ply) (bs.drop 4) with
        | .error e => .error e
        | .ok (pos, rest) => .ok (⟨result, hd.ply, hd.boardsize, rule, decodeMove hd.move, decodeMoves pos⟩, rest)

/-- `read_raw_entry` (lines 51-70). -/
def readRaw (bs : List Byte) : Except ReadErr (List Byte × List Byte) :=
  match takeExact 4 bs with
  | .error e => .error e
  | .ok (header, rest) =>
    match Head.ofBytes header with
    | none => .error .eof
    | some hd =>
      match takeExact (2 * hd.ply) rest with
      | .error e => .error e
      | .ok (payload, rest) => .ok (header ++ payload, rest)

/-- `decode_raw_entry` (lines 73-78). -/
def decodeRaw (raw : List Byte) : Except ReadErr Entry :=
  match readEntry raw with
  | .error e => .error e
  | .ok (e, rest) => if rest = [] then .ok e else .error .runtime

/-- `raw_entry_shape` (lines 81-85). -/
def rawShape (raw : List Byte) : Except ReadErr (Nat × Rule) :=
  match Head.ofBytes raw with
  | none => .error .runtime
  | some hd =>
    match Rule.ofNat? hd.rule with
    | none => .error .value
    | some rule => .ok (hd.boardsize, rule)

end Simple

end Verif.Board
