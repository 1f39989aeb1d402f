/-
Model of `dataset/pipeline/forbidden_point_cpp` (board.h, board.cpp, forbidden_point.cpp) and of
`dataset/pipeline/forbidden_point.py`.

The 1024-cell array is a function on indices; every read and write checks its index and `none` is the
undefined behaviour of an access outside the array, a failing `assert`, or a recursion deeper than
`fuel`.  `Pos` is `uint16_t`: a negative difference would wrap to an index far outside the array, which
is `none` here as well.  Functions that place a stone and take it back thread the board.
-/
namespace Verif.Forbid

/-- `Color` (board.h:7-14). -/
inductive Color where
  | black | white | empty | wall
deriving DecidableEq, Repr

/-- `Color board[MaxBoardCellCount]` (board.h:71). -/
abbrev Cells := Nat → Color

/-- `MakePos` (board.h:28-33). -/
def makePos (x y : Int) : Int := (x + 5) * 32 + (y + 5)

/-- `CoordX` (board.h:35-38). -/
def coordX (pos : Nat) : Int := (pos / 32 : Nat) - 5

/-- `CoordY` (board.h:40-43). -/
def coordY (pos : Nat) : Int := (pos % 32 : Nat) - 5

/-- Constructor `Board(width, height)` (board.cpp:9-16). -/
def newBoard (width height : Nat) : Cells := fun pos =>
  if coordX pos ≥ 0 ∧ coordX pos < width ∧ coordY pos ≥ 0 ∧ coordY pos < height then .empty else .wall

/-- `board[pos]`. -/
def read (b : Cells) (pos : Int) : Option Color :=
  if 0 ≤ pos ∧ pos < 1024 then some (b pos.toNat) else none

/-- `set` with its assertions (board.h:61-66). -/
def set (b : Cells) (pos : Int) (c : Color) : Option Cells := do
  let old ← read b pos
  if old = .wall then none else some fun i => if i = pos.toNat then c else b i

/-- `DIRECTION` (board.cpp:4-7). -/
def direction : Nat → Int
  | 0 => 1
  | 1 => 31
  | 2 => 32
  | _ => 33

/-- `for (; i < i + n; i++) if (board[pos + dir * i] == piece) count++; else break;`: the loop variable
at the end (board.cpp:50-56, 57-63, 76-82, 83-89). -/
def countRun (b : Cells) (pos dir : Int) (piece : Color) : Nat → Nat → Option Nat
  | 0, i => some i
  | n + 1, i => do
      let c ← read b (pos + dir * i)
      if c = piece then countRun b pos dir piece n (i + 1) else some i

/-- Stones in the row through `pos`, counted as in both loops of `isFive`/`isOverline`
(board.cpp:48-63, 74-89). -/
def countBoth (b : Cells) (pos : Int) (piece : Color) (dir : Int) : Option Nat := do
  let i ← countRun b pos (-dir) piece 5 1
  let j ← countRun b pos dir piece (6 - i) 1
  some (1 + (i - 1) + (j - 1))

/-- `isFive(pos, piece, iDir)` (board.cpp:43-65). -/
def isFiveDir (b : Cells) (pos : Int) (piece : Color) (iDir : Nat) : Option Bool := do
  let c ← read b pos
  if c ≠ .empty then some false
  else do
    let count ← countBoth b pos piece (direction iDir)
    some (count == 5)

/-- `for (...) if (test(iDir)) return true; return false;` -/
def anyDir (test : Nat → Option Bool) : List Nat → Option Bool
  | [] => some false
  | d :: ds => do
      let r ← test d
      if r then some true else anyDir test ds

/-- `isFive(pos, piece)` (board.cpp:30-41). -/
def isFive (b : Cells) (pos : Int) (piece : Color) : Option Bool := do
  let c ← read b pos
  if c ≠ .empty then some false else anyDir (isFiveDir b pos piece) [0, 1, 2, 3]

/-- `isOverline` (board.cpp:67-94). -/
def isOverline (b : Cells) (pos : Int) (piece : Color) : Option Bool := do
  let c ← read b pos
  if c ≠ .empty then some false
  else anyDir (fun iDir => do
    let count ← countBoth b pos piece (direction iDir)
    some (decide (count > 5))) [0, 1, 2, 3]

/-- A test that may place stones and take them back. -/
abbrev Test := Cells → Int → Option (Bool × Cells)

/-- A read-only test. -/
def pureTest (f : Cells → Int → Option Bool) : Test := fun b p => (f b p).map fun r => (r, b)

/-- The scan loops of `isFour`, `isOpenFour`, `isOpenThree`: skip stones of `piece`; at the first other
cell run `test` if it is empty, and stop.  Returns the loop variable and the outcome
(board.cpp:110-118, 119-127, 152-163, 164-175, 198-206, 207-215). -/
def scan (pos dir : Int) (piece : Color) (test : Test) (b : Cells) :
    Nat → Nat → Option ((Nat × Bool) × Cells)
  | 0, i => some ((i, false), b)
  | n + 1, i => do
      let c ← read b (pos + dir * i)
      if c = piece then scan pos dir piece test b n (i + 1)
      else if c = .empty then do
        let (r, b') ← test b (pos + dir * i)
        some ((i, r), b')
      else some ((i, false), b)

/-- The guards shared by `isFour`, `isOpenFour`, `isOpenThree` (board.cpp:98-104, 138-144, 186-192):
`true` when the body runs.  The read-only `isOverline` is evaluated before the test on `piece`. -/
def shapeGuard (b : Cells) (pos : Int) (piece : Color) : Option Bool := do
  let c ← read b pos
  if c ≠ .empty then some false
  else do
    let five ← isFive b pos piece
    if five then some false
    else do
      let over ← isOverline b pos .black
      if piece = .black ∧ over then some false
      else some (decide (piece = .black ∨ piece = .white))

/-- `set(pos, piece); …; set(pos, EMPTY)` with both scan loops; the second loop runs when `again`
allows it.  Returns both outcomes and both loop variables. -/
def probe (b : Cells) (pos : Int) (piece : Color) (iDir : Nat) (test : Test) (again : Bool → Bool) :
    Option ((Nat × Bool) × (Nat × Bool) × Cells) := do
  let b1 ← set b pos piece
  let (r1, b2) ← scan pos (-direction iDir) piece test b1 4 1
  let (r2, b3) ← if again r1.2 then scan pos (direction iDir) piece test b2 (5 - r1.1) 1
                 else some ((1, false), b2)
  let b4 ← set b3 pos .empty
  some (r1, r2, b4)

/-- `isFour` (board.cpp:96-134). -/
def isFour (b : Cells) (pos : Int) (piece : Color) (iDir : Nat) : Option (Bool × Cells) := do
  let ok ← shapeGuard b pos piece
  if !ok then some (false, b)
  else do
    let (r1, r2, b') ← probe b pos piece iDir (pureTest fun b p => isFiveDir b p piece iDir) (!·)
    some (r1.2 || r2.2, b')

/-- `OpenFourType` (board.h:75-80). -/
inductive OpenFour where
  | none | true | long
deriving DecidableEq, Repr

/-- `isOpenFour` (board.cpp:136-182): `count` is 1 plus the stones skipped by the loops. -/
def isOpenFour (b : Cells) (pos : Int) (piece : Color) (iDir : Nat) : Option (OpenFour × Cells) := do
  let ok ← shapeGuard b pos piece
  if !ok then some (.none, b)
  else do
    let (r1, r2, b') ← probe b pos piece iDir (pureTest fun b p => isFiveDir b p piece iDir) id
    let five := r1.2.toNat + r2.2.toNat
    let count := 1 + (r1.1 - 1) + (r2.1 - 1)
    some (if five = 2 then (if count = 4 then .true else .long) else .none, b')

/-- `nFour` loop of `isDoubleFour` (board.cpp:231-243). -/
def fourLoop (pos : Int) (piece : Color) : List Nat → Nat → Cells → Option (Bool × Cells)
  | [], _, b => some (false, b)
  | d :: ds, n, b => do
      let (o, b1) ← isOpenFour b pos piece d
      let (n', b2) ← if o = .long then some (n + 2, b1)
        else do
          let (f, b2) ← isFour b1 pos piece d
          some (if f then n + 1 else n, b2)
      if n' ≥ 2 then some (true, b2) else fourLoop pos piece ds n' b2

/-- `isDoubleFour` (board.cpp:224-244). -/
def isDoubleFour (b : Cells) (pos : Int) (piece : Color) : Option (Bool × Cells) := do
  let c ← read b pos
  if c ≠ .empty then some (false, b)
  else do
    let five ← isFive b pos piece
    if five then some (false, b) else fourLoop pos piece [0, 1, 2, 3] 0 b

/-- The condition in the loops of `isOpenThree` (board.cpp:203, 212), with `&&` short circuits;
`doubleThree` is the recursive call. -/
def threeTest (piece : Color) (iDir : Nat) (doubleThree : Test) : Test := fun b posi => do
  let (o, b1) ← isOpenFour b posi piece iDir
  if o ≠ .true then some (false, b1)
  else do
    let (df, b2) ← isDoubleFour b1 posi piece
    if df then some (false, b2)
    else do
      let (dt, b3) ← doubleThree b2 posi
      some (!dt, b3)

/-- `isOpenThree` (board.cpp:184-222). -/
def isOpenThree (doubleThree : Test) (b : Cells) (pos : Int) (piece : Color) (iDir : Nat) :
    Option (Bool × Cells) := do
  let ok ← shapeGuard b pos piece
  if !ok then some (false, b)
  else do
    let (r1, r2, b') ← probe b pos piece iDir (threeTest piece iDir doubleThree) (!·)
    some (r1.2 || r2.2, b')

/-- `nThree` loop of `isDoubleThree` (board.cpp:253-263). -/
def threeLoop (doubleThree : Test) (pos : Int) (piece : Color) :
    List Nat → Nat → Cells → Option (Bool × Cells)
  | [], _, b => some (false, b)
  | d :: ds, n, b => do
      let (t, b1) ← isOpenThree doubleThree b pos piece d
      let n' := if t then n + 1 else n
      if n' ≥ 2 then some (true, b1) else threeLoop doubleThree pos piece ds n' b1

/-- `isDoubleThree` (board.cpp:246-264); `fuel` bounds the nesting of recursive calls. -/
def isDoubleThree (piece : Color) : Nat → Test
  | 0 => fun _ _ => none
  | fuel + 1 => fun b pos => do
      let c ← read b pos
      if c ≠ .empty then some (false, b)
      else do
        let five ← isFive b pos piece
        if five then some (false, b)
        else threeLoop (isDoubleThree piece fuel) pos piece [0, 1, 2, 3] 0 b

/-- `ForbiddenType` (board.h:18-24). -/
inductive Forbidden where
  | none | doubleThree | doubleFour | overline
deriving DecidableEq, Repr

/-- `isForbidden` (board.cpp:18-28). -/
def isForbidden (fuel : Nat) (b : Cells) (pos : Int) : Option (Forbidden × Cells) := do
  let (t, b1) ← isDoubleThree .black fuel b pos
  if t then some (.doubleThree, b1)
  else do
    let (f, b2) ← isDoubleFour b1 pos .black
    if f then some (.doubleFour, b2)
    else do
      let o ← isOverline b2 pos .black
      some (if o then .overline else .none, b2)

/-- Placing the input stones (forbidden_point.cpp:45-57); `black y x` and `white y x` are the two
channels. -/
def placeStones (black white : Nat → Nat → Bool) : List (Nat × Nat) → Cells → Option Cells
  | [], b => some b
  | (y, x) :: ps, b => do
      let color : Color := if black y x then .black else if white y x then .white else .empty
      let b' ← if color ≠ .empty then set b (makePos x y) color else some b
      placeStones black white ps b'

/-- Row-major cells. -/
def cellList (H W : Nat) : List (Nat × Nat) :=
  (List.range H).flatMap fun y => (List.range W).map fun x => (y, x)

/-- The query loop (forbidden_point.cpp:59-61): all flags in row-major order, and the final board. -/
def queryAll (fuel : Nat) : List (Nat × Nat) → Cells → Option (List Bool × Cells)
  | [], b => some ([], b)
  | (y, x) :: ps, b => do
      let (t, b') ← isForbidden fuel b (makePos x y)
      let (rest, b'') ← queryAll fuel ps b'
      some (decide (t ≠ .none) :: rest, b'')

/-- `transform_board_to_forbidden_point` (forbidden_point.cpp:27-62); the outer `none` is the size
check (`MaxRealBoardSize = 22`), the inner `none` undefined behaviour. -/
def transform (fuel H W : Nat) (black white : Nat → Nat → Bool) : Option (Option (List Bool)) :=
  if H > 22 ∨ W > 22 then none
  else some do
    let b ← placeStones black white (cellList H W) (newBoard W H)
    let (flags, _) ← queryAll fuel (cellList H W) b
    some flags

/-- `ForbiddenPointPipeline.process` (forbidden_point.py:24-45): the two channels handed to the
transform; `stm` is `stm_input` (negative: black to move). -/
def pipelineChannels (fixedSideInput : Bool) (stm : Int) (ch0 ch1 : Nat → Nat → Bool) :
    (Nat → Nat → Bool) × (Nat → Nat → Bool) :=
  if !fixedSideInput then
    let stmIsBlack := decide (stm < 0)
    if !stmIsBlack then (ch1, ch0) else (ch0, ch1)
  else (ch0, ch1)

end Verif.Forbid
