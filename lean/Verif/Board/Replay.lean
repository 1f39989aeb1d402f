import Verif.Board.Props49

/-!
# Model of `_process_entry` (`dataset/packed_binary.py:382-484`) and `_prepare_data_from_entry` (`dataset/simple_binary.py:232-284`)

The result is the sample before post-processing (`Sample.lean`).  `none` stands for an exception (a move outside the board) or for a sub-record
that does not exist.  Value targets: the branch without soft targets (`value_td_lambda == 0` or no evaluation).
-/
namespace Verif.Board

/-- `board_input`: plane, row, column. -/
abbrev Board := Nat → Nat → Nat → Nat

def Board.empty : Board := fun _ _ _ => 0
def Board.set (b : Board) (c y x : Nat) : Board := fun c' y' x' => if c' = c ∧ y' = y ∧ x' = x then 1 else b c' y' x'

/-- `board_input[c, move.y, move.x] = 1` unless the move is a pass; an index outside the array raises. -/
def place (n : Nat) (b : Board) (c : Nat) (m : Move) : Option Board :=
  if m.isPass then some b
  else if 0 ≤ m.x ∧ m.x < n ∧ 0 ≤ m.y ∧ m.y < n then some (b.set c m.y.toNat m.x.toNat) else none

/-- `np.array([result == WIN, result == LOSS, result == DRAW])`. -/
def wld (r : Result) : List Nat := [if r = .win then 1 else 0, if r = .loss then 1 else 0, if r = .draw then 1 else 0]

structure Replayed where
  board : Board          -- `board_input`
  stm : Int              -- `stm_input`
  value : List Nat
  position : List Move
  ply : Nat

namespace Packed

/-- State of the replay: `current_result`, `current_position`, `current_ply`, `current_stm_input`, `current_board_input`. -/
structure RState where
  result : Result
  position : List Move
  ply : Nat
  stm : Int
  board : Board

/-- Lines 402-405: the stones of the opening; `stm` alternates. -/
def placeInit (n : Nat) : List Move → Int → Board → Option (Int × Board)
  | [], stm, b => some (stm, b)
  | m :: ms, stm, b =>
    match place n b (if stm > 0 then 1 else 0) m with
    | none => none
    | some b' => placeInit n ms (-stm) b'

/-- The loop of lines 407-455, with `i` groups before the selected one; the sample at lines 413-452. -/
def replayLoop (n : Nat) : Nat → List MoveData → RState → Option Replayed
  | _, [], _ => none
  | 0, g :: _, s =>
    match g.moves with
    | [] => none
    | _ :: _ => some ⟨if s.stm > 0 then fun c => s.board (if c = 0 then 1 else if c = 1 then 0 else c) else s.board, s.stm, wld s.result, s.position, s.ply⟩
  | i + 1, g :: gs, s =>
    match g.moves with
    | [] => none
    | (best, _) :: _ =>
      match place n s.board (if s.stm > 0 then 1 else 0) best with
      | none => none
      | some b => replayLoop n i gs ⟨s.result.opposite, s.position ++ [best], s.ply + 1, -s.stm, b⟩

/-- `_process_entry` (lines 382-484) for an entry whose rule and board size are admitted. -/
def replay (e : Entry) (sub : Nat) : Option Replayed :=
  match placeInit e.boardsize e.init (if e.init.length % 2 = 0 then -1 else 1) Board.empty with
  | none => none
  | some (stm, b) => replayLoop e.boardsize sub e.moves ⟨e.result, e.init, e.init.length, stm, b⟩

/-- `_setup_policy_target` (lines 344-380) on the flat array with (`pass = true`) or without a pass entry; `weights i` stands for
`winrates_softmax[i]`, or for the one-hot branch when only the first alternative is given.  Simplification: one function for both branches
(the one-hot branch is the list of the first move with weight 1). -/
def policyTarget {α} [Zero α] (n : Nat) (pass : Bool) (alts : List (Move × α)) : Option (List α) :=
  alts.foldlM (fun v (m, a) =>
    if m.isPass then some (if pass then v.set (v.length - 1) a else v)
    else if 0 ≤ m.x ∧ 0 ≤ m.y ∧ m.y.toNat * n + m.x.toNat < v.length then some (v.set (m.y.toNat * n + m.x.toNat) a) else none)
    (List.replicate (n * n + if pass then 1 else 0) 0)

end Packed

namespace Simple

/-- Lines 244-248. -/
def placeAll (n : Nat) (stm : Int) : Nat → List Move → Board → Option Board
  | _, [], b => some b
  | i, m :: ms, b =>
    match place n b (if (if i % 2 = 0 then (-1 : Int) else 1) = stm then 0 else 1) m with
    | none => none
    | some b' => placeAll n stm (i + 1) ms b'

/-- `_prepare_data_from_entry` (lines 224-284): the sample and the cell of the policy target. -/
def replay (e : Entry) : Option (Replayed × Move) :=
  let stm : Int := if e.ply % 2 = 0 then -1 else 1
  match placeAll e.boardsize stm 0 e.position Board.empty with
  | none => none
  | some b => if 0 ≤ e.move.x ∧ e.move.x < e.boardsize ∧ 0 ≤ e.move.y ∧ e.move.y < e.boardsize then
      some (⟨b, stm, wld e.result, e.position, e.ply⟩, e.move) else none

end Simple

end Verif.Board
