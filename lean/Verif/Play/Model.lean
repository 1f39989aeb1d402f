import Mathlib.Analysis.SpecialFunctions.Exp
import Mathlib.Algebra.BigOperators.Fin
import Mathlib.Data.Nat.Digits.Defs

/-!
# Model of the interactive board (`test_play.py:169-228, 253-287, 349-358, 397-414`)

The data pipelines applied at the end of `get_data`, printing, and loading the checkpoint are not modelled.
-/
namespace Verif.Play

/-- `Board` (lines 169-178): `board p y x` is the array of shape (2, h, w); it is only read and written inside its shape. `side` is
`side_to_move`, `hist` is `move_history`, oldest first. -/
structure Board where
  w : Nat
  h : Nat
  board : Nat → Int → Int → Int
  side : Nat
  hist : List (Int × Int × Nat)

/-- `Board.__init__` (lines 173-178). -/
def init (w h : Nat) : Board := ⟨w, h, fun _ _ _ => 0, 0, []⟩

/-- What a call raises. -/
inductive Err
  | illegal
  | empty
  | noMove
deriving DecidableEq

/-- `Board.ply` (lines 180-182). -/
def ply (s : Board) : Nat := s.hist.length

/-- `Board.is_legal` (lines 209-212). -/
def isLegal (s : Board) (x y : Int) : Bool :=
  if x < 0 ∨ (s.w : Int) ≤ x ∨ y < 0 ∨ (s.h : Int) ≤ y then false
  else decide (s.board 0 y x = 0) && decide (s.board 1 y x = 0)

/-- Assignment of one cell. -/
def setCell (b : Nat → Int → Int → Int) (p : Nat) (y x v : Int) : Nat → Int → Int → Int :=
  fun p' y' x' => if p' = p ∧ y' = y ∧ x' = x then v else b p' y' x'

/-- `Board.move` and `flip_side` (lines 192-200). The board after the call, and what it raised. -/
def move (s : Board) (x y : Int) : Board × Option Err :=
  if isLegal s x y = false then (s, some .illegal)
  else (⟨s.w, s.h, setCell s.board s.side y x 1, 1 - s.side, s.hist ++ [(x, y, s.side)]⟩, none)

/-- `Board.undo` (lines 202-207). -/
def undo (s : Board) : Board × Option Err :=
  match s.hist.getLast? with
  | none => (s, some .empty)
  | some (x, y, p) => (⟨s.w, s.h, setCell s.board p y x 0, p, s.hist.dropLast⟩, none)

/-- `Board.get_data` (lines 214-221): `board_input`. -/
def boardInput (fixedSide : Bool) (s : Board) : Nat → Int → Int → Int :=
  if fixedSide = false ∧ s.side = 1 then fun p y x => s.board (1 - p) y x else s.board

/-- `Board.get_data`: `stm_input` (line 223). -/
def stmInput (s : Board) : Int := if s.side = 0 then -1 else 1

/-- `torch.softmax`. -/
noncomputable def softmax {n : Nat} (l : Fin n → ℝ) (i : Fin n) : ℝ := Real.exp (l i) / ∑ j, Real.exp (l j)

/-- Line 272: `winrate`, from the value logits (win, loss, draw). -/
noncomputable def winrate (l : Fin 3 → ℝ) : ℝ := (softmax l 0 - softmax l 1 + 1) / 2

/-- Lines 275-286: the first legal move of `sorted_moves`. `none` is the `TypeError` of `divmod(None, …)`. -/
def nextMove (s : Board) (sorted : List Nat) : Option (Int × Int) :=
  (sorted.find? fun k => isLegal s ((k % s.w : Nat) : Int) ((k / s.w : Nat) : Int)).map fun k => (((k % s.w : Nat) : Int), ((k / s.w : Nat) : Int))

/-- A turn of the loop: a typed move, or an empty line, answered with the policy's `sorted_moves`. -/
inductive Turn
  | human (x y : Int)
  | ai (sorted : List Nat)

/-- One pass of the loop (lines 405-414). -/
def turn (s : Board) : Turn → Board × Option Err
  | .human x y => move s x y
  | .ai sorted =>
    match nextMove s sorted with
    | none => (s, some .noMove)
    | some m => move s m.1 m.2

/-- The loop (lines 397-414); an exception ends it. -/
def loop (s : Board) : List Turn → Board × Option Err
  | [] => (s, none)
  | t :: ts =>
    if ply s + 1 < s.w * s.h then
      match turn s t with
      | (s', none) => loop s' ts
      | (s', some e) => (s', some e)
    else (s, none)

/-- `str(n)`, as character codes. -/
def str (n : Nat) : List Nat := if n = 0 then [48] else (Nat.digits 10 n).reverse.map (· + 48)

/-- `str.upper` of one ASCII character. -/
def upper (c : Nat) : Nat := if 97 ≤ c ∧ c ≤ 122 then c - 32 else c

/-- `int(text)` on strings of digits; signs, blanks and underscores are not modelled. -/
def int (cs : List Nat) : Option Nat :=
  if cs = [] then none
  else if cs.all (fun c => decide (48 ≤ c ∧ c ≤ 57)) = true then some (Nat.ofDigits 10 (cs.map (· - 48)).reverse) else none

/-- What `input_move` makes of a line. -/
inductive Typed
  | ai
  | at (x y : Int)
  | bad
deriving DecidableEq

/-- `input_move` (lines 349-354). -/
def inputMove : List Nat → Typed
  | [] => .ai
  | c :: rest =>
    match int rest with
    | none => .bad
    | some n => .at ((upper c : Int) - 65) ((n : Int) - 1)

/-- `output_move` (lines 357-358), for coordinates on a board. -/
def outputMove (x y : Nat) : List Nat := (x + 65) :: str (y + 1)

end Verif.Play
