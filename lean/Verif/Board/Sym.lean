import Mathlib.Data.List.Basic

/-!
# Model of moves and symmetries (`utils/data_utils.py:30-150`)
-/
namespace Verif.Board

/-- `Move` (lines 30-52); coordinates are Python integers. -/
structure Move where
  x : Int
  y : Int
deriving DecidableEq

/-- `Move.is_pass` (lines 36-38). -/
def Move.isPass (m : Move) : Bool := decide (m.x < 0) && decide (m.y < 0)
def Move.pass : Move := ⟨-1, -1⟩

/-- `Symmetry` (lines 58-66). -/
inductive Sym
  | identity | rotate90 | rotate180 | rotate270 | flipX | flipY | flipXY | flipYX
deriving DecidableEq

inductive Kind
  | default | rotate | flip | flipDiagRotate180 | other
deriving DecidableEq

/-- `available_symmetries` (lines 68-103); `none` when it raises. -/
def available (h w : Nat) : Kind → Option (List Sym)
  | .default => some (if h = w then [.identity, .rotate90, .rotate180, .rotate270, .flipX, .flipY, .flipXY, .flipYX]
      else [.identity, .rotate180, .flipX, .flipY])
  | .rotate => if h ≠ w then none else some [.identity, .rotate90, .rotate180, .rotate270]
  | .flip => if h ≠ w then none else some [.identity, .flipX, .flipY, .flipXY, .flipYX]
  | .flipDiagRotate180 => if h ≠ w then none else some [.identity, .rotate180, .flipXY, .flipYX]
  | .other => none

/-- `mapping_list` (lines 118-127). -/
def Sym.map (s : Sym) (h w x y : Int) : Int × Int :=
  match s with
  | .identity => (x, y)
  | .rotate90 => (y, w - 1 - x)
  | .rotate180 => (w - 1 - x, h - 1 - y)
  | .rotate270 => (h - 1 - y, x)
  | .flipX => (x, h - 1 - y)
  | .flipY => (w - 1 - x, y)
  | .flipXY => (y, x)
  | .flipYX => (h - 1 - y, w - 1 - x)

/-- `apply_to_move` (lines 105-129); `none` when it raises. -/
def Sym.applyMove (s : Sym) (h w : Nat) (m : Move) : Option Move :=
  if m.isPass then some m
  else if s ∉ (available h w .default).getD [] then none
  else if ¬ (0 ≤ m.x ∧ m.x < w ∧ 0 ≤ m.y ∧ m.y < h) then none
  else some ⟨(s.map h w m.x m.y).1, (s.map h w m.x m.y).2⟩

/-- The last two axes of an array: height, width and the element at row `y`, column `x`. -/
structure Grid (α : Type _) where
  h : Nat
  w : Nat
  at' : Nat → Nat → α

def Grid.flipX {α} (g : Grid α) : Grid α := { g with at' := fun y x => g.at' y (g.w - 1 - x) }
def Grid.flipY {α} (g : Grid α) : Grid α := { g with at' := fun y x => g.at' (g.h - 1 - y) x }
def Grid.swap {α} (g : Grid α) : Grid α := ⟨g.w, g.h, fun y x => g.at' x y⟩

/-- `op_list` (lines 133-142): flip the columns, flip the rows, swap the axes. -/
def Sym.ops : Sym → Bool × Bool × Bool
  | .identity => (false, false, false)
  | .rotate90 => (true, false, true)
  | .rotate180 => (true, true, false)
  | .rotate270 => (false, true, true)
  | .flipX => (false, true, false)
  | .flipY => (true, false, false)
  | .flipXY => (false, false, true)
  | .flipYX => (true, true, true)

/-- `apply_to_array` (lines 131-150). -/
def Sym.applyArr {α} (s : Sym) (g : Grid α) : Grid α :=
  let g1 := if s.ops.1 then g.flipX else g
  let g2 := if s.ops.2.1 then g1.flipY else g1
  if s.ops.2.2 then g2.swap else g2

end Verif.Board
