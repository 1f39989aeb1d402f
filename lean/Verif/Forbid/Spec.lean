import Verif.Forbid.Model

/-!
The renju rule for black, stated on the plane: a board is a map from points to colours, with walls
everywhere outside.  Independent of the array layout and of the search code.
-/
namespace Verif.Forbid

abbrev Pt := Int × Int
abbrev Grid := Pt → Color

/-- The point `i` steps from `p` in direction `d`. -/
def go (p d : Pt) (i : Int) : Pt := (p.1 + i * d.1, p.2 + i * d.2)

/-- The four lines through a point. -/
def dirs : List Pt := [(0, 1), (1, -1), (1, 0), (1, 1)]

/-- A point of a board of the given size. -/
def OnBoard (W H : Nat) (p : Pt) : Prop := 0 ≤ p.1 ∧ p.1 < W ∧ 0 ≤ p.2 ∧ p.2 < H

/-- Walls are exactly the points outside. -/
def IsBoard (W H : Nat) (g : Grid) : Prop := ∀ p, g p = .wall ↔ ¬OnBoard W H p

/-- If black stood on `p`, the row through `p` along `d` would have exactly `a` further black stones on
one side and `b` on the other. -/
def Row (g : Grid) (p d : Pt) (a b : Nat) : Prop :=
  ((∀ i : Nat, 1 ≤ i → i ≤ a → g (go p d (-i)) = .black) ∧ g (go p d (-(a + 1 : Nat))) ≠ .black)
  ∧ ((∀ i : Nat, 1 ≤ i → i ≤ b → g (go p d i) = .black) ∧ g (go p d (b + 1 : Nat)) ≠ .black)

/-- Exactly five in a row along `d`. -/
def FiveIn (g : Grid) (p d : Pt) : Prop := ∃ a b, Row g p d a b ∧ a + b + 1 = 5

/-- A move on `p` makes exactly five somewhere. -/
def Five (g : Grid) (p : Pt) : Prop := ∃ d ∈ dirs, FiveIn g p d

/-- A move on `p` makes six or more somewhere. -/
def Over (g : Grid) (p : Pt) : Prop := ∃ d ∈ dirs, ∃ a b, Row g p d a b ∧ 6 ≤ a + b + 1

/-- The board after a black move. -/
def place (g : Grid) (p : Pt) : Grid := fun q => if q = p then .black else g q

/-- An empty point where black makes neither five nor overline. -/
def Shape (g : Grid) (p : Pt) : Prop := g p = .empty ∧ ¬Five g p ∧ ¬Over g p

/-- After the move on `p`, a further move on `e` makes exactly five along `d`. -/
def Completes (g : Grid) (p d e : Pt) : Prop := g e = .empty ∧ FiveIn (place g p) e d

/-- A four: one of the two points beyond the row makes five. -/
def Four (g : Grid) (p d : Pt) : Prop :=
  Shape g p ∧ ∃ a b, Row g p d a b
    ∧ (Completes g p d (go p d (-(a + 1 : Nat))) ∨ Completes g p d (go p d (b + 1 : Nat)))

/-- Both points beyond the row make five; `k` is the length of the row. -/
def TwoWays (g : Grid) (p d : Pt) (k : Nat) : Prop :=
  ∃ a b, Row g p d a b ∧ a + b + 1 = k
    ∧ Completes g p d (go p d (-(a + 1 : Nat))) ∧ Completes g p d (go p d (b + 1 : Nat))

/-- A straight four `_OOOO_`. -/
def StraightFour (g : Grid) (p d : Pt) : Prop := Shape g p ∧ TwoWays g p d 4

/-- Two fours on one line, as in `O_OOO_O`. -/
def LineDoubleFour (g : Grid) (p d : Pt) : Prop := Shape g p ∧ ∃ k, k ≠ 4 ∧ TwoWays g p d k

/-- The double-four rule. -/
def DoubleFour (g : Grid) (p : Pt) : Prop :=
  g p = .empty ∧ ¬Five g p ∧
    ((∃ d ∈ dirs, LineDoubleFour g p d)
      ∨ ∃ d ∈ dirs, ∃ d' ∈ dirs, d ≠ d' ∧ Four g p d ∧ Four g p d')

/-- A real three along `d`: after the move, one of the points beyond the row makes a straight four and
is itself neither a double four nor (by `D`) a double three. -/
def OpenThree (D : Grid → Pt → Prop) (g : Grid) (p d : Pt) : Prop :=
  Shape g p ∧ ∃ a b, Row g p d a b ∧
    ∃ e, (e = go p d (-(a + 1 : Nat)) ∨ e = go p d (b + 1 : Nat)) ∧ g e = .empty
      ∧ StraightFour (place g p) e d ∧ ¬DoubleFour (place g p) e ∧ ¬D (place g p) e

/-- The double-three rule, in terms of itself on the board with one more stone. -/
def DoubleThreeRule (D : Grid → Pt → Prop) (g : Grid) (p : Pt) : Prop :=
  g p = .empty ∧ ¬Five g p ∧
    ∃ d ∈ dirs, ∃ d' ∈ dirs, d ≠ d' ∧ OpenThree D g p d ∧ OpenThree D g p d'

/-- `D` obeys the recursive double-three rule on all boards of the given size. -/
def Reading (W H : Nat) (D : Grid → Pt → Prop) : Prop :=
  ∀ g, IsBoard W H g → ∀ p, D g p ↔ DoubleThreeRule D g p

/-- The forbidden points of the code, in terms of a reading of the double-three rule. -/
def ForbiddenBy (D : Grid → Pt → Prop) (g : Grid) (p : Pt) : Prop :=
  D g p ∨ DoubleFour g p ∨ (g p = .empty ∧ Over g p)

/-- The input position on the plane; a cell with both stones is black. -/
def inputGrid (H W : Nat) (black white : Nat → Nat → Bool) : Grid := fun p =>
  if 0 ≤ p.1 ∧ p.1 < W ∧ 0 ≤ p.2 ∧ p.2 < H then
    if black p.2.toNat p.1.toNat then .black else if white p.2.toNat p.1.toNat then .white else .empty
  else .wall

end Verif.Forbid
