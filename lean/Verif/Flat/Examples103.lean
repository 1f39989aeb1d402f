/-
C103: concrete networks meet the hypotheses.
-/
import Verif.Flat.Props103d

namespace Verif.Flat

open Verif.Quant (Lin Vec)
open Verif.Export (roundEven)

/-- A convolution that adds up its inputs, with weights that depend on the place, then a ReLU. -/
def exConv (kh kw dimIn : Nat) : Conv where
  kh := kh
  kw := kw
  dimIn := dimIn
  weight := fun o i dy dx => ((o : ℚ) + 1) / 16 + (dy : ℚ) / 8 + (i : ℚ) / 16 - (dx : ℚ) / 32
  bias := fun o => (o : ℚ) / 64
  post := fun v c => if v c < 0 then 0 else v c

/-- The kernel stacks of the code: 4x4, 4x3 and 3x4 chunks. -/
def exM44 : List Conv := [exConv 2 2 2, exConv 2 2 2, exConv 2 2 2]

def exM43 : List Conv := [exConv 2 2 2, exConv 2 1 2, exConv 2 2 2]

def exM34 : List Conv := [exConv 2 2 2, exConv 2 2 2, exConv 1 2 2]

example : Mapping 4 4 exM44 := ⟨by simp [exM44], by decide, by simp [exM44, exConv]⟩

example : Mapping 4 3 exM43 := ⟨by simp [exM43], by decide, by simp [exM43, exConv]⟩

example : Mapping 3 4 exM34 := ⟨by simp [exM34], by decide, by simp [exM34, exConv]⟩

/-- A position on the 7x7 board with four stones. -/
def exBoard : Board := fun y x =>
  if (y, x) = (3, 3) then 1 else if (y, x) = (2, 3) then 2 else if (y, x) = (0, 1) then 1
  else if (y, x) = (5, 6) then 2 else 0

example : Valid exBoard := by
  intro y _ x _
  unfold exBoard
  split_ifs <;> decide

/-- The four corners of this position are different, so the symmetry theorems say something. -/
example : Engine.triNumber (Engine.turned 0 exBoard) = 1
    ∧ Engine.rectNumber 4 4 (Engine.turned 0 exBoard) = 14703204
    ∧ Engine.rectNumber 4 4 (Engine.turned 1 exBoard) ≠ Engine.rectNumber 4 4 (Engine.turned 0 exBoard)
    ∧ Engine.rectNumber 4 4 (Engine.mirror exBoard) ≠ Engine.rectNumber 4 4 exBoard := by decide +kernel

def exLadder : Ladder where
  dimIn := 2
  weight := fun k o i => ((k : ℚ) + 1) / 8 - (o : ℚ) / 16 + (i : ℚ) / 4
  bias := fun o => (o : ℚ) / 32
  post := fun v c => if v c < 0 then 0 else v c

example : exLadder.dimIn ≤ 2 := le_rfl

/-- A table entry that is neither 0 nor saturated. -/
example : squareRow table8 4 4 exM44 (Engine.rectNumber 4 4 exBoard) 0 = 16
    ∧ squareRow table8 4 4 exM44 3 1 = 9 := by decide +kernel

def exLin : Lin where
  w := fun o i => ((o : ℚ) - (i : ℚ)) / 128
  b := fun o => (o : ℚ) / 7

/-- An export that succeeds. -/
example : (ladderFile1 (ladderMapping exLadder exLadder exLadder) true 16 32 exLin exLin exLin exLin).isSome
    ∧ ∀ m2, (ladderFile2 (ladderMapping exLadder exLadder exLadder) m2 true 16 32 exLin exLin exLin exLin).isSome := by
  have key : ∀ o i, o ≤ 32 → i ≤ 32 → Within (-1) (127 / 128) o i exLin := by
    intro o i ho hi r hr c hc
    have h1 : (r : ℚ) ≤ 31 := by exact_mod_cast (by omega : r ≤ 31)
    have h2 : (c : ℚ) ≤ 31 := by exact_mod_cast (by omega : c ≤ 31)
    have h3 : (0 : ℚ) ≤ r := Nat.cast_nonneg r
    have h4 : (0 : ℚ) ≤ c := Nat.cast_nonneg c
    unfold exLin
    simp only
    constructor <;> linarith
  exact C103_ladder_accepts true 16 32 _ exLin exLin exLin exLin (key _ _ (by norm_num) (by norm_num))
    (key _ _ (by norm_num) (by norm_num)) (key _ _ (by norm_num) (by norm_num))
    (key _ _ (by decide) (by norm_num))

/-- `Within` the range of square v3 is met by a layer that is not zero. -/
example : Within (-128 / 256) (127 / 256) 64 (8 * 4) ⟨fun o i => if o = i then 127 / 256 else -1 / 2, fun _ => 0⟩ := by
  intro r _ c _
  simp only
  split_ifs <;> constructor <;> norm_num

/-- The batch size of the code. -/
example : (0 : Nat) < 4096 := by decide

/-- A batch that does not divide the number of rows. -/
example : batched 10 4 (fun i => i * i) = [0, 1, 4, 9, 16, 25, 36, 49, 64, 81] := by decide

example : packPair (-8) 7 = 240 ∧ Engine.nibble 240 0 = -8 ∧ Engine.nibble 240 1 = 7 := by decide

end Verif.Flat
