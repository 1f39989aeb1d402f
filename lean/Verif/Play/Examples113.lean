import Verif.Play.Props113b
import Mathlib.Tactic.NormNum
import Mathlib.Tactic.FinCases

/-!
# Concrete cases for C113
-/
namespace Verif.Play.Examples113

open Verif.Play

def ops : List Op := [.move 0 0, .move 0 0, .move 1 0, .undo, .move 2 1, .move 5 5]

/-- Two stones stand: the repeated move and the one off the board are refused, one is taken back. -/
example : (run (init 3 2) ops).hist = [(0, 0, 0), (2, 1, 1)] ∧ (run (init 3 2) ops).side = 0 ∧ (run (init 3 2) ops).board 0 0 0 = 1 ∧
    (run (init 3 2) ops).board 1 1 2 = 1 ∧ (run (init 3 2) ops).board 1 0 1 = 0 := by decide +kernel

example := C113_state 3 2 ops
example := C113_calls 3 2 ops _ rfl
example := C113_data 3 2 ops 2 1 0 (by decide)

/-- A policy on a 2 by 2 board: cell 2 is best, then cell 0, and cells 1 and 3 tie. -/
noncomputable def policy : Nat → ℝ := fun k => if k = 2 then 3 else if k = 0 then 2 else 1

theorem sorted : Sorted 2 2 policy [2, 0, 3, 1] := by
  refine ⟨by decide, ?_⟩
  simp [policy]
  norm_num

example := C113_engine 2 2 [.move 0 1] policy [2, 0, 3, 1] sorted

/-- Cell 2 is taken, so the answer is cell 0. -/
example : nextMove (run (init 2 2) [.move 0 1]) [2, 0, 3, 1] = some (0, 0) := by decide +kernel

theorem turns : ∀ t ∈ [Turn.ai [2, 0, 3, 1], .human 1 1, .ai [2, 0, 3, 1], .ai [2, 0, 3, 1]], Engine 2 2 t ∨ ∃ x y, t = .human x y := by
  have h : Engine 2 2 (.ai [2, 0, 3, 1]) := ⟨policy, [2, 0, 3, 1], sorted, rfl⟩
  intro t ht
  fin_cases ht
  · exact Or.inl h
  · exact Or.inr ⟨1, 1, rfl⟩
  · exact Or.inl h
  · exact Or.inl h

example := C113_game 2 2 _ turns

/-- The game stops with one cell left. -/
example : (loop (init 2 2) [Turn.ai [2, 0, 3, 1], .human 1 1, .ai [2, 0, 3, 1], .ai [2, 0, 3, 1]]).1.hist = [(0, 1, 0), (1, 1, 1), (0, 0, 0)] := by
  decide +kernel

example := C113_winrate ![1, 2, 3]
example : inputMove (outputMove 14 9) = .at 14 9 := (C113_notation 14 9).1 (by decide)

end Verif.Play.Examples113
