import Verif.Mapping.Props97
import Verif.Quant.Examples85

set_option linter.dupNamespace false

/-! Concrete cases of C97. -/
namespace Verif.Mapping

open Verif.LineEnc

/-- A directional layer that tells its three taps apart. -/
def demoConv (n : Nat) (w : ℚ) : DirConv ℚ where
  dimIn := n
  channelLast := true
  weight := fun o c t => w * (1 + o + 2 * c + 5 * t)
  bias := fun o => 1 + o

def demoPw (n : Nat) : Pw ℚ := ⟨n, fun o c => if o = c then 1 else -1 / 4, fun o => o⟩

/-- A mapping for windows of length 5: one residual block. -/
def demoMapping (fix : Bool) (w : ℚ) : Mapping ℚ where
  fix := fix
  dimOut := 3
  act := fun x => max x 0
  conv := demoConv 2 w
  norm := fun v => v
  blocks := [⟨demoConv 2 (w / 3), fun v => v, demoPw 2⟩]
  conv1 := demoPw 2
  conv2 := demoPw 2
  final := demoPw 2

/-- The same network with the other storage order of the weight. -/
def demoFirst : DirConv ℚ := { demoConv 2 1 with channelLast := false, weight := fun t o c => (demoConv 2 1).weight o c t }

example : demoFirst.weight1d = (demoConv 2 1).weight1d := rfl

def demoBoard : Board where
  H := 4
  W := 5
  self := fun y x => decide (y = 1 ∧ x = 2 ∨ y = 3 ∧ x = 0)
  oppo := fun y x => decide (y = 2 ∧ x = 3 ∨ y = 0 ∧ x = 3)

theorem demoBoard_noOverlap : NoOverlap demoBoard := by
  intro y x h
  simp only [demoBoard, decide_eq_true_eq] at h
  omega

theorem demo_field (fix : Bool) : (Mappings.two (demoMapping fix (1 / 8)) (demoMapping fix (1 / 5))).FieldOf 5 fix 3 :=
  ⟨⟨⟨rfl, by decide, rfl⟩, rfl, rfl⟩, ⟨rfl, by decide, rfl⟩, rfl, rfl⟩

/-- the anti-diagonal through `(1, 2)`: an opponent stone at `(0, 3)` and an own stone at `(3, 0)` -/
example : (List.range 5).map ((Spot.board demoBoard 2 1 2).view 5) = [some 1, some 0, some 1, some 2, none] := by
  decide +kernel

/-- the diagonal through `(1, 2)` -/
example : (List.range 5).map ((Spot.board demoBoard 3 1 2).view 5) = [none, some 0, some 1, some 2, some 0] := by
  decide +kernel

example : ∃ v, (Spot.board demoBoard 2 1 2).code 5 = some v ∧
    exportTable (demoMapping true (1 / 8)) 100 5 v = boardFeature (demoMapping true (1 / 8)) demoBoard 2 1 2 := by
  obtain ⟨v, hv⟩ : ∃ v, (Spot.board demoBoard 2 1 2).code 5 = some v := Option.isSome_iff_exists.1 (by decide +kernel)
  exact ⟨v, hv, C97_row _ 100 5 (by decide) ⟨rfl, by decide, rfl⟩ _ demoBoard_noOverlap 2 1 2 (by decide)
    (by decide) (by decide) v hv⟩

/-- The two diagonals are told apart: without `fix_direction_order` the network's direction 2 is the diagonal,
whose feature differs. -/
example : boardFeature (demoMapping true (1 / 8)) demoBoard 2 1 2 ≠ boardFeature (demoMapping false (1 / 8)) demoBoard 2 1 2
    ∧ boardFeature (demoMapping true (1 / 8)) demoBoard 2 1 2 = boardFeature (demoMapping false (1 / 8)) demoBoard 3 1 2 := by
  decide +kernel

/-- Walls matter: the window of an empty corner differs from that of an empty centre, and so does the feature. -/
example : lineFeature (demoMapping true (1 / 8)) [0, 0, 0, 0, 0] 2 ≠ lineFeature (demoMapping true (1 / 8)) [0, 0, 0] 0 := by
  decide +kernel

/-- The export on small batches, computed (windows of length 3 would need no residual block). -/
example : mapTable (demoMapping true (1 / 8)) 2 3 [[0, 1, 2], [1, 1, 0], [2, 0, 0]]
    = [[0, 1, 2], [1, 1, 0], [2, 0, 0]].map fun line => (List.range 3).map (lineFeature (demoMapping true (1 / 8)) line) :=
  mapTable_eq _ 2 3 (by decide) _ (by decide)

/-- All hypotheses of the end-to-end theorem together, for both direction orders. -/
example (fix : Bool) : ∃ codes, transformBoard 5 false demoBoard = some codes ∧
    ∀ y x, (Quant.forward Quant.demoNet 4 5 (featureArray (.two (demoMapping fix (1 / 8)) (demoMapping fix (1 / 5)))
        3 demoBoard)).policy y x
      = (Quant.Engine.run (Quant.exportNet Quant.demoNet) 4 5 (lookupArray (.two (demoMapping fix (1 / 8))
        (demoMapping fix (1 / 5))) 4096 5 3 codes demoBoard)).policy y x := by
  obtain ⟨codes, hc⟩ : ∃ codes, transformBoard 5 false demoBoard = some codes :=
    Option.isSome_iff_exists.1 (by decide +kernel)
  exact ⟨codes, hc, (C97_end_to_end _ 4096 5 fix Quant.demoNet (by decide) (demo_field fix) demoBoard
    demoBoard_noOverlap codes hc (by decide) (by decide +kernel)).1⟩

end Verif.Mapping
