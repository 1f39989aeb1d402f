/-
C89, C90: concrete cases, and the cases in which the hypotheses matter.
-/
import Verif.Katago.Props90

namespace Verif.Katago
open Verif.Board Verif.Decode

/-- A 2 × 3 board in a tensor of side 4, white to move; the pass has one of eight counts. -/
def exPos : Position :=
  { h := 2, w := 3, own := fun y x => decide (y = 0 ∧ x = 2), opp := fun y x => decide (y = 1 ∧ x = 0), white := true,
    win := 1 / 2, loss := 1 / 4, draw := 1 / 4, policy := fun y x => if y = 1 ∧ x = 1 then 5 else if y = 0 ∧ x = 0 then 2 else 0,
    pass := 1 }

def exRow : RawRow :=
  { planes := [[0b11101110, 0], [0b00100000, 0], [0b00001000, 0], [7, 7]], glob := [0, 0, 0, 0, 0, 3 / 2, 0],
    targ := [1 / 2, 1 / 4, 1 / 4, 9], pol := [[2, 0, 0, 0, 0, 5, 0, 0, 0, 0, 0, 0, 0, 0, 0, 0, 1], []] }

/-- The bytes KataGo would write for it. -/
example : Holds 4 0 exPos exRow := by
  refine ⟨by decide +kernel, by decide +kernel, by decide +kernel, Or.inr ⟨by decide +kernel, 3 / 2, by decide +kernel, by decide +kernel⟩,
    by decide +kernel, by decide +kernel⟩

def exCfg (pass : Bool) (kind : Option Kind) : Cfg ℚ :=
  { fixedSide := false, fixedSize := none, hasPass := pass, kind := kind, seed := 0, epoch := 0, H := fun _ => 0,
    gt0 := fun q => decide (0 < q), load := fun _ => none }

def exOpts (pass : Bool) (kind : Option Kind) : Opts :=
  { c := exCfg pass kind, boardsizes := [(2, 3), (4, 4)], filterStm := some 1, cond := none, td := 0 }

/-- Three files: a white row, a black row (filtered out) and a white row of a 4 × 4 board. -/
def exFiles : List (List RawRow) :=
  [[exRow, { exRow with glob := [0, 0, 0, 0, 0, -3 / 2, 0] }], [{ exRow with planes := [[255, 255], [128, 0], [0, 1]], glob := [1] }]]

example : ((loadRaw (exOpts false none) exFiles).map fun l => l.map fun r => (r.bh, r.bw, r.stm, r.value))
    = some [(2, 3, [1], [1 / 2, 1 / 4, 1 / 4]), (4, 4, [1], [1 / 2, 1 / 4, 1 / 4])] := by decide +kernel
example : ((exFiles.mapM fun f => loadRaw (exOpts false none).still [f]).map fun l => l.map List.length) = some [1, 1] := by
  decide +kernel
example : RowWise (exOpts false none).cond fun _ => true := fun _ => rfl

/-- Content of a row on its tensor. -/
def cells (r : Row ℚ) : List (List ℚ) := r.planes.map fun p => (List.range (r.h * r.w)).map fun k => p (k / r.w) (k % r.w)

/-- Finding: a board smaller than its tensor leaves the top left corner under a symmetry, while `board_size` stays;
the stone of row 0, column 2 of the 2 × 3 board is then outside of the 2 × 3 corner. -/
theorem C89_small_board_symmetry :
    ((loadRaw (exOpts false (some .default)) exFiles).bind fun l => rawItem (exOpts false (some .default)) l 0 1).map
        (fun q => ([q.bh, q.bw, q.h, q.w], (cells q)[0]?))
      = some ([2, 3, 4, 4], some [0, 0, 0, 0, 0, 0, 0, 0, 0, 0, 0, 0, 0, 1, 0, 0]) := by
  decide +kernel

/-- A condition that looks at other rows (every row but the first of what it is given) separates the two variants. -/
def exCond : Option (List RawRow → Option (List Bool)) := some fun rows => some ((List.range rows.length).map fun i => decide (0 < i))

theorem C90_condition_must_be_rowwise :
    ((loadRaw { exOpts true none with cond := exCond } [[exRow, exRow, exRow]]).map List.length) = some 2 ∧
    ((loadRaw { exOpts true none with cond := exCond, filterStm := none } [[exRow, exRow], [exRow, exRow]]).map List.length) = some 2 := by
  decide +kernel

/-! Processed files -/

def exFile (n : Nat) (v : ℚ) : File :=
  { h := 1, w := 2, bf := (List.range n).map fun i => [fun _ x => if x = i then v else 0, fun _ _ => 0],
    gf := some ((List.range n).map fun i => [if i % 2 = 0 then 1 else -1, 7]), vt := (List.range n).map fun i => [v, 0, (i : ℚ)],
    pt := some ((List.range n).map fun i => .flat [v, 0, (i : ℚ)]) }

def exP : POpts :=
  { c := exCfg false none, boardsizes := [(1, 2)], filterStm := some 1,
    cond := some fun a => some ((List.range a.bf.length).map fun i => decide (0 < ((a.vt.getD i []).getD 2 0))),
    boardChannels := some [1, 0], stmChannel := some 0, valueChannels := some [0, 2] }

def exPFiles : List File := [exFile 5 1, { exFile 3 2 with h := 3 }, exFile 3 4]

/-- Rows 2 and 4 of the first file, nothing of the second (its board size), row 2 of the third. -/
example : ((loadMap exP exPFiles).map fun a => (a.vt, a.gf)) = some ([[1, 2], [1, 4], [4, 2]], some [[1], [1], [1]]) := by decide +kernel
example : ((exPFiles.mapM (loadStream exP)).map fun l => l.map fun b => b.vt) = some [[[1, 2], [1, 4]], [], [[4, 2]]] := by decide +kernel
example : PRowWise exP.cond fun r => decide (0 < ((r.2.2.1.getD []).getD 2 0)) := by
  intro c hc a m hm
  simp only [exP, Option.some.injEq] at hc
  subst hc
  simp only [Option.some.injEq] at hm
  subst hm
  apply List.map_congr_left
  intro i hi
  simp [rowAt, List.getD_eq_getElem?_getD]
example : ((loadMap exP exPFiles).bind fun a => mapItem exP a 2 0).map (fun r => (r.value, r.stm, cells r))
    = ((loadStream exP (exFile 3 4)).bind fun a => streamItem exP a 0 0).map (fun r => (r.value, r.stm, cells r)) := by decide +kernel

end Verif.Katago
