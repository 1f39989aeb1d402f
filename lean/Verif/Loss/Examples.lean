import Verif.Loss.Props76b
import Mathlib.Tactic.NormNum
import Mathlib.Tactic.FinCases

/-! A concrete global batch that meets the hypotheses of C76: a teacher, board masks, every kind of auxiliary loss,
padding rows, a rank of padding rows only and a rank that repeats rows. -/

namespace Verif.Loss

open Verif.Stats Verif.Total

def exP : Prims :=
  { sigmoid := fun x => x / 2, exp := fun x => 1 + x, log := fun x => x - 1, pow := fun x y => x * y,
    bce := fun x t => (x - t) ^ 2, huber := fun x t => (x - t) ^ 2,
    softmax := fun r => r.map (fun x => x / 3), logSoftmax := fun r => r.map (fun x => x - r.length) }

def exSlot : Slot Part :=
  { id := "a", weight := 2, commitment := 1 / 4, entropy := 3, dd := ("f", "c"),
    embed := fun p => p.2.length, commit := fun p => 2 * p.2.length, elements := fun p => 4 * p.2.length,
    vectors := fun p => p.2.length, codes := 2, prob := fun p i => if i = 0 then p.2.length else 0 }

def exSchema (teacher : Bool) : Schema :=
  { valueCols := 3, valueTargetCols := 3, cells := 2, teacherValueCols := 3, hasMask := true, hasTeacher := teacher,
    aux := [("v", .valueLoss 1), ("p", .policyLoss 2), ("u", .uncertainty false 3), ("ru", .relUncertainty true 1),
      ("reg", .policyReg 2), ("vq", .vq [exSlot])] }

def exCfg (T : VType) (U : PType) : Cfg :=
  { vtype := T, ptype := U, regLambda := 1 / 10, ratio := 2, valueGamma := 1, policyGamma := 2,
    ignoreForbidden := true, lambdas := fun n => if n = "u" then some (1 / 2) else none, kdT := 2, kdAlpha := 1 / 4 }

def exRow (x : ℚ) : Row :=
  { value := [x, 1, -x], policy := [x, 2 * x], boardMask := [1, if x = 1 then 0 else 1], valueTarget := [1, 0, 0],
    policyTarget := [1 / 2, 1 / 2], forbidden := [0, if x = 2 then 1 else 0], teacherValue := [x, 0, 1],
    teacherPolicy := [1, x], aux := fun i j => [x + i, x - j, i + j] }

def exRanks : List (Rank × Bool) :=
  [(⟨0, [(exRow 1, true), (exRow 2, true), (exRow 0, false)]⟩, true), (⟨1, [(exRow 5, false)]⟩, true),
   (⟨2, [(exRow 3, true)]⟩, true), (⟨3, [(exRow 1, true)]⟩, false)]

def exVq : String → ℚ := fun _ => (Head.vq [exSlot]).value exP.log (countedParts exRanks)

theorem exAux (t : Bool) : ∀ a ∈ (exSchema t).aux, AuxOk exP.log (exSchema t).cells (countedParts exRanks) exVq a.1 a.2 := by
  intro a ha
  simp only [exSchema, List.mem_cons, List.not_mem_nil, or_false] at ha
  rcases ha with rfl | rfl | rfl | rfl | rfl | rfl
  · trivial
  · rfl
  · trivial
  · trivial
  · rfl
  · refine ⟨⟨by simp, by decide, ?_⟩, ?_, rfl⟩
    · intro s hs
      rw [List.mem_singleton] at hs
      subst hs
      exact ⟨by decide, by decide⟩
    · intro s hs
      rw [List.mem_singleton] at hs
      subst hs
      exact ⟨by decide, by decide⟩

theorem exReal : realRows exRanks = [exRow 1, exRow 2, exRow 3] := rfl

theorem exRowsOk (t : Bool) : RowsOk (exSchema t).cells (exSchema t).mask (realRows exRanks) := by
  rw [exReal]
  refine ⟨by simp, Nat.zero_lt_two, ?_, ?_⟩
  · intro r hr b hb
    simp only [List.mem_cons, List.not_mem_nil, or_false] at hr
    rcases hr with rfl | rfl | rfl <;> (simp only [exRow, List.mem_cons, List.not_mem_nil, or_false] at hb; rcases hb with rfl | rfl <;> norm_num)
  · exact ⟨exRow 1, by simp, 1, by simp [exRow], by norm_num⟩

example (t : Bool) (T : VType) (U : PType) :
    ∃ stats total named v,
      List.Forall₂ (fun r s => totalStatistic exP ("f", "c") (exCfg T U) (r.1.batch (exSchema t) exVq) = .ok s.1 ∧
        s.2 = r.2) exRanks stats ∧
      computeLosses exP (exCfg T U) (batchOf (exSchema t) (9, []) exVq [exRow 1, exRow 2, exRow 3] none) =
        .ok (total, named) ∧
      closeGlobalSuff validSchema (finalize (1 / 1000) exP.log) stats = .ok v ∧ v.sum.data = [total] := by
  obtain ⟨stats, h1, total, named, v, h2, h3, -, -, h4⟩ := C76_total exP ("f", "c") (exCfg T U) (exSchema t) exVq
    (1 / 1000) (by norm_num) exRanks (exAux t) (exRowsOk t) (9, [])
  exact ⟨stats, total, named, v, h1, h2, h3, h4⟩

/-- the value, with a teacher -/
example : (match computeLosses exP (exCfg .CE .CE)
    (batchOf (exSchema true) (9, []) exVq [exRow 1, exRow 2, exRow 3] none) with
    | .ok (total, named) => decide (total = 6477241 / 194400 ∧ named.length = 19)
    | .error _ => false) = true := by
  decide +kernel

/-- a rank with padding rows, a rank of padding rows, a rank without rows -/
example : (⟨0, [(exRow 1, true), (exRow 0, false)]⟩ : Rank).real ≠ [] := by simp [Rank.real]

example : (⟨1, [(exRow 5, false)]⟩ : Rank).real = [] ∧ (⟨1, [(exRow 5, false)]⟩ : Rank).rows ≠ [] := by
  simp [Rank.real]

theorem exFits (t : Bool) : auxFits (exSchema t) := by
  intro a ha
  simp only [exSchema, List.mem_cons, List.not_mem_nil, or_false] at ha
  rcases ha with rfl | rfl | rfl | rfl | rfl | rfl <;> first | rfl | trivial

end Verif.Loss
