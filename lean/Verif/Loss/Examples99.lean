import Verif.Loss.Props99
import Verif.Loss.Examples

/-! Concrete batches that meet the hypotheses of C99, and batches that show that they are needed. -/

namespace Verif.Loss

open Verif.Stats Verif.Total

/-- no regularisation; every other kind of auxiliary loss, masks, with or without a teacher -/
def ex99Schema (teacher : Bool) : Schema :=
  { valueCols := 3, valueTargetCols := 3, cells := 2, teacherValueCols := 3, hasMask := true, hasTeacher := teacher,
    aux := [("v", .valueLoss 1), ("p", .policyLoss 2), ("u", .uncertainty false 3), ("ru", .relUncertainty true 1),
      ("reg", .policyReg 2)] }

def ex99Cfg (T : VType) (U : PType) (reg : ℚ) : Cfg := { exCfg T U with regLambda := reg }

theorem ex99Aux (t : Bool) : PlainAux (ex99Schema t) := by
  intro a ha
  simp only [ex99Schema, List.mem_cons, List.not_mem_nil, or_false] at ha
  rcases ha with rfl | rfl | rfl | rfl | rfl <;> first | trivial | rfl

theorem ex99NoReg (t : Bool) (T : VType) (U : PType) : NoReg (ex99Cfg T U 0) (ex99Schema t) := by
  refine ⟨le_refl _, fun name c h => ?_⟩
  simp only [ex99Schema, List.mem_cons, List.not_mem_nil, or_false, Prod.mk.injEq, reduceCtorEq, and_false,
    false_or] at h
  obtain ⟨rfl, -⟩ := h
  exact ⟨by simp [ex99Cfg, exCfg], rfl⟩

/-- a batch of four rows on two processes, in one micro-step each -/
example (t : Bool) (T : VType) (U : PType) :
    lossOf exP (ex99Cfg T U 0) (ex99Schema t) [exRow 1, exRow 2, exRow 3, exRow 5]
      = average [lossOf exP (ex99Cfg T U 0) (ex99Schema t) [exRow 1, exRow 2],
          lossOf exP (ex99Cfg T U 0) (ex99Schema t) [exRow 3, exRow 5]] :=
  (C99_split exP _ _ (ex99Aux t) (ex99NoReg t T U) [[exRow 1, exRow 2], [exRow 3, exRow 5]] 2 (by decide)
    (by intro p hp; simp only [List.mem_cons, List.not_mem_nil, or_false] at hp; rcases hp with rfl | rfl <;> rfl)).2

/-- the parts differ, so that the average is one of different numbers -/
example : lossOf exP (ex99Cfg .CE .CE 0) (ex99Schema true) [exRow 1, exRow 2]
    ≠ lossOf exP (ex99Cfg .CE .CE 0) (ex99Schema true) [exRow 3, exRow 5] := by decide +kernel

/-- Parts of different size: the average of the losses is not the loss of all rows. -/
example : lossOf exP (ex99Cfg .CE .CE 0) (ex99Schema false) [exRow 1, exRow 2, exRow 3]
    ≠ average [lossOf exP (ex99Cfg .CE .CE 0) (ex99Schema false) [exRow 1, exRow 2],
        lossOf exP (ex99Cfg .CE .CE 0) (ex99Schema false) [exRow 3]] := by decide +kernel

/-- gradients: the parameter scales the rows; two processes with two micro-steps each -/
example (D : (ℚ → ℚ) →ₗ[ℚ] ℚ) :
    accumulatedGrad D 2
      [[fun θ => lossOf exP (ex99Cfg .CE .CE 0) (ex99Schema true) [exRow θ, exRow (2 * θ)],
        fun θ => lossOf exP (ex99Cfg .CE .CE 0) (ex99Schema true) [exRow (3 * θ), exRow 2]],
       [fun θ => lossOf exP (ex99Cfg .CE .CE 0) (ex99Schema true) [exRow (θ + 1), exRow 1],
        fun θ => lossOf exP (ex99Cfg .CE .CE 0) (ex99Schema true) [exRow θ, exRow θ]]]
      = D fun θ => lossOf exP (ex99Cfg .CE .CE 0) (ex99Schema true)
          [exRow θ, exRow (2 * θ), exRow (3 * θ), exRow 2, exRow (θ + 1), exRow 1, exRow θ, exRow θ] :=
  C99_gradient D exP _ _ (ex99Aux true) (ex99NoReg true .CE .CE) 2 2 (by decide) (by decide)
    [[fun θ => [exRow θ, exRow (2 * θ)], fun θ => [exRow (3 * θ), exRow 2]],
     [fun θ => [exRow (θ + 1), exRow 1], fun θ => [exRow θ, exRow θ]]] (by simp)
    (by intro m hm; simp only [List.mem_cons, List.not_mem_nil, or_false] at hm; rcases hm with rfl | rfl <;> rfl)
    (by
      intro m hm b hb θ
      simp only [List.mem_cons, List.not_mem_nil, or_false] at hm
      rcases hm with rfl | rfl <;>
        (simp only [List.mem_cons, List.not_mem_nil, or_false] at hb; rcases hb with rfl | rfl <;> rfl))

/-- with a regularisation, without masks -/
def ex99Plain : Schema := { ex99Schema false with hasMask := false }

theorem ex99PlainAux : PlainAux ex99Plain := ex99Aux false

example : lossOf exP (ex99Cfg .CE .CE (1 / 10)) ex99Plain [exRow 1, exRow 2, exRow 3, exRow 5]
    ≤ average [lossOf exP (ex99Cfg .CE .CE (1 / 10)) ex99Plain [exRow 1, exRow 2],
        lossOf exP (ex99Cfg .CE .CE (1 / 10)) ex99Plain [exRow 3, exRow 5]] :=
  C99_regularised exP (ex99Cfg .CE .CE (1 / 10)) ex99Plain ex99PlainAux rfl
    ⟨by norm_num [ex99Cfg], fun name c w h hl => by
      simp only [ex99Plain, ex99Schema, List.mem_cons, List.not_mem_nil, or_false, Prod.mk.injEq, reduceCtorEq,
        and_false, false_or] at h
      obtain ⟨rfl, -⟩ := h
      simp [ex99Cfg, exCfg] at hl⟩
    [[exRow 1, exRow 2], [exRow 3, exRow 5]] 2 (by decide)
    (by intro p hp; simp only [List.mem_cons, List.not_mem_nil, or_false] at hp; rcases hp with rfl | rfl <;> rfl)

/-- Splitting does change the regularised loss. -/
theorem C99_regularised_strict :
    lossOf exP (ex99Cfg .CE .CE (1 / 10)) ex99Plain [exRow 1, exRow 2, exRow 3, exRow 5]
    < average [lossOf exP (ex99Cfg .CE .CE (1 / 10)) ex99Plain [exRow 1, exRow 2],
        lossOf exP (ex99Cfg .CE .CE (1 / 10)) ex99Plain [exRow 3, exRow 5]] := by decide +kernel

end Verif.Loss
