/-
Instances of the hypotheses of C93.
-/
import Verif.Metric.Props93
import Mathlib.Data.List.Sort

namespace Verif.Metric
open Verif.Loss Verif.Stats Verif.Total

def clamp (x : ℚ) : ℚ := max 0 (min x 1)

def exP : Prims :=
  { sigmoid := clamp, exp := fun x => x, log := fun x => x, pow := fun x _ => x, bce := fun x _ => x, huber := fun x _ => x,
    softmax := fun r => r.map clamp, logSoftmax := fun r => r }

/-- First greatest entry; the indices of the `k` greatest entries. -/
def exS : Choice :=
  { argmax := fun r => r.findIdx fun x => r.all fun y => decide (y ≤ x),
    topk := fun k r => ((List.range r.length).insertionSort fun i j => r.getD j 0 ≤ r.getD i 0).take k }

theorem clamp_range (x : ℚ) : 0 ≤ clamp x ∧ clamp x ≤ 1 := by
  unfold clamp
  exact ⟨le_max_left _ _, max_le (by norm_num) (min_le_right _ _)⟩

theorem exS_nodup (k : Nat) (r : List ℚ) : (exS.topk k r).Nodup := by
  refine List.Nodup.sublist (List.take_sublist _ _) ?_
  exact (List.perm_insertionSort _ _).nodup_iff.mpr List.nodup_range

example : Regular exP exS := ⟨exS_nodup, fun r => by simp [exP]⟩

example : Ranges exP exS where
  nodup := exS_nodup
  topk := fun k r => by simp [exS]
  sigmoid := clamp_range
  softmax := fun r j => by
    simp only [exP, List.getD_eq_getElem?_getD, List.getElem?_map]
    cases r[j]? with
    | none => simp
    | some x => simpa using clamp_range x

example : ArgmaxOk exS := by
  intro r hr
  obtain ⟨x, hx, hmax⟩ : ∃ x ∈ r, ∀ y ∈ r, y ≤ x := by
    induction r with
    | nil => exact absurd rfl hr
    | cons a r ih =>
      by_cases h : r = []
      · subst h; exact ⟨a, by simp, by simp⟩
      · obtain ⟨x, hx, hm⟩ := ih h
        rcases le_total a x with h1 | h1
        · exact ⟨x, by simp [hx], by simpa using ⟨h1, hm⟩⟩
        · refine ⟨a, by simp, ?_⟩
          intro y hy
          rcases List.mem_cons.mp hy with rfl | hy
          · exact le_refl _
          · exact (hm y hy).trans h1
  have hlt : r.findIdx (fun x => r.all fun y => decide (y ≤ x)) < r.length :=
    List.findIdx_lt_length_of_exists ⟨x, hx, by simpa using hmax⟩
  refine ⟨_, List.getElem?_eq_getElem hlt, ?_⟩
  have := List.findIdx_getElem (w := hlt)
  simpa using this

def exShape : Shape := ⟨3, 3, 4, true⟩

/-- Three positions on a board of three of the four cells; the last one is padding. -/
def exRows : List (Row × Bool) :=
  [(⟨[1/2, 1/4, 1/4], [1, 5, 2, 9], [1, 1, 1, 0], [1, 0, 0], [0, 1, 0, 0]⟩, true),
   (⟨[1/4, 1/2, 1/4], [3, 1, 2, 9], [1, 1, 1, 0], [0, 0, 1], [0, 0, 1, 0]⟩, true),
   (⟨[1, 1, 1], [0, 0, 0, 0], [1, 1, 1, 1], [1, 1, 1], [0, 0, 0, 0]⟩, false)]

example : Accepts exShape true ∧ ∀ r ∈ exRows, RowOk exShape r.1 := by
  constructor
  · simp [Accepts, exShape]
  · simp [exRows, RowOk, exShape]

example : ∀ r ∈ realRows true exRows, TargetOk r := by
  intro r hr j
  simp [realRows, exRows] at hr
  rcases hr with rfl | rfl
  · rcases j with _ | _ | _ | j <;> simp
  · rcases j with _ | _ | _ | j <;> simp

/-- One best move of two is right, and the winning side of one of two. -/
example : (metricStats exP exS ("float32", "cpu") false (batchOf exShape true exRows)).toOption.map (fun l => l.map (·.1)) =
    some ["bestmove_acc", "top2move_acc", "top3move_acc", "drawrate_acc", "drawrate_mse", "winrate_acc", "winrate_mse"] := by decide +kernel
example : (metricStats exP exS ("float32", "cpu") false (batchOf exShape true exRows)).toOption.bind (fun l => (l.map (·.2))[0]?) =
    some (.sum ⟨.globalBatch, ⟨[], "float32", "cpu", [1]⟩, 2⟩) := by decide +kernel
example : (metricStats exP exS ("float32", "cpu") false (batchOf exShape true exRows)).toOption.bind (fun l => (l.map (·.2))[5]?) =
    some (.sum ⟨.globalBatch, ⟨[], "float32", "cpu", [1]⟩, 2⟩) := by decide +kernel

end Verif.Metric
