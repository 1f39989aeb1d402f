import Verif.Search.Replay
import Verif.Search.Props81c
import Mathlib.Tactic.NormNum

/-! Non-vacuity of C81. -/

namespace Verif.Search.Examples81

/-- a supported table: 16384 codes on a line in 32 dimensions -/
def table : List Vec := (List.range 16384).map (fun (k : Nat) => [(k : ℚ)])

def query : Vec := [5]

theorem table_length : table.length = 16384 := by simp [table]

theorem score (j : Nat) (hj : j < 16384) : trueScore false 32 table query j = (5 - (j : ℚ)) ^ 2 := by
  have h : table.getD j [] = [(j : ℚ)] := by
    unfold table
    rw [List.getD_eq_getElem?_getD]
    simp [hj]
  unfold trueScore
  rw [h]
  have hr : List.range 32 = 0 :: (List.range 31).map (· + 1) := by decide
  rw [if_neg (by decide), hr, List.map_cons, List.sum_cons, List.map_map]
  have hz : (List.range 31).map ((fun i => (coord query i - coord [(j : ℚ)] i) ^ 2) ∘ (· + 1)) = List.replicate 31 0 := by
    rw [List.eq_replicate_iff]
    refine ⟨by simp, ?_⟩
    intro q hq
    obtain ⟨i, -, rfl⟩ := List.mem_map.1 hq
    simp [coord, query]
  rw [hz]
  simp [coord, query]

theorem near5 : Near table.length (trueScore false 32 table query) 5 := by
  rw [table_length]
  refine ⟨by decide, fun j hj => ?_⟩
  rw [score 5 (by decide), score j hj]
  rcases Nat.lt_trichotomy j 5 with h | h | h
  · left
    have : (j : ℚ) < 5 := by exact_mod_cast h
    have h2 : 0 < (5 - (j : ℚ)) := by linarith
    have := pow_pos h2 2
    norm_num
    linarith
  · right; subst h; exact ⟨rfl, le_refl _⟩
  · left
    have : (5 : ℚ) < j := by exact_mod_cast h
    have h2 : 0 < ((j : ℚ) - 5) := by linarith
    have := mul_pos h2 h2
    norm_num
    nlinarith

/-- the fast search applies to this table … -/
example : supportsL2 true 4096 32 table.length 32 = true := by rw [table_length]; decide

/-- … and finds the nearest code (with exact operands) -/
example : search true false id true 4096 32 32 table query = 5 := by
  apply C81_exact true false id 0 (le_refl _) (by intro q; simp) true 4096 32 32 table query 5 near5 0
  · intro j _
    unfold roundingError
    simp
  · have : (Finset.range table.length).filter (fun j => j / tileSize false 32 = 5 / tileSize false 32 ∧ j ≠ 5 ∧
        trueScore false 32 table query j ≤ trueScore false 32 table query 5 + 2 * 0) = ∅ := by
      rw [Finset.filter_eq_empty_iff]
      rintro j hj ⟨-, h1, h2⟩
      rw [Finset.mem_range] at hj
      rcases near5.2 j hj with h | ⟨h, -⟩
      · linarith
      · rw [table_length] at hj
        rw [score 5 (by decide), score j hj] at h
        have h3 : (5 - (j : ℚ)) ^ 2 = 0 := by rw [← h]; norm_num
        have h4 : 5 - (j : ℚ) = 0 := by simpa using h3
        have h5 : (j : ℚ) = 5 := by linarith
        exact h1 (by exact_mod_cast h5)
    rw [this]
    decide

/-- small kernels -/
example : pick 3 [3, 1, 2, 1] = [1, 3, 2] := by decide +kernel

example : candidates (fun k => ([5, 1, 2, 0, 7, 7, 3, 9] : List ℚ).getD k 0) 4 2 2 = [3, 1, 6, 4] := by decide +kernel

/-- the coarse scores put two worse codes before the nearest: with two kept codes it is lost, so the bound on near ties is needed -/
example : tileSearch (fun k => ([0, 1, 2, 3] : List ℚ).getD k 0) (fun k => ([5, 4, 1, 9] : List ℚ).getD k 0) 4 1 = 1 := by
  decide +kernel

example : exactSearchOrdered (fun k => ([5, 4, 1, 9, 1, 1] : List ℚ).getD k 0) (fun k => ([5, 4, 1, 9, 1, 1] : List ℚ).getD k 0) 2
    [1, 0, 5, 2, 4, 3] = 2 := by decide +kernel

example : cosineReduce (fun k => ([5, 4, 1, 9, 1, 1] : List ℚ).getD k 0) (fun k => - ([5, 4, 1, 9, 1, 1] : List ℚ).getD k 0) 2
    [1, 0, 5, 2, 4, 3] = 2 := by decide +kernel

/-- the hypotheses of the replay theorem hold of a two-tile shortlist -/
example := C81_replay (fun k => (k : ℚ)) (fun k => (k : ℚ)) (fun k => -(k : ℚ)) 4 2 2 2 (by decide) (by decide) (by decide) (by decide)
  (by decide) (by decide) (by decide)

end Verif.Search.Examples81
