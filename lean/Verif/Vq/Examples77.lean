import Verif.Vq.Props77b

/-! Concrete cases for C77: three ranks with shared encodings, padding rows and one rank that does not collect. -/

namespace Verif.Vq

/-- the feature of a line -/
def exF (e : Int) : List ℚ := [e, 2 * e]

def exRow (es : List Int) : List Entry := es.map (fun e => (e, exF e))

def exRanks : List EvalRank :=
  [ ⟨[exRow [5, 7], exRow [0, 0]], [true, false], true⟩,
    ⟨[exRow [7, 0], exRow [9, 5]], [true, true], true⟩,
    ⟨[exRow [3, 9], exRow [11, 5]], [true, false], false⟩ ]

/-- the hypotheses of `C77_each_once` and `C77_statistics` -/
example : (∀ r ∈ exRanks, r.WellFormed) ∧ FeatureOf exF exRanks := by
  constructor
  · intro r hr
    simp only [exRanks, List.mem_cons, List.not_mem_nil, or_false] at hr
    rcases hr with rfl | rfl | rfl <;> rfl
  · intro r _ row hrow e he
    have : ∃ es, row = exRow es := by
      rename_i hr
      simp only [exRanks, List.mem_cons, List.not_mem_nil, or_false] at hr
      rcases hr with rfl | rfl | rfl <;>
      · simp only [List.mem_cons, List.not_mem_nil, or_false] at hrow
        rcases hrow with rfl | rfl <;> exact ⟨_, rfl⟩
    obtain ⟨es, rfl⟩ := this
    obtain ⟨x, -, rfl⟩ := List.mem_map.1 he
    rfl

/-- the lines of this batch: 0 counts because rank 1 has it in a real row, 3 and 11 do not -/
example : lines exRanks = {0, 5, 7, 9} := by decide +kernel

/-- so the statistics count four vectors -/
example : ∃ outs, globalLayer true 1 [(⟨[[0], [6]], fun x => if x.getD 0 0 < 3 then 0 else 1, fun _ => [1, 0]⟩, 0),
      (⟨[[0], [6]], fun x => if x.getD 0 0 < 3 then 0 else 1, fun _ => [1, 0]⟩, 1)] exRanks = .ok outs ∧
    ∃ stats : List EvalStats, outs.map (fun o => o.2[1]?) = stats.map some ∧ (stats.map EvalStats.vectors).sum = 4 := by
  have hw : ∀ r ∈ exRanks, r.WellFormed := by
    intro r hr
    simp only [exRanks, List.mem_cons, List.not_mem_nil, or_false] at hr
    rcases hr with rfl | rfl | rfl <;> rfl
  have hf : FeatureOf exF exRanks := by
    intro r hr row hrow e he
    have : ∃ es, row = exRow es := by
      simp only [exRanks, List.mem_cons, List.not_mem_nil, or_false] at hr
      rcases hr with rfl | rfl | rfl <;>
      · simp only [List.mem_cons, List.not_mem_nil, or_false] at hrow
        rcases hrow with rfl | rfl <;> exact ⟨_, rfl⟩
    obtain ⟨es, rfl⟩ := this
    obtain ⟨x, -, rfl⟩ := List.mem_map.1 he
    rfl
  obtain ⟨outs, h1, -, -, h4⟩ := C77_statistics true 1 _ exRanks (Or.inl rfl) hw exF hf
  refine ⟨outs, h1, ?_⟩
  obtain ⟨stats, h5, -, -, h6, -⟩ := h4 1 _ _ rfl
  refine ⟨stats, h5, ?_⟩
  rw [h6]
  decide +kernel

/-- a batch with a missing flag is refused on its rank -/
example : (EvalRank.uniq ⟨[exRow [5, 7], exRow [0, 0]], [true], true⟩).toOption.isNone = true := rfl

end Verif.Vq
