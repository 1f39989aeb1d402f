import Verif.Export.TablesLemmas
import Verif.Export.Props51
import Mathlib.Tactic.IntervalCases

/-
C52: the lookup-table exports enumerate every local pattern exactly once, at its own index.
-/
namespace Verif.Export

/-- A pattern of length `n`: `n` cells, each empty (0), own (1) or opponent (2). -/
def IsPattern (n : Nat) (p : List Nat) : Prop := p.length = n ∧ ∀ c ∈ p, c < 3

/-- The number whose base-3 digits, least significant first, are the cells of the pattern. -/
def base3Value : List Nat → Nat
  | [] => 0
  | c :: cs => c + 3 * base3Value cs

theorem base3Value_eq (p : List Nat) : base3Value p = ofDigits 3 p := by
  induction p with
  | nil => rfl
  | cons c cs ih => simp [base3Value, ofDigits, ih]

/-- **C52** (line patterns).  The enumeration has `3 ^ n` rows; the row at index `r` is the pattern
whose base-3 value is `r`; a list of cells occurs as a row exactly when it is a pattern of length
`n`, and then it occurs once. -/
theorem C52_line_patterns (n : Nat) :
    (base3Permutation n).length = 3 ^ n
    ∧ (∀ r (h : r < (base3Permutation n).length),
        IsPattern n (base3Permutation n)[r] ∧ base3Value (base3Permutation n)[r] = r)
    ∧ (∀ p, IsPattern n p → (base3Permutation n)[base3Value p]? = some p)
    ∧ (base3Permutation n).Nodup := by
  have he := base3Permutation_eq n
  have hrow : ∀ r (h : r < (base3Permutation n).length),
      IsPattern n (base3Permutation n)[r] ∧ base3Value (base3Permutation n)[r] = r := by
    rw [he]
    intro r h
    have hr : r < 3 ^ n := by simpa using h
    simp only [List.getElem_map, List.getElem_range]
    refine ⟨⟨by simp, ?_⟩, ?_⟩
    · intro c hc
      obtain ⟨j, -, rfl⟩ := List.mem_map.1 hc
      exact digit3_lt r j
    · rw [base3Value_eq, ofDigits_range_digit3 n r hr]
  refine ⟨by rw [he]; simp, hrow, ?_, ?_⟩
  · rintro p ⟨hl, hd⟩
    have hlt := ofDigits_lt 3 (by norm_num) p hd
    rw [hl] at hlt
    rw [base3Value_eq, he, List.getElem?_map, List.getElem?_range hlt]
    simp only [Option.map_some, Option.some.injEq]
    rw [← hl]; exact digit3_ofDigits p hd
  · rw [List.nodup_iff_injective_get]
    intro i j hij
    apply Fin.ext
    have h1 := (hrow i.1 i.2).2
    have h2 := (hrow j.1 j.2).2
    simp only [List.get_eq_getElem] at hij
    rw [← h1, ← h2, hij]

/-- **C52** (ladder patterns).  For every table index the ladder pattern has ten cells, and reading
them from the last to the first gives the base-3 digits of the index. -/
theorem C52_ladder_chunk (index : Nat) (h : index < 3 ^ 10) :
    IsPattern 10 (ladderChunk index) ∧ base3Value (ladderChunk index).reverse = index := by
  rw [ladderChunk_eq index h]
  refine ⟨⟨by simp, ?_⟩, ?_⟩
  · intro c hc
    obtain ⟨j, -, rfl⟩ := List.mem_map.1 hc
    exact digit3_lt _ _
  · rw [base3Value_eq]
    have : ((List.range 10).map fun i => digit3 index (9 - i)).reverse
        = (List.range 10).map (digit3 index) := by
      rfl
    rw [this, ofDigits_range_digit3 10 index h]

/-- Cells of the 4x4 square on or below the diagonal, row by row, as (row, column). -/
def triangleCells : List (Nat × Nat) :=
  (List.range 4).flatMap fun y => (List.range (y + 1)).map fun x => (y, x)

/-- **C52** (ladder inputs).  In the input built for a ten-cell pattern, the cell of the triangle
with number `i` carries a stone of colour `c` exactly when cell `i` of the pattern is `c + 1`; every
other cell of both planes is 0, and every entry is 0 or 1. -/
theorem C52_ladder_input (chunk : List Nat) (hp : IsPattern 10 chunk) :
    (∀ i (hi : i < 10) c, c < 2 →
        ladderInput chunk c (triangleCells.getD i (0, 0)).1 (triangleCells.getD i (0, 0)).2
          = if chunk.getD i 0 = c + 1 then 1 else 0)
    ∧ (∀ c y x, (y, x) ∉ triangleCells → ladderInput chunk c y x = 0) := by
  have htri : ∀ i, i < 10 → (lowerTriangle.getD i 0 / 4, lowerTriangle.getD i 0 % 4)
      = triangleCells.getD i (0, 0) := by decide
  have hinj : ∀ i, i < 10 → ∀ j, j < 10 → triangleCells.getD i (0, 0) = triangleCells.getD j (0, 0)
      → i = j := by decide
  constructor
  · intro i hi c hc
    unfold ladderInput
    rw [ladderInput_fold]
    congr 1
    apply propext
    constructor
    · rintro ⟨j, hj, h1, h2, h3⟩
      have : j = i := by
        apply hinj j hj i hi
        rw [← htri j hj, h2, h3]
      subst this; exact h1
    · intro h
      have := htri i hi
      exact ⟨i, hi, h, by rw [← this], by rw [← this]⟩
  · intro c y x hn
    unfold ladderInput
    rw [ladderInput_fold, if_neg]
    rintro ⟨j, hj, -, h2, h3⟩
    apply hn
    have hm : ∀ i, i < 10 → triangleCells.getD i (0, 0) ∈ triangleCells := by decide
    have := hm j hj
    rw [← htri j hj, h2, h3] at this
    exact this

/-- **C52** (rectangular patterns).  The input built for table index `idx` has a stone of colour `c`
at row `y`, column `x` exactly when base-3 digit number `y * width + x` of `idx` is `c + 1`, and is 0
outside the two planes and the rectangle. -/
theorem C52_rectangle_input (height width idx : Nat) :
    (∀ c y x, c < 2 → y < height → x < width →
        base3Input height width idx c y x
          = if idx / 3 ^ (y * width + x) % 3 = c + 1 then 1 else 0)
    ∧ (∀ c y x, ¬ (c < 2 ∧ y < height ∧ x < width) → base3Input height width idx c y x = 0) := by
  constructor
  · intro c y x hc hy hx
    unfold base3Input
    rw [base3_fold_planes width idx _ c y x hx ?_ hc]
    · rfl
    · calc y * width + x < y * width + width := by omega
        _ = (y + 1) * width := by ring
        _ ≤ height * width := Nat.mul_le_mul_right _ hy
  · intro c y x h
    rcases Nat.eq_zero_or_pos width with rfl | hw
    · simp [base3Input]
    · unfold base3Input
      apply base3_outside _ _ _ _ _ _ _ hw
      rintro ⟨hx, hk, hc⟩
      apply h
      refine ⟨hc, ?_, hx⟩
      by_contra hy
      have := Nat.mul_le_mul_right width (Nat.le_of_not_lt hy)
      omega

/-- **C52** (rectangular patterns are all distinct and complete): for every assignment of
empty/own/opponent to the cells there is exactly one table index below `3 ^ (height * width)` whose
input shows it. -/
theorem C52_rectangle_complete (height width : Nat) (cell : Nat → Nat → Nat)
    (hc : ∀ y x, cell y x < 3) :
    ∃ idx, idx < 3 ^ (height * width)
      ∧ (∀ c y x, c < 2 → y < height → x < width →
          base3Input height width idx c y x = if cell y x = c + 1 then 1 else 0)
      ∧ ∀ idx', idx' < 3 ^ (height * width) →
          (∀ c y x, c < 2 → y < height → x < width →
            base3Input height width idx' c y x = if cell y x = c + 1 then 1 else 0) → idx' = idx := by
  let p : List Nat := (List.range (height * width)).map fun i => cell (i / width) (i % width)
  have hp : ∀ d ∈ p, d < 3 := by
    intro d hd; obtain ⟨i, -, rfl⟩ := List.mem_map.1 hd; exact hc _ _
  have hlen : p.length = height * width := by simp [p]
  have hdig : ∀ y x, y < height → x < width → digit3 (ofDigits 3 p) (y * width + x) = cell y x := by
    intro y x hy hx
    have hlt : y * width + x < height * width := by
      calc y * width + x < y * width + width := by omega
        _ = (y + 1) * width := by ring
        _ ≤ height * width := Nat.mul_le_mul_right _ hy
    have := ofDigits_digit 3 (by norm_num) p hp (y * width + x) (by rw [hlen]; exact hlt)
    unfold digit3
    rw [this]
    simp only [p, List.getElem_map, List.getElem_range]
    rw [Nat.mul_comm, Nat.mul_add_div (by omega), Nat.div_eq_of_lt hx, Nat.add_zero,
      Nat.mul_add_mod, Nat.mod_eq_of_lt hx]
  have hlt := ofDigits_lt 3 (by norm_num) p hp
  rw [hlen] at hlt
  refine ⟨ofDigits 3 p, hlt, ?_, ?_⟩
  · intro c y x h1 h2 h3
    rw [(C52_rectangle_input height width _).1 c y x h1 h2 h3]
    have := hdig y x h2 h3
    unfold digit3 at this
    rw [this]
  · intro idx' hi hall
    rw [← ofDigits_range_digit3 _ _ hi, ← ofDigits_range_digit3 _ _ hlt]
    congr 1
    apply List.map_congr_left
    intro i hmem
    have hi2 := List.mem_range.1 hmem
    have hw : 0 < width := by
      rcases Nat.eq_zero_or_pos width with rfl | h
      · simp at hi2
      · exact h
    have hx : i % width < width := Nat.mod_lt _ hw
    have hy : i / width < height := by
      rw [Nat.div_lt_iff_lt_mul hw]; exact hi2
    have hi3 : i / width * width + i % width = i := by
      rw [Nat.mul_comm]; exact Nat.div_add_mod i width
    have e := hdig _ _ hy hx
    rw [hi3] at e
    rw [e]
    have h0 := hall 0 _ _ (by norm_num) hy hx
    have h1 := hall 1 _ _ (by norm_num) hy hx
    rw [(C52_rectangle_input height width _).1 _ _ _ (by norm_num) hy hx, hi3] at h0 h1
    have hd := digit3_lt idx' i
    have hcc := hc (i / width) (i % width)
    unfold digit3 at hd ⊢
    generalize idx' / 3 ^ i % 3 = d at *
    generalize cell (i / width) (i % width) = q at *
    interval_cases d <;> interval_cases q <;> simp_all

/-- **C52** (batched export).  Whatever the batch size, the exported table has one row per pattern
and row `i` is the network's output for the input of index `i`; both ways the exporters assemble the
table (concatenation, slice assignment) give the same table. -/
theorem C52_batched_table {α : Type} (mapping : Planes → α) (zero : α) (height width batch : Nat)
    (hb : 0 < batch) :
    let total := 3 ^ (height * width)
    let table := exportTable mapping height width total batch
    table.length = total
    ∧ (∀ i, i < total → table[i]? = some (mapping (base3Input height width i)))
    ∧ exportTableInPlace mapping zero height width total batch = table := by
  intro total table
  have h1 : table = _ := exportTable_eq mapping height width total batch hb
  refine ⟨by rw [h1]; simp, ?_, ?_⟩
  · intro i hi
    rw [h1, List.getElem?_map, List.getElem?_range hi]; rfl
  · rw [h1]; exact exportTableInPlace_eq mapping zero height width total batch hb

example : base3Permutation 2 =
    [[0, 0], [1, 0], [2, 0], [0, 1], [1, 1], [2, 1], [0, 2], [1, 2], [2, 2]] := by decide +kernel
example : ladderChunk 7 = [0, 0, 0, 0, 0, 0, 0, 0, 2, 1] := by decide +kernel
example : IsPattern 10 (ladderChunk 59048) ∧ ladderInput (ladderChunk 59048) 1 3 2 = 1
    ∧ ladderInput (ladderChunk 59048) 1 2 3 = 0 := by
  refine ⟨⟨?_, ?_⟩, ?_, ?_⟩ <;> decide +kernel
example : base3Input 3 4 (2 * 3 ^ 7) 1 1 3 = 1 ∧ base3Input 3 4 (2 * 3 ^ 7) 0 1 3 = 0 := by
  decide +kernel
example : (exportTable (fun p => p 0 0 0 + 10 * p 1 0 0) 1 2 (3 ^ 2) 4)
    = [0, 1, 10, 0, 1, 10, 0, 1, 10] := by decide +kernel

end Verif.Export
