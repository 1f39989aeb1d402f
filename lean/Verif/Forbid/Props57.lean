import Verif.Forbid.Rules

/-
C57: forbidden-point flags.  The search places stones on the shared board and takes them back; its
answers are exactly the renju rule of `Spec.lean`, whatever the position, the order of queries and the
nesting depth; the board is unchanged afterwards; no access leaves the array.
-/
namespace Verif.Forbid

/-- One query. -/
theorem isForbidden_eq {W H : Nat} (D : Grid → Pt → Prop) (hD : Reading W H D) (fuel : Nat)
    {b : Cells} (c : Ctx W H b) (hf : empties W H (gridOf b) < fuel) {p : Pt} (hp : OnBoard W H p) :
    ∃ t, isForbidden fuel b (makePos p.1 p.2) = some (t, b)
      ∧ (t ≠ .none ↔ ForbiddenBy D (gridOf b) p) := by
  unfold isForbidden ForbiddenBy
  obtain ⟨t, ht, hT⟩ := isDoubleThree_answers D hD fuel c hf hp
  obtain ⟨f, hf, hF⟩ := isDoubleFour_answers c hp
  obtain ⟨o, ho, hO⟩ := isOverline_says c hp
  rw [ht]
  simp only [Option.bind_eq_bind, Option.bind_some, hf, ho]
  rw [← hT, ← hF, ← hO]
  cases t <;> cases f <;> cases o <;> simp

theorem newBoard_grid (W H : Nat) (hW : W ≤ 22) (hH : H ≤ 22) (p : Pt) :
    gridOf (newBoard W H) p = if 0 ≤ p.1 ∧ p.1 < W ∧ 0 ≤ p.2 ∧ p.2 < H then .empty else .wall := by
  unfold gridOf newBoard
  by_cases h : -5 ≤ p.1 ∧ p.1 < 27 ∧ -5 ≤ p.2 ∧ p.2 < 27
  · rw [if_pos h]
    have e1 : coordX (makePos p.1 p.2).toNat = p.1 := by unfold coordX makePos; omega
    have e2 : coordY (makePos p.1 p.2).toNat = p.2 := by unfold coordY makePos; omega
    rw [e1, e2]
  · rw [if_neg h, if_neg (by omega)]

theorem newBoard_ctx (W H : Nat) (hW : W ≤ 22) (hH : H ≤ 22) : Ctx W H (newBoard W H) := by
  refine ⟨hW, hH, ?_⟩
  intro p
  rw [newBoard_grid W H hW hH]
  unfold OnBoard
  split_ifs with h
  · simp [h]
  · simp [h]

theorem placeStones_eq {W H : Nat} (black white : Nat → Nat → Bool) (ps : List (Nat × Nat)) {b : Cells}
    (c : Ctx W H b) (hps : ∀ q ∈ ps, q.1 < H ∧ q.2 < W) :
    ∃ b', placeStones black white ps b = some b' ∧ Ctx W H b' ∧
      ∀ p, gridOf b' p = if (∃ q ∈ ps, p = ((q.2 : Int), (q.1 : Int)))
          ∧ inputGrid H W black white p ≠ .empty then inputGrid H W black white p else gridOf b p := by
  induction ps generalizing b with
  | nil => exact ⟨b, rfl, c, by simp⟩
  | cons q ps ih =>
      obtain ⟨y, x⟩ := q
      have hq := hps (y, x) (by simp)
      simp only at hq
      have hon : OnBoard W H ((x : Int), (y : Int)) := by unfold OnBoard; simp only; omega
      have hin : inputGrid H W black white ((x : Int), (y : Int))
          = if black y x then .black else if white y x then .white else .empty := by
        unfold inputGrid
        rw [if_pos (by simp only; omega)]
        simp
      unfold placeStones
      simp only
      by_cases he : (if black y x then Color.black else if white y x then .white else .empty) = .empty
      · rw [if_neg (by simpa using he)]
        simp only [Option.bind_eq_bind, Option.bind_some]
        obtain ⟨b', h1, h2, h3⟩ := ih c (fun q hq => hps q (by simp [hq]))
        refine ⟨b', h1, h2, ?_⟩
        intro p
        rw [h3 p]
        by_cases hp : p = ((x : Int), (y : Int))
        · subst hp
          rw [hin, he]; simp
        · have : (∃ q ∈ (y, x) :: ps, p = ((q.2 : Int), (q.1 : Int)))
              ↔ ∃ q ∈ ps, p = ((q.2 : Int), (q.1 : Int)) := by
            simp only [List.mem_cons, exists_eq_or_imp]
            simp [hp]
          simp only [this]
      · rw [if_pos he]
        rw [set_eq c hon]
        simp only [Option.bind_eq_bind, Option.bind_some]
        have hv : (if black y x then Color.black else if white y x then .white else .empty) ≠ .wall := by
          split_ifs <;> decide
        obtain ⟨b', h1, h2, h3⟩ := ih (c.upd hon _ hv) (fun q hq => hps q (by simp [hq]))
        refine ⟨b', h1, h2, ?_⟩
        intro p
        rw [h3 p, gridOf_upd b _ p _ (onBoard_sq W H c.hW c.hH _ hon)]
        by_cases hp : p = ((x : Int), (y : Int))
        · subst hp
          have hex : (∃ q ∈ (y, x) :: ps, (((x : Int), (y : Int)) : Pt) = ((q.2 : Int), (q.1 : Int)))
              ∧ inputGrid H W black white ((x : Int), (y : Int)) ≠ .empty :=
            ⟨⟨(y, x), by simp, rfl⟩, by rw [hin]; exact he⟩
          rw [if_pos rfl, if_pos hex, ← hin]
          simp only [ite_self]
        · have : (∃ q ∈ (y, x) :: ps, p = ((q.2 : Int), (q.1 : Int)))
              ↔ ∃ q ∈ ps, p = ((q.2 : Int), (q.1 : Int)) := by
            simp only [List.mem_cons, exists_eq_or_imp]
            simp [hp]
          simp only [this, if_neg hp]

theorem mem_cellList (H W : Nat) (q : Nat × Nat) : q ∈ cellList H W ↔ q.1 < H ∧ q.2 < W := by
  obtain ⟨y, x⟩ := q
  simp [cellList]

theorem length_cellList (H W : Nat) : (cellList H W).length = H * W := by
  induction H with
  | zero => simp [cellList]
  | succ H ih =>
      have : cellList (H + 1) W = cellList H W ++ (List.range W).map fun x => (H, x) := by
        simp [cellList, List.range_succ]
      rw [this, List.length_append, ih]
      simp [Nat.succ_mul]

theorem getElem_cellList (H W y x : Nat) (hy : y < H) (hx : x < W) :
    (cellList H W)[y * W + x]? = some (y, x) := by
  induction H with
  | zero => omega
  | succ H ih =>
      have : cellList (H + 1) W = cellList H W ++ (List.range W).map fun x => (H, x) := by
        simp [cellList, List.range_succ]
      rw [this]
      rcases Nat.lt_or_ge y H with h | h
      · have hle : y * W + x < H * W := by
          have : (y + 1) * W ≤ H * W := Nat.mul_le_mul_right _ h
          rw [Nat.add_mul, Nat.one_mul] at this
          omega
        rw [List.getElem?_append_left (by rw [length_cellList]; exact hle)]
        exact ih h
      · have : y = H := by omega
        subst this
        rw [List.getElem?_append_right (by rw [length_cellList]; omega), length_cellList]
        have e : y * W + x - y * W = x := by omega
        rw [e, List.getElem?_map, List.getElem?_range hx]
        rfl

/-- The array the transform builds represents the input. -/
theorem built_board (H W : Nat) (hH : H ≤ 22) (hW : W ≤ 22) (black white : Nat → Nat → Bool) :
    ∃ b, placeStones black white (cellList H W) (newBoard W H) = some b ∧ Ctx W H b
      ∧ gridOf b = inputGrid H W black white := by
  obtain ⟨b, h1, h2, h3⟩ := placeStones_eq black white (cellList H W) (newBoard_ctx W H hW hH)
    (fun q hq => (mem_cellList H W q).1 hq)
  refine ⟨b, h1, h2, ?_⟩
  funext p
  rw [h3 p, newBoard_grid W H hW hH]
  by_cases hp : 0 ≤ p.1 ∧ p.1 < W ∧ 0 ≤ p.2 ∧ p.2 < H
  · have hex : ∃ q ∈ cellList H W, p = ((q.2 : Int), (q.1 : Int)) :=
      ⟨(p.2.toNat, p.1.toNat), (mem_cellList _ _ _).2 ⟨by simp only; omega, by simp only; omega⟩,
        by apply Prod.ext <;> simp only <;> omega⟩
    by_cases he : inputGrid H W black white p = .empty
    · rw [if_neg (by simp [he]), if_pos hp, he]
    · rw [if_pos ⟨hex, he⟩]
  · rw [if_neg hp]
    have hno : ¬∃ q ∈ cellList H W, p = ((q.2 : Int), (q.1 : Int)) := by
      rintro ⟨q, hq, rfl⟩
      rw [mem_cellList] at hq
      simp only at hp
      omega
    rw [if_neg (fun h => hno h.1)]
    unfold inputGrid
    rw [if_neg hp]

/-- **C57** (queries do not change the board).  Take any board array with walls exactly outside a
`W × H` board (`W, H ≤ 22`), any nesting depth above the number of empty cells, and any sequence of
queries on cells of the board, with repetitions and in any order.  No query leaves the array or trips an
assertion, the board at the end is the board at the start, and every answer is the answer of the rule on
that board. -/
theorem C57_queries_pure {W H : Nat} (D : Grid → Pt → Prop) (hD : Reading W H D) (fuel : Nat)
    {b : Cells} (c : Ctx W H b) (hf : empties W H (gridOf b) < fuel) (ps : List (Nat × Nat))
    (hps : ∀ q ∈ ps, q.1 < H ∧ q.2 < W) :
    ∃ flags, queryAll fuel ps b = some (flags, b) ∧ flags.length = ps.length ∧
      ∀ (i : Nat) (q : Nat × Nat), ps[i]? = some q → ∃ v, flags[i]? = some v
        ∧ (v = true ↔ ForbiddenBy D (gridOf b) ((q.2 : Int), (q.1 : Int))) := by
  induction ps with
  | nil => exact ⟨[], rfl, rfl, by simp⟩
  | cons q ps ih =>
      obtain ⟨y, x⟩ := q
      have hq := hps (y, x) (by simp)
      simp only at hq
      have hon : OnBoard W H ((x : Int), (y : Int)) := by unfold OnBoard; simp only; omega
      obtain ⟨t, h1, h2⟩ := isForbidden_eq D hD fuel c hf hon
      obtain ⟨flags, h3, h4, h5⟩ := ih (fun q hq => hps q (by simp [hq]))
      refine ⟨decide (t ≠ .none) :: flags, ?_, by simp [h4], ?_⟩
      · unfold queryAll
        simp only at h1
        rw [h1]
        simp only [Option.bind_eq_bind, Option.bind_some, h3]
      · intro i q hi
        cases i with
        | zero =>
            simp only [List.getElem?_cons_zero, Option.some.injEq] at hi
            subst hi
            exact ⟨_, rfl, by simpa using h2⟩
        | succ i =>
            simp only [List.getElem?_cons_succ] at hi ⊢
            exact h5 i q hi

/-- **C57** (flags).  For every input position of at most `22 × 22` the transform is defined — no access
outside the array, no assertion, recursion no deeper than the number of cells — and flags exactly the
points that are a double three, a double four or an overline for black.  The double-three rule refers to
itself after further moves; `D` is any predicate obeying it (`C57_rule_determined`: there is exactly
one).  Larger boards are rejected. -/
theorem C57_flags (H W fuel : Nat) (black white : Nat → Nat → Bool) (D : Grid → Pt → Prop)
    (hD : Reading W H D) (hfuel : H * W < fuel) :
    (H > 22 ∨ W > 22 → transform fuel H W black white = none) ∧
    (H ≤ 22 → W ≤ 22 → ∃ flags, transform fuel H W black white = some (some flags)
      ∧ flags.length = H * W
      ∧ ∀ y x, y < H → x < W → ∃ v, flags[y * W + x]? = some v
          ∧ (v = true ↔ ForbiddenBy D (inputGrid H W black white) ((x : Int), (y : Int)))) := by
  constructor
  · intro h
    unfold transform
    rw [if_pos h]
  · intro hH hW
    unfold transform
    rw [if_neg (by omega)]
    obtain ⟨b, h1, c, hg⟩ := built_board H W hH hW black white
    have hle := empties_le W H (gridOf b)
    rw [Nat.mul_comm] at hle
    obtain ⟨flags, h2, h3, h4⟩ := C57_queries_pure D hD fuel c (by omega) (cellList H W)
      (fun q hq => (mem_cellList H W q).1 hq)
    refine ⟨flags, ?_, by rw [h3, length_cellList], ?_⟩
    · simp only [h1, Option.bind_eq_bind, Option.bind_some, h2]
    · intro y x hy hx
      rw [← hg]
      exact h4 _ _ (getElem_cellList H W y x hy hx)

/-- **C57** (the rule is well defined).  On boards of a given size exactly one predicate obeys the
recursive double-three rule. -/
theorem C57_rule_determined (W H : Nat) :
    (∃ D, Reading W H D) ∧ ∀ D D', Reading W H D → Reading W H D' →
      ∀ g, IsBoard W H g → ∀ p, D g p ↔ D' g p :=
  ⟨reading_exists W H, fun D D' hD hD' g hg p => reading_unique W H D D' hD hD' g hg p⟩

theorem inputGrid_board (H W : Nat) (black white : Nat → Nat → Bool) :
    IsBoard W H (inputGrid H W black white) := by
  intro p
  unfold inputGrid OnBoard
  split_ifs with h <;> simp [h]

/-- **C57** (only empty cells).  A flagged cell carries no stone. -/
theorem C57_only_empty (H W fuel : Nat) (black white : Nat → Nat → Bool) (flags : List Bool)
    (hfuel : H * W < fuel) (h : transform fuel H W black white = some (some flags)) (y x : Nat)
    (hy : y < H) (hx : x < W) (hf : flags[y * W + x]? = some true) :
    black y x = false ∧ white y x = false := by
  obtain ⟨D, hD⟩ := reading_exists W H
  have hH : H ≤ 22 ∧ W ≤ 22 := by
    by_contra hn
    have := (C57_flags H W fuel black white D hD hfuel).1 (by omega)
    rw [this] at h
    exact absurd h (by simp)
  obtain ⟨flags', h1, -, h2⟩ := (C57_flags H W fuel black white D hD hfuel).2 hH.1 hH.2
  rw [h] at h1
  simp only [Option.some.injEq] at h1
  subst h1
  obtain ⟨v, hv, hP⟩ := h2 y x hy hx
  rw [hf] at hv
  simp only [Option.some.injEq] at hv
  have hfb := hP.1 hv.symm
  have he : inputGrid H W black white ((x : Int), (y : Int)) = .empty := by
    rcases hfb with h | h | h
    · exact ((hD _ (inputGrid_board H W black white) _).1 h).1
    · exact h.1
    · exact h.1
  unfold inputGrid at he
  rw [if_pos (by simp only; omega)] at he
  simp only [Int.toNat_natCast] at he
  cases hb : black y x
  · cases hw : white y x
    · exact ⟨rfl, rfl⟩
    · simp [hb, hw] at he
  · simp [hb] at he

/-- **C57** (depth does not matter).  Any two nesting bounds above the number of cells give the same
flags. -/
theorem C57_terminates (H W fuel fuel' : Nat) (black white : Nat → Nat → Bool)
    (h : H * W < fuel) (h' : H * W < fuel') :
    transform fuel H W black white = transform fuel' H W black white := by
  obtain ⟨D, hD⟩ := reading_exists W H
  by_cases hs : H > 22 ∨ W > 22
  · rw [(C57_flags H W fuel black white D hD h).1 hs, (C57_flags H W fuel' black white D hD h').1 hs]
  · obtain ⟨f, h1, h2, h3⟩ := (C57_flags H W fuel black white D hD h).2 (by omega) (by omega)
    obtain ⟨f', h1', h2', h3'⟩ := (C57_flags H W fuel' black white D hD h').2 (by omega) (by omega)
    rw [h1, h1']
    congr 2
    apply List.ext_getElem?
    intro i
    rcases Nat.lt_or_ge i (H * W) with hi | hi
    · have hW : 0 < W := by
        rcases Nat.eq_zero_or_pos W with h0 | h0
        · subst h0; simp at hi
        · exact h0
      have hy : i / W < H := Nat.div_lt_of_lt_mul (by rw [Nat.mul_comm]; exact hi)
      have hx : i % W < W := Nat.mod_lt _ hW
      have e : i / W * W + i % W = i := by rw [Nat.mul_comm]; exact Nat.div_add_mod i W
      obtain ⟨v, hv, hP⟩ := h3 _ _ hy hx
      obtain ⟨v', hv', hP'⟩ := h3' _ _ hy hx
      rw [e] at hv hv'
      rw [hv, hv']
      congr 1
      rw [Bool.eq_iff_iff, hP, hP']
    · rw [List.getElem?_eq_none (by omega), List.getElem?_eq_none (by omega)]

/-- **C57** (side to move).  The pipeline hands black's stones to the transform as the first channel:
whether the channels are fixed (black, white) or ordered (side to move, opponent), with `stm_input`
negative exactly when black is to move. -/
theorem C57_black_first (fixedSideInput : Bool) (blackToMove : Bool) (stm : Int)
    (hstm : stm < 0 ↔ blackToMove = true) (black white ch0 ch1 : Nat → Nat → Bool)
    (h : (ch0, ch1) = if fixedSideInput || blackToMove then (black, white) else (white, black)) :
    pipelineChannels fixedSideInput stm ch0 ch1 = (black, white) := by
  unfold pipelineChannels
  cases fixedSideInput <;> cases blackToMove <;> simp_all

/-! ### A five that is also an overline -/

/-- Column of black stones at `x = 5` (rows 0–4 and 6) crossing a row of four at `y = 5`. -/
def crossBlack (y x : Nat) : Bool := (x == 5 && y != 5 && decide (y ≤ 6)) || (y == 5 && decide (1 ≤ x ∧ x ≤ 4))

/-- **C57** (finding).  A move that makes exactly five in one direction and an overline in another is
flagged as forbidden, although the five wins: the overline test does not look for a five first. -/
theorem C57_five_and_overline :
    Five (inputGrid 8 8 crossBlack (fun _ _ => false)) (5, 5)
    ∧ ∀ D, ForbiddenBy D (inputGrid 8 8 crossBlack (fun _ _ => false)) (5, 5) := by
  have col : Row (inputGrid 8 8 crossBlack (fun _ _ => false)) (5, 5) (0, 1) 5 1 := by
    refine ⟨⟨?_, by decide⟩, ?_, by decide⟩
    · intro i h1 h2
      have : i = 1 ∨ i = 2 ∨ i = 3 ∨ i = 4 ∨ i = 5 := by omega
      rcases this with rfl | rfl | rfl | rfl | rfl <;> decide
    · intro i h1 h2
      have : i = 1 := by omega
      subst this; decide
  have row : Row (inputGrid 8 8 crossBlack (fun _ _ => false)) (5, 5) (1, 0) 4 0 := by
    refine ⟨⟨?_, by decide⟩, ?_, by decide⟩
    · intro i h1 h2
      have : i = 1 ∨ i = 2 ∨ i = 3 ∨ i = 4 := by omega
      rcases this with rfl | rfl | rfl | rfl <;> decide
    · intro i h1 h2; omega
  refine ⟨⟨(1, 0), by decide, 4, 0, row, rfl⟩, ?_⟩
  intro D
  exact Or.inr (Or.inr ⟨by decide, (0, 1), by decide, 5, 1, col, by decide⟩)

/-- Non-vacuity: a double three (two crossing twos), a double four, and a point that is neither. -/
example :
    ((placeStones (fun y x => (y == 4 && (x == 3 || x == 5)) || (x == 4 && (y == 3 || y == 5)))
        (fun _ _ => false) (cellList 9 9) (newBoard 9 9)).bind fun b =>
      ((isForbidden 82 b (makePos 4 4)).bind fun r =>
        (isForbidden 82 b (makePos 0 0)).map fun s => (r.1, s.1)))
      = some (.doubleThree, .none) := by decide +kernel

end Verif.Forbid
