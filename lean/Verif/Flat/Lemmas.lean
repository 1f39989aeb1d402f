import Verif.Flat.Model
import Verif.Flat.Spec
import Verif.Quant.Lemmas
import Verif.Quant.Sim
import Mathlib.Tactic.IntervalCases
import Mathlib.Tactic.SplitIfs
import Mathlib.Data.List.GetD

namespace Verif.Flat

open Verif.Export (roundEven)
open Verif.Quant (clampQ clampZ fakeQuant Vec Lin ILin linear)
open Finset

/-! ### Base-3 digits -/

theorem digit_sum (n : Nat) (d : Nat → Nat) (hd : ∀ i < n, d i < 3) :
    (∑ i ∈ range n, d i * 3 ^ i) < 3 ^ n ∧
      ∀ i < n, (∑ j ∈ range n, d j * 3 ^ j) / 3 ^ i % 3 = d i := by
  induction n with
  | zero => simp
  | succ n ih =>
    obtain ⟨h1, h2⟩ := ih fun i hi => hd i (by omega)
    have hn := hd n (by omega)
    rw [sum_range_succ]
    constructor
    · rw [pow_succ]
      nlinarith [Nat.mul_le_mul_right (3 ^ n) (Nat.le_of_lt_succ hn)]
    · intro i hi
      rcases Nat.lt_succ_iff_lt_or_eq.mp hi with h | h
      · have e : d n * 3 ^ n = 3 ^ i * (3 * (d n * 3 ^ (n - i - 1))) := by
          have : 3 ^ n = 3 ^ i * (3 * 3 ^ (n - i - 1)) := by
            rw [← pow_succ', ← pow_add]; congr 1; omega
          rw [this]; ring
        rw [e, Nat.add_mul_div_left _ _ (by positivity), Nat.add_mul_mod_self_left]
        exact h2 i h
      · subst h
        rw [Nat.add_mul_div_right _ _ (by positivity), Nat.div_eq_of_lt h1, Nat.zero_add,
          Nat.mod_eq_of_lt hn]

theorem rectNumber_eq (h w : Nat) (b : Board) :
    Engine.rectNumber h w b = ∑ i ∈ range (h * w), b (i / w) (i % w) * 3 ^ i := by
  unfold Engine.rectNumber
  induction h with
  | zero => simp
  | succ h ih =>
    rw [sum_range_succ, ih, Nat.succ_mul, sum_range_add]
    congr 1
    refine sum_congr rfl fun x hx => ?_
    have hx := mem_range.mp hx
    have hw : 0 < w := by omega
    have e1 : (h * w + x) / w = h := by
      rw [Nat.mul_comm, Nat.mul_add_div hw, Nat.div_eq_of_lt hx, Nat.add_zero]
    have e2 : (h * w + x) % w = x := by
      rw [Nat.mul_comm, Nat.mul_add_mod, Nat.mod_eq_of_lt hx]
    rw [e1, e2]

/-- All cells of the rectangle hold 0, 1 or 2. -/
def Cells (h w : Nat) (b : Board) : Prop := ∀ y < h, ∀ x < w, b y x < 3

theorem rect_digit (h w : Nat) (b : Board) (hb : Cells h w b) (y x : Nat) (hy : y < h) (hx : x < w) :
    Engine.rectNumber h w b / 3 ^ (y * w + x) % 3 = b y x := by
  have hw : 0 < w := by omega
  have hlt : y * w + x < h * w := by
    have : (y + 1) * w ≤ h * w := Nat.mul_le_mul_right _ hy
    rw [Nat.succ_mul] at this
    omega
  rw [rectNumber_eq]
  have := (digit_sum (h * w) (fun i => b (i / w) (i % w)) fun i hi =>
    hb _ (Nat.div_lt_of_lt_mul (by rwa [Nat.mul_comm])) _ (Nat.mod_lt _ hw)).2 (y * w + x) hlt
  rw [this]
  have e1 : (y * w + x) / w = y := by
    rw [Nat.mul_comm, Nat.mul_add_div hw, Nat.div_eq_of_lt hx, Nat.add_zero]
  have e2 : (y * w + x) % w = x := by
    rw [Nat.mul_comm, Nat.mul_add_mod, Nat.mod_eq_of_lt hx]
  simp only [e1, e2]

theorem rect_lt (h w : Nat) (b : Board) (hb : Cells h w b) :
    Engine.rectNumber h w b < 3 ^ (h * w) := by
  rcases Nat.eq_zero_or_pos w with hw | hw
  · subst hw
    rw [rectNumber_eq]; simp
  rw [rectNumber_eq]
  exact (digit_sum (h * w) (fun i => b (i / w) (i % w)) fun i hi =>
    hb _ (Nat.div_lt_of_lt_mul (by rwa [Nat.mul_comm])) _ (Nat.mod_lt _ hw)).1

/-- Two grids agree on `h` by `w` points and the first two channels. -/
def Agree (h w : Nat) (g g' : Grid) : Prop := ∀ y < h, ∀ x < w, ∀ c < 2, g.at_ y x c = g'.at_ y x c

/-- The planes of any board. -/
def boardGrid (b : Board) : Nat → Nat → Vec := fun y x c => if b y x = c + 1 then 1 else 0

theorem base3Input_at (h w : Nat) (b : Board) (hb : Cells h w b) (y x c : Nat) (hy : y < h) (hx : x < w) :
    (base3Input h w (Engine.rectNumber h w b)).at_ y x c = boardGrid b y x c := by
  have hw : 0 < w := by omega
  unfold base3Input boardGrid
  simp only
  have hd := rect_digit h w b hb y x hy hx
  have key : ((List.range (h * w)).any fun i =>
        decide (i / w = y ∧ i % w = x ∧ Engine.rectNumber h w b / 3 ^ i % 3 = c + 1)) = true
      ↔ b y x = c + 1 := by
    rw [List.any_eq_true]
    constructor
    · rintro ⟨i, _, hi⟩
      obtain ⟨h1, h2, h3⟩ := of_decide_eq_true hi
      have e : i = y * w + x := by
        rw [← h1, ← h2, Nat.mul_comm]; exact (Nat.div_add_mod i w).symm
      rw [e, hd] at h3
      exact h3
    · intro hc
      refine ⟨y * w + x, ?_, ?_⟩
      · rw [List.mem_range]
        have : (y + 1) * w ≤ h * w := Nat.mul_le_mul_right _ hy
        rw [Nat.succ_mul] at this
        omega
      · refine decide_eq_true ⟨?_, ?_, ?_⟩
        · rw [Nat.mul_comm, Nat.mul_add_div hw, Nat.div_eq_of_lt hx, Nat.add_zero]
        · rw [Nat.mul_comm, Nat.mul_add_mod, Nat.mod_eq_of_lt hx]
        · rw [hd]; exact hc
  simp only [key]

/-! ### The ladder index -/

theorem remainders_getD (i k : Nat) : (remainders i).getD k 0 = i / 3 ^ k % 3 := by
  induction i using Nat.strongRecOn generalizing k with
  | ind i ih =>
    rw [remainders]
    split_ifs with h
    · cases k with
      | zero => simp
      | succ k =>
        simp only [List.getD_cons_succ, List.getD_nil]
        have : i / 3 ^ (k + 1) = 0 := by
          rw [pow_succ', ← Nat.div_div_eq_div_mul, h, Nat.zero_div]
        rw [this]
    · cases k with
      | zero => simp
      | succ k =>
        rw [List.getD_cons_succ, ih _ (by omega), Nat.div_div_eq_div_mul, ← pow_succ']

theorem remainders_length (i n : Nat) (hn : 0 < n) (h : i < 3 ^ n) : (remainders i).length ≤ n := by
  induction n generalizing i with
  | zero => omega
  | succ n ih =>
    rw [remainders]
    split_ifs with h0
    · simp
    · rw [List.length_cons]
      have h3 : i / 3 < 3 ^ n := by
        rw [Nat.div_lt_iff_lt_mul (by norm_num), ← pow_succ]; exact h
      rcases Nat.eq_zero_or_pos n with hz | hz
      · subst hz; simp at h3; omega
      · have := ih (i / 3) hz h3; omega

theorem chunk_getD (i j : Nat) (h : i < 3 ^ 10) (hj : j < 10) :
    (indexToLadderChunk i).getD j 0 = i / 3 ^ (9 - j) % 3 := by
  have hl := remainders_length i 10 (by norm_num) h
  rw [← remainders_getD]
  unfold indexToLadderChunk
  simp only [List.length_reverse]
  obtain ⟨L, hL⟩ : ∃ L, L = remainders i := ⟨_, rfl⟩
  rw [← hL] at hl ⊢
  rcases Nat.lt_or_ge j (10 - L.length) with h1 | h1
  · rw [List.getD_append _ _ _ _ (by simpa using h1), List.getD_replicate _ h1]
    rw [List.getD_eq_default _ _ (by omega)]
  · rw [List.getD_append_right _ _ _ _ (by simpa using h1), List.length_replicate]
    rw [List.getD_eq_getElem?_getD, List.getD_eq_getElem?_getD, List.getElem?_reverse (by omega)]
    congr 2
    omega

/-- The triangle cells in the order of the number, least significant first. -/
def triCells (b : Board) : List Nat :=
  [b 3 3, b 3 2, b 3 1, b 3 0, b 2 2, b 2 1, b 2 0, b 1 1, b 1 0, b 0 0]

theorem triNumber_eq (b : Board) :
    Engine.triNumber b = ∑ i ∈ range 10, (triCells b).getD i 0 * 3 ^ i := by
  unfold Engine.triNumber triCells
  simp only [sum_range_succ, sum_range_zero, List.getD_cons_succ, List.getD_cons_zero]
  ring

/-- The ten cells of the triangle hold 0, 1 or 2. -/
def TriCells (b : Board) : Prop := ∀ y < 4, ∀ x ≤ y, b y x < 3

theorem triCells_lt (b : Board) (hb : TriCells b) (i : Nat) (hi : i < 10) : (triCells b).getD i 0 < 3 := by
  unfold triCells
  interval_cases i <;> simp only [List.getD_cons_succ, List.getD_cons_zero] <;>
    exact hb _ (by norm_num) _ (by norm_num)

theorem tri_lt (b : Board) (hb : TriCells b) : Engine.triNumber b < 3 ^ 10 := by
  rw [triNumber_eq]
  exact (digit_sum 10 _ (triCells_lt b hb)).1

theorem tri_digit (b : Board) (hb : TriCells b) (i : Nat) (hi : i < 10) :
    Engine.triNumber b / 3 ^ i % 3 = (triCells b).getD i 0 := by
  rw [triNumber_eq]
  exact (digit_sum 10 _ (triCells_lt b hb)).2 i hi

theorem chunk_tri (b : Board) (hb : TriCells b) (j : Nat) (hj : j < 10) :
    (indexToLadderChunk (Engine.triNumber b)).getD j 0 = (triCells b).getD (9 - j) 0 := by
  rw [chunk_getD _ _ (tri_lt b hb) hj, tri_digit b hb _ (by omega)]

/-- The exported input of the index of a triangle shows the triangle (and nothing above it). -/
theorem ladderInput_at (b : Board) (hb : TriCells b) (y x c : Nat) (hy : y < 4) (hx : x ≤ y) :
    (ladderMappingInput (indexToLadderChunk (Engine.triNumber b))).at_ y x c = boardGrid b y x c := by
  unfold ladderMappingInput boardGrid
  simp only
  obtain ⟨ch, hch⟩ : ∃ ch, ch = indexToLadderChunk (Engine.triNumber b) := ⟨_, rfl⟩
  have hc := chunk_tri b hb
  rw [← hch] at hc ⊢
  have key : ((List.range 10).any fun i =>
        decide (lowerTriangle.getD i 0 / 4 = y ∧ lowerTriangle.getD i 0 % 4 = x
          ∧ ch.getD i 0 > 0 ∧ ch.getD i 0 - 1 = c)) = true ↔ b y x = c + 1 := by
    rw [List.any_eq_true]
    constructor
    · rintro ⟨i, hi, hd⟩
      rw [List.mem_range] at hi
      obtain ⟨h1, h2, h3, h4⟩ := of_decide_eq_true hd
      rw [hc i hi] at h3 h4
      have e : b y x = (triCells b).getD (9 - i) 0 := by
        rw [← h1, ← h2]
        interval_cases i <;> rfl
      omega
    · intro hbx
      have : ∃ i < 10, lowerTriangle.getD i 0 / 4 = y ∧ lowerTriangle.getD i 0 % 4 = x
          ∧ (triCells b).getD (9 - i) 0 = b y x := by
        interval_cases y <;> interval_cases x
        · exact ⟨0, by decide, rfl, rfl, rfl⟩
        · exact ⟨1, by decide, rfl, rfl, rfl⟩
        · exact ⟨2, by decide, rfl, rfl, rfl⟩
        · exact ⟨3, by decide, rfl, rfl, rfl⟩
        · exact ⟨4, by decide, rfl, rfl, rfl⟩
        · exact ⟨5, by decide, rfl, rfl, rfl⟩
        · exact ⟨6, by decide, rfl, rfl, rfl⟩
        · exact ⟨7, by decide, rfl, rfl, rfl⟩
        · exact ⟨8, by decide, rfl, rfl, rfl⟩
        · exact ⟨9, by decide, rfl, rfl, rfl⟩
      obtain ⟨i, hi, h1, h2, h3⟩ := this
      refine ⟨i, List.mem_range.mpr hi, decide_eq_true ⟨h1, h2, ?_, ?_⟩⟩
      · rw [hc i hi, h3]; omega
      · rw [hc i hi, h3]; omega
  simp only [key]

/-! ### Locality of the mapping networks -/

theorem Conv.run_congr (l : Conv) (g g' : Grid) (P Q : Nat → Nat → Prop)
    (hP : ∀ y x, Q y x → ∀ dy < l.kh, ∀ dx < l.kw, P (y + dy) (x + dx)) (d : Nat)
    (hd : l.dimIn ≤ d) (hg : ∀ y x, P y x → ∀ c < d, g.at_ y x c = g'.at_ y x c) (y x : Nat)
    (hQ : Q y x) : (l.run g).at_ y x = (l.run g').at_ y x := by
  unfold Conv.run
  simp only
  congr 1
  funext o
  congr 1
  refine sum_congr rfl fun i hi => sum_congr rfl fun dy hdy => sum_congr rfl fun dx hdx => ?_
  rw [hg _ _ (hP y x hQ dy (mem_range.mp hdy) dx (mem_range.mp hdx)) i
    (lt_of_lt_of_le (mem_range.mp hi) hd)]

/-- Rows and columns of the input a list of convolutions looks at. -/
def field (ks : List Conv) : Nat × Nat :=
  (1 + (ks.map fun l => l.kh - 1).sum, 1 + (ks.map fun l => l.kw - 1).sum)

theorem runAll_local (ls : List Conv) (g g' : Grid) (h w : Nat)
    (hh : (ls.map fun l => l.kh - 1).sum ≤ h) (hw : (ls.map fun l => l.kw - 1).sum ≤ w)
    (hg : ∀ y ≤ h, ∀ x ≤ w, g.at_ y x = g'.at_ y x) :
    (runAll ls g).at_ 0 0 = (runAll ls g').at_ 0 0 := by
  induction ls generalizing g g' h w with
  | nil => exact hg 0 (by omega) 0 (by omega)
  | cons l ls ih =>
    simp only [List.map_cons, List.sum_cons] at hh hw
    refine ih (l.run g) (l.run g') (h - (l.kh - 1)) (w - (l.kw - 1)) (by omega) (by omega) ?_
    intro y hy x hx
    refine Conv.run_congr l g g' (fun y x => y ≤ h ∧ x ≤ w) (fun y x => y ≤ h - (l.kh - 1) ∧ x ≤ w - (l.kw - 1))
      ?_ l.dimIn le_rfl (fun y x hp c _ => by rw [hg y hp.1 x hp.2]) y x ⟨hy, hx⟩
    rintro y x ⟨h1, h2⟩ dy hdy dx hdx
    constructor <;> omega

/-- A mapping network whose first layer reads two channels depends only on its field. -/
theorem featureOf_local (ls : List Conv) (h w : Nat) (hne : ls ≠ []) (hf : field ls = (h, w))
    (h2 : ∀ l ∈ ls.head?, l.dimIn ≤ 2) (g g' : Grid) (hg : Agree h w g g') :
    featureOf ls g = featureOf ls g' := by
  unfold featureOf
  cases ls with
  | nil => exact absurd rfl hne
  | cons l ls =>
    simp only [field, List.map_cons, List.sum_cons, Prod.mk.injEq] at hf
    simp only [List.head?_cons, Option.mem_def, Option.some.injEq, forall_eq'] at h2
    refine runAll_local ls (l.run g) (l.run g') (h - 1 - (l.kh - 1)) (w - 1 - (l.kw - 1)) (by omega)
      (by omega) ?_
    intro y hy x hx
    refine Conv.run_congr l g g' (fun y x => y < h ∧ x < w)
      (fun y x => y ≤ h - 1 - (l.kh - 1) ∧ x ≤ w - 1 - (l.kw - 1))
      ?_ 2 h2 (fun y x hp c hc => hg y hp.1 x hp.2 c hc) y x ⟨hy, hx⟩
    rintro y x ⟨h1, h2⟩ dy hdy dx hdx
    constructor <;> omega

theorem Ladder.run_congr (l : Ladder) (g g' : Grid) (n d : Nat) (hd : l.dimIn ≤ d)
    (hg : ∀ y ≤ n, ∀ x ≤ y, ∀ c < d, g.at_ y x c = g'.at_ y x c) (y x : Nat) (hy : y < n) (hx : x ≤ y) :
    (l.conv.run g).at_ y x = (l.conv.run g').at_ y x := by
  unfold Conv.run Ladder.conv
  simp only
  congr 1
  funext o
  congr 1
  refine sum_congr rfl fun i hi => ?_
  have hi := lt_of_lt_of_le (mem_range.mp hi) hd
  simp only [sum_range_succ, sum_range_zero, zero_add, Nat.mul_zero, Nat.mul_one, Nat.add_zero,
    List.getD_cons_zero, List.getD_cons_succ, zero_mul]
  rw [hg y (by omega) x hx i hi, hg (y + 1) (by omega) x (by omega) i hi,
    hg (y + 1) (by omega) (x + 1) (by omega) i hi]

/-- The ladder mapping depends on the lower triangle only. -/
theorem ladder_local (l1 l2 l3 : Ladder) (h1 : l1.dimIn ≤ 2) (g g' : Grid)
    (hg : ∀ y < 4, ∀ x ≤ y, ∀ c < 2, g.at_ y x c = g'.at_ y x c) :
    featureOf (ladderMapping l1 l2 l3) g = featureOf (ladderMapping l1 l2 l3) g' := by
  unfold featureOf ladderMapping
  simp only [runAll]
  have s1 : ∀ y ≤ 2, ∀ x ≤ y, (l1.conv.run g).at_ y x = (l1.conv.run g').at_ y x := fun y hy x hx =>
    l1.run_congr g g' 3 2 h1 (fun y hy x hx c hc => hg y (by omega) x hx c hc) y x (by omega) hx
  have s2 : ∀ y ≤ 1, ∀ x ≤ y, (l2.conv.run (l1.conv.run g)).at_ y x
      = (l2.conv.run (l1.conv.run g')).at_ y x := fun y hy x hx =>
    l2.run_congr _ _ 2 l2.dimIn le_rfl (fun y hy x hx c _ => by rw [s1 y hy x hx]) y x (by omega) hx
  exact l3.run_congr _ _ 1 l3.dimIn le_rfl (fun y hy x hx c _ => by rw [s2 y hy x hx]) 0 0 (by omega)
    le_rfl

end Verif.Flat
