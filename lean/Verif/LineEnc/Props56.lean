import Verif.LineEnc.Views
import Verif.Export.Props72

/-
C56: line encodings are below the advertised total, and two positions get the same code exactly when
they see the same window (stones and walls).

`Spot` (a position on an input line, or a board cell with one of the four directions), its `view` and
its `code` are defined in `Views.lean`.
-/
namespace Verif.LineEnc

open Finset

/-! ### Codes through digits -/

theorem encode_sees (L key left right : Nat) (hL : L % 2 = 1) (view : Nat → Option Nat)
    (h : Sees L key left right view) :
    encodeContiguous L key left right
      = topDigit (L / 2 - right) (L / 2 - left) * 3 ^ L
        + val L (codeDigit L (L / 2 - right) (L / 2 - left) (fun i => (view (L - 1 - i)).getD 0 % 3)) := by
  have hLh : L = 2 * (L / 2) + 1 := by omega
  have key := border_add_cells (L / 2) (L / 2 - right) (L / 2 - left) (by omega) (by omega)
    (fun i => (view (L - 1 - i)).getD 0 % 3)
  rw [← hLh] at key
  rw [← key, encode_cells]
  have e1 : L / 2 - (L / 2 - left) = left := by have := h.hl; omega
  have e2 : L / 2 - (L / 2 - right) = right := by have := h.hr; omega
  rw [e1, e2]
  congr 1
  apply val_congr
  intro i hi
  have hk : L - 1 - i < L := by omega
  rw [h.cell _ hk, digit_rawBits _ (fun v hv => h.small _ v hk hv)]
  by_cases hc : L / 2 - right ≤ i ∧ i < L - (L / 2 - left)
  · rw [if_pos hc]
    cases hv : view (L - 1 - i) with
    | none => rfl
    | some v =>
        have := h.small _ v hk hv
        simp only [Option.getD_some]
        omega
  · rw [if_neg hc]
    have : view (L - 1 - i) = none := by
      rw [h.wall _ hk]; omega
    rw [this]; rfl

theorem topDigit_lt (s t : Nat) : topDigit s t < 3 := by
  unfold topDigit; split_ifs <;> omega

theorem sees_left (L key left right key' left' right' : Nat) (hL : L % 2 = 1)
    (view : Nat → Option Nat) (h : Sees L key left right view) (h' : Sees L key' left' right' view) :
    ¬left < left' ∧ ¬right < right' := by
  have a := h.hl
  have b := h.hr
  have c := h'.hl
  have d := h'.hr
  constructor
  · intro hlt
    have w1 := h.wall (L / 2 - left') (by omega)
    have w2 := h'.wall (L / 2 - left') (by omega)
    have : view (L / 2 - left') = none := w1.2 (by omega)
    have := w2.1 this
    omega
  · intro hlt
    have w1 := h.wall (L - 1 - (L / 2 - right')) (by omega)
    have w2 := h'.wall (L - 1 - (L / 2 - right')) (by omega)
    have := w2.1 (w1.2 (by omega))
    omega

theorem sees_congr (L key left right : Nat) (v v' : Nat → Option Nat)
    (h : Sees L key left right v) (e : ∀ k, k < L → v k = v' k) : Sees L key left right v' := by
  constructor
  · exact h.hl
  · exact h.hr
  · intro k hk; rw [← e k hk]; exact h.wall k hk
  · intro k hk; rw [← e k hk]; exact h.cell k hk
  · intro k w hk; rw [← e k hk]; exact h.small k w hk

/-- Equal codes, equal windows. -/
theorem code_inj (L key left right key' left' right' : Nat) (hL : L % 2 = 1)
    (view view' : Nat → Option Nat) (h : Sees L key left right view)
    (h' : Sees L key' left' right' view') :
    encodeContiguous L key left right = encodeContiguous L key' left' right'
      ↔ ∀ k, k < L → view k = view' k := by
  have hLh : L = 2 * (L / 2) + 1 := by omega
  have a := h.hl
  have b := h.hr
  have c := h'.hl
  have d := h'.hr
  constructor
  · intro e
    rw [encode_sees L key left right hL view h, encode_sees L key' left' right' hL view' h'] at e
    have m3 : ∀ (f : Nat → Nat) (i : Nat), f i % 3 < 3 := fun f i => Nat.mod_lt _ (by omega)
    have l1 := val_lt L (codeDigit L (L / 2 - right) (L / 2 - left)
      (fun i => (view (L - 1 - i)).getD 0 % 3)) (fun i _ => codeDigit_lt _ _ _ _
        (fun i => Nat.mod_lt _ (by omega)) i)
    have l2 := val_lt L (codeDigit L (L / 2 - right') (L / 2 - left')
      (fun i => (view' (L - 1 - i)).getD 0 % 3)) (fun i _ => codeDigit_lt _ _ _ _
        (fun i => Nat.mod_lt _ (by omega)) i)
    have hp : 0 < 3 ^ L := by positivity
    have htop : topDigit (L / 2 - right) (L / 2 - left) = topDigit (L / 2 - right') (L / 2 - left') := by
      have q1 := Nat.add_mul_div_right (val L (codeDigit L (L / 2 - right) (L / 2 - left)
        (fun i => (view (L - 1 - i)).getD 0 % 3))) (topDigit (L / 2 - right) (L / 2 - left)) hp
      have q2 := Nat.add_mul_div_right (val L (codeDigit L (L / 2 - right') (L / 2 - left')
        (fun i => (view' (L - 1 - i)).getD 0 % 3))) (topDigit (L / 2 - right') (L / 2 - left')) hp
      rw [Nat.div_eq_of_lt l1, Nat.add_comm] at q1
      rw [Nat.div_eq_of_lt l2, Nat.add_comm] at q2
      rw [e] at q1
      omega
    rw [htop] at e
    have hd := val_inj L _ _ (fun i _ => codeDigit_lt _ _ _ _
        (fun i => Nat.mod_lt _ (by omega)) i) (fun i _ => codeDigit_lt _ _ _ _
        (fun i => Nat.mod_lt _ (by omega)) i) (Nat.add_left_cancel e)
    have fin := codeDigit_inj (L / 2) _ _ _ _ (by omega) (by omega) (by omega) (by omega) _ _ htop
      (by rw [← hLh]; exact hd)
    rw [← hLh] at fin
    obtain ⟨f1, f2, f3⟩ := fin
    intro k hk
    have w1 := h.wall k hk
    have w2 := h'.wall k hk
    by_cases hn : k < L / 2 - left ∨ L - (L / 2 - right) ≤ k
    · rw [w1.2 hn, w2.2 (by omega)]
    · have g := f3 (L - 1 - k) (by omega) (by omega)
      have ek : L - 1 - (L - 1 - k) = k := by omega
      simp only [ek] at g
      cases hv : view k with
      | none => exact absurd (w1.1 hv) hn
      | some v =>
          cases hv' : view' k with
          | none => exact absurd (w2.1 hv') (by omega)
          | some v' =>
              have := h.small k v hk hv
              have := h'.small k v' hk hv'
              rw [hv, hv'] at g
              simp only [Option.getD_some] at g
              have : v = v' := by omega
              rw [this]
  · intro e
    have h'' := sees_congr L key left right view view' h e
    have s1 := sees_left L key left right key' left' right' hL view' h'' h'
    have s2 := sees_left L key' left' right' key left right hL view' h' h''
    have el : left = left' := by omega
    have er : right = right' := by omega
    subst el er
    rw [encode_sees L key left right hL view' h'', encode_sees L key' left right hL view' h']

/-! ### Spots -/

theorem validLength_iff (L : Nat) (raw : Bool) :
    validLength L raw = true ↔ L % 2 = 1 ∧ L ≤ if raw then 15 else 17 := by
  unfold validLength
  simp only [Bool.and_eq_true, decide_eq_true_eq]
  constructor
  · rintro ⟨⟨-, h⟩, h'⟩; exact ⟨h, h'⟩
  · rintro ⟨h, h'⟩; exact ⟨⟨by omega, h⟩, h'⟩

/-- A code comes from a key that represents the view. -/
theorem spot_sees (L : Nat) (p : Spot) (hp : p.Valid) (v : Nat) (h : p.code L = some v) :
    L % 2 = 1 ∧ L ≤ 17 ∧ ∃ key left right, Sees L key left right (p.view L)
      ∧ v = encodeContiguous L key left right := by
  cases p with
  | line cells x =>
      simp only [Spot.code, transformLine] at h
      split_ifs at h with hc
      · simp only [Option.bind_some] at h
        obtain ⟨h1, h2⟩ := hc
        rw [validLength_iff] at h1
        simp only [Bool.false_eq_true, if_false] at h1
        have hx : x < cells.length := hp
        rw [List.getElem?_map, List.getElem?_range hx] at h
        simp only [Option.map_some, Option.some.injEq] at h
        exact ⟨h1.1, h1.2, _, _, _, sees_line L h1.1 h1.2 cells x hx h2, h.symm⟩
      · simp at h
  | board b d y x =>
      simp only [Spot.code, transformBoard, Bool.false_eq_true, if_false] at h
      split_ifs at h with hc
      · simp only [Option.map_some, Option.some.injEq] at h
        obtain ⟨h1, h2, h3⟩ := hc
        rw [validLength_iff] at h1
        simp only [Bool.false_eq_true, if_false] at h1
        obtain ⟨p1, p2, p3⟩ := hp
        exact ⟨h1.1, h1.2, _, _, _, sees_board L h1.1 h1.2 b d y x p1 p2 p3 h2 h3, h.symm⟩
      · simp at h

/-- The line, or both sides of the board, have at most `32 - L / 2` cells. -/
def Spot.Fits (L : Nat) : Spot → Prop
  | .line cells _ => cells.length ≤ 32 - L / 2
  | .board b _ _ _ => b.H ≤ 32 - L / 2 ∧ b.W ≤ 32 - L / 2

/-- **C56** (accepted inputs).  A code is returned for every position exactly when the line length is
odd and at most 17 and the line or board is at most `32 - L / 2` cells wide. -/
theorem C56_accepts (L : Nat) (p : Spot) (hp : p.Valid) :
    (∃ v, p.code L = some v) ↔
      L % 2 = 1 ∧ L ≤ 17 ∧ p.Fits L := by
  cases p with
  | line cells x =>
      have hx : x < cells.length := hp
      simp only [Spot.code, transformLine]
      constructor
      · rintro ⟨v, h⟩
        split_ifs at h with hc
        · obtain ⟨h1, h2⟩ := hc
          rw [validLength_iff] at h1
          simp only [Bool.false_eq_true, if_false] at h1
          exact ⟨h1.1, h1.2, h2⟩
        · simp at h
      · rintro ⟨h1, h2, h3⟩
        rw [if_pos ⟨(validLength_iff _ _).2 ⟨h1, by simpa using h2⟩, h3⟩]
        simp only [Option.bind_some, List.getElem?_map, List.getElem?_range hx, Option.map_some]
        exact ⟨_, rfl⟩
  | board b d y x =>
      simp only [Spot.code, transformBoard, Bool.false_eq_true, if_false]
      constructor
      · rintro ⟨v, h⟩
        split_ifs at h with hc
        · obtain ⟨h1, h2, h3⟩ := hc
          rw [validLength_iff] at h1
          simp only [Bool.false_eq_true, if_false] at h1
          exact ⟨h1.1, h1.2, h2, h3⟩
        · simp at h
      · rintro ⟨h1, h2, h3, h4⟩
        rw [if_pos ⟨(validLength_iff _ _).2 ⟨h1, by simpa using h2⟩, h3, h4⟩]
        exact ⟨_, rfl⟩

/-- **C56** (identity).  Whatever the two positions are — on input lines or on boards, in any
direction, of any size — their codes agree exactly when they see the same window: the same stones in
the same places and the walls at the same distances. -/
theorem C56_same_code_iff_same_view (L : Nat) (p q : Spot) (hp : p.Valid) (hq : q.Valid) (v w : Nat)
    (h : p.code L = some v) (h' : q.code L = some w) :
    v = w ↔ ∀ k, k < L → p.view L k = q.view L k := by
  obtain ⟨hL, -, key, left, right, hs, rfl⟩ := spot_sees L p hp v h
  obtain ⟨-, -, key', left', right', hs', rfl⟩ := spot_sees L q hq w h'
  exact code_inj L key left right key' left' right' hL _ _ hs hs'

/-! ### Range -/

/-- The leading digit that differs decides. -/
theorem val_lex (n : Nat) (D E : Nat → Nat) (hD : ∀ i, i < n → D i < 3) (j : Nat) (hj : j < n)
    (hlt : D j < E j) (heq : ∀ i, j < i → i < n → D i = E i) : val n D < val n E := by
  induction n with
  | zero => omega
  | succ n ih =>
      rw [val_succ, val_succ]
      rcases Nat.lt_or_ge j n with h | h
      · have := ih (fun i hi => hD i (by omega)) h (fun i h1 h2 => heq i h1 (by omega))
        rw [heq n h (by omega)]
        omega
      · have : j = n := by omega
        subst this
        have a := val_lt j D (fun i hi => hD i (by omega))
        have b : (D j + 1) * 3 ^ j ≤ E j * 3 ^ j := Nat.mul_le_mul_right _ hlt
        rw [Nat.add_mul, Nat.one_mul] at b
        omega

theorem maxEncoding_digits (h : Nat) (hh : 1 ≤ h) :
    maxEncoding (2 * h + 1) = 2 * 3 ^ (2 * h + 1) + val (2 * h + 1) (codeDigit (2 * h + 1) 0 h (fun _ => 2)) := by
  unfold maxEncoding
  have e : (2 * h + 1) / 2 = h := by omega
  simp only [e]
  rw [Nat.add_assoc]
  congr 1
  have e1 := sum_window (2 * h + 1) 0 (h + 1) (by omega) (fun i => 2 * 3 ^ i)
  have e2 := sum_window (2 * h + 1) (h + 2) (2 * h + 1 - (h + 2)) (by omega) (fun i => 3 ^ i)
  simp only [Nat.zero_add] at e1
  rw [e1, e2]
  unfold val
  rw [← sum_add_distrib]
  apply sum_congr rfl
  intro i hi
  have hi := mem_range.1 hi
  unfold codeDigit
  rw [if_pos rfl, if_neg (by omega : ¬h = 0)]
  beta_reduce
  rcases Nat.lt_or_ge i (h + 1) with a | a
  · rw [if_pos (by omega), if_neg (by omega), if_pos (by omega)]; omega
  · rcases Nat.eq_or_lt_of_le a with b | b
    · rw [if_neg (by omega), if_neg (by omega), if_neg (by omega), if_pos (by omega)]; omega
    · rw [if_neg (by omega), if_pos (by omega), if_neg (by omega), if_neg (by omega)]; omega

theorem maxEncoding_ge (L : Nat) : 2 * 3 ^ L ≤ maxEncoding L := by
  unfold maxEncoding; simp only; omega

theorem code_le_max (h s t : Nat) (hs : s ≤ h) (ht : t ≤ h) (c : Nat → Nat) (hc : ∀ i, c i < 3) :
    topDigit s t * 3 ^ (2 * h + 1) + val (2 * h + 1) (codeDigit (2 * h + 1) s t c)
      ≤ maxEncoding (2 * h + 1) := by
  have hv := val_lt (2 * h + 1) (codeDigit (2 * h + 1) s t c) (fun i _ => codeDigit_lt _ _ _ _ hc i)
  have hg := maxEncoding_ge (2 * h + 1)
  have hp : 0 < 3 ^ (2 * h + 1) := by positivity
  unfold topDigit
  by_cases h0 : s = 0
  · rw [if_pos h0]
    by_cases h1 : t = 0
    · rw [if_pos h1]; omega
    · rw [if_neg h1, maxEncoding_digits h (by omega)]
      apply Nat.add_le_add_left
      subst h0
      rcases Nat.eq_or_lt_of_le ht with e | e
      · subst e
        apply val_mono
        intro i hi
        unfold codeDigit
        rw [if_pos rfl, if_neg h1, if_pos rfl, if_neg h1]
        split_ifs
        · have := hc i; show c i ≤ 2; omega
        · exact le_refl _
        · exact le_refl _
      · apply le_of_lt
        apply val_lex (2 * h + 1) _ _ (fun i _ => codeDigit_lt _ _ _ _ hc i) (2 * h + 1 - t) (by omega)
        · unfold codeDigit
          rw [if_pos rfl, if_neg h1, if_neg (by omega), if_pos rfl, if_pos rfl, if_neg (by omega),
            if_neg (by omega), if_neg (by omega)]
          omega
        · intro i h2 h3
          unfold codeDigit
          rw [if_pos rfl, if_neg h1, if_neg (by omega), if_neg (by omega), if_pos rfl,
            if_neg (by omega), if_neg (by omega), if_neg (by omega)]
  · rw [if_neg h0]; omega

/-- **C56** (range).  Every code is below the advertised total. -/
theorem C56_code_in_range (L : Nat) (p : Spot) (hp : p.Valid) (v : Nat) (h : p.code L = some v) :
    v < totalNumEncoding L := by
  obtain ⟨hL, -, key, left, right, hs, rfl⟩ := spot_sees L p hp v h
  rw [encode_sees L key left right hL _ hs]
  have hLh : L = 2 * (L / 2) + 1 := by omega
  have := code_le_max (L / 2) (L / 2 - right) (L / 2 - left) (by omega) (by omega)
    (fun i => ((p.view L) (L - 1 - i)).getD 0 % 3) (fun i => Nat.mod_lt _ (by omega))
  rw [← hLh] at this
  unfold totalNumEncoding
  omega

/-- **C56** (range).  The advertised total of every accepted length fits a signed 32-bit code, and so
do the raw codes. -/
theorem C56_codes_fit (L : Nat) (raw : Bool) (h : validLength L raw = true) :
    pipelineTotal L raw ≤ 2 ^ 31 := by
  rw [validLength_iff] at h
  unfold pipelineTotal
  cases raw with
  | true =>
      simp only [if_true] at h ⊢
      calc 4 ^ L ≤ 4 ^ 15 := Nat.pow_le_pow_right (by omega) h.2
        _ ≤ 2 ^ 31 := by norm_num
  | false =>
      simp only [Bool.false_eq_true, if_false] at h ⊢
      have hp : 3 ^ L ≤ 3 ^ 17 := Nat.pow_le_pow_right (by omega) h.2
      unfold totalNumEncoding
      by_cases h1 : L = 1
      · subst h1; decide
      · have hLh : L = 2 * (L / 2) + 1 := by omega
        have := maxEncoding_digits (L / 2) (by omega)
        rw [← hLh] at this
        rw [this]
        have hv := val_lt L (codeDigit L 0 (L / 2) (fun _ => 2))
          (fun i _ => codeDigit_lt _ _ _ _ (fun _ => by omega) i)
        have e17 : 3 ^ 17 = 129140163 := by norm_num
        have e31 : 2 ^ 31 = 2147483648 := by norm_num
        omega

/-! ### Reachable codes -/

/-- The shortest line that shows a given window at position `left`. -/
def canonLine (L left right : Nat) (D : Nat → Nat) : List Nat :=
  (List.range (left + right + 1)).map fun j => D (L - 1 - (j + (L / 2 - left)))

theorem canonLine_view (L left right : Nat) (hL : L % 2 = 1) (hl : left ≤ L / 2) (hr : right ≤ L / 2)
    (D : Nat → Nat) (hD : ∀ i, D i < 3) (k : Nat) (hk : k < L) :
    (Spot.line (canonLine L left right D) left).view L k
      = if k < L / 2 - left ∨ L - (L / 2 - right) ≤ k then none else some (D (L - 1 - k)) := by
  have hlen : (canonLine L left right D).length = left + right + 1 := by simp [canonLine]
  simp only [Spot.view, lineAt, hlen]
  by_cases h : k < L / 2 - left ∨ L - (L / 2 - right) ≤ k
  · rw [if_pos h, if_neg (by omega)]
  · rw [if_neg h, if_pos (by omega)]
    have e : ((left : Int) + ((k : Int) - (L / 2 : Nat))).toNat = k - (L / 2 - left) := by omega
    rw [e]
    have hj : k - (L / 2 - left) < left + right + 1 := by omega
    have : (canonLine L left right D).getD (k - (L / 2 - left)) 0 = D (L - 1 - k) := by
      unfold canonLine
      rw [List.getD_eq_getElem?_getD, List.getElem?_map, List.getElem?_range hj]
      simp only [Option.map_some, Option.getD_some]
      congr 1; omega
    rw [this]
    have := hD (L - 1 - k)
    congr 1
    unfold stoneOf
    split_ifs <;> omega

theorem mem_usageCodes (n lineIdx code v : Nat) :
    v ∈ usageCodes n lineIdx code
      ↔ ∃ D : Nat → Nat, (∀ i, D i < 3) ∧ v = code + ∑ i ∈ range n, D (lineIdx + i) * 3 ^ (lineIdx + i) := by
  induction n generalizing lineIdx code with
  | zero =>
      simp only [usageCodes, List.mem_singleton, range_zero, sum_empty, Nat.add_zero]
      exact ⟨fun h => ⟨fun _ => 0, by simp, h⟩, fun ⟨_, _, h⟩ => h⟩
  | succ n ih =>
      simp only [usageCodes, List.mem_append, ih]
      constructor
      · have build : ∀ d, d < 3 → (∃ D : Nat → Nat, (∀ i, D i < 3) ∧ v = (code + d * 3 ^ lineIdx)
            + ∑ i ∈ range n, D (lineIdx + 1 + i) * 3 ^ (lineIdx + 1 + i)) →
            ∃ D : Nat → Nat, (∀ i, D i < 3)
              ∧ v = code + ∑ i ∈ range (n + 1), D (lineIdx + i) * 3 ^ (lineIdx + i) := by
          rintro d hd ⟨D, hD, e⟩
          refine ⟨fun i => if i = lineIdx then d else D i, ?_, ?_⟩
          · intro i; simp only; split_ifs
            · exact hd
            · exact hD i
          · rw [sum_range_succ', e]
            have : ∀ i ∈ range n, (fun i => if i = lineIdx then d else D i) (lineIdx + (i + 1))
                * 3 ^ (lineIdx + (i + 1)) = D (lineIdx + 1 + i) * 3 ^ (lineIdx + 1 + i) := by
              intro i _
              have a : lineIdx + (i + 1) = lineIdx + 1 + i := by omega
              rw [a]
              simp only
              rw [if_neg (by omega)]
            rw [sum_congr rfl this]
            simp only [Nat.add_zero, if_true]
            ring
        rintro ((h | h) | h)
        · exact build 0 (by omega) (by simpa using h)
        · exact build 1 (by omega) (by simpa using h)
        · exact build 2 (by omega) h
      · rintro ⟨D, hD, e⟩
        rw [sum_range_succ'] at e
        have hs : ∀ i ∈ range n, D (lineIdx + (i + 1)) * 3 ^ (lineIdx + (i + 1))
            = D (lineIdx + 1 + i) * 3 ^ (lineIdx + 1 + i) := by
          intro i _
          have a : lineIdx + (i + 1) = lineIdx + 1 + i := by omega
          rw [a]
        rw [sum_congr rfl hs] at e
        simp only [Nat.add_zero] at e
        have h3 := hD lineIdx
        have : D lineIdx = 0 ∨ D lineIdx = 1 ∨ D lineIdx = 2 := by omega
        rcases this with h | h | h
        · left; left; exact ⟨D, hD, by rw [e, h]; ring⟩
        · left; right; exact ⟨D, hD, by rw [e, h]; ring⟩
        · right; exact ⟨D, hD, by rw [e, h]; ring⟩

theorem mem_usedCodes (L : Nat) (hL : L % 2 = 1) (v : Nat) :
    v ∈ usedCodes L ↔ ∃ left right, left ≤ L / 2 ∧ right ≤ L / 2 ∧ ∃ D : Nat → Nat, (∀ i, D i < 3) ∧
      v = borderEncoding L left right
        + val L (fun i => if L / 2 - right ≤ i ∧ i < L - (L / 2 - left) then D i else 0) := by
  have hsum : ∀ left right, left ≤ L / 2 → right ≤ L / 2 → ∀ D : Nat → Nat,
      ∑ i ∈ range (L / 2 + left + 1 - (L / 2 - right)),
          D (L / 2 - right + i) * 3 ^ (L / 2 - right + i)
        = val L (fun i => if L / 2 - right ≤ i ∧ i < L - (L / 2 - left) then D i else 0) := by
    intro left right hl hr D
    rw [sum_window L (L / 2 - right) _ (by omega) (fun i => D i * 3 ^ i)]
    unfold val
    apply sum_congr rfl
    intro i hi
    beta_reduce
    by_cases h : L / 2 - right ≤ i ∧ i < L - (L / 2 - left)
    · rw [if_pos h, if_pos (by omega)]
    · rw [if_neg h, if_neg (by omega)]; simp
  unfold usedCodes
  simp only [List.mem_flatMap, List.mem_range, mem_usageCodes]
  constructor
  · rintro ⟨left, hl, right, hr, D, hD, e⟩
    refine ⟨left, right, by omega, by omega, D, hD, ?_⟩
    rw [e, hsum left right (by omega) (by omega)]
  · rintro ⟨left, right, hl, hr, D, hD, e⟩
    refine ⟨left, by omega, right, by omega, D, hD, ?_⟩
    rw [e, hsum left right (by omega) (by omega)]

/-- Code of the canonical line. -/
theorem canonLine_code (L left right : Nat) (hL : L % 2 = 1) (h17 : L ≤ 17) (hl : left ≤ L / 2)
    (hr : right ≤ L / 2) (D : Nat → Nat) (hD : ∀ i, D i < 3) :
    (Spot.line (canonLine L left right D) left).Valid ∧
    (Spot.line (canonLine L left right D) left).code L = some (borderEncoding L left right
        + val L (fun i => if L / 2 - right ≤ i ∧ i < L - (L / 2 - left) then D i else 0)) := by
  have hlen : (canonLine L left right D).length = left + right + 1 := by simp [canonLine]
  have hx : left < (canonLine L left right D).length := by rw [hlen]; omega
  refine ⟨hx, ?_⟩
  obtain ⟨v, hv⟩ := (C56_accepts L (Spot.line (canonLine L left right D) left) hx).2
    ⟨hL, h17, by show (canonLine L left right D).length ≤ 32 - L / 2; rw [hlen]; omega⟩
  rw [hv]
  simp only [Spot.code, transformLine] at hv
  rw [if_pos ⟨(validLength_iff _ _).2 ⟨hL, by simpa using h17⟩, by rw [hlen]; omega⟩] at hv
  simp only [Option.bind_some, List.getElem?_map, List.getElem?_range hx, Option.map_some,
    Option.some.injEq] at hv
  have hs := sees_line L hL h17 (canonLine L left right D) left hx (by rw [hlen]; omega)
  rw [hlen] at hv hs
  have e1 : min (L / 2) left = left := by omega
  have e2 : min (L / 2) (left + right + 1 - 1 - left) = right := by omega
  rw [e1, e2] at hv hs
  rw [← hv, encode_cells]
  congr 1; congr 1
  apply val_congr
  intro i hi
  have hk : L - 1 - i < L := by omega
  rw [hs.cell _ hk, digit_rawBits _ (fun v hv => hs.small _ v hk hv),
    canonLine_view L left right hL hl hr D hD _ hk]
  by_cases hc : L / 2 - right ≤ i ∧ i < L - (L / 2 - left)
  · rw [if_pos hc, if_neg (by omega)]
    simp only [Option.getD_some]
    congr 1; omega
  · rw [if_neg hc, if_pos (by omega)]; rfl

/-- **C56** (usage flags).  A code's usage flag is set exactly when some position on some line or
board has that code. -/
theorem C56_usage_flags (L : Nat) (hL : validLength L false = true) (v : Nat) :
    v ∈ usedCodes L ↔ ∃ p : Spot, p.Valid ∧ p.code L = some v := by
  rw [validLength_iff] at hL
  simp only [Bool.false_eq_true, if_false] at hL
  rw [mem_usedCodes L hL.1]
  constructor
  · rintro ⟨left, right, hl, hr, D, hD, rfl⟩
    exact ⟨_, canonLine_code L left right hL.1 hL.2 hl hr D hD⟩
  · rintro ⟨p, hp, h⟩
    obtain ⟨-, -, key, left, right, hs, rfl⟩ := spot_sees L p hp v h
    refine ⟨left, right, hs.hl, hs.hr, fun i => (p.view L (L - 1 - i)).getD 0 % 3,
      fun i => Nat.mod_lt _ (by omega), ?_⟩
    rw [encode_cells]
    congr 1
    apply val_congr
    intro i hi
    have hk : L - 1 - i < L := by omega
    rw [hs.cell _ hk, digit_rawBits _ (fun v hv => hs.small _ v hk hv)]
    by_cases hc : L / 2 - right ≤ i ∧ i < L - (L / 2 - left)
    · rw [if_pos hc]
      beta_reduce
      cases hv : p.view L (L - 1 - i) with
      | none => rfl
      | some w =>
          have := hs.small _ w hk hv
          simp only [Option.getD_some]; omega
    · rw [if_neg hc]
      have : p.view L (L - 1 - i) = none := by rw [hs.wall _ hk]; omega
      rw [this]; rfl

/-- **C56** (range is tight).  For every accepted length above 1 some position has the largest code, so
the advertised total is the least bound. -/
theorem C56_total_tight (L : Nat) (hL : validLength L false = true) (h1 : 1 < L) :
    ∃ p : Spot, p.Valid ∧ p.code L = some (totalNumEncoding L - 1) := by
  rw [← C56_usage_flags L hL]
  rw [validLength_iff] at hL
  simp only [Bool.false_eq_true, if_false] at hL
  rw [mem_usedCodes L hL.1]
  refine ⟨0, L / 2, by omega, by omega, fun _ => 2, fun _ => by norm_num, ?_⟩
  have hLh : L = 2 * (L / 2) + 1 := by omega
  have b := border_add_cells (L / 2) 0 (L / 2) (by omega) (by omega) (fun _ => 2)
  have m := maxEncoding_digits (L / 2) (by omega)
  rw [← hLh] at b m
  simp only [Nat.sub_self, Nat.sub_zero] at b ⊢
  rw [b]
  unfold totalNumEncoding
  rw [m]
  have : topDigit 0 (L / 2) = 2 := by unfold topDigit; rw [if_pos rfl, if_neg (by omega)]
  rw [this]; omega

/-! ### Raw codes -/

/-- **C56** (raw codes).  With `raw_code` a code is returned exactly for odd lengths up to 15 and
boards up to `32 - L / 2`; it is below `4 ^ L`, and two cells/directions get the same raw code exactly
when they see the same window. -/
theorem C56_raw (L : Nat) (b b' : Board) :
    ((∃ f, transformBoard L true b = some f) ↔
      L % 2 = 1 ∧ L ≤ 15 ∧ b.H ≤ 32 - L / 2 ∧ b.W ≤ 32 - L / 2) ∧
    ∀ f f', transformBoard L true b = some f → transformBoard L true b' = some f' →
      ∀ d y x d' y' x', (Spot.board b d y x).Valid → (Spot.board b' d' y' x').Valid →
        f d y x < pipelineTotal L true ∧
        (f d y x = f' d' y' x' ↔
          ∀ k, k < L → (Spot.board b d y x).view L k = (Spot.board b' d' y' x').view L k) := by
  constructor
  · unfold transformBoard
    simp only
    constructor
    · rintro ⟨f, h⟩
      split_ifs at h with hc
      obtain ⟨h1, h2, h3⟩ := hc
      rw [validLength_iff] at h1
      simp only [if_true] at h1
      exact ⟨h1.1, h1.2, h2, h3⟩
    · rintro ⟨h1, h2, h3, h4⟩
      rw [if_pos ⟨(validLength_iff _ _).2 ⟨h1, by simpa using h2⟩, h3, h4⟩]
      exact ⟨_, rfl⟩
  · intro f f' h h' d y x d' y' x' hp hp'
    unfold transformBoard at h h'
    simp only [if_true] at h h'
    split_ifs at h with hc
    split_ifs at h' with hc'
    obtain ⟨h1, h2, h3⟩ := hc
    obtain ⟨-, h2', h3'⟩ := hc'
    rw [validLength_iff] at h1
    simp only [if_true] at h1
    simp only [Option.some.injEq] at h h'
    subst h h'
    obtain ⟨p1, p2, p3⟩ := hp
    obtain ⟨q1, q2, q3⟩ := hp'
    have s := sees_board L h1.1 (by omega) b d y x p1 p2 p3 h2 h3
    have s' := sees_board L h1.1 (by omega) b' d' y' x' q1 q2 q3 h2' h3'
    refine ⟨?_, ?_⟩
    · unfold pipelineTotal
      simp only [if_true]
      have : (4 : Nat) ^ L = 2 ^ (2 * L) := by rw [pow_mul]; norm_num
      rw [this]
      have hp2 : 0 < 2 ^ (2 * L) := by positivity
      have := Nat.and_le_right (n := windowKey (L / 2) (boardKeys b) d y x) (m := 2 ^ (2 * L) - 1)
      omega
    · constructor
      · intro e k hk
        apply rawBits_inj _ _ (fun v => s.small k v hk) (fun v => s'.small k v hk)
        rw [← s.cell k hk, ← s'.cell k hk]
        apply cellOf_ext
        intro i hi
        have := congrArg (fun n => n.testBit (2 * k + i)) e
        simp only [Nat.testBit_and, Nat.testBit_two_pow_sub_one] at this
        have a : 2 * k + i < 2 * L := by omega
        simpa [a] using this
      · intro e
        apply Nat.eq_of_testBit_eq
        intro i
        rw [Nat.testBit_and, Nat.testBit_and, Nat.testBit_two_pow_sub_one]
        by_cases hi : i < 2 * L
        · have hk : i / 2 < L := by omega
          have hc : cellOf (windowKey (L / 2) (boardKeys b) d y x) (i / 2)
              = cellOf (windowKey (L / 2) (boardKeys b') d' y' x') (i / 2) := by
            rw [s.cell _ hk, s'.cell _ hk, e _ hk]
          have := congrArg (fun n => n.testBit (i % 2)) hc
          simp only [cellOf_testBit] at this
          have a : i % 2 < 2 := Nat.mod_lt _ (by omega)
          have b : 2 * (i / 2) + i % 2 = i := by omega
          simp only [a, decide_true, Bool.true_and, b] at this
          simp [hi, this]
        · simp [hi]

/-! ### The exported feature table -/

theorem mem_featureWrites (L : Nat) (w : Nat × List Nat × Nat) :
    w ∈ featureWrites L ↔ (1 ≤ w.2.1.length ∧ w.2.1.length ≤ L ∧ ∀ c ∈ w.2.1, c < 3) ∧
      (Spot.line w.2.1 w.2.2).code L = some w.1 := by
  obtain ⟨row, line, x⟩ := w
  unfold featureWrites
  simp only [List.mem_flatMap, List.mem_map, List.mem_reverse, List.mem_range, Export.mem_base3,
    Export.IsPattern, Spot.code]
  constructor
  · rintro ⟨l, ⟨a, ha, rfl⟩, line', ⟨hl, hc⟩, ⟨c, i⟩, hz, he⟩
    simp only [Prod.mk.injEq] at he
    obtain ⟨rfl, rfl, rfl⟩ := he
    refine ⟨⟨by omega, by omega, hc⟩, ?_⟩
    rw [List.mem_zipIdx_iff_getElem?] at hz
    simp only at hz
    cases ht : transformLine L line' with
    | none => rw [ht] at hz; simp at hz
    | some codes => rw [ht] at hz; simpa using hz
  · rintro ⟨⟨h1, h2, h3⟩, hcode⟩
    refine ⟨line.length, ⟨line.length - 1, by omega, by omega⟩, line, ⟨rfl, h3⟩, (row, x), ?_, rfl⟩
    rw [List.mem_zipIdx_iff_getElem?]
    simp only
    cases ht : transformLine L line with
    | none => rw [ht] at hcode; simp at hcode
    | some codes => rw [ht] at hcode; simpa using hcode

/-- **C56** (feature table).  Let `f line x` be any feature that depends only on the window seen from
position `x`.  In the Mix9/Mix10 feature table, the row of the code of *any* position — of a line of
any accepted length or of a board, in any direction — holds the feature of a line position that sees
exactly the same window; and for a position on a line it is that position's own feature. -/
theorem C56_feature_map {α : Type} (L : Nat) (f : List Nat → Nat → α) (zero : α)
    (hf : ∀ l l' x x', (Spot.line l x).Valid → (Spot.line l' x').Valid →
      (∀ k, k < L → (Spot.line l x).view L k = (Spot.line l' x').view L k) → f l x = f l' x')
    (p : Spot) (hp : p.Valid) (v : Nat) (h : p.code L = some v) :
    (∀ line x, (Spot.line line x).Valid →
      (∀ k, k < L → (Spot.line line x).view L k = p.view L k) → featureTable L f zero v = f line x)
    ∧ ∃ line x, (Spot.line line x).Valid
      ∧ (∀ k, k < L → (Spot.line line x).view L k = p.view L k) := by
  obtain ⟨hL, h17, key, left, right, hs, hv⟩ := spot_sees L p hp v h
  -- the canonical line with the same window
  have hD : ∀ i, (p.view L (L - 1 - i)).getD 0 % 3 < 3 := fun i => Nat.mod_lt _ (by omega)
  obtain ⟨hcv, hcc⟩ := canonLine_code L left right hL h17 hs.hl hs.hr
    (fun i => (p.view L (L - 1 - i)).getD 0 % 3) hD
  have hview : ∀ k, k < L → (Spot.line (canonLine L left right
      (fun i => (p.view L (L - 1 - i)).getD 0 % 3)) left).view L k = p.view L k := by
    intro k hk
    rw [canonLine_view L left right hL hs.hl hs.hr _ hD k hk]
    have w := hs.wall k hk
    by_cases hc : k < L / 2 - left ∨ L - (L / 2 - right) ≤ k
    · rw [if_pos hc, w.2 hc]
    · rw [if_neg hc]
      have e : L - 1 - (L - 1 - k) = k := by omega
      simp only [e]
      cases hk' : p.view L k with
      | none => exact absurd (w.1 hk') hc
      | some u =>
          have := hs.small k u hk hk'
          simp only [Option.getD_some]
          congr 1; omega
  refine ⟨?_, _, _, hcv, hview⟩
  intro line x hlx hsame
  unfold featureTable
  apply Export.table_fold (fun w : Nat × List Nat × Nat => f w.2.1 w.2.2) (fun w => w.1)
  · intro w hw hk
    rw [mem_featureWrites] at hw
    obtain ⟨-, hcw⟩ := hw
    have hwv : (Spot.line w.2.1 w.2.2).Valid := by
      by_contra hne
      simp only [Spot.Valid, Nat.not_lt] at hne
      simp only [Spot.code, transformLine] at hcw
      split_ifs at hcw with hh
      · simp only [Option.bind_some] at hcw
        rw [List.getElem?_eq_none (by simpa using hne)] at hcw
        exact absurd hcw (by simp)
      · simp at hcw
    apply hf _ _ _ _ hwv hlx
    have := (C56_same_code_iff_same_view L _ p hwv hp _ v hcw h).1 hk
    intro k hk
    rw [this k hk, hsame k hk]
  · right
    refine ⟨(v, canonLine L left right (fun i => (p.view L (L - 1 - i)).getD 0 % 3), left), ?_, rfl⟩
    rw [mem_featureWrites]
    have hlen : (canonLine L left right (fun i => (p.view L (L - 1 - i)).getD 0 % 3)).length
        = left + right + 1 := by simp [canonLine]
    have a := hs.hl
    have b := hs.hr
    refine ⟨⟨by rw [hlen]; omega, by rw [hlen]; omega, ?_⟩, ?_⟩
    · intro c hc
      unfold canonLine at hc
      rw [List.mem_map] at hc
      obtain ⟨j, -, rfl⟩ := hc
      exact hD _
    · rw [hcc]
      have := (C56_same_code_iff_same_view L _ p hcv hp _ v hcc h).2 hview
      rw [this]

/-- Non-vacuity: positions on a line and on a board with the same window and so the same code, and a
position that sees a wall instead of an empty cell. -/
example :
    (Spot.line [1, 2, 0, 0] 0).code 3 = some 59
    ∧ (Spot.board ⟨2, 2, fun y x => y = 0 ∧ x = 0, fun y x => y = 1 ∧ x = 1⟩ 3 0 0).code 3
        = (Spot.line [1, 2] 0).code 3
    ∧ (Spot.line [0, 1, 2] 1).code 3 ≠ (Spot.line [1, 2] 0).code 3
    ∧ totalNumEncoding 3 = 63 ∧ (Spot.line [2, 2] 0).code 3 = some 62 := by decide +kernel

end Verif.LineEnc
