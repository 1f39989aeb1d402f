import Verif.LineEnc.Model
import Mathlib.Algebra.BigOperators.Intervals
import Mathlib.Tactic.Ring
import Mathlib.Tactic.Linarith
import Mathlib.Tactic.NormNum
import Mathlib.Algebra.Order.BigOperators.Group.Finset

/-! Base-3 digit sums and the digits of the border codes. -/
namespace Verif.LineEnc

open Finset

/-- Number with base-3 digits `D 0, …, D (n-1)`. -/
def val (n : Nat) (D : Nat → Nat) : Nat := ∑ i ∈ range n, D i * 3 ^ i

theorem val_succ (n : Nat) (D : Nat → Nat) : val (n + 1) D = val n D + D n * 3 ^ n := by
  unfold val; rw [sum_range_succ]

theorem val_lt (n : Nat) (D : Nat → Nat) (h : ∀ i, i < n → D i < 3) : val n D < 3 ^ n := by
  induction n with
  | zero => simp [val]
  | succ n ih =>
      rw [val_succ, pow_succ]
      have h1 := ih (fun i hi => h i (by omega))
      have h2 := h n (by omega)
      have h3 : D n * 3 ^ n ≤ 2 * 3 ^ n := Nat.mul_le_mul_right _ (by omega)
      omega

theorem val_inj (n : Nat) (D E : Nat → Nat) (hD : ∀ i, i < n → D i < 3) (hE : ∀ i, i < n → E i < 3)
    (h : val n D = val n E) : ∀ i, i < n → D i = E i := by
  induction n with
  | zero => intro i hi; omega
  | succ n ih =>
      rw [val_succ, val_succ] at h
      have a := val_lt n D (fun i hi => hD i (by omega))
      have b := val_lt n E (fun i hi => hE i (by omega))
      have hp : 0 < 3 ^ n := by positivity
      have htop : D n = E n := by
        have e1 : (val n D + D n * 3 ^ n) / 3 ^ n = D n := by
          rw [Nat.add_mul_div_right _ _ hp, Nat.div_eq_of_lt a, Nat.zero_add]
        have e2 : (val n E + E n * 3 ^ n) / 3 ^ n = E n := by
          rw [Nat.add_mul_div_right _ _ hp, Nat.div_eq_of_lt b, Nat.zero_add]
        rw [← e1, ← e2, h]
      rw [htop] at h
      have := ih (fun i hi => hD i (by omega)) (fun i hi => hE i (by omega)) (by omega)
      intro i hi
      rcases Nat.lt_or_ge i n with h1 | h1
      · exact this i h1
      · have : i = n := by omega
        subst this; exact htop

theorem val_congr (n : Nat) (D E : Nat → Nat) (h : ∀ i, i < n → D i = E i) : val n D = val n E := by
  unfold val
  apply sum_congr rfl
  intro i hi
  rw [h i (mem_range.1 hi)]

theorem val_mono (n : Nat) (D E : Nat → Nat) (h : ∀ i, i < n → D i ≤ E i) : val n D ≤ val n E := by
  unfold val
  apply sum_le_sum
  intro i hi
  exact Nat.mul_le_mul_right _ (h i (mem_range.1 hi))

/-- A sum over a sub-range as a sum over the whole range. -/
theorem sum_window (L a n : Nat) (h : a + n ≤ L) (f : Nat → Nat) :
    ∑ i ∈ range n, f (a + i) = ∑ i ∈ range L, if a ≤ i ∧ i < a + n then f i else 0 := by
  rw [← sum_filter]
  apply sum_bij (fun i _ => a + i)
  · intro i hi
    simp only [mem_filter, mem_range] at hi ⊢
    omega
  · intro i _ j _ hij
    omega
  · intro j hj
    simp only [mem_filter, mem_range] at hj
    exact ⟨j - a, mem_range.2 (by omega), by omega⟩
  · intro i _; rfl

/-- The same with mirrored exponents. -/
theorem sum_window_rev (L a n : Nat) (h : a + n ≤ L) (f : Nat → Nat) :
    ∑ i ∈ range n, f (L - 1 - (a + i))
      = ∑ i ∈ range L, if a ≤ L - 1 - i ∧ L - 1 - i < a + n then f i else 0 := by
  rw [sum_window L a n h (fun i => f (L - 1 - i))]
  rw [← sum_range_reflect]
  apply sum_congr rfl
  intro i hi
  have hi := mem_range.1 hi
  have e : L - 1 - (L - 1 - i) = i := by omega
  rw [e]

/-- Leading digit of a code: which sides of the window are cut. -/
def topDigit (s t : Nat) : Nat := if s = 0 then (if t = 0 then 0 else 2) else 1

/-- Digit `i < L` of a code with `s` cells missing at the low exponents, `t` at the high ones and
visible cells `c i`. -/
def codeDigit (L s t : Nat) (c : Nat → Nat) (i : Nat) : Nat :=
  if s = 0 then
    if t = 0 then c i
    else if i < L - t then c i else if i = L - t then 0 else 1
  else if s ≤ t then
    if i < s then 2 else if i < L - t then c i else if i = L - t then 0
    else if i < L - (s - 1) then 1 else 2
  else
    if i < t then 2 else if i < s - 1 then 1 else if i = s - 1 then 0
    else if i < L - t then c i else 2

theorem codeDigit_lt (L s t : Nat) (c : Nat → Nat) (hc : ∀ i, c i < 3) (i : Nat) :
    codeDigit L s t c i < 3 := by
  have := hc i
  unfold codeDigit
  split_ifs <;> omega

/-- Digits of border code plus cells. -/
theorem border_add_cells (h s t : Nat) (hs : s ≤ h) (ht : t ≤ h) (c : Nat → Nat) :
    borderEncoding (2 * h + 1) (h - t) (h - s)
      + val (2 * h + 1) (fun i => if s ≤ i ∧ i < 2 * h + 1 - t then c i else 0)
      = topDigit s t * 3 ^ (2 * h + 1) + val (2 * h + 1) (codeDigit (2 * h + 1) s t c) := by
  set L := 2 * h + 1 with hL
  have hh : L / 2 = h := by omega
  unfold borderEncoding
  rw [hh]
  simp only
  by_cases h0 : s = 0
  · subst h0
    by_cases h1 : t = 0
    · subst h1
      rw [if_pos (by omega)]
      simp only [topDigit, if_true, Nat.zero_mul]
      congr 1
      apply val_congr
      intro i hi
      rw [if_pos (by omega)]
      simp [codeDigit]
    · rw [if_neg (by omega), if_pos (by omega)]
      have ed : h - (h - t) = t := by omega
      rw [ed]
      have e1 : ∑ i ∈ range (t - 1), 3 ^ (L - (i + 1))
          = ∑ i ∈ range L, if 0 ≤ L - 1 - i ∧ L - 1 - i < 0 + (t - 1) then 3 ^ i else 0 := by
        rw [← sum_window_rev L 0 (t - 1) (by omega) (fun i => 3 ^ i)]
        apply sum_congr rfl
        intro i _
        congr 1; omega
      rw [e1]
      have ht2 : topDigit 0 t = 2 := by simp [topDigit, h1]
      rw [ht2, Nat.add_assoc]
      congr 1
      unfold val
      rw [← sum_add_distrib]
      apply sum_congr rfl
      intro i hi
      have hi := mem_range.1 hi
      unfold codeDigit
      rw [if_pos rfl, if_neg h1]
      beta_reduce
      clear e1 ht2 hh hL
      rcases Nat.lt_or_ge i (L - t) with h3 | h3
      · rw [if_neg (by omega), if_pos (by omega), if_pos (by omega)]; ring
      · rcases Nat.eq_or_lt_of_le h3 with h4 | h4
        · rw [if_neg (by omega), if_neg (by omega), if_neg (by omega), if_pos (by omega)]; ring
        · rw [if_pos (by omega), if_neg (by omega), if_neg (by omega), if_neg (by omega)]; ring
  · rw [if_neg (by omega), if_neg (by omega)]
    have ed : h - (h - t) = t := by omega
    have es : h - (h - s) = s := by omega
    rw [ed, es]
    have e1 : ∑ i ∈ range (min t s), 2 * 3 ^ i
        = ∑ i ∈ range L, if 0 ≤ i ∧ i < 0 + min t s then 2 * 3 ^ i else 0 := by
      rw [← sum_window L 0 (min t s) (by omega) (fun i => 2 * 3 ^ i)]
      simp
    have e2 : ∑ i ∈ range (min t (s - 1)), 2 * 3 ^ (L - 1 - i)
        = ∑ i ∈ range L, if 0 ≤ L - 1 - i ∧ L - 1 - i < 0 + min t (s - 1) then 2 * 3 ^ i else 0 := by
      rw [← sum_window_rev L 0 (min t (s - 1)) (by omega) (fun i => 2 * 3 ^ i)]
      simp
    have e3 : ∑ i ∈ range (s - 1 - min t s), 3 ^ (min t s + i)
        = ∑ i ∈ range L, if min t s ≤ i ∧ i < min t s + (s - 1 - min t s) then 3 ^ i else 0 :=
      sum_window L (min t s) _ (by omega) (fun i => 3 ^ i)
    have e4 : ∑ i ∈ range (t - 1 - min t (s - 1)), 3 ^ (L - 1 - (min t (s - 1) + i))
        = ∑ i ∈ range L, if min t (s - 1) ≤ L - 1 - i
            ∧ L - 1 - i < min t (s - 1) + (t - 1 - min t (s - 1)) then 3 ^ i else 0 :=
      sum_window_rev L (min t (s - 1)) _ (by omega) (fun i => 3 ^ i)
    rw [e1, e2, e3, e4]
    have ht2 : topDigit s t = 1 := by simp [topDigit, h0]
    rw [ht2, Nat.one_mul]
    simp only [Nat.add_assoc]
    congr 1
    unfold val
    rw [← sum_add_distrib, ← sum_add_distrib, ← sum_add_distrib, ← sum_add_distrib]
    apply sum_congr rfl
    intro i hi
    have hi := mem_range.1 hi
    unfold codeDigit
    rw [if_neg h0]
    by_cases hst : s ≤ t
    · rw [if_pos hst, min_eq_right hst, min_eq_right (show s - 1 ≤ t by omega)]
      beta_reduce
      clear e1 e2 e3 e4 ht2 hh
      rcases Nat.lt_or_ge i s with a | a
      · rw [if_pos (by omega), if_neg (by omega), if_neg (by omega), if_neg (by omega),
          if_neg (by omega), if_pos a]; ring
      rw [if_neg (by omega : ¬(0 ≤ i ∧ i < 0 + s)), if_neg (by omega : ¬i < s)]
      rcases Nat.lt_or_ge i (L - t) with b | b
      · rw [if_neg (by omega), if_neg (by omega), if_neg (by omega), if_pos (by omega), if_pos b]
        ring
      rw [if_neg (by omega : ¬i < L - t), if_neg (by omega : ¬(s ≤ i ∧ i < L - t))]
      rcases Nat.eq_or_lt_of_le b with d | d
      · rw [if_neg (by omega), if_neg (by omega), if_neg (by omega), if_pos (by omega)]; ring
      rw [if_neg (by omega : ¬i = L - t)]
      rcases Nat.lt_or_ge i (L - (s - 1)) with e | e
      · rw [if_neg (by omega), if_neg (by omega), if_pos (by omega), if_pos e]; ring
      · rw [if_pos (by omega), if_neg (by omega), if_neg (by omega), if_neg (by omega)]; ring
    · rw [if_neg hst, min_eq_left (show t ≤ s by omega), min_eq_left (show t ≤ s - 1 by omega)]
      beta_reduce
      clear e1 e2 e3 e4 ht2 hh
      rcases Nat.lt_or_ge i t with a | a
      · rw [if_pos (by omega), if_neg (by omega), if_neg (by omega), if_neg (by omega),
          if_neg (by omega), if_pos a]; ring
      rw [if_neg (by omega : ¬(0 ≤ i ∧ i < 0 + t)), if_neg (by omega : ¬i < t)]
      rcases Nat.lt_or_ge i (s - 1) with b | b
      · rw [if_neg (by omega), if_pos (by omega), if_neg (by omega), if_neg (by omega), if_pos b]
        ring
      rw [if_neg (by omega : ¬i < s - 1)]
      rcases Nat.eq_or_lt_of_le b with d | d
      · rw [if_neg (by omega), if_neg (by omega), if_neg (by omega), if_neg (by omega),
          if_pos (by omega)]; ring
      rw [if_neg (by omega : ¬i = s - 1)]
      rcases Nat.lt_or_ge i (L - t) with e | e
      · rw [if_neg (by omega), if_neg (by omega), if_neg (by omega), if_pos (by omega), if_pos e]
        ring
      · rw [if_pos (by omega), if_neg (by omega), if_neg (by omega), if_neg (by omega),
          if_neg (by omega)]; ring

/-- Digits when both sides are cut and the low side is cut less. -/
theorem codeDigit_I (L s t : Nat) (c : Nat → Nat) (h0 : s ≠ 0) (h : s ≤ t) (h1 : s + t ≤ L)
    (_h2 : t < L) :
    (∀ i, i < s → codeDigit L s t c i = 2) ∧
    (∀ i, i < s - 1 → codeDigit L s t c (L - 1 - i) = 2) ∧
    (∀ i, s - 1 ≤ i → i < t - 1 → codeDigit L s t c (L - 1 - i) = 1) ∧
    codeDigit L s t c (L - t) = 0 := by
  refine ⟨?_, ?_, ?_, ?_⟩
  · intro i hi
    unfold codeDigit
    rw [if_neg h0, if_pos h, if_pos hi]
  · intro i hi
    unfold codeDigit
    rw [if_neg h0, if_pos h, if_neg (by omega), if_neg (by omega), if_neg (by omega),
      if_neg (by omega)]
  · intro i h3 h4
    unfold codeDigit
    rw [if_neg h0, if_pos h, if_neg (by omega), if_neg (by omega), if_neg (by omega),
      if_pos (by omega)]
  · unfold codeDigit
    rw [if_neg h0, if_pos h, if_neg (by omega), if_neg (by omega), if_pos rfl]

/-- Digits when both sides are cut and the high side is cut less. -/
theorem codeDigit_II (L s t : Nat) (c : Nat → Nat) (h : t < s) :
    (∀ i, i < t → codeDigit L s t c i = 2) ∧
    (∀ i, t ≤ i → i < s - 1 → codeDigit L s t c i = 1) ∧
    (∀ i, i = s - 1 → codeDigit L s t c i = 0) ∧
    (∀ i, s - 1 < i → L - t ≤ i → codeDigit L s t c i = 2) := by
  have h0 : s ≠ 0 := by omega
  refine ⟨?_, ?_, ?_, ?_⟩
  · intro i hi
    unfold codeDigit
    rw [if_neg h0, if_neg (by omega), if_pos hi]
  · intro i h1 h2
    unfold codeDigit
    rw [if_neg h0, if_neg (by omega), if_neg (by omega), if_pos h2]
  · intro i hi
    unfold codeDigit
    rw [if_neg h0, if_neg (by omega), if_neg (by omega), if_neg (by omega), if_pos hi]
  · intro i h1 h2
    unfold codeDigit
    rw [if_neg h0, if_neg (by omega), if_neg (by omega), if_neg (by omega), if_neg (by omega),
      if_neg (by omega)]

/-- Visible cells are copied. -/
theorem codeDigit_visible (L s t : Nat) (c : Nat → Nat) (i : Nat) (h1 : s ≤ i) (h2 : i < L - t) :
    codeDigit L s t c i = c i := by
  unfold codeDigit
  by_cases h0 : s = 0
  · rw [if_pos h0]
    by_cases h3 : t = 0
    · rw [if_pos h3]
    · rw [if_neg h3, if_pos h2]
  · rw [if_neg h0]
    by_cases h3 : s ≤ t
    · rw [if_pos h3, if_neg (by omega), if_pos h2]
    · rw [if_neg h3, if_neg (by omega), if_neg (by omega), if_neg (by omega), if_pos h2]

/-- The two kinds of digit patterns differ. -/
theorem mixed_absurd (h s t s' t' : Nat) (hs : s ≤ h) (ht : t ≤ h) (hs' : s' ≤ h) (ht' : t' ≤ h)
    (c c' : Nat → Nat) (h0 : s ≠ 0) (ty : s ≤ t) (ty' : t' < s')
    (hd : ∀ i, i < 2 * h + 1 → codeDigit (2 * h + 1) s t c i = codeDigit (2 * h + 1) s' t' c' i) :
    False := by
  have t1 := codeDigit_I (2 * h + 1) s t c h0 ty (by omega) (by omega)
  have t2 := codeDigit_II (2 * h + 1) s' t' c' ty'
  have a : t' ≤ s - 1 := by
    by_contra hh
    have b := hd (2 * h + 1 - 1 - (s - 1)) (by omega)
    rw [t2.2.2.2 _ (by omega) (by omega)] at b
    rcases Nat.lt_or_ge (s - 1) (t - 1) with e | e
    · rw [t1.2.2.1 _ (by omega) e] at b; omega
    · have : 2 * h + 1 - 1 - (s - 1) = 2 * h + 1 - t := by omega
      rw [this, t1.2.2.2] at b; omega
  have b := hd t' (by omega)
  rw [t1.1 t' (by omega)] at b
  rcases Nat.lt_or_ge t' (s' - 1) with e | e
  · rw [t2.2.1 _ (by omega) e] at b; omega
  · have : t' = s' - 1 := by omega
    rw [t2.2.2.1 _ this] at b; omega

/-- The digits determine how many cells are missing on each side, and the visible cells. -/
theorem codeDigit_inj (h s t s' t' : Nat) (hs : s ≤ h) (ht : t ≤ h) (hs' : s' ≤ h) (ht' : t' ≤ h)
    (c c' : Nat → Nat) (htop : topDigit s t = topDigit s' t')
    (hd : ∀ i, i < 2 * h + 1 → codeDigit (2 * h + 1) s t c i = codeDigit (2 * h + 1) s' t' c' i) :
    s = s' ∧ t = t' ∧ ∀ i, s ≤ i → i < 2 * h + 1 - t → c i = c' i := by
  set L := 2 * h + 1 with hL
  have key : s = s' ∧ t = t' := by
    unfold topDigit at htop
    by_cases h0 : s = 0
    · by_cases h0' : s' = 0
      · subst h0 h0'
        refine ⟨rfl, ?_⟩
        by_cases h1 : t = 0
        · by_cases h1' : t' = 0
          · omega
          · simp [h1, h1'] at htop
        · by_cases h1' : t' = 0
          · simp [h1, h1'] at htop
          · by_contra hne
            rcases Nat.lt_or_gt_of_ne hne with hlt | hlt
            · have := hd (L - t) (by omega)
              unfold codeDigit at this
              simp only [if_true, if_neg h1, if_neg h1'] at this
              rw [if_neg (by omega), if_neg (by omega), if_neg (by omega)] at this
              simp at this
            · have := hd (L - t') (by omega)
              unfold codeDigit at this
              simp only [if_true, if_neg h1, if_neg h1'] at this
              rw [if_neg (by omega), if_neg (by omega), if_neg (by omega)] at this
              simp at this
      · exfalso
        simp only [h0, h0', if_true, if_false] at htop
        split at htop <;> omega
    · by_cases h0' : s' = 0
      · exfalso
        simp only [h0, h0', if_true, if_false] at htop
        split at htop <;> omega
      · have D1 : ∀ i, i < L → codeDigit L s t c i = codeDigit L s' t' c' i := hd
        clear htop hd
        rcases Nat.lt_or_ge t s with ty | ty <;> rcases Nat.lt_or_ge t' s' with ty' | ty'
        · have t1 := codeDigit_II L s t c ty
          have t2 := codeDigit_II L s' t' c' ty'
          have ht : t = t' := by
            by_contra hne
            rcases Nat.lt_or_gt_of_ne hne with hlt | hlt
            · have a := D1 t (by omega)
              rw [t2.1 t hlt] at a
              rcases Nat.lt_or_ge t (s - 1) with b | b
              · rw [t1.2.1 t (by omega) b] at a; omega
              · have : t = s - 1 := by omega
                rw [t1.2.2.1 _ this] at a; omega
            · have a := D1 t' (by omega)
              rw [t1.1 t' hlt] at a
              rcases Nat.lt_or_ge t' (s' - 1) with b | b
              · rw [t2.2.1 t' (by omega) b] at a; omega
              · have : t' = s' - 1 := by omega
                rw [t2.2.2.1 _ this] at a; omega
          subst ht
          refine ⟨?_, rfl⟩
          by_contra hne
          rcases Nat.lt_or_gt_of_ne hne with hlt | hlt
          · have a := D1 (s - 1) (by omega)
            rw [t1.2.2.1 _ rfl, t2.2.1 (s - 1) (by omega) (by omega)] at a; omega
          · have a := D1 (s' - 1) (by omega)
            rw [t2.2.2.1 _ rfl, t1.2.1 (s' - 1) (by omega) (by omega)] at a; omega
        · exact (mixed_absurd h s' t' s t hs' ht' hs ht c' c h0' ty' ty
            (fun i hi => (D1 i hi).symm)).elim
        · exact (mixed_absurd h s t s' t' hs ht hs' ht' c c' h0 ty ty' D1).elim
        · have t1 := codeDigit_I L s t c h0 ty (by omega) (by omega)
          have t2 := codeDigit_I L s' t' c' h0' ty' (by omega) (by omega)
          have hss : s = s' := by
            by_contra hne
            rcases Nat.lt_or_gt_of_ne hne with hlt | hlt
            · have a := D1 (L - 1 - (s - 1)) (by omega)
              rw [t2.2.1 (s - 1) (by omega)] at a
              rcases Nat.lt_or_ge (s - 1) (t - 1) with b | b
              · rw [t1.2.2.1 (s - 1) (by omega) b] at a; omega
              · have : L - 1 - (s - 1) = L - t := by omega
                rw [this, t1.2.2.2] at a; omega
            · have a := D1 (L - 1 - (s' - 1)) (by omega)
              rw [t1.2.1 (s' - 1) (by omega)] at a
              rcases Nat.lt_or_ge (s' - 1) (t' - 1) with b | b
              · rw [t2.2.2.1 (s' - 1) (by omega) b] at a; omega
              · have : L - 1 - (s' - 1) = L - t' := by omega
                rw [this, t2.2.2.2] at a; omega
          subst hss
          refine ⟨rfl, ?_⟩
          by_contra hne
          rcases Nat.lt_or_gt_of_ne hne with hlt | hlt
          · have a := D1 (L - t) (by omega)
            have e : L - t = L - 1 - (t - 1) := by omega
            rw [t1.2.2.2, e, t2.2.2.1 (t - 1) (by omega) (by omega)] at a; omega
          · have a := D1 (L - t') (by omega)
            have e : L - t' = L - 1 - (t' - 1) := by omega
            rw [t2.2.2.2, e, t1.2.2.1 (t' - 1) (by omega) (by omega)] at a; omega
  obtain ⟨rfl, rfl⟩ := key
  refine ⟨rfl, rfl, ?_⟩
  intro i h1 h2
  have := hd i (by omega)
  rwa [codeDigit_visible L s t c i h1 h2, codeDigit_visible L s t c' i h1 h2] at this

end Verif.LineEnc
