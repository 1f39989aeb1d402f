import Verif.Composite.Model
import Mathlib.Tactic.Linarith
import Mathlib.Tactic.Ring

/-!
# The blend schedule: lemmas for C22
-/
namespace Verif.Composite

theorem argmax_lt : ∀ (l : List Int), l ≠ [] → argmax l < l.length
  | [], h => absurd rfl h
  | [_], _ => by simp [argmax]
  | a :: b :: rest, _ => by
    have ih := argmax_lt (b :: rest) (by simp)
    simp only [argmax]
    split
    · simp
    · simp only [List.length_cons] at ih ⊢; omega

theorem argmax_ge : ∀ (l : List Int) (k : Nat), k < l.length → l.getD k 0 ≤ l.getD (argmax l) 0
  | [], k, h => by simp at h
  | [a], k, h => by simp at h; simp [h, argmax]
  | a :: b :: rest, k, h => by
    have ih := argmax_ge (b :: rest)
    simp only [argmax]
    split
    · rename_i hle
      cases k with
      | zero => simp
      | succ k =>
        have := ih k (by simpa using h)
        simp only [List.getD_cons_zero, List.getD_cons_succ]
        omega
    · rename_i hgt
      cases k with
      | zero => simp only [List.getD_cons_zero, List.getD_cons_succ]; omega
      | succ k =>
        have := ih k (by simpa using h)
        simp only [List.getD_cons_succ]
        omega

theorem sum_le_length_mul (l : List Int) (m : Int) (h : ∀ k < l.length, l.getD k 0 ≤ m) : l.sum ≤ l.length * m := by
  induction l with
  | nil => simp
  | cons a l ih =>
    have h0 := h 0 (by simp)
    have h1 := ih fun k hk => by simpa using h (k + 1) (by simpa using hk)
    simp only [List.getD_cons_zero] at h0
    simp only [List.sum_cons, List.length_cons]
    push_cast
    have : ((l.length : Int) + 1) * m = l.length * m + m := by ring
    omega

theorem sum_modify_sub (l : List Int) (k : Nat) (t : Int) (h : k < l.length) :
    (l.modify k (· - t)).sum = l.sum - t := by
  induction l generalizing k with
  | nil => simp at h
  | cons a l ih =>
    cases k with
    | zero => simp; omega
    | succ k => simp only [List.modify_succ_cons, List.sum_cons]; rw [ih k (by simpa using h)]; omega

theorem getD_zip_add (s : List Int) (w : List Nat) (h : s.length = w.length) (k : Nat) (hk : k < w.length) :
    ((s.zip w).map fun x => x.1 + (x.2 : Int)).getD k 0 = s.getD k 0 + (w.getD k 0 : Nat) := by
  simp [List.getD_eq_getElem?_getD, hk, h]

theorem sum_zip_add (s : List Int) (w : List Nat) (h : s.length = w.length) :
    ((s.zip w).map fun x => x.1 + (x.2 : Int)).sum = s.sum + (w.sum : Nat) := by
  induction s generalizing w with
  | nil => cases w with
    | nil => simp
    | cons => simp at h
  | cons a s ih =>
    cases w with
    | nil => simp at h
    | cons b w =>
      simp only [List.zip_cons_cons, List.map_cons, List.sum_cons]
      rw [ih w (by simpa using h)]
      push_cast; omega

/-- The state after some rounds: scores sum to 0 and exceed `-total`. -/
structure ScoreInv (weights : List Nat) (scores : List Int) : Prop where
  len : scores.length = weights.length
  sum : scores.sum = 0
  low : ∀ k < weights.length, -(weights.sum : Int) < scores.getD k 0

theorem round_inv {weights : List Nat} (hne : weights ≠ []) (hpos : ∀ w ∈ weights, 0 < w) {scores : List Int}
    (h : ScoreInv weights scores) :
    ScoreInv weights (round weights weights.sum scores).1 ∧
    (round weights weights.sum scores).2 < weights.length ∧
    ∀ k < weights.length, (round weights weights.sum scores).1.getD k 0 =
      scores.getD k 0 + weights.getD k 0 - if (round weights weights.sum scores).2 = k then (weights.sum : Int) else 0 := by
  have hn : 0 < weights.length := List.length_pos_iff.mpr hne
  have htot : 0 < weights.sum := by
    cases weights with
    | nil => exact absurd rfl hne
    | cons a t => have := hpos a (by simp); simp only [List.sum_cons]; omega
  set up := (scores.zip weights).map fun x => x.1 + (x.2 : Int) with hup
  have hlen : up.length = weights.length := by simp [hup, h.len]
  have hsum : up.sum = (weights.sum : Int) := by rw [hup, sum_zip_add _ _ h.len, h.sum]; omega
  have hget : ∀ k < weights.length, up.getD k 0 = scores.getD k 0 + (weights.getD k 0 : Nat) :=
    fun k hk => getD_zip_add _ _ h.len k hk
  have hsel : argmax up < weights.length := by
    rw [← hlen]; exact argmax_lt _ (by intro h0; rw [h0] at hlen; simp at hlen; omega)
  have hmax : 0 < up.getD (argmax up) 0 := by
    by_contra hneg
    have := sum_le_length_mul up 0 fun k hk => le_trans (argmax_ge up k hk) (by omega)
    rw [hsum] at this
    omega
  have e1 : (round weights weights.sum scores).1 = up.modify (argmax up) (· - (weights.sum : Int)) := rfl
  have e2 : (round weights weights.sum scores).2 = argmax up := rfl
  have hg : ∀ k < weights.length, (up.modify (argmax up) (· - (weights.sum : Int))).getD k 0 =
      up.getD k 0 - if argmax up = k then (weights.sum : Int) else 0 := by
    intro k hk
    rw [← hlen] at hk
    simp only [List.getD_eq_getElem?_getD, List.getElem?_modify, List.getElem?_eq_getElem hk]
    split <;> simp
  rw [e1, e2]
  refine ⟨⟨by simp [hlen], ?_, ?_⟩, hsel, ?_⟩
  · rw [sum_modify_sub _ _ _ (by rw [hlen]; exact hsel), hsum]; omega
  · intro k hk
    rw [hg k hk]
    split
    · rename_i he; rw [← he]; omega
    · rw [hget k hk]; have := h.low k hk; omega
  · intro k hk
    rw [hg k hk, hget k hk]

theorem rounds_spec {weights : List Nat} (hne : weights ≠ []) (hpos : ∀ w ∈ weights, 0 < w) :
    ∀ (n : Nat) (scores : List Int), ScoreInv weights scores →
      (rounds weights weights.sum n scores).length = n ∧
      (∀ i ∈ rounds weights weights.sum n scores, i < weights.length) ∧
      ∀ m ≤ n, ∀ k < weights.length, -(weights.sum : Int) <
        scores.getD k 0 + m * weights.getD k 0 - weights.sum * ((rounds weights weights.sum n scores).take m).count k
  | 0, scores, h => by
    refine ⟨rfl, by simp [rounds], ?_⟩
    intro m hm k hk
    have : m = 0 := by omega
    subst this
    have := h.low k hk
    simpa [rounds] using this
  | n + 1, scores, h => by
    obtain ⟨h1, h2, h3⟩ := round_inv hne hpos h
    obtain ⟨i1, i2, i3⟩ := rounds_spec hne hpos n _ h1
    simp only [rounds]
    refine ⟨by simp [i1], ?_, ?_⟩
    · intro i hi
      rcases List.mem_cons.mp hi with rfl | hi
      · exact h2
      · exact i2 i hi
    · intro m hm k hk
      cases m with
      | zero => have := h.low k hk; simpa using this
      | succ m =>
        have := i3 m (by omega) k hk
        rw [h3 k hk] at this
        simp only [List.take_succ_cons, List.count_cons]
        by_cases hs : (round weights weights.sum scores).2 = k
        · rw [if_pos hs] at this
          simp only [hs, beq_self_eq_true, if_true]
          push_cast
          linarith
        · rw [if_neg hs] at this
          rw [if_neg (by simpa using hs)]
          push_cast
          linarith

theorem sum_count (l : List Nat) (n : Nat) (h : ∀ i ∈ l, i < n) :
    ((List.range n).map fun i => l.count i).sum = l.length := by
  induction l with
  | nil => induction n with
    | zero => simp
    | succ n ih => have := ih (by simp); simp only [List.count_nil, List.length_nil] at this ⊢; simp [List.range_succ, this]
  | cons a l ih0 =>
    have ih := ih0 fun i hi => h i (by simp [hi])
    clear ih0
    have ha := h a (by simp)
    have : ((List.range n).map fun i => (a :: l).count i).sum =
        ((List.range n).map fun i => l.count i).sum + ((List.range n).map fun i => if a = i then 1 else 0).sum := by
      clear ih ha h
      induction n with
      | zero => simp
      | succ n ih => simp only [List.range_succ, List.map_append, List.sum_append, List.map_cons, List.map_nil,
          List.sum_cons, List.sum_nil]
                     rw [ih]; simp only [List.count_cons, beq_iff_eq]; omega
    rw [this, ih]
    have h1 : ∀ n, ((List.range n).map fun i => if a = i then 1 else 0).sum = if a < n then 1 else 0 := by
      intro n
      induction n with
      | zero => simp
      | succ n ih =>
        simp only [List.range_succ, List.map_append, List.sum_append, List.map_cons, List.map_nil, List.sum_cons,
          List.sum_nil]
        rw [ih]
        by_cases h1 : a = n
        · subst h1; simp
        · by_cases h2 : a < n
          · simp [h1, h2]; omega
          · have : ¬ a < n + 1 := by omega
            simp [h1, h2, this]
    rw [h1, if_pos ha, List.length_cons]

theorem sum_getD (w : List Nat) : ((List.range w.length).map fun i => w.getD i 0).sum = w.sum := by
  congr 1
  apply List.ext_getElem
  · simp
  · intro i h1 h2; simp [List.getElem?_eq_getElem h2]

theorem eq_of_le_of_sum (n : Nat) (f g : Nat → Nat) (hle : ∀ i < n, f i ≤ g i)
    (hs : ((List.range n).map f).sum = ((List.range n).map g).sum) : ∀ i < n, f i = g i := by
  induction n with
  | zero => intro i hi; omega
  | succ n ih =>
    simp only [List.range_succ, List.map_append, List.sum_append, List.map_cons, List.map_nil, List.sum_cons,
      List.sum_nil] at hs
    have hle' : ((List.range n).map f).sum ≤ ((List.range n).map g).sum := by
      clear hs ih
      induction n with
      | zero => simp
      | succ n ih =>
        simp only [List.range_succ, List.map_append, List.sum_append, List.map_cons, List.map_nil, List.sum_cons,
          List.sum_nil]
        have := ih fun i hi => hle i (by omega)
        have := hle n (by omega)
        omega
    have hn := hle n (by omega)
    intro i hi
    by_cases h : i = n
    · subst h; omega
    · exact ih (fun i hi => hle i (by omega)) (by omega) i (by omega)

theorem weightedCycle_spec {weights sched : List Nat} (h : weightedCycle weights = some sched) :
    weights ≠ [] ∧ (∀ w ∈ weights, 0 < w) ∧ sched.length = weights.sum ∧ (∀ i ∈ sched, i < weights.length) ∧
    (∀ i < weights.length, sched.count i = weights.getD i 0) ∧
    ∀ m ≤ sched.length, ∀ i < weights.length, weights.sum * (sched.take m).count i < m * weights.getD i 0 + weights.sum := by
  unfold weightedCycle at h
  by_cases h0 : weights = [] ∨ weights.any (· == 0) = true
  · rw [if_pos h0] at h; simp at h
  rw [if_neg h0] at h
  simp only [Option.some.injEq] at h
  simp only [not_or, List.any_eq_true, not_exists, not_and, beq_iff_eq] at h0
  have hpos : ∀ w ∈ weights, 0 < w := fun w hw => Nat.pos_of_ne_zero (h0.2 w hw)
  have htot : 0 < weights.sum := by
    cases weights with
    | nil => exact absurd rfl h0.1
    | cons a t => have := hpos a (by simp); simp only [List.sum_cons]; omega
  have hinit : ScoreInv weights (List.replicate weights.length 0) := by
    refine ⟨by simp, by simp, ?_⟩
    intro k hk
    simp [List.getD_eq_getElem?_getD, hk]; omega
  obtain ⟨r1, r2, r3⟩ := rounds_spec h0.1 hpos weights.sum _ hinit
  rw [h] at r1 r2 r3
  have r3' : ∀ m ≤ sched.length, ∀ i < weights.length,
      weights.sum * (sched.take m).count i < m * weights.getD i 0 + weights.sum := by
    intro m hm i hi
    have := r3 m (by omega) i hi
    simp only [List.getD_eq_getElem?_getD, List.getElem?_replicate, hi, if_true, Option.getD_some] at this
    simp only [List.getD_eq_getElem?_getD]
    have h2 : ((weights.sum * (sched.take m).count i : Nat) : Int) < ((m * (weights[i]?.getD 0) + weights.sum : Nat) : Int) := by
      push_cast; linarith
    exact_mod_cast h2
  refine ⟨h0.1, hpos, r1, r2, ?_, r3'⟩
  apply eq_of_le_of_sum
  · intro i hi
    have := r3' sched.length le_rfl i hi
    rw [List.take_length, r1] at this
    have : weights.sum * sched.count i < weights.sum * (weights.getD i 0 + 1) := by
      rw [Nat.mul_add, Nat.mul_one]; exact this
    exact Nat.lt_succ_iff.mp (Nat.lt_of_mul_lt_mul_left this)
  · rw [sum_getD, sum_count _ _ r2, r1]

end Verif.Composite
