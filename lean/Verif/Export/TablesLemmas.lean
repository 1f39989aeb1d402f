import Verif.Export.Tables
import Verif.Export.BitsLemmas

namespace Verif.Export

/-- Base-3 digit `j` of `n`. -/
def digit3 (n j : Nat) : Nat := n / 3 ^ j % 3

theorem digit3_lt (n j : Nat) : digit3 n j < 3 := Nat.mod_lt _ (by norm_num)

theorem digit3_low (a r i j : Nat) (h : j < i) : digit3 (a * 3 ^ i + r) j = digit3 r j := by
  unfold digit3
  obtain ⟨k, rfl⟩ : ∃ k, i = j + 1 + k := ⟨i - (j + 1), by omega⟩
  have : a * 3 ^ (j + 1 + k) + r = r + 3 ^ j * (3 * (a * 3 ^ k)) := by ring
  rw [this, Nat.add_mul_div_left _ _ (by positivity), Nat.add_mul_mod_self_left]

theorem digit3_top (a r i : Nat) (hr : r < 3 ^ i) (ha : a < 3) : digit3 (a * 3 ^ i + r) i = a := by
  unfold digit3
  rw [Nat.add_comm, Nat.add_mul_div_right _ _ (by positivity), Nat.div_eq_of_lt hr, Nat.zero_add,
    Nat.mod_eq_of_lt ha]

theorem digit3_zero (r j : Nat) (hr : r < 3 ^ j) : digit3 r j = 0 := by
  unfold digit3; rw [Nat.div_eq_of_lt hr]

/-- Row `r` after the first `i` columns have been processed. -/
def rowOf (n i r : Nat) : List Nat := (List.range n).map fun j => if j < i then digit3 r j else 0

theorem rowOf_step (n i r a : Nat) (_hi : i < n) (hr : r < 3 ^ i) (ha : a < 3) :
    rowOf n (i + 1) (a * 3 ^ i + r) = (rowOf n i r).set i a := by
  apply List.ext_getElem
  · simp [rowOf]
  · intro j h1 h2
    simp only [rowOf, List.getElem_map, List.getElem_range, List.getElem_set]
    by_cases hj : i = j
    · subst hj
      rw [if_pos (by omega), if_pos rfl, digit3_top a r i hr ha]
    · rw [if_neg hj]
      by_cases hj2 : j < i
      · rw [if_pos (by omega), if_pos hj2, digit3_low _ _ _ _ hj2]
      · rw [if_neg (by omega), if_neg hj2]

theorem rowOf_step0 (n i r : Nat) (hi : i < n) (hr : r < 3 ^ i) :
    rowOf n (i + 1) r = rowOf n i r := by
  have := rowOf_step n i r 0 hi hr (by norm_num)
  rw [Nat.zero_mul, Nat.zero_add] at this
  rw [this]
  apply List.ext_getElem
  · simp
  · intro j h1 h2
    rw [List.getElem_set]
    split
    · next h => subst h; simp [rowOf]
    · rfl

theorem base3_fold (n i : Nat) (hi : i ≤ n) :
    (List.range i).foldl (fun x i => x ++ setColumn i 1 x ++ setColumn i 2 x)
      [List.replicate n 0] = (List.range (3 ^ i)).map (rowOf n i) := by
  induction i with
  | zero =>
      simp only [List.range_zero, List.foldl_nil, pow_zero]
      have : List.range 1 = [0] := rfl
      rw [this]
      simp [rowOf, List.map_const']
  | succ i ih =>
      rw [List.range_succ, List.foldl_append, ih (by omega)]
      simp only [List.foldl_cons, List.foldl_nil]
      have hp : 3 ^ (i + 1) = 3 ^ i + 3 ^ i + 3 ^ i := by rw [pow_succ]; omega
      rw [hp, List.range_add (n := 3 ^ i + 3 ^ i), List.range_add (n := 3 ^ i), List.map_append,
        List.map_append]
      have e0 : (List.range (3 ^ i)).map (rowOf n (i + 1)) = (List.range (3 ^ i)).map (rowOf n i) := by
        apply List.map_congr_left
        intro r hr
        exact rowOf_step0 n i r (by omega) (List.mem_range.1 hr)
      have e1 : ((List.range (3 ^ i)).map (3 ^ i + ·)).map (rowOf n (i + 1))
          = setColumn i 1 ((List.range (3 ^ i)).map (rowOf n i)) := by
        unfold setColumn
        rw [List.map_map, List.map_map]
        apply List.map_congr_left
        intro r hr
        have := rowOf_step n i r 1 (by omega) (List.mem_range.1 hr) (by norm_num)
        simpa using this
      have e2 : ((List.range (3 ^ i)).map (3 ^ i + 3 ^ i + ·)).map (rowOf n (i + 1))
          = setColumn i 2 ((List.range (3 ^ i)).map (rowOf n i)) := by
        unfold setColumn
        rw [List.map_map, List.map_map]
        apply List.map_congr_left
        intro r hr
        have := rowOf_step n i r 2 (by omega) (List.mem_range.1 hr) (by norm_num)
        simpa [Nat.two_mul] using this
      rw [e0, e1, e2]

theorem base3Permutation_eq (n : Nat) :
    base3Permutation n = (List.range (3 ^ n)).map fun r => (List.range n).map (digit3 r) := by
  unfold base3Permutation
  rw [base3_fold n n le_rfl]
  apply List.map_congr_left
  intro r _
  unfold rowOf
  apply List.map_congr_left
  intro j hj
  rw [if_pos (List.mem_range.1 hj)]

/-- Number with given base-3 digits. -/
theorem ofDigits_range_digit3 (n r : Nat) (hr : r < 3 ^ n) :
    ofDigits 3 ((List.range n).map (digit3 r)) = r := by
  induction n generalizing r with
  | zero => simp at hr; simp [ofDigits, hr]
  | succ n ih =>
      rw [List.range_succ_eq_map, List.map_cons, List.map_map]
      have : (digit3 r ∘ Nat.succ) = digit3 (r / 3) := by
        funext j
        simp only [Function.comp, digit3, Nat.succ_eq_add_one, pow_succ]
        rw [Nat.mul_comm, Nat.div_div_eq_div_mul]
      rw [this, ofDigits, ih (r / 3) (by rw [pow_succ] at hr; omega)]
      simp only [digit3, pow_zero, Nat.div_one]
      omega

theorem digit3_ofDigits (l : List Nat) (h : ∀ d ∈ l, d < 3) :
    (List.range l.length).map (digit3 (ofDigits 3 l)) = l := by
  apply List.ext_getElem
  · simp
  · intro i h1 h2
    simp only [List.getElem_map, List.getElem_range]
    exact ofDigits_digit 3 (by norm_num) l h i h2

/-! ### Ladder -/

theorem ladderDigits_getD (n e : Nat) : (ladderDigits n).getD e 0 = digit3 n e := by
  induction e generalizing n with
  | zero =>
      rw [ladderDigits]; split <;> simp [digit3]
  | succ e ih =>
      rw [ladderDigits]
      have hd : digit3 n (e + 1) = digit3 (n / 3) e := by
        simp only [digit3, pow_succ]; rw [Nat.mul_comm, Nat.div_div_eq_div_mul]
      split
      · next h =>
          rw [hd, h]
          simp [digit3]
      · rw [hd, ← ih]; simp

theorem ladderDigits_length (n k : Nat) (hn : n < 3 ^ (k + 1)) : (ladderDigits n).length ≤ k + 1 := by
  induction k generalizing n with
  | zero =>
      rw [ladderDigits, dif_pos (by rw [pow_succ, pow_zero] at hn; omega)]; simp
  | succ k ih =>
      rw [ladderDigits]
      split
      · simp
      · have := ih (n / 3) (by rw [pow_succ] at hn; omega)
        simp; omega

theorem foldl_cons_zero (k : Nat) (c : List Nat) :
    (List.range k).foldl (fun c _ => 0 :: c) c = List.replicate k 0 ++ c := by
  induction k with
  | zero => simp
  | succ k ih => rw [List.range_succ, List.foldl_append, ih]; simp [List.replicate_succ]

theorem ladderChunk_eq (n : Nat) (hn : n < 3 ^ 10) :
    ladderChunk n = (List.range 10).map fun i => digit3 n (9 - i) := by
  have hl := ladderDigits_length n 9 hn
  have hg := ladderDigits_getD n
  unfold ladderChunk
  simp only
  rw [foldl_cons_zero]
  generalize ladderDigits n = ds at *
  apply List.ext_getElem
  · simp; omega
  · intro i h1 h2
    simp only [List.length_map, List.length_range] at h2
    rw [List.getElem_map, List.getElem_range, ← hg]
    simp only [List.length_reverse]
    rw [List.getElem_append]
    simp only [List.length_replicate]
    split
    · next h =>
        rw [List.getElem_replicate, List.getD_eq_getElem?_getD, List.getElem?_eq_none (by omega)]
        rfl
    · next h =>
        rw [List.getElem_reverse, List.getD_eq_getElem?_getD, List.getElem?_eq_getElem (by omega)]
        simp only [Option.getD_some]
        congr 1
        omega

theorem ladderInput_fold (chunk : List Nat) (k c y x : Nat) :
    (List.range k).foldl (ladderStep chunk) (fun _ _ _ => 0) c y x
      = if ∃ i, i < k ∧ chunk.getD i 0 = c + 1 ∧ lowerTriangle.getD i 0 / 4 = y
            ∧ lowerTriangle.getD i 0 % 4 = x then 1 else 0 := by
  induction k with
  | zero => simp
  | succ k ih =>
      rw [List.range_succ, List.foldl_append]
      simp only [List.foldl_cons, List.foldl_nil]
      generalize (List.range k).foldl (ladderStep chunk) (fun _ _ _ => 0) = p at *
      unfold ladderStep
      by_cases h : chunk.getD k 0 = c + 1 ∧ lowerTriangle.getD k 0 / 4 = y
          ∧ lowerTriangle.getD k 0 % 4 = x
      · rw [if_pos (by omega)]
        unfold Planes.write
        rw [if_pos (by omega), if_pos ⟨k, by omega, h⟩]
      · have e : (if chunk.getD k 0 > 0 then p.write (chunk.getD k 0 - 1)
            (lowerTriangle.getD k 0 / 4) (lowerTriangle.getD k 0 % 4) 1 else p) c y x = p c y x := by
          split
          · unfold Planes.write
            rw [if_neg (by omega)]
          · rfl
        rw [e, ih]
        congr 1
        apply propext
        constructor
        · rintro ⟨i, hi, hh⟩; exact ⟨i, by omega, hh⟩
        · rintro ⟨i, hi, hh⟩
          refine ⟨i, ?_, hh⟩
          rcases Nat.lt_or_ge i k with h1 | h1
          · exact h1
          · have : i = k := by omega
            subst this; exact absurd hh h

/-! ### Base-3 planes -/

theorem base3_fold_planes (w idx : Nat) (k c y x : Nat) (hx : x < w) (hk : y * w + x < k) (hc : c < 2) :
    (List.range k).foldl (base3Step w idx) (fun _ _ _ => 0) c y x
      = if digit3 idx (y * w + x) = c + 1 then 1 else 0 := by
  induction k with
  | zero => omega
  | succ k ih =>
      rw [List.range_succ, List.foldl_append]
      simp only [List.foldl_cons, List.foldl_nil]
      generalize (List.range k).foldl (base3Step w idx) (fun _ _ _ => 0) = p at *
      unfold base3Step
      by_cases h : y * w + x = k
      · have h1 : k / w = y := by
          rw [← h, Nat.mul_comm, Nat.mul_add_div (by omega), Nat.div_eq_of_lt hx, Nat.add_zero]
        have h2 : k % w = x := by
          rw [← h, Nat.mul_comm, Nat.mul_add_mod, Nat.mod_eq_of_lt hx]
        rw [h1, h2, h]
        unfold Planes.write
        have hcs : c = 0 ∨ c = 1 := by omega
        rcases hcs with rfl | rfl
        · simp [digit3]
        · simp [digit3]
          congr
      · have hne : ¬ (y = k / w ∧ x = k % w) := by
          rintro ⟨rfl, rfl⟩
          apply h
          rw [Nat.mul_comm]
          exact Nat.div_add_mod k w
        unfold Planes.write
        rw [if_neg (by tauto), if_neg (by tauto)]
        exact ih (by omega)

theorem base3_outside (w idx : Nat) (k c y x : Nat) (h : ¬ (x < w ∧ y * w + x < k ∧ c < 2)) (hw : 0 < w) :
    (List.range k).foldl (base3Step w idx) (fun _ _ _ => 0) c y x = 0 := by
  induction k with
  | zero => simp
  | succ k ih =>
      rw [List.range_succ, List.foldl_append]
      simp only [List.foldl_cons, List.foldl_nil]
      have ih' := ih (by rintro ⟨a, b, d⟩; exact h ⟨a, by omega, d⟩)
      generalize (List.range k).foldl (base3Step w idx) (fun _ _ _ => 0) = p at *
      unfold base3Step Planes.write
      have hxw : ∀ z, x = z % w → x < w := fun z hz => hz ▸ Nat.mod_lt _ hw
      have hk : y = k / w → x = k % w → y * w + x < k + 1 := by
        rintro rfl rfl
        have := Nat.div_add_mod k w
        rw [Nat.mul_comm] at this; omega
      rw [if_neg, if_neg]
      · exact ih'
      · rintro ⟨rfl, hy, hx⟩; exact h ⟨hxw _ hx, hk hy hx, by omega⟩
      · rintro ⟨rfl, hy, hx⟩; exact h ⟨hxw _ hx, hk hy hx, by omega⟩

/-! ### Batched export -/

theorem base3Batch_eq (h w s e : Nat) :
    base3Batch h w s e = (List.range (e - s)).map fun k => base3Input h w (s + k) := by
  unfold base3Batch; rw [List.map_map]; rfl

theorem export_prefix {α : Type} (f : Planes → α) (h w total b k : Nat) :
    ((List.range k).map (· * b)).flatMap (fun s => (base3Batch h w s (min (s + b) total)).map f)
      = (List.range (min (k * b) total)).map fun i => f (base3Input h w i) := by
  induction k with
  | zero => simp
  | succ k ih =>
      rw [List.range_succ, List.map_append, List.flatMap_append, ih]
      simp only [List.map_cons, List.map_nil, List.flatMap_cons, List.flatMap_nil, List.append_nil]
      rw [base3Batch_eq, List.map_map]
      rcases Nat.le_total (k * b) total with hle | hle
      · have h1 : min (k * b) total = k * b := min_eq_left hle
        have h2 : min ((k + 1) * b) total = k * b + (min (k * b + b) total - k * b) := by
          rw [Nat.succ_mul]; omega
        rw [h1, h2, List.range_add, List.map_append, List.map_map]
        rfl
      · have h1 : min (k * b) total = total := min_eq_right hle
        have h2 : min ((k + 1) * b) total = total := by rw [Nat.succ_mul]; omega
        have h3 : min (k * b + b) total - k * b = 0 := by omega
        rw [h1, h2, h3]; simp

theorem ceil_mul_ge (total b : Nat) (hb : 0 < b) : total ≤ (total + b - 1) / b * b := by
  have := Nat.div_add_mod (total + b - 1) b
  have h2 := Nat.mod_lt (total + b - 1) hb
  rw [Nat.mul_comm] at this
  omega

theorem exportTable_eq {α : Type} (f : Planes → α) (h w total b : Nat) (hb : 0 < b) :
    exportTable f h w total b = (List.range total).map fun i => f (base3Input h w i) := by
  unfold exportTable
  rw [export_prefix, min_eq_right (ceil_mul_ge total b hb)]

theorem exportInPlace_prefix {α : Type} (f : Planes → α) (z : α) (h w total b k : Nat)
    (hk : ∀ j, j < k → j * b ≤ total) :
    ((List.range k).map (· * b)).foldl
      (fun t s => t.take s ++ (base3Batch h w s (min (s + b) total)).map f
        ++ t.drop (min (s + b) total))
      (List.replicate total z)
      = ((List.range (min (k * b) total)).map fun i => f (base3Input h w i))
        ++ List.replicate (total - min (k * b) total) z := by
  induction k with
  | zero => simp
  | succ k ih =>
      rw [List.range_succ, List.map_append, List.foldl_append, ih (fun j hj => hk j (by omega))]
      simp only [List.map_cons, List.map_nil, List.foldl_cons, List.foldl_nil]
      have hle := hk k (by omega)
      rw [base3Batch_eq, List.map_map]
      have h1 : min (k * b) total = k * b := min_eq_left hle
      have h2 : min ((k + 1) * b) total = k * b + (min (k * b + b) total - k * b) := by
        rw [Nat.succ_mul]; omega
      rw [h1, h2, List.range_add, List.map_append, List.map_map]
      set m := min (k * b + b) total with hm
      have hm1 : k * b ≤ m := by omega
      have hm2 : m ≤ total := by omega
      rw [List.take_left' (by simp), List.drop_append, List.drop_eq_nil_of_le (by simpa using hm1)]
      simp only [List.nil_append, List.length_map, List.length_range, List.drop_replicate]
      have h3 : total - k * b - (m - k * b) = total - (k * b + (m - k * b)) := by omega
      rw [h3]
      rfl

theorem exportTableInPlace_eq {α : Type} (f : Planes → α) (z : α) (h w total b : Nat) (hb : 0 < b) :
    exportTableInPlace f z h w total b = (List.range total).map fun i => f (base3Input h w i) := by
  unfold exportTableInPlace
  rw [exportInPlace_prefix, min_eq_right (ceil_mul_ge total b hb)]
  · simp
  · intro j hj
    have h1 : j + 1 ≤ (total + b - 1) / b := hj
    have h2 := Nat.mul_le_mul_right b h1
    have h3 := Nat.div_mul_le_self (total + b - 1) b
    rw [Nat.succ_mul] at h2
    omega

end Verif.Export
