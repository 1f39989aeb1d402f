import Verif.LineEnc.Digits

/-! Two-bit cells of the 64-bit keys: OR updates, ring rotation and the chunked evaluation. -/
namespace Verif.LineEnc

open Finset

/-- The `k`-th two-bit cell of a key. -/
def cellOf (key k : Nat) : Nat := (key >>> (2 * k)) &&& 3

theorem testBit_three (i : Nat) : Nat.testBit 3 i = decide (i < 2) := by
  have := Nat.testBit_two_pow_sub_one 2 i
  simpa using this

theorem cellOf_testBit (key k i : Nat) :
    (cellOf key k).testBit i = (decide (i < 2) && key.testBit (2 * k + i)) := by
  unfold cellOf
  rw [Nat.testBit_and, Nat.testBit_shiftRight, testBit_three, Bool.and_comm]

theorem cellOf_lt (key k : Nat) : cellOf key k < 4 := by
  unfold cellOf
  have : (key >>> (2 * k)) &&& 3 ≤ 3 := Nat.and_le_right
  omega

/-- Cells agree when their two bits do. -/
theorem cellOf_ext (x y k m : Nat) (h : ∀ b, b < 2 → x.testBit (2 * k + b) = y.testBit (2 * m + b)) :
    cellOf x k = cellOf y m := by
  apply Nat.eq_of_testBit_eq
  intro i
  rw [cellOf_testBit, cellOf_testBit]
  by_cases hi : i < 2
  · rw [h i hi]
  · simp [hi]

theorem cellOf_zero (k : Nat) : cellOf 0 k = 0 := by simp [cellOf]

theorem small_testBit (b i : Nat) (hb : b < 4) (hi : 2 ≤ i) : b.testBit i = false := by
  apply Nat.testBit_lt_two_pow
  calc b < 2 ^ 2 := by omega
    _ ≤ 2 ^ i := Nat.pow_le_pow_right (by omega) hi

theorem shl_testBit (v n i : Nat) :
    (shl v n).testBit i = (decide (i < 64) && (decide (n ≤ i) && v.testBit (i - n))) := by
  unfold shl
  rw [Nat.testBit_mod_two_pow, Nat.testBit_shiftLeft]

theorem shl_lt (v n : Nat) : shl v n < 2 ^ 64 := Nat.mod_lt _ (by positivity)

/-- OR-ing bits into cell `q`. -/
theorem cellOf_or (x b q p : Nat) (hb : b < 4) (hq : q < 32) :
    cellOf (x ||| shl b (2 * q)) p = cellOf x p ||| (if q = p then b else 0) := by
  apply Nat.eq_of_testBit_eq
  intro i
  rw [Nat.testBit_or, cellOf_testBit, cellOf_testBit, Nat.testBit_or, shl_testBit]
  by_cases hi : i < 2
  · by_cases hqp : q = p
    · subst hqp
      have e1 : (2 * q + i < 64) := by omega
      have e2 : 2 * q ≤ 2 * q + i := by omega
      have e3 : 2 * q + i - 2 * q = i := by omega
      simp [hi, e1, e3]
    · rw [if_neg hqp]
      by_cases hle : 2 * q ≤ 2 * p + i
      · rw [small_testBit b _ hb (by omega)]
        simp
      · simp [hle]
  · by_cases hqp : q = p
    · rw [if_pos hqp, small_testBit b i hb (by omega)]
      simp [hi]
    · rw [if_neg hqp]; simp [hi]

/-- Rotation moves cells around a ring of 32. -/
theorem cellOf_rotate (x : Nat) (m : Int) (k : Nat) (hx : x < 2 ^ 64) (hk : k < 32) :
    cellOf (rotateRight x (2 * m)) k = cellOf x (((k : Int) + m) % 32).toNat := by
  have hr : ∃ r : Nat, r < 32 ∧ (m % 32) = (r : Int) :=
    ⟨(m % 32).toNat, by omega, by omega⟩
  obtain ⟨r, hr, hm⟩ := hr
  have e0 : (2 * m % 64).toNat = 2 * r := by omega
  have e1 : ((-((2 * r : Nat) : Int)) % 64).toNat = if r = 0 then 0 else 64 - 2 * r := by
    split_ifs <;> omega
  have e2 : (((k : Int) + m) % 32).toNat = if k + r < 32 then k + r else k + r - 32 := by
    split_ifs <;> omega
  have hbig : ∀ i, 64 ≤ i → x.testBit i = false := fun i hi =>
    Nat.testBit_lt_two_pow (lt_of_lt_of_le hx (Nat.pow_le_pow_right (by omega) hi))
  rw [e2]
  apply cellOf_ext
  intro b hb
  unfold rotateRight
  simp only [e0, e1]
  rw [Nat.testBit_or, Nat.testBit_shiftRight, shl_testBit]
  by_cases h0 : r = 0
  · subst h0
    have h1 : 2 * k + b < 64 := by omega
    simp [hk, h1]
  · rw [if_neg h0]
    by_cases h1 : k + r < 32
    · rw [if_pos h1]
      have a1 : ¬(64 - 2 * r ≤ 2 * k + b) := by omega
      have a2 : 2 * r + (2 * k + b) = 2 * (k + r) + b := by omega
      simp [a1, a2]
    · rw [if_neg h1]
      have a1 : (64 - 2 * r ≤ 2 * k + b) := by omega
      have a2 : 2 * k + b - (64 - 2 * r) = 2 * (k + r - 32) + b := by omega
      have a3 : 2 * k + b < 64 := by omega
      rw [hbig (2 * r + (2 * k + b)) (by omega), a2]
      simp [a1, a3]

/-- OR-ing a list of cells into an array of keys. -/
def orCells {α : Type} (idx pos bits : α → Nat) (arr : Nat → Nat) (l : List α) : Nat → Nat :=
  l.foldl (fun arr a => orAt arr (idx a) (shl (bits a) (2 * pos a))) arr

theorem orCells_spec {α : Type} (idx pos bits : α → Nat) (i p v : Nat) (l : List α)
    (hb : ∀ a ∈ l, bits a < 4) (hp : ∀ a ∈ l, pos a < 32)
    (hv : ∀ a ∈ l, idx a = i → pos a = p → bits a = v) (arr : Nat → Nat)
    (ha : cellOf (arr i) p = 0 ∨ cellOf (arr i) p = v) :
    (((∃ a ∈ l, idx a = i ∧ pos a = p) ∨ cellOf (arr i) p = v)
        → cellOf (orCells idx pos bits arr l i) p = v)
      ∧ ((¬∃ a ∈ l, idx a = i ∧ pos a = p)
        → cellOf (orCells idx pos bits arr l i) p = cellOf (arr i) p) := by
  induction l generalizing arr with
  | nil => simp [orCells]
  | cons a l ih =>
      have hstep : cellOf (orAt arr (idx a) (shl (bits a) (2 * pos a)) i) p
          = if idx a = i ∧ pos a = p then v else cellOf (arr i) p := by
        unfold orAt
        by_cases h1 : i = idx a
        · rw [if_pos h1, cellOf_or _ _ _ _ (hb a (by simp)) (hp a (by simp))]
          by_cases h2 : pos a = p
          · rw [if_pos h2, if_pos ⟨h1.symm, h2⟩, hv a (by simp) h1.symm h2]
            rcases ha with h | h <;> rw [h] <;> simp
          · rw [if_neg h2, if_neg (by tauto)]; simp
        · rw [if_neg h1, if_neg (by intro h; exact h1 h.1.symm)]
      have := ih (fun a h => hb a (by simp [h])) (fun a h => hp a (by simp [h]))
        (fun a h => hv a (by simp [h])) (orAt arr (idx a) (shl (bits a) (2 * pos a)))
        (by rw [hstep]; split_ifs
            · right; rfl
            · exact ha)
      rw [hstep] at this
      have e : orCells idx pos bits arr (a :: l)
          = orCells idx pos bits (orAt arr (idx a) (shl (bits a) (2 * pos a))) l := rfl
      rw [e]
      constructor
      · intro h
        apply this.1
        by_cases hc : idx a = i ∧ pos a = p
        · right; rw [if_pos hc]
        · rw [if_neg hc]
          rcases h with ⟨b, hbm, hbb⟩ | h
          · rcases List.mem_cons.1 hbm with rfl | hbm
            · exact (hc hbb).elim
            · exact Or.inl ⟨b, hbm, hbb⟩
          · exact Or.inr h
      · intro h
        have hc : ¬(idx a = i ∧ pos a = p) := fun hc => h ⟨a, by simp, hc⟩
        rw [this.2 (fun ⟨b, hbm, hbb⟩ => h ⟨b, by simp [hbm], hbb⟩), if_neg hc]

theorem orCells_lt {α : Type} (idx pos bits : α → Nat) (l : List α) (arr : Nat → Nat)
    (ha : ∀ i, arr i < 2 ^ 64) (i : Nat) : orCells idx pos bits arr l i < 2 ^ 64 := by
  induction l generalizing arr with
  | nil => exact ha i
  | cons a l ih =>
      apply ih
      intro j
      show orAt arr (idx a) (shl (bits a) (2 * pos a)) j < 2 ^ 64
      unfold orAt
      split_ifs
      · exact Nat.or_lt_two_pow (ha j) (shl_lt _ _)
      · exact ha j

/-- A cell that was written. -/
theorem orCells_hit {α : Type} (idx pos bits : α → Nat) (l : List α) (a : α) (h : a ∈ l)
    (hb : ∀ a ∈ l, bits a < 4) (hp : ∀ a ∈ l, pos a < 32)
    (hv : ∀ b ∈ l, idx b = idx a → pos b = pos a → bits b = bits a) :
    cellOf (orCells idx pos bits (fun _ => 0) l (idx a)) (pos a) = bits a :=
  (orCells_spec idx pos bits (idx a) (pos a) (bits a) l hb hp hv _ (Or.inl (cellOf_zero _))).1
    (Or.inl ⟨a, h, rfl, rfl⟩)

/-- A cell that was not written. -/
theorem orCells_miss {α : Type} (idx pos bits : α → Nat) (l : List α) (i p : Nat)
    (hb : ∀ a ∈ l, bits a < 4) (hp : ∀ a ∈ l, pos a < 32)
    (h : ∀ a ∈ l, idx a = i → pos a ≠ p) :
    cellOf (orCells idx pos bits (fun _ => 0) l i) p = 0 := by
  have := (orCells_spec idx pos bits i p 0 l hb hp (fun a ha h1 h2 => (h a ha h1 h2).elim) (fun _ => 0)
    (Or.inl (cellOf_zero _))).2 (fun ⟨a, ha, h1, h2⟩ => h a ha h1 h2)
  rw [this]; exact cellOf_zero _

theorem sum_chunks (n : Nat) (f : Nat → Nat) :
    ∑ c ∈ range n, ∑ o ∈ range 6, f (c * 6 + o) = ∑ k ∈ range (n * 6), f k := by
  induction n with
  | zero => simp
  | succ n ih =>
      rw [sum_range_succ, ih, Nat.add_mul, Nat.one_mul, sum_range_add]

/-- Cell read through the mask and the chunk. -/
theorem chunk_cell (L key c o : Nat) (ho : o < 6) (h : c * 6 + o < L) :
    (((key &&& (2 ^ (2 * L) - 1)) >>> (12 * c)) &&& 0xfff) >>> (2 * o) &&& 3
      = cellOf key (c * 6 + o) := by
  apply Nat.eq_of_testBit_eq
  intro i
  rw [cellOf_testBit, Nat.testBit_and, Nat.testBit_shiftRight, Nat.testBit_and,
    Nat.testBit_shiftRight, Nat.testBit_and, Nat.testBit_two_pow_sub_one, testBit_three]
  have e : (0xfff : Nat) = 2 ^ 12 - 1 := by norm_num
  rw [e, Nat.testBit_two_pow_sub_one]
  by_cases hi : i < 2
  · have a1 : 2 * o + i < 12 := by omega
    have a2 : 12 * c + (2 * o + i) < 2 * L := by omega
    have a3 : 12 * c + (2 * o + i) = 2 * (c * 6 + o) + i := by omega
    simp [hi, a1, a2]
    rw [a3]
  · simp [hi]

/-- The chunked table lookup is the base-3 value of the window cells, most significant first. -/
theorem encode_cells (L key left right : Nat) :
    encodeContiguous L key left right
      = borderEncoding L left right + val L (fun i => digitOf (cellOf key (L - 1 - i))) := by
  unfold encodeContiguous
  simp only
  congr 1
  unfold chunkLut
  have h1 : ∀ c ∈ range (numChunks L), (∑ o ∈ range 6, if c * 6 + o ≥ L then 0
      else digitOf (((((key &&& (2 ^ (2 * L) - 1)) >>> (12 * c)) &&& 0xfff) >>> (2 * o)) &&& 3)
        * 3 ^ (L - 1 - (c * 6 + o)))
      = ∑ o ∈ range 6, (fun k => if k < L then digitOf (cellOf key k) * 3 ^ (L - 1 - k) else 0)
          (c * 6 + o) := by
    intro c _
    apply sum_congr rfl
    intro o ho
    have ho := mem_range.1 ho
    by_cases h : c * 6 + o < L
    · rw [if_neg (by omega), chunk_cell L key c o ho h]
      simp [h]
    · rw [if_pos (by omega)]
      simp [h]
  rw [sum_congr rfl h1, sum_chunks _ (fun k => if k < L then digitOf (cellOf key k)
    * 3 ^ (L - 1 - k) else 0)]
  have h2 : L ≤ numChunks L * 6 := by unfold numChunks; omega
  rw [show numChunks L * 6 = L + (numChunks L * 6 - L) by omega, sum_range_add]
  have h3 : ∑ x ∈ range (numChunks L * 6 - L),
      (fun k => if k < L then digitOf (cellOf key k) * 3 ^ (L - 1 - k) else 0) (L + x) = 0 := by
    apply sum_eq_zero
    intro x _
    simp
  rw [h3, Nat.add_zero]
  unfold val
  rw [← sum_range_reflect]
  apply sum_congr rfl
  intro i hi
  have hi := mem_range.1 hi
  have a : L - 1 - i < L := by omega
  have b : L - 1 - (L - 1 - i) = i := by omega
  simp [a, b]

end Verif.LineEnc
