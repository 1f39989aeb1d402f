import Verif.Regions.Model
import Mathlib.Tactic.Linarith
import Mathlib.Tactic.NormNum
import Mathlib.Tactic.Ring
import Mathlib.Tactic.FieldSimp
import Mathlib.Algebra.BigOperators.Group.Finset.Basic
import Mathlib.Algebra.Order.Field.Rat
import Mathlib.Algebra.Order.Floor.Ring

/-!
# C117: the nine regions tile the board symmetrically, and the quantised averages are averages
-/
namespace Verif.Regions

/-! ### Auxiliary -/

def lo (n : Nat) : Nat → Nat
  | 0 => 0
  | 1 => cut1 n
  | _ => cut2 n
def hi (n : Nat) : Nat → Nat
  | 0 => cut1 n
  | 1 => cut2 n
  | _ => n

theorem cuts' (n : Nat) : cut1 n ≤ cut2 n ∧ cut2 n ≤ n ∧ cut1 n + cut2 n = n := by
  unfold cut1 cut2
  split <;> split <;> omega

theorem slice_eq (n a b : Nat) (hb : b ≤ n) : slice n a b = List.range' a (b - a) := by
  unfold slice
  refine List.ext_getElem (by simp; omega) fun i h1 h2 => ?_
  simp

theorem axis_eq (n k : Nat) : axis n k = List.range' (lo n k) (hi n k - lo n k) := by
  obtain ⟨h1, h2, _⟩ := cuts' n
  match k with
  | 0 => exact slice_eq n 0 _ (by omega)
  | 1 => exact slice_eq n _ _ h2
  | _ + 2 => exact slice_eq n _ _ (Nat.le_refl n)

theorem axis_app (n : Nat) : axis n 0 ++ axis n 1 ++ axis n 2 = List.range n := by
  obtain ⟨h1, h2, _⟩ := cuts' n
  rw [axis_eq, axis_eq, axis_eq]
  show List.range' 0 (cut1 n - 0) ++ List.range' (cut1 n) (cut2 n - cut1 n) ++ List.range' (cut2 n) (n - cut2 n) = List.range n
  refine List.ext_getElem (by simp; omega) fun i g1 g2 => ?_
  simp only [List.getElem_append, List.getElem_range', List.getElem_range, List.length_append, List.length_range']
  split
  · split <;> omega
  · omega

theorem axis_mirror (n : Nat) {k : Nat} (hk : k < 3) : (axis n k).map (fun y => n - 1 - y) = (axis n (2 - k)).reverse := by
  obtain ⟨h1, h2, h3⟩ := cuts' n
  rw [axis_eq, axis_eq]
  have hlen : hi n k - lo n k = hi n (2 - k) - lo n (2 - k) ∧ lo n k + hi n (2 - k) = n ∧ lo n (2 - k) ≤ hi n (2 - k) := by
    have : k = 0 ∨ k = 1 ∨ k = 2 := by omega
    rcases this with rfl | rfl | rfl
    · show cut1 n - 0 = n - cut2 n ∧ 0 + n = n ∧ cut2 n ≤ n
      omega
    · show cut2 n - cut1 n = cut2 n - cut1 n ∧ cut1 n + cut2 n = n ∧ cut1 n ≤ cut2 n
      omega
    · show n - cut2 n = cut1 n - 0 ∧ cut2 n + cut1 n = n ∧ 0 ≤ cut1 n
      omega
  obtain ⟨e1, e2, e3⟩ := hlen
  refine List.ext_getElem (by simp [e1]) fun i g1 g2 => ?_
  simp only [List.length_map, List.length_range'] at g1
  simp only [List.getElem_map, List.getElem_range', List.getElem_reverse, List.length_range']
  omega

theorem axis_length (n k : Nat) : (axis n k).length = hi n k - lo n k := by rw [axis_eq, List.length_range']

theorem axis_lt (n k : Nat) : ∀ y ∈ axis n k, y < n := by
  obtain ⟨h1, h2, _⟩ := cuts' n
  intro y hy
  rw [axis_eq, List.mem_range'_1] at hy
  match k, hy with
  | 0, hy => have : y < 0 + (cut1 n - 0) := hy.2; omega
  | 1, hy => have : y < cut1 n + (cut2 n - cut1 n) := hy.2; omega
  | _ + 2, hy => have : y < cut2 n + (n - cut2 n) := hy.2; omega

theorem axis_size (n : Nat) {k : Nat} (hk : k < 3) : ((axis n k).length = n / 3 ∨ (axis n k).length = n / 3 + 1) := by
  rw [axis_length]
  have : k = 0 ∨ k = 1 ∨ k = 2 := by omega
  rcases this with rfl | rfl | rfl
  · show cut1 n - 0 = _ ∨ cut1 n - 0 = _
    unfold cut1; split <;> omega
  · show cut2 n - cut1 n = _ ∨ cut2 n - cut1 n = _
    unfold cut1 cut2; split <;> split <;> omega
  · show n - cut2 n = _ ∨ n - cut2 n = _
    unfold cut2; split <;> omega

theorem regionSum_eq {M : Type} [AddCommMonoid M] (H W : Nat) (f : Nat → Nat → M) (r s : Nat) :
    regionSum H W f r s = ((axis H r).map fun y => ((axis W s).map fun x => f y x).sum).sum := by
  unfold regionSum region
  rw [List.map_map]
  rfl

theorem sum_comm {M : Type} [AddCommMonoid M] (f : Nat → Nat → M) (a b : List Nat) :
    (a.map fun y => (b.map fun x => f y x).sum).sum = (b.map fun x => (a.map fun y => f y x).sum).sum := by
  induction a with
  | nil => simp
  | cons y r ih =>
    rw [List.map_cons, List.sum_cons, ih, ← List.sum_map_add]
    rfl

theorem region_flat {M : Type} (H W : Nat) (f : Nat → Nat → M) (r s : Nat) :
    (region H W f r s).flatten.length = (axis H r).length * (axis W s).length := by
  unfold region
  rw [List.length_flatten, List.map_map]
  have : (List.length ∘ fun y => (axis W s).map fun x => f y x) = fun _ => (axis W s).length := by
    funext y; simp
  rw [this]
  simp

/-! ### Theorems -/

/-- **C117 (tiling).** The nine regions put together are the board: nothing is missing, nothing occurs twice. -/
theorem C117_tiling {M : Type} (H W : Nat) (f : Nat → Nat → M) :
    ((List.range 3).flatMap fun r => List.zipWith (· ++ ·) (List.zipWith (· ++ ·) (region H W f r 0) (region H W f r 1)) (region H W f r 2)) =
      (List.range H).map fun y => (List.range W).map fun x => f y x := by
  have hrow : ∀ r, List.zipWith (· ++ ·) (List.zipWith (· ++ ·) (region H W f r 0) (region H W f r 1)) (region H W f r 2) =
      (axis H r).map fun y => (List.range W).map fun x => f y x := by
    intro r
    unfold region
    rw [List.zipWith_map, List.zipWith_self, List.zipWith_map, List.zipWith_self]
    refine List.map_congr_left fun y _ => ?_
    rw [← axis_app W, List.map_append, List.map_append]
  rw [show (List.range 3) = [0, 1, 2] from rfl]
  simp only [List.flatMap_cons, List.flatMap_nil, List.append_nil, hrow]
  rw [← axis_app H, List.map_append, List.map_append, List.append_assoc]

/-- **C117 (sums).** The nine sums add up to the sum over the board. -/
theorem C117_total {M : Type} [AddCommMonoid M] (H W : Nat) (f : Nat → Nat → M) :
    ∑ r ∈ Finset.range 3, ∑ s ∈ Finset.range 3, regionSum H W f r s = ∑ y ∈ Finset.range H, ∑ x ∈ Finset.range W, f y x := by
  have hl : ∀ (n : Nat) (g : Nat → M), ∑ y ∈ Finset.range n, g y = ((axis n 0).map g).sum + ((axis n 1).map g).sum + ((axis n 2).map g).sum := by
    intro n g
    rw [← List.sum_append, ← List.map_append, ← List.sum_append, ← List.map_append, axis_app]
    rfl
  have hr : ∀ r, ∑ s ∈ Finset.range 3, regionSum H W f r s = ((axis H r).map fun y => ∑ x ∈ Finset.range W, f y x).sum := by
    intro r
    rw [Finset.sum_range_succ, Finset.sum_range_succ, Finset.sum_range_one, regionSum_eq, regionSum_eq, regionSum_eq, ← List.sum_map_add, ← List.sum_map_add]
    refine congrArg List.sum (List.map_congr_left fun y _ => ?_)
    rw [hl W]
  rw [Finset.sum_congr rfl fun r _ => hr r, Finset.sum_range_succ, Finset.sum_range_succ, Finset.sum_range_one, hl H]

/-- **C117 (sizes).** A region is a rectangle with sides of a third of the board, up to one; all nine means are defined exactly from side 3 on. -/
theorem C117_sizes (H W : Nat) (f : Nat → Nat → ℚ) :
    (∀ r < 3, ∀ s < 3, ∃ h w, (h = H / 3 ∨ h = H / 3 + 1) ∧ (w = W / 3 ∨ w = W / 3 + 1) ∧ (region H W f r s).length = h ∧
      ∀ row ∈ region H W f r s, row.length = w) ∧
    ((∀ r < 3, ∀ s < 3, (regionMean H W f r s).isSome = true) ↔ 3 ≤ H ∧ 3 ≤ W) := by
  have hsome : ∀ r s, (regionMean H W f r s).isSome = true ↔ (axis H r).length ≠ 0 ∧ (axis W s).length ≠ 0 := by
    intro r s
    unfold regionMean
    rw [region_flat]
    by_cases h : (axis H r).length * (axis W s).length = 0
    · rw [if_pos h]
      constructor
      · intro h'; cases h'
      · rintro ⟨a, b⟩; exact absurd h (Nat.mul_ne_zero a b)
    · rw [if_neg h]
      refine ⟨fun _ => ⟨fun e => h (by rw [e, Nat.zero_mul]), fun e => h (by rw [e, Nat.mul_zero])⟩, fun _ => rfl⟩
  constructor
  · intro r hr s hs
    refine ⟨_, _, axis_size H hr, axis_size W hs, by unfold region; rw [List.length_map], ?_⟩
    intro row hrow
    obtain ⟨y, _, rfl⟩ := List.mem_map.mp hrow
    rw [List.length_map]
  · constructor
    · intro h
      have key : ∀ n, (∀ k < 3, (axis n k).length ≠ 0) → 3 ≤ n := by
        intro n hn
        have h0 := hn 0 (by decide)
        have h1 := hn 1 (by decide)
        have h2 := hn 2 (by decide)
        have := congrArg List.length (axis_app n)
        rw [List.length_append, List.length_append, List.length_range] at this
        omega
      exact ⟨key H fun k hk => ((hsome k 0).mp (h k hk 0 (by decide))).1, key W fun k hk => ((hsome 0 k).mp (h 0 (by decide) k hk)).2⟩
    · rintro ⟨hH, hW⟩ r hr s hs
      rw [hsome]
      have a := axis_size H hr
      have b := axis_size W hs
      omega

/-- **C117 (means).** From side 3 on, each mean times the number of rows times the number of columns of its region is the sum, and on a constant board
every mean is the constant. -/
theorem C117_mean (H W : Nat) (hH : 3 ≤ H) (hW : 3 ≤ W) (f : Nat → Nat → ℚ) (r s : Nat) (hr : r < 3) (hs : s < 3) :
    ∃ (m : ℚ) (w : Nat), regionMean H W f r s = some m ∧ (∀ row ∈ region H W f r s, row.length = w) ∧
      m * ((region H W f r s).length * w : Nat) = regionSum H W f r s ∧ ((∀ y < H, ∀ x < W, f y x = f 0 0) → m = f 0 0) := by
  have a := axis_size H hr
  have b := axis_size W hs
  have hA : (axis H r).length ≠ 0 := by omega
  have hB : (axis W s).length ≠ 0 := by omega
  have hne : (axis H r).length * (axis W s).length ≠ 0 := Nat.mul_ne_zero hA hB
  have hq : (((axis H r).length * (axis W s).length : Nat) : ℚ) ≠ 0 := Nat.cast_ne_zero.mpr hne
  have hlen : (region H W f r s).length = (axis H r).length := by unfold region; rw [List.length_map]
  refine ⟨regionSum H W f r s / (((axis H r).length * (axis W s).length : Nat) : ℚ), (axis W s).length, ?_, ?_, ?_, ?_⟩
  · unfold regionMean
    rw [region_flat, if_neg hne]
  · intro row hrow
    unfold region at hrow
    obtain ⟨y, _, rfl⟩ := List.mem_map.mp hrow
    rw [List.length_map]
  · rw [hlen, div_mul_cancel₀ _ hq]
  · intro hc
    have hrow : ∀ y ∈ axis H r, ((axis W s).map fun x => f y x).sum = ((axis W s).length : ℚ) * f 0 0 := by
      intro y hy
      have : ((axis W s).map fun x => f y x) = (axis W s).map fun _ => f 0 0 :=
        List.map_congr_left fun x hx => hc y (axis_lt H r y hy) x (axis_lt W s x hx)
      rw [this]
      simp
    have : regionSum H W f r s = (((axis H r).length * (axis W s).length : Nat) : ℚ) * f 0 0 := by
      rw [regionSum_eq, List.map_congr_left hrow]
      simp
      ring
    rw [this, mul_comm, mul_div_assoc, div_self hq, mul_one]

/-- **C117 (symmetry).** Mirroring or transposing the board permutes the nine sums accordingly. -/
theorem C117_symmetric {M : Type} [AddCommMonoid M] (H W : Nat) (f : Nat → Nat → M) (r s : Nat) (hr : r < 3) (hs : s < 3) :
    regionSum H W (fun y x => f (H - 1 - y) x) r s = regionSum H W f (2 - r) s ∧
    regionSum H W (fun y x => f y (W - 1 - x)) r s = regionSum H W f r (2 - s) ∧
    regionSum W H (fun y x => f x y) s r = regionSum H W f r s := by
  refine ⟨?_, ?_, ?_⟩
  · rw [regionSum_eq, regionSum_eq]
    have : ((axis H r).map fun y => ((axis W s).map fun x => f (H - 1 - y) x).sum) =
        ((axis H r).map fun y => H - 1 - y).map fun y => ((axis W s).map fun x => f y x).sum := by rw [List.map_map]; rfl
    rw [this, axis_mirror H hr, List.map_reverse, List.sum_reverse]
  · rw [regionSum_eq, regionSum_eq]
    refine congrArg List.sum (List.map_congr_left fun y _ => ?_)
    have : ((axis W s).map fun x => f y (W - 1 - x)) = ((axis W s).map fun x => W - 1 - x).map fun x => f y x := by rw [List.map_map]; rfl
    rw [this, axis_mirror W hs, List.map_reverse, List.sum_reverse]
  · rw [regionSum_eq, regionSum_eq, sum_comm]

theorem quant_eq (bits : Nat) (s : Int) (d : Nat) (hd : 0 < d) (h0 : -(2 ^ (bits - 1)) * (d : Int) ≤ s) (h1 : s < 2 ^ (bits - 1) * (d : Int)) :
    quant bits ((s : ℚ) / (d : ℚ) / 128) = ((s / (d : Int) : Int) : ℚ) / 128 := by
  unfold quant
  have hd' : (0 : ℚ) < (d : ℚ) := by exact_mod_cast hd
  have hdi : (0 : Int) < (d : Int) := by exact_mod_cast hd
  congr 2
  have h0' : -(2 ^ (bits - 1)) * (d : ℚ) ≤ (s : ℚ) := by exact_mod_cast h0
  have h1' : (s : ℚ) < 2 ^ (bits - 1) * (d : ℚ) := by exact_mod_cast h1
  have hlow : -(2 ^ (bits - 1)) ≤ (s : ℚ) / (d : ℚ) := by rw [le_div_iff₀ hd']; exact h0'
  have hle : -(2 ^ (bits - 1)) / 128 ≤ (s : ℚ) / (d : ℚ) / 128 := by
    exact div_le_div_of_nonneg_right hlow (by norm_num)
  rw [max_eq_left hle]
  have hf : ⌊(s : ℚ) / (d : ℚ)⌋ = s / (d : Int) := by
    have := Rat.floor_intCast_div_natCast s d
    exact this
  rcases le_total ((s : ℚ) / (d : ℚ) / 128) ((2 ^ (bits - 1) - 1) / 128) with h | h
  · rw [min_eq_left h, div_mul_cancel₀ _ (by norm_num), hf]
  · rw [min_eq_right h, div_mul_cancel₀ _ (by norm_num)]
    have h2 : (2 ^ (bits - 1) - 1 : ℚ) ≤ (s : ℚ) / (d : ℚ) := by linarith
    have h3 : (2 ^ (bits - 1) - 1 : Int) * (d : Int) ≤ s := by
      rw [le_div_iff₀ hd'] at h2
      exact_mod_cast h2
    have h4 : s / (d : Int) = 2 ^ (bits - 1) - 1 := by
      apply le_antisymm
      · have := Int.ediv_lt_of_lt_mul hdi h1
        linarith
      · exact (Int.le_ediv_iff_mul_le hdi).mpr h3
    rw [h4]
    have : ((2 ^ (bits - 1) - 1 : ℚ)) = ((2 ^ (bits - 1) - 1 : Int) : ℚ) := by push_cast; ring
    rw [this, Int.floor_intCast]

/-- **C117 (quantised sums).** For features on the grid of 1/128, the quantised sum is the integer sum shifted right by five, if that fits 32 bits. -/
theorem C117_qsum (H W : Nat) (g : Nat → Nat → Int) (r s : Nat)
    (h0 : -(2 ^ 31) * 32 ≤ regionSum H W g r s) (h1 : regionSum H W g r s < 2 ^ 31 * 32) :
    qsum H W (fun y x => (g y x : ℚ) / 128) r s = ((regionSum H W g r s / 32 : Int) : ℚ) / 128 := by
  have hsum : regionSum H W (fun y x => (g y x : ℚ) / 128) r s = ((regionSum H W g r s : Int) : ℚ) / 128 := by
    have hl : ∀ (l : List Nat) (u : Nat → Int) (v : Nat → ℚ), (∀ i, v i = (u i : ℚ) / 128) → (l.map v).sum = (((l.map u).sum : Int) : ℚ) / 128 := by
      intro l u v h
      induction l with
      | nil => simp
      | cons a l ih => rw [List.map_cons, List.sum_cons, ih, h a, List.map_cons, List.sum_cons]; push_cast; ring
    rw [regionSum_eq, regionSum_eq]
    exact hl _ _ _ fun y => hl _ _ _ fun x => rfl
  unfold qsum
  rw [hsum]
  have := quant_eq 32 (regionSum H W g r s) 32 (by decide) h0 h1
  rw [show ((regionSum H W g r s : Int) : ℚ) / 128 / 32 = ((regionSum H W g r s : Int) : ℚ) / ((32 : Nat) : ℚ) / 128 from by push_cast; ring]
  exact this

/-- Rounding the mean of two up. -/
def up (a b : Int) : Int := (a + b + 1) / 2

theorem quant8 (a : Int) (h : -128 ≤ a ∧ a ≤ 127) : quant 8 ((a : ℚ) / 128) = (a : ℚ) / 128 := by
  have := quant_eq 8 a 1 (by decide) (by norm_num; omega) (by norm_num; omega)
  rw [Nat.cast_one, div_one, Nat.cast_one, Int.ediv_one] at this
  exact this

theorem pair8 (a b : Int) (ha : -128 ≤ a ∧ a ≤ 127) (hb : -128 ≤ b ∧ b ≤ 127) :
    quant 8 (((a : ℚ) / 128 + (b : ℚ) / 128 + 1 / 128) / 2) = ((up a b : Int) : ℚ) / 128 := by
  have := quant_eq 8 (a + b + 1) 2 (by decide) (by norm_num; omega) (by norm_num; omega)
  unfold up
  rw [show (((a : ℚ) / 128 + (b : ℚ) / 128 + 1 / 128) / 2) = (((a + b + 1 : Int) : ℚ) / ((2 : Nat) : ℚ) / 128) from by push_cast; ring, this]
  rfl

theorem up_range (a b : Int) (ha : -128 ≤ a ∧ a ≤ 127) (hb : -128 ≤ b ∧ b ≤ 127) : -128 ≤ up a b ∧ up a b ≤ 127 := by
  unfold up; omega

/-- **C117 (average of four).** On int8 values: the average lies between the least and the greatest, at most one step above the exact mean and never below
it, and is unchanged by mirroring the two by two block. -/
theorem C117_avg4 (a b c d : Int) (ha : -128 ≤ a ∧ a ≤ 127) (hb : -128 ≤ b ∧ b ≤ 127) (hc : -128 ≤ c ∧ c ≤ 127) (hd : -128 ≤ d ∧ d ≤ 127) :
    ∃ m : Int, avg4 ((a : ℚ) / 128) ((b : ℚ) / 128) ((c : ℚ) / 128) ((d : ℚ) / 128) = (m : ℚ) / 128 ∧
      min (min a b) (min c d) ≤ m ∧ m ≤ max (max a b) (max c d) ∧ a + b + c + d ≤ 4 * m ∧ 4 * m ≤ a + b + c + d + 4 ∧
      avg4 ((b : ℚ) / 128) ((a : ℚ) / 128) ((d : ℚ) / 128) ((c : ℚ) / 128) = (m : ℚ) / 128 ∧
      avg4 ((c : ℚ) / 128) ((d : ℚ) / 128) ((a : ℚ) / 128) ((b : ℚ) / 128) = (m : ℚ) / 128 := by
  have key : ∀ a b c d : Int, (-128 ≤ a ∧ a ≤ 127) → (-128 ≤ b ∧ b ≤ 127) → (-128 ≤ c ∧ c ≤ 127) → (-128 ≤ d ∧ d ≤ 127) →
      avg4 ((a : ℚ) / 128) ((b : ℚ) / 128) ((c : ℚ) / 128) ((d : ℚ) / 128) = ((up (up a b) (up c d) : Int) : ℚ) / 128 := by
    intro a b c d ha hb hc hd
    unfold avg4
    rw [quant8 a ha, quant8 b hb, quant8 c hc, quant8 d hd, pair8 a b ha hb, pair8 c d hc hd,
      pair8 _ _ (up_range a b ha hb) (up_range c d hc hd)]
  have e1 : up (up b a) (up d c) = up (up a b) (up c d) := by unfold up; omega
  have e2 : up (up c d) (up a b) = up (up a b) (up c d) := by unfold up; omega
  refine ⟨up (up a b) (up c d), key a b c d ha hb hc hd, ?_, ?_, ?_, ?_, ?_, ?_⟩
  · unfold up; omega
  · unfold up; omega
  · unfold up; omega
  · unfold up; omega
  · rw [key b a d c hb ha hd hc, e1]
  · rw [key c d a b hc hd ha hb, e2]

/-- **C117 (transposition).** Transposing the block can change the average: the value head is not symmetric under it. -/
theorem C117_avg4_transpose : ∃ a b c d : Int, (∀ v ∈ [a, b, c, d], -128 ≤ v ∧ v ≤ 127) ∧
    avg4 ((a : ℚ) / 128) ((b : ℚ) / 128) ((c : ℚ) / 128) ((d : ℚ) / 128) ≠ avg4 ((a : ℚ) / 128) ((c : ℚ) / 128) ((b : ℚ) / 128) ((d : ℚ) / 128) :=
  ⟨0, 1, 2, 1, by decide, by decide +kernel⟩

end Verif.Regions
