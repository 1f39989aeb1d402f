import Verif.Vq.Spec78
import Mathlib.Algebra.BigOperators.Group.List.Basic
import Mathlib.Algebra.BigOperators.Ring.List
import Mathlib.Algebra.Order.BigOperators.Group.List
import Mathlib.Tactic.Linarith
import Mathlib.Tactic.Ring
import Mathlib.Tactic.FieldSimp
import Mathlib.Tactic.Positivity
import Mathlib.Tactic.NormNum
import Mathlib.Data.List.GetD

/-!
C78: the cached bounds of the dead-code check are invisible.
-/

namespace Verif.Vq

variable {G : Type}

theorem foldl_min_le_q (l : List ℚ) (a : ℚ) : l.foldl min a ≤ a ∧ ∀ x ∈ l, l.foldl min a ≤ x := by
  induction l generalizing a with
  | nil => exact ⟨le_refl _, by simp⟩
  | cons y l ih =>
    rw [List.foldl_cons]
    obtain ⟨h1, h2⟩ := ih (min a y)
    refine ⟨h1.trans (min_le_left _ _), ?_⟩
    intro x hx
    rcases List.mem_cons.1 hx with rfl | hx
    · exact h1.trans (min_le_right _ _)
    · exact h2 x hx

theorem minOf_le (l : List ℚ) (x : ℚ) (h : x ∈ l) : minOf l ≤ x := by
  cases l with
  | nil => cases h
  | cons y l =>
    rcases List.mem_cons.1 h with rfl | h
    · exact (foldl_min_le_q l _).1
    · exact (foldl_min_le_q l y).2 x h

/-- what is kept true -/
structure Inv (c : Cfg G) (b : Book) : Prop where
  good : GoodSizes c.size b.sizes
  bound : ∀ p, b.cache = some p → (∀ s ∈ b.sizes, p.1 ≤ s) ∧ b.sizes.sum ≤ p.2

theorem expiredMask_eq (c : Cfg G) (b : Book) (h : GoodSizes c.size b.sizes) :
    expiredMask c b = dead c.threshold b.sizes := by
  obtain ⟨hl, -, hs⟩ := h
  unfold expiredMask dead
  apply List.map_congr_left
  intro s _
  rw [hl]
  congr 1
  rw [eq_iff_iff, ← mul_div_assoc, div_lt_iff₀ hs]

/-- a lower bound of the sizes and an upper bound of the total show that no code is dead -/
theorem not_dead (c : Cfg G) (hc : c.Valid) (sizes : List ℚ) (h : GoodSizes c.size sizes) (l u : ℚ)
    (hl : ∀ s ∈ sizes, l ≤ s) (hu : sizes.sum ≤ u) (hb : l * c.size / u ≥ safeMultiplier * c.threshold) :
    (dead c.threshold sizes).any id = false := by
  obtain ⟨hn, h0, hs⟩ := h
  have hu0 : 0 < u := lt_of_lt_of_le hs hu
  rw [ge_iff_le, le_div_iff₀ hu0] at hb
  unfold safeMultiplier at hb
  have ht := hc.threshold0
  unfold dead
  rw [List.any_map, List.any_eq_false]
  intro s hsm
  simp only [Function.comp_apply, id_eq, decide_eq_true_eq, not_lt]
  rw [hn]
  have h1 : l * (c.size : ℚ) ≤ s * c.size := mul_le_mul_of_nonneg_right (hl s hsm) (by positivity)
  have h2 : c.threshold * sizes.sum ≤ c.threshold * u := mul_le_mul_of_nonneg_left hu ht
  have h3 : 0 ≤ c.threshold * u := by positivity
  linarith

theorem no_dead_zero (sizes : List ℚ) (h0 : ∀ s ∈ sizes, 0 ≤ s) : (dead 0 sizes).any id = false := by
  unfold dead
  rw [List.any_map, List.any_eq_false]
  intro s hs
  simp only [Function.comp_apply, id_eq, decide_eq_true_eq, not_lt, zero_mul]
  have := h0 s hs
  positivity

/-- the decision is the exact one, with new bounds -/
theorem decision_ok (c : Cfg G) (hc : c.Valid) (b : Book) (h : Inv c b) :
    ∃ b', expireDecision c 1 b = .ok (if (dead c.threshold b.sizes).any id then some (dead c.threshold b.sizes) else none, b') ∧
      b'.sizes = b.sizes ∧ b'.embed = b.embed ∧ b'.avg = b.avg ∧ Inv c b' := by
  have hex : exactCheck c b = if (dead c.threshold b.sizes).any id then some (dead c.threshold b.sizes) else none := by
    unfold exactCheck
    rw [expiredMask_eq c b h.good]
  unfold expireDecision
  by_cases ht : c.threshold = 0
  · rw [if_pos ht, ht, no_dead_zero _ h.good.2.1]
    exact ⟨b, rfl, rfl, rfl, rfl, h⟩
  · rw [if_neg ht, if_pos rfl]
    have hhost : ∃ b', (match hostCheck c b with
        | .error e => (.error e : Except String (Option (List Bool) × Book))
        | .ok (some bounds) => .ok (none, { b with cache := some bounds })
        | .ok none => .ok (exactCheck c b, b)) =
          .ok (if (dead c.threshold b.sizes).any id then some (dead c.threshold b.sizes) else none, b') ∧
        b'.sizes = b.sizes ∧ b'.embed = b.embed ∧ b'.avg = b.avg ∧ Inv c b' := by
      unfold hostCheck
      rw [if_neg (ne_of_gt h.good.2.2)]
      by_cases hm : minOf b.sizes * c.size / b.sizes.sum ≥ safeMultiplier * c.threshold
      · rw [if_pos hm]
        dsimp only
        have hnd := not_dead c hc b.sizes h.good _ _ (fun s hs => minOf_le _ _ hs) (le_refl _) hm
        rw [hnd]
        refine ⟨_, rfl, rfl, rfl, rfl, h.good, ?_⟩
        intro p hp
        simp only [Option.some.injEq] at hp
        subst hp
        dsimp only
        have hmin0 : 0 ≤ minOf b.sizes := by
          rw [ge_iff_le, le_div_iff₀ h.good.2.2] at hm
          unfold safeMultiplier at hm
          have h1 : 0 ≤ 2 * c.threshold * b.sizes.sum := by
            have := hc.threshold0; have := h.good.2.2; positivity
          by_contra hneg
          rw [not_le] at hneg
          by_cases hz : c.size = 0
          · have := h.good.1
            rw [hz, List.length_eq_zero_iff] at this
            have h2 := h.good.2.2
            rw [this] at h2
            simp at h2
          · have hpos : (0 : ℚ) < c.size := by exact_mod_cast Nat.pos_of_ne_zero hz
            have : minOf b.sizes * (c.size : ℚ) < 0 := mul_neg_of_neg_of_pos hneg hpos
            linarith
        constructor
        · intro s hs
          have := minOf_le _ _ hs
          unfold boundEps
          nlinarith
        · have := h.good.2.2
          unfold boundEps
          nlinarith
      · rw [if_neg hm]
        dsimp only
        rw [hex]
        exact ⟨b, rfl, rfl, rfl, rfl, h⟩
    unfold cacheShows
    cases hca : b.cache with
    | none => exact hhost
    | some p =>
      obtain ⟨l, u⟩ := p
      obtain ⟨hb1, hb2⟩ := h.bound _ hca
      dsimp only at hb1 hb2
      have hu0 : u ≠ 0 := ne_of_gt (lt_of_lt_of_le h.good.2.2 hb2)
      dsimp only
      rw [if_neg hu0]
      by_cases hb : l * c.size / u ≥ safeMultiplier * c.threshold
      · rw [decide_eq_true hb]
        dsimp only
        rw [not_dead c hc b.sizes h.good l u hb1 hb2 hb]
        exact ⟨b, rfl, rfl, rfl, rfl, h⟩
      · rw [decide_eq_false hb]
        exact hhost

/-! ### Masked assignment -/

theorem maskedSet_length {α : Type} (m : List Bool) (xs vs : List α) : (maskedSet m xs vs).length = xs.length := by
  fun_induction maskedSet m xs vs <;> simp_all

theorem maskedSet_mem {α : Type} (m : List Bool) (xs vs : List α) (y : α) (h : y ∈ maskedSet m xs vs) :
    y ∈ xs ∨ y ∈ vs := by
  fun_induction maskedSet m xs vs <;> simp_all <;> grind

theorem maskedSet_hit {α : Type} (m : List Bool) (xs : List α) (v : α) (k : Nat) (hm : m.any id = true)
    (hl : m.length = xs.length) (hk : k = m.count true) : v ∈ maskedSet m xs (List.replicate k v) := by
  induction m generalizing xs k with
  | nil => simp at hm
  | cons b m ih =>
    cases xs with
    | nil => simp at hl
    | cons x xs =>
      cases b with
      | true =>
        rw [List.count_cons_self] at hk
        subst hk
        rw [List.replicate_succ, maskedSet]
        exact List.mem_cons_self ..
      | false =>
        have : (false :: m).count true = m.count true := by simp
        rw [this] at hk
        cases k with
        | zero =>
          rw [maskedSet]
          · refine List.mem_cons_of_mem _ (ih xs 0 ?_ (by simpa using hl) hk)
            simpa using hm
        | succ k =>
          rw [maskedSet]
          · refine List.mem_cons_of_mem _ (ih xs (k + 1) ?_ (by simpa using hl) hk)
            simpa using hm

/-! ### Sums -/

theorem sum_counts (n : Nat) (idx : List Nat) (h : ∀ i ∈ idx, i < n) :
    ((List.range n).map (fun k => (idx.count k : ℚ))).sum = idx.length := by
  induction idx with
  | nil => simp
  | cons i idx ih =>
    have h1 := ih (fun j hj => h j (List.mem_cons_of_mem _ hj))
    have h2 : ∀ m, ((List.range m).map (fun k => (if i = k then (1 : ℚ) else 0))).sum = if i < m then 1 else 0 := by
      intro m
      induction m with
      | zero => simp
      | succ m ihm =>
        rw [List.range_succ, List.map_append, List.sum_append, ihm]
        simp only [List.map_cons, List.map_nil, List.sum_cons, List.sum_nil, add_zero]
        by_cases ha : i < m
        · rw [if_pos ha, if_neg (by omega), if_pos (by omega)]; norm_num
        · by_cases hb : i = m
          · rw [if_neg ha, if_pos hb, if_pos (by omega)]; norm_num
          · rw [if_neg ha, if_neg hb, if_neg (by omega)]; norm_num
    have h3 := h2 n
    rw [if_pos (h i (List.mem_cons_self ..))] at h3
    have : ((List.range n).map (fun k => ((i :: idx).count k : ℚ))).sum =
        ((List.range n).map (fun k => (idx.count k : ℚ))).sum +
          ((List.range n).map (fun k => (if i = k then (1 : ℚ) else 0))).sum := by
      rw [← List.sum_map_add]
      congr 1
      apply List.map_congr_left
      intro k _
      rw [List.count_cons]
      by_cases hk : i = k <;> simp [hk]
    rw [this, h1, h3]
    simp

theorem sum_lerp (d : ℚ) (a b : List ℚ) (h : a.length = b.length) :
    (List.zipWith (lerp d) a b).sum = d * a.sum + (1 - d) * b.sum := by
  induction a generalizing b with
  | nil => cases b with
    | nil => simp
    | cons _ _ => simp at h
  | cons x a ih =>
    cases b with
    | nil => simp at h
    | cons y b =>
      rw [List.zipWith_cons_cons, List.sum_cons, List.sum_cons, List.sum_cons, ih b (by simpa using h)]
      unfold lerp
      ring

theorem mem_lerp (d : ℚ) (a b : List ℚ) (z : ℚ) (h : z ∈ List.zipWith (lerp d) a b) :
    ∃ x ∈ a, ∃ y ∈ b, z = lerp d x y := by
  induction a generalizing b with
  | nil => simp at h
  | cons x a ih =>
    cases b with
    | nil => simp at h
    | cons y b =>
      rw [List.zipWith_cons_cons] at h
      rcases List.mem_cons.1 h with rfl | h
      · exact ⟨x, List.mem_cons_self .., y, List.mem_cons_self .., rfl⟩
      · obtain ⟨u, hu, v, hv, hz⟩ := ih b h
        exact ⟨u, List.mem_cons_of_mem _ hu, v, List.mem_cons_of_mem _ hv, hz⟩

/-- the state a user sees -/
def Rank.plain (r : Rank G) : Plain G := ⟨r.book.sizes, r.book.embed, r.book.avg, r.rng⟩

theorem counts_one (n : Nat) (idx : List Nat) :
    (List.range n).map (fun k => (([(idx, ([] : List Vec))] : List (List Nat × List Vec)).map
      (fun p => (codeCounts n p.1).getD k 0)).sum) = codeCounts n idx := by
  unfold codeCounts
  apply List.map_congr_left
  intro k hk
  rw [List.mem_range] at hk
  simp only [List.map_cons, List.map_nil, List.sum_cons, List.sum_nil, add_zero]
  rw [List.getD_eq_getElem _ _ (by simpa using hk)]
  simp

theorem lerp_eq (d a b : ℚ) : lerp d a b = d * a + (1 - d) * b := by unfold lerp; ring

theorem zipWith_counts (d : ℚ) (idx : List Nat) : ∀ (sizes : List ℚ) (n : Nat),
    List.zipWith (lerp d) sizes ((List.range' n sizes.length).map (fun k => (idx.count k : ℚ))) =
      (sizes.zipIdx n).map (fun p => d * p.1 + (1 - d) * (idx.count p.2 : ℚ)) := by
  intro sizes
  induction sizes with
  | nil => intro n; rfl
  | cons s sizes ih =>
    intro n
    rw [List.length_cons, List.range'_succ, List.map_cons, List.zipWith_cons_cons, List.zipIdx_cons, List.map_cons,
      ih (n + 1), lerp_eq]

theorem rebuild_eq (c : Cfg G) (sizes : List ℚ) (avg : List Vec) :
    rebuild c sizes avg = List.zipWith (fun row s =>
      if c.cosine then c.normalise (row.map (fun q => q * (sizes.sum + c.size / 100000) / (sizes.sum * (s + 1 / 100000))))
      else row.map (fun q => q * (sizes.sum + c.size / 100000) / (sizes.sum * (s + 1 / 100000)))) avg sizes := by
  unfold rebuild smooth
  rw [List.zipWith_map_right]
  congr 1
  funext row s
  have : (fun q : ℚ => q / (sizes.sum * (s + 1 / 100000) / (sizes.sum + c.size * (1 / 100000)))) =
      fun q => q * (sizes.sum + c.size / 100000) / (sizes.sum * (s + 1 / 100000)) := by
    funext q
    rw [div_div_eq_mul_div, mul_one_div]
  rw [this]

/-- the update on a single rank -/
theorem update_ok (c : Cfg G) (hc : c.Valid) (r : Rank G) (h : Inv c r.book) (xs : List Vec) (hx : xs ≠ []) :
    ∃ r', updatePhase c [(r, xs)] = [r'] ∧ r'.plain = plainUpdate c r.plain xs ∧ Inv c r'.book := by
  obtain ⟨idx, hidx⟩ : ∃ idx, idx = (c.search r.rng r.book.embed xs).1 := ⟨_, rfl⟩
  have hlen : idx.length = xs.length := by rw [hidx]; exact hc.search_length _ _ _
  have hran : ∀ i ∈ idx, i < c.size := by rw [hidx]; exact hc.search_range _ _ _
  refine ⟨⟨updateEma c 1 r.book (codeCounts c.size idx) (idx, xs) [(idx, xs)], (c.search r.rng r.book.embed xs).2⟩,
    ?_, ?_, ?_⟩
  · unfold updatePhase
    simp only [List.map_cons, List.map_nil, List.zipWith_cons_cons, List.zipWith_nil_left, List.length_cons,
      List.length_nil, Nat.zero_add, ← hidx]
    have hco : (List.range c.size).map (fun k => ([(codeCounts c.size idx).getD k 0]).sum) = codeCounts c.size idx := by
      have := counts_one c.size idx
      simpa using this
    rw [hco]
  · have hs : List.zipWith (lerp c.decay) r.book.sizes (codeCounts c.size idx) =
        r.book.sizes.zipIdx.map (fun p => c.decay * p.1 + (1 - c.decay) * (idx.count p.2 : ℚ)) := by
      unfold codeCounts
      rw [← h.good.1, List.range_eq_range']
      exact zipWith_counts c.decay idx r.book.sizes 0
    have ha : avgSingle c r.book.avg idx xs = matrix c.size c.dim (fun k i => c.decay * entry r.book.avg k i +
        (1 - c.decay) * ((idx.zip xs).map (fun p => if p.1 = k then p.2.getD i 0 else 0)).sum) := by
      unfold avgSingle
      congr 1
      funext k i
      rw [mul_comm (entry _ _ _), ← List.sum_map_mul_left]
      congr 3
      funext p
      by_cases hp : p.1 = k <;> simp [hp]
    unfold Rank.plain plainUpdate updateEma move
    simp only [← hidx, if_true, hs, ha, rebuild_eq]
    cases c.emaUpdate <;> rfl
  · have hnd : (0 : ℚ) < xs.length := by
      have : 0 < xs.length := List.length_pos_iff.2 hx
      exact_mod_cast this
    have hd0 := hc.decay0
    have hd1 := hc.decay1
    have hcl : (codeCounts c.size idx).length = c.size := by simp [codeCounts]
    have hcs : (codeCounts c.size idx).sum = xs.length := by
      unfold codeCounts
      rw [sum_counts c.size idx hran, hlen]
    have hc0 : ∀ y ∈ codeCounts c.size idx, 0 ≤ y := by
      intro y hy
      obtain ⟨k, -, rfl⟩ := List.mem_map.1 hy
      positivity
    have hsum : (List.zipWith (lerp c.decay) r.book.sizes (codeCounts c.size idx)).sum =
        c.decay * r.book.sizes.sum + (1 - c.decay) * xs.length := by
      rw [sum_lerp _ _ _ (by rw [h.good.1, hcl]), hcs]
    refine ⟨⟨?_, ?_, ?_⟩, ?_⟩
    · show (List.zipWith (lerp c.decay) r.book.sizes (codeCounts c.size idx)).length = c.size
      rw [List.length_zipWith, h.good.1, hcl, Nat.min_self]
    · intro z hz
      obtain ⟨x, hx', y, hy, rfl⟩ := mem_lerp _ _ _ _ hz
      have h1 := h.good.2.1 x hx'
      have h2 := hc0 y hy
      rw [lerp_eq]
      have : 0 ≤ 1 - c.decay := by linarith
      positivity
    · show 0 < (List.zipWith (lerp c.decay) r.book.sizes (codeCounts c.size idx)).sum
      rw [hsum]
      have hs0 := h.good.2.2
      rcases lt_or_eq_of_le hd1 with hlt | heq
      · have h1 : 0 < (1 - c.decay) * (xs.length : ℚ) := mul_pos (by linarith) hnd
        have h2 : 0 ≤ c.decay * r.book.sizes.sum := by positivity
        linarith
      · rw [heq]; linarith
    · intro p hp
      have hp' : advanceCache c 1 xs.length r.book.cache = some p := hp
      unfold advanceCache at hp'
      rw [if_pos rfl] at hp'
      cases hca : r.book.cache with
      | none => rw [hca] at hp'; cases hp'
      | some q =>
        obtain ⟨l, u⟩ := q
        rw [hca] at hp'
        simp only [Option.map_some, Option.some.injEq] at hp'
        subst hp'
        obtain ⟨hb1, hb2⟩ := h.bound _ hca
        dsimp only at hb1 hb2
        dsimp only
        constructor
        · intro z hz
          obtain ⟨x, hx', y, hy, rfl⟩ := mem_lerp _ _ _ _ hz
          have h1 := h.good.2.1 x hx'
          have h2 := hc0 y hy
          have h3 := hb1 x hx'
          rw [lerp_eq]
          have h4 : 0 ≤ (1 - c.decay) * y := mul_nonneg (by linarith) h2
          have h5 : l * (c.decay * (1 - boundEps)) ≤ c.decay * x := by
            unfold boundEps
            have : l * (c.decay * (1 - 1 / 1000000)) = c.decay * (l * (1 - 1 / 1000000)) := by ring
            rw [this]
            apply mul_le_mul_of_nonneg_left _ hd0
            by_cases hl0 : 0 ≤ l
            · nlinarith
            · rw [not_le] at hl0
              nlinarith
          linarith
        · show (List.zipWith (lerp c.decay) r.book.sizes (codeCounts c.size idx)).sum ≤ _
          rw [hsum]
          have h1 : c.decay * r.book.sizes.sum ≤ u * c.decay := by
            rw [mul_comm u]; exact mul_le_mul_of_nonneg_left hb2 hd0
          have h2 : 0 ≤ c.decay * r.book.sizes.sum := by have := h.good.2.2; positivity
          have h3 : 0 ≤ (1 - c.decay) * (xs.length : ℚ) := mul_nonneg (by linarith) (by positivity)
          unfold boundEps
          nlinarith

end Verif.Vq
