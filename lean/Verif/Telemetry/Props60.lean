import Verif.Telemetry.Hist
import Mathlib.Tactic.SplitIfs
import Mathlib.Tactic.ByContra
import Mathlib.Tactic.IntervalCases
import Mathlib.Tactic.Linarith
import Mathlib.Logic.Basic
import Mathlib.Data.List.Induction

/-! C60: the latency histogram. -/
namespace Verif.Telemetry

/-! ### Specification -/

/-- The histogram after recording these latencies. -/
def record (xs : List Int) : Hist := xs.foldl Hist.add Hist.new

/-- How many of the latencies are at most `v` (a negative clock difference counts as zero). -/
def below (xs : List Int) (v : Int) : Nat := xs.countP fun x => decide (max 0 x ≤ v)

/-- The bounds the histogram can tell apart. -/
def IsBucket (b : Int) : Prop := b ∈ buckets

/-! ### Proofs -/

/-- The latencies that fall in bucket `i`. -/
def inBucket (xs : List Int) (i : Nat) : Nat := xs.countP fun x => decide (searchLeft (max 0 x) = i)

theorem searchLeft_le (x : Int) : searchLeft x ≤ 16 := by
  unfold searchLeft
  exact List.countP_le_length (l := buckets)

theorem countP_lt_le_iff (x : Int) : ∀ (l : List Int), l.Pairwise (· ≤ ·) → ∀ i, i < l.length →
    (l.countP (fun b => decide (b < x)) ≤ i ↔ x ≤ l.getD i 0)
  | [], _, i, hi => by simp at hi
  | a :: l, hp, i, hi => by
      rw [List.pairwise_cons] at hp
      rw [List.countP_cons]
      by_cases ha : a < x
      · simp only [decide_eq_true ha, if_true]
        cases i with
        | zero => simp; omega
        | succ i =>
            have := countP_lt_le_iff x l hp.2 i (by simpa using hi)
            simp only [List.getD_cons_succ]
            omega
      · simp only [decide_eq_false ha, Bool.false_eq_true, if_false]
        have h0 : l.countP (fun b => decide (b < x)) = 0 := by
          rw [List.countP_eq_zero]
          intro b hb
          have := hp.1 b hb
          simp
          omega
        rw [h0]
        cases i with
        | zero => simp; omega
        | succ i =>
            have hi' : i < l.length := by simpa using hi
            rw [List.getD_cons_succ, List.getD_eq_getElem?_getD, List.getElem?_eq_getElem hi',
              Option.getD_some]
            have := hp.1 l[i] (List.getElem_mem hi')
            omega

theorem buckets_sorted : buckets.Pairwise (· < ·) := by decide

/-- A latency falls in one of the buckets up to `i` exactly when it is at most bound `i`. -/
theorem searchLeft_le_iff (x : Int) (i : Nat) (hi : i < 16) :
    searchLeft x ≤ i ↔ x ≤ buckets.getD i 0 :=
  countP_lt_le_iff x buckets (buckets_sorted.imp fun h => Int.le_of_lt h) i hi

theorem record_counts (xs : List Int) : (record xs).counts.length = 17
    ∧ (∀ i, i < 17 → (record xs).counts.getD i 0 = inBucket xs i)
    ∧ (record xs).total = (xs.map (max 0 ·)).sum
    ∧ (∀ x ∈ xs, max 0 x ≤ (record xs).maximum)
    ∧ (record xs).maximum ∈ 0 :: xs.map (max 0 ·) := by
  unfold record
  induction xs using List.reverseRecOn with
  | nil =>
      refine ⟨rfl, ?_, rfl, by simp, by simp [Hist.new]⟩
      intro i hi
      unfold inBucket Hist.new
      simp only [List.foldl_nil, List.getD_eq_getElem?_getD, List.getElem?_replicate, List.countP_nil]
      split_ifs <;> rfl
  | append_singleton xs x ih =>
      obtain ⟨h1, h2, h3, h4, h5⟩ := ih
      rw [List.foldl_append]
      simp only [List.foldl_cons, List.foldl_nil]
      generalize hH : List.foldl Hist.add Hist.new xs = H at *
      unfold Hist.add
      simp only
      refine ⟨by simpa using h1, ?_, ?_, ?_, ?_⟩
      · intro i hi
        have := h2 i hi
        unfold inBucket at this ⊢
        rw [List.countP_append, ← this]
        simp only [List.getD_eq_getElem?_getD, List.getElem?_modify, List.countP_cons, List.countP_nil]
        have hlt : i < H.counts.length := by omega
        rw [List.getElem?_eq_getElem hlt]
        by_cases hs : searchLeft (max 0 x) = i
        · simp [hs]
        · simp [hs]
      · rw [List.map_append, List.sum_append, h3]
        simp
      · intro y hy
        rw [List.mem_append] at hy
        rcases hy with hy | hy
        · have := h4 y hy; omega
        · simp at hy; subst hy; omega
      · rw [List.map_append, ← List.cons_append, List.mem_append]
        by_cases hm : H.maximum ≤ max 0 x
        · right; rw [Int.max_eq_right hm]; simp
        · left; rw [Int.max_eq_left (by omega)]; exact h5

/-- Latencies in the buckets before `k`. -/
def before (xs : List Int) (k : Nat) : Nat := xs.countP fun x => decide (searchLeft (max 0 x) < k)

theorem before_succ (xs : List Int) (k : Nat) : before xs (k + 1) = before xs k + inBucket xs k := by
  unfold before inBucket
  induction xs with
  | nil => rfl
  | cons x xs ih =>
      simp only [List.countP_cons, decide_eq_true_eq, ih]
      have : (if searchLeft (max 0 x) < k + 1 then 1 else 0)
          = (if searchLeft (max 0 x) < k then 1 else 0) + (if searchLeft (max 0 x) = k then 1 else 0) := by
        split_ifs <;> omega
      omega

theorem before_zero (xs : List Int) : before xs 0 = 0 := by simp [before]

theorem before_top (xs : List Int) : before xs 17 = xs.length := by
  unfold before
  rw [List.countP_eq_length]
  intro x _
  have := searchLeft_le (max 0 x)
  simp
  omega

theorem before_below (xs : List Int) (i : Nat) (hi : i < 16) :
    before xs (i + 1) = below xs (buckets.getD i 0) := by
  unfold before below
  congr 1
  funext x
  rw [decide_eq_decide, ← searchLeft_le_iff _ i hi]
  omega

theorem sum_drop (xs : List Int) (cs : List Nat) (k : Nat) (hk : k + cs.length = 17)
    (hc : ∀ i, i < cs.length → cs.getD i 0 = inBucket xs (k + i)) : before xs k + cs.sum = xs.length := by
  induction cs generalizing k with
  | nil => simp at hk; subst hk; simp [before_top]
  | cons c cs ih =>
      have h0 := hc 0 (by simp)
      simp at h0
      have := ih (k + 1) (by simp at hk; omega) (by
        intro i hi
        have := hc (i + 1) (by simpa using hi)
        simpa [Nat.add_assoc, Nat.add_comm 1] using this)
      rw [before_succ] at this
      simp only [List.sum_cons]
      omega

theorem scan_spec (xs : List Int) (m : Int) (target : Nat) (ht : target ≤ xs.length) (cs : List Nat)
    (k : Nat) (hk : k + cs.length = 17) (hc : ∀ i, i < cs.length → cs.getD i 0 = inBucket xs (k + i))
    (hlow : before xs k < target) :
    ∃ j, k ≤ j ∧ j ≤ 16 ∧ before xs j < target ∧ target ≤ before xs (j + 1)
      ∧ scanCounts m target cs k (before xs k) = if j = 16 then m else buckets.getD j 0 := by
  induction cs generalizing k with
  | nil => simp at hk; subst hk; rw [before_top] at hlow; omega
  | cons c cs ih =>
      have h0 := hc 0 (by simp)
      simp at h0
      unfold scanCounts
      subst h0
      by_cases hge : before xs k + inBucket xs k ≥ target
      · rw [if_pos hge]
        refine ⟨k, Nat.le_refl _, by simp at hk; omega, hlow, by rw [before_succ]; exact hge, rfl⟩
      · rw [if_neg hge]
        obtain ⟨j, j1, j2, j3, j4, j5⟩ := ih (k + 1) (by simp at hk; omega) (by
          intro i hi
          have := hc (i + 1) (by simpa using hi)
          simpa [Nat.add_assoc, Nat.add_comm 1] using this) (by rw [before_succ]; omega)
        rw [before_succ] at j5
        exact ⟨j, by omega, j2, j3, j4, j5⟩

theorem count_record (xs : List Int) : (record xs).count = xs.length := by
  obtain ⟨h1, h2, _⟩ := record_counts xs
  have := sum_drop xs (record xs).counts 0 (by omega) (by
    intro i hi
    rw [h2 i (by omega), Nat.zero_add])
  rw [before_zero] at this
  unfold Hist.count
  omega

/-- **C60** (counters).  Count, total and maximum are those of the recorded latencies. -/
theorem C60_counters (xs : List Int) :
    (record xs).count = xs.length ∧ (record xs).total = (xs.map (max 0 ·)).sum
    ∧ (∀ x ∈ xs, max 0 x ≤ (record xs).maximum)
    ∧ (record xs).maximum ∈ 0 :: xs.map (max 0 ·) :=
  ⟨count_record xs, (record_counts xs).2.2⟩

theorem percentile_bucket (xs : List Int) (rank : Int) (h : max 1 rank ≤ xs.length) :
    ∃ j, j ≤ 16 ∧ (before xs j : Int) < max 1 rank ∧ max 1 rank ≤ before xs (j + 1)
      ∧ (record xs).percentile rank = if j = 16 then (record xs).maximum else buckets.getD j 0 := by
  obtain ⟨h1, h2, _⟩ := record_counts xs
  obtain ⟨j, _, j2, j3, j4, j5⟩ := scan_spec xs (record xs).maximum (max 1 rank).toNat (by omega)
    (record xs).counts 0 (by omega) (by intro i hi; rw [h2 i (by omega), Nat.zero_add])
    (by rw [before_zero]; omega)
  refine ⟨j, j2, by omega, by omega, ?_⟩
  unfold Hist.percentile
  rw [if_neg (by rw [count_record]; omega)]
  rw [before_zero] at j5
  exact j5

/-- **C60** (upper bound, tight).  For every rank up to the number of recorded latencies: at least that
many latencies are at most the reported value, and no smaller bucket bound has that property. -/
theorem C60_percentile (xs : List Int) (rank : Int) (h : max 1 rank ≤ xs.length) :
    let v := (record xs).percentile rank
    max 1 rank ≤ below xs v ∧ ∀ b, IsBucket b → b < v → (below xs b : Int) < max 1 rank := by
  obtain ⟨j, j1, j2, j3, j4⟩ := percentile_bucket xs rank h
  obtain ⟨_, _, _, hmax, hmem⟩ := record_counts xs
  simp only
  rw [j4]
  have mono : ∀ a b : Nat, a ≤ b → before xs a ≤ before xs b := by
    intro a b hab
    unfold before
    apply List.countP_mono_left
    intro x _ hx
    simp only [decide_eq_true_eq] at hx ⊢
    omega
  have small : ∀ i, i < 16 → i < j → (below xs (buckets.getD i 0) : Int) < max 1 rank := by
    intro i hi hij
    rw [← before_below xs i hi]
    have := mono (i + 1) j (by omega)
    omega
  constructor
  · split_ifs with hj
    · have : below xs (record xs).maximum = xs.length := by
        unfold below
        rw [List.countP_eq_length]
        intro x hx
        exact decide_eq_true (hmax x hx)
      omega
    · rw [← before_below xs j (by omega)]
      exact j3
  · intro b hb hlt
    obtain ⟨i, hi⟩ := List.mem_iff_getElem?.1 hb
    have hi16 : i < 16 := by
      by_contra hn
      rw [List.getElem?_eq_none (by simp [buckets]; omega)] at hi
      cases hi
    have hgi : buckets.getD i 0 = b := by rw [List.getD_eq_getElem?_getD, hi]; rfl
    rw [← hgi]
    apply small i hi16
    by_contra hn
    rw [not_lt] at hn
    split_ifs at hlt with hj
    · omega
    · have hle : buckets.getD j 0 ≤ buckets.getD i 0 := by
        have hjl : j < buckets.length := by simp [buckets]; omega
        have hil : i < buckets.length := by simp [buckets]; omega
        simp only [List.getD_eq_getElem?_getD, List.getElem?_eq_getElem hjl, List.getElem?_eq_getElem hil,
          Option.getD_some]
        rcases Nat.lt_or_eq_of_le hn with hlt' | heq
        · exact Int.le_of_lt (List.pairwise_iff_getElem.1 buckets_sorted j i hjl hil hlt')
        · subst heq; exact Int.le_refl _
      omega

/-- **C60** (fractions).  For a fraction `a/b` and the exact rank `⌈count · a/b⌉`: at least that fraction
of the latencies is at most the reported value. -/
theorem C60_fraction (xs : List Int) (a b : Nat) (hb : 0 < b) (hab : a ≤ b) (hne : xs ≠ []) :
    let v := (record xs).percentile (((xs.length * a + (b - 1)) / b : Nat) : Int)
    a * xs.length ≤ b * below xs v := by
  have hpos : 0 < xs.length := List.length_pos_iff.2 hne
  have hr : (xs.length * a + (b - 1)) / b ≤ xs.length := by
    rw [Nat.div_le_iff_le_mul_add_pred hb]
    have := Nat.mul_le_mul_left xs.length hab
    rw [Nat.mul_comm b]
    omega
  have hge : xs.length * a ≤ b * ((xs.length * a + (b - 1)) / b) := by
    have h1 := Nat.div_add_mod (xs.length * a + (b - 1)) b
    have h2 := Nat.mod_lt (xs.length * a + (b - 1)) hb
    generalize b * ((xs.length * a + (b - 1)) / b) = q at *
    omega
  obtain ⟨h1, _⟩ := C60_percentile xs (((xs.length * a + (b - 1)) / b : Nat) : Int) (by omega)
  simp only at h1 ⊢
  generalize below xs _ = c at h1 ⊢
  have h3 : (xs.length * a + (b - 1)) / b ≤ c := by omega
  have h4 := Nat.mul_le_mul_left b h3
  rw [Nat.mul_comm a]
  omega

/-- **C60** (order).  A higher rank never reports a smaller value. -/
theorem C60_monotone (xs : List Int) (r r' : Int) (hr : r ≤ r') (h : max 1 r' ≤ xs.length) :
    (record xs).percentile r ≤ (record xs).percentile r' := by
  by_contra hn
  obtain ⟨j, j1, j2, j3, j4⟩ := percentile_bucket xs r (by omega)
  obtain ⟨j', k1, k2, k3, k4⟩ := percentile_bucket xs r' h
  have h1 := (C60_percentile xs r' h).1
  by_cases hj' : j' = 16
  · rw [k4, if_pos hj'] at hn
    have hall : below xs (record xs).maximum = xs.length := by
      unfold below
      rw [List.countP_eq_length]
      intro x hx
      exact decide_eq_true ((record_counts xs).2.2.2.1 x hx)
    subst hj'
    -- a latency lies beyond the last bound, so the maximum does
    rw [before_top] at k3
    have hb16 : before xs 16 < xs.length := by omega
    have hex : ∃ x ∈ xs, ¬searchLeft (max 0 x) < 16 := by
      by_contra hno
      have : before xs 16 = xs.length := by
        unfold before
        rw [List.countP_eq_length]
        intro x hx
        refine decide_eq_true ?_
        by_contra hc
        exact hno ⟨x, hx, hc⟩
      omega
    obtain ⟨x, hx, hlx⟩ := hex
    have hx2 := (record_counts xs).2.2.2.1 x hx
    have hx3 : ¬max 0 x ≤ buckets.getD 15 0 := by
      rw [← searchLeft_le_iff _ 15 (by omega)]
      omega
    rw [j4] at hn
    split_ifs at hn with hj
    · omega
    · have hle : buckets.getD j 0 ≤ buckets.getD 15 0 := by
        interval_cases j <;> decide
      omega
  · rw [k4, if_neg hj'] at hn h1
    have hb : IsBucket (buckets.getD j' 0) := by
      have hjl : j' < buckets.length := by simp [buckets]; omega
      unfold IsBucket
      rw [List.getD_eq_getElem?_getD, List.getElem?_eq_getElem hjl]
      exact List.getElem_mem hjl
    have := (C60_percentile xs r (by omega)).2 _ hb (by omega)
    omega

/-- **C60** (reset).  Clearing gives an empty histogram, whose percentiles are zero. -/
theorem C60_clear (xs : List Int) (rank : Int) :
    (record xs).clear = Hist.new ∧ Hist.new.percentile rank = 0 := by
  constructor
  · unfold Hist.clear Hist.new
    rw [(record_counts xs).1]
    rfl
  · unfold Hist.percentile
    rw [if_pos (by decide)]

/-! ### Non-vacuity -/

/-- Twenty latencies; the 95th percentile (rank 19) falls in the 1 ms bucket, the maximum beyond the last
bound. -/
example :
    let xs : List Int := List.replicate 18 7 ++ [600000, 5000000000]
    (record xs).percentile 19 = 1000000 ∧ (record xs).percentile 18 = 10000
      ∧ (record xs).percentile 20 = 5000000000 ∧ below xs 1000000 = 19 ∧ below xs 500000 = 18 := by
  decide

end Verif.Telemetry
