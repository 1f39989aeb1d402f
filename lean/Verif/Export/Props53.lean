import Verif.Export.Hash
import Verif.Export.Props51

/-
C53: hash layer indices are valid, and collision-free when the table is large enough.
-/
namespace Verif.Export

/-- An input the layer accepts: one level per input, each in `[0, input_level)`. -/
def HashCfg.Valid (c : HashCfg) (x : List Int) : Prop :=
  x.length = c.inputSize ∧ ∀ v ∈ x, 0 ≤ v ∧ v < c.inputLevel

theorem ceilDiv_gt (n m k : Nat) (hm : 0 < m) (hk : k < n) : k / m < (n + m - 1) / m := by
  rw [Nat.div_lt_iff_lt_mul hm]
  have h1 := Nat.div_add_mod (n + m - 1) m
  have h2 := Nat.mod_lt (n + m - 1) hm
  rw [Nat.mul_comm] at h1
  omega

theorem strideSum_range (level : Nat) (x : List Int) (i : Nat)
    (h : ∀ v ∈ x, 0 ≤ v ∧ v < level) :
    ∃ n : Nat, n < level ^ x.length ∧ strideSum level x i = (n : Int) * (level : Int) ^ i := by
  induction x generalizing i with
  | nil => exact ⟨0, by simp, by simp [strideSum]⟩
  | cons v vs ih =>
      obtain ⟨n, hn, he⟩ := ih (i + 1) (fun u hu => h u (by simp [hu]))
      obtain ⟨hv0, hv1⟩ := h v (by simp)
      obtain ⟨w, rfl⟩ := Int.eq_ofNat_of_zero_le hv0
      refine ⟨w + level * n, ?_, ?_⟩
      · have hw : w < level := by exact_mod_cast hv1
        rw [List.length_cons, pow_succ]
        nlinarith [Nat.mul_le_mul_left level (Nat.succ_le_of_lt hn)]
      · simp only [strideSum, he]; push_cast; ring

theorem strideSum_inj (level : Nat) (hl : 0 < level) (x y : List Int) (i : Nat)
    (hlen : x.length = y.length)
    (hx : ∀ v ∈ x, 0 ≤ v ∧ v < level) (hy : ∀ v ∈ y, 0 ≤ v ∧ v < level)
    (h : strideSum level x i = strideSum level y i) : x = y := by
  induction x generalizing i y with
  | nil => cases y with
    | nil => rfl
    | cons _ _ => simp at hlen
  | cons v vs ih =>
      cases y with
      | nil => simp at hlen
      | cons w ws =>
          obtain ⟨n, -, he⟩ := strideSum_range level vs (i + 1) (fun u hu => hx u (by simp [hu]))
          obtain ⟨m, -, he'⟩ := strideSum_range level ws (i + 1) (fun u hu => hy u (by simp [hu]))
          have hpos : (0 : Int) < (level : Int) ^ i := by positivity
          have h2 : v + level * n = w + level * m := by
            have h3 : (v + level * n) * (level : Int) ^ i = (w + level * m) * (level : Int) ^ i := by
              simp only [strideSum, he, he'] at h
              rw [pow_succ] at h
              linarith
            exact mul_right_cancel₀ (ne_of_gt hpos) h3
          obtain ⟨a1, a2⟩ := hx v (by simp)
          obtain ⟨b1, b2⟩ := hy w (by simp)
          have hvw : v = w := by
            have e1 : (v + level * n) % level = v := by
              rw [Int.add_mul_emod_self_left, Int.emod_eq_of_lt a1 a2]
            have e2 : (w + level * m) % level = w := by
              rw [Int.add_mul_emod_self_left, Int.emod_eq_of_lt b1 b2]
            rw [← e1, ← e2, h2]
          subst hvw
          congr 1
          apply ih ws (i + 1) (by simpa using hlen) (fun u hu => hx u (by simp [hu]))
            (fun u hu => hy u (by simp [hu]))
          simp only [strideSum] at h
          linarith

theorem hashSum_valid (c : HashCfg) (x : List Int) (i : Nat)
    (h : ∀ v ∈ x, 0 ≤ v ∧ v < c.inputLevel) : ∃ s, hashSum c x i = some s := by
  induction x generalizing i with
  | nil => exact ⟨0, rfl⟩
  | cons v vs ih =>
      obtain ⟨s, hs⟩ := ih (i + 1) (fun u hu => h u (by simp [hu]))
      exact ⟨c.hashs i v.toNat + s, by simp [hashSum, h v (by simp), hs]⟩

theorem hashSum_invalid (c : HashCfg) (x : List Int) (i : Nat) (hx : x ≠ []) :
    hashSum c (x.map fun _ => (c.inputLevel : Int)) i = none := by
  cases x with
  | nil => exact absurd rfl hx
  | cons v vs =>
      simp only [List.map_cons, hashSum]
      rw [if_neg (by omega)]

theorem offset_succ (c : HashCfg) (i : Nat) : c.offset (i + 1) = c.offset i + c.subSize i := by
  unfold HashCfg.offset
  rw [List.range_succ]; simp

theorem offset_mono (c : HashCfg) (i j : Nat) (h : i ≤ j) : c.offset i ≤ c.offset j := by
  induction j with
  | zero => have : i = 0 := by omega
            subst this; exact le_rfl
  | succ j ih =>
      rcases Nat.lt_or_ge i (j + 1) with h1 | h1
      · rw [offset_succ]; have := ih (by omega); omega
      · have : i = j + 1 := by omega
        subst this; exact le_rfl

theorem rows_eq (c : HashCfg) : c.rows = c.offset c.subFeatures := rfl

/-- A valid input has an index below the first table's size. -/
theorem index_valid (c : HashCfg) (x : List Int) (hx : c.Valid x) :
    ∃ n : Nat, n < c.nFeatures ∧ c.index false x = some (n : Int) := by
  unfold HashCfg.index HashCfg.nFeatures
  by_cases hp : c.perfect
  · simp only [hp, if_true]
    obtain ⟨n, hn, he⟩ := strideSum_range c.inputLevel x 0 hx.2
    refine ⟨n, by rw [← hx.1]; exact hn, ?_⟩
    rw [he]; simp
  · simp only [hp, if_false]
    obtain ⟨s, hs⟩ := hashSum_valid c x 0 hx.2
    simp only [Bool.false_eq_true, if_false]
    rw [hs]
    refine ⟨(s % 2 ^ c.hashLogsize).toNat, ?_, ?_⟩
    · have h1 := Int.emod_nonneg s (show (2 : Int) ^ c.hashLogsize ≠ 0 by positivity)
      have h2 := Int.emod_lt_of_pos s (show (0 : Int) < 2 ^ c.hashLogsize by positivity)
      have h3 : ((s % 2 ^ c.hashLogsize).toNat : Int) < ((2 ^ c.hashLogsize : Nat) : Int) := by
        rw [Int.toNat_of_nonneg h1]; push_cast; exact h2
      exact_mod_cast h3
    · rw [Int.toNat_of_nonneg (Int.emod_nonneg _ (by positivity))]; rfl

theorem invalid_false (c : HashCfg) (x : List Int) (h : ∀ v ∈ x, 0 ≤ v ∧ v < c.inputLevel) :
    c.invalidLong x = false := by
  unfold HashCfg.invalidLong
  rw [List.any_eq_false]
  intro v hv
  have := h v hv
  simp; omega

theorem subLookups_spec (c : HashCfg) (hd : 0 < c.subDivisor) (n i k : Nat)
    (hi : i + n ≤ c.subFeatures) (hk : k < c.subSize i)
    (hnext : ∀ j, j < n → k / c.subDivisor ^ j < c.subSize (i + j)) :
    ∃ rs, c.subLookups n i (k : Int) = some rs ∧ rs.length = n
      ∧ ∀ j (hj : j < rs.length), rs[j] = c.offset (i + j) + k / c.subDivisor ^ j := by
  induction n generalizing i k with
  | zero => exact ⟨[], rfl, rfl, by simp⟩
  | succ n ih =>
      have hlk : c.lookup ((k : Int) + c.offset i) = some (c.offset i + k) := by
        unfold HashCfg.lookup
        have h1 := offset_mono c (i + 1) c.subFeatures (by omega)
        rw [offset_succ] at h1
        rw [rows_eq, if_pos (by omega)]
        congr 1; omega
      have hdiv : (k : Int) / (c.subDivisor : Int) = ((k / c.subDivisor : Nat) : Int) := by simp
      have hn' : ∀ j, j < n → k / c.subDivisor / c.subDivisor ^ j < c.subSize (i + 1 + j) := by
        intro j hj
        have := hnext (j + 1) (by omega)
        rw [Nat.div_div_eq_div_mul, ← pow_succ', show i + 1 + j = i + (j + 1) by omega]
        exact this
      rcases Nat.eq_zero_or_pos n with rfl | hn
      · refine ⟨[c.offset i + k], ?_, rfl, ?_⟩
        · simp [HashCfg.subLookups, hlk]
        · intro j hj
          have hj0 : j = 0 := by simpa using hj
          subst hj0; simp
      · obtain ⟨rs, g1, g2, g3⟩ := ih (i + 1) (k / c.subDivisor) (by omega)
          (by simpa using hn' 0 hn) hn'
        refine ⟨(c.offset i + k) :: rs, ?_, by simp [g2], ?_⟩
        · simp only [HashCfg.subLookups, hlk, Option.bind_some, hdiv, g1, Option.map_some]
        · intro j hj
          cases j with
          | zero => simp
          | succ j =>
              simp only [List.getElem_cons_succ]
              rw [g3 j (by simpa using hj), Nat.div_div_eq_div_mul, ← pow_succ',
                show i + 1 + j = i + (j + 1) by omega]

/-- Value of all rows for a valid input. -/
theorem forward_rows (c : HashCfg) (hs : 0 < c.subFeatures) (hd : 0 < c.subDivisor) (x : List Int)
    (n : Nat) (hn : n < c.nFeatures) (hidx : c.index false x = some (n : Int)) :
    ∃ rs, c.forwardWith false x = some rs ∧ rs.length = c.subFeatures
      ∧ ∀ i (hi : i < rs.length), rs[i] = c.offset i + n / c.subDivisor ^ i := by
  have hsub : ∀ j, n / c.subDivisor ^ j < c.subSize j := fun j =>
    ceilDiv_gt _ _ _ (by positivity) hn
  unfold HashCfg.forwardWith
  rw [hidx]
  simp only [Option.bind_some]
  by_cases h1 : c.subFeatures > 1
  · rw [if_pos h1]
    obtain ⟨rs, g1, g2, g3⟩ := subLookups_spec c hd c.subFeatures 0 n (by omega)
      (by simpa using hsub 0) (fun j _ => by simpa using hsub j)
    exact ⟨rs, g1, g2, fun i hi => by simpa using g3 i hi⟩
  · rw [if_neg h1]
    have h1' : c.subFeatures = 1 := by omega
    have h0 := hsub 0
    refine ⟨[n], ?_, by simp [h1'], ?_⟩
    · unfold HashCfg.lookup
      rw [rows_eq, h1', offset_succ, if_pos (by simp [HashCfg.offset] at *; omega)]
      simp
    · intro i hi
      have hi0 : i = 0 := by simpa using hi
      subst hi0; simp [HashCfg.offset]

/-- **C53** (in range).  For every configuration with at least one sub-table and a positive divisor,
every accepted input reads exactly one row per sub-table, and the row read for sub-table `i` lies
inside the range of rows belonging to sub-table `i`. -/
theorem C53_in_range (c : HashCfg) (hs : 0 < c.subFeatures) (hd : 0 < c.subDivisor) (x : List Int)
    (hx : c.Valid x) :
    ∃ rs, c.forwardLong x = some rs ∧ rs.length = c.subFeatures
      ∧ ∀ i (hi : i < rs.length), c.offset i ≤ rs[i] ∧ rs[i] < c.offset (i + 1)
          ∧ rs[i] < c.rows := by
  obtain ⟨n, hn, hidx⟩ := index_valid c x hx
  obtain ⟨rs, g1, g2, g3⟩ := forward_rows c hs hd x n hn hidx
  refine ⟨rs, ?_, g2, ?_⟩
  · unfold HashCfg.forwardLong; rw [invalid_false c x hx.2]; exact g1
  · intro i hi
    have h1 : n / c.subDivisor ^ i < c.subSize i := ceilDiv_gt _ _ _ (by positivity) hn
    have h2 := offset_succ c i
    have h3 := offset_mono c (i + 1) c.subFeatures (by omega)
    rw [g3 i hi, rows_eq]
    generalize n / c.subDivisor ^ i = k at *
    omega

/-- **C53** (collision-free).  When the table is large enough for perfect hashing, two accepted
inputs that read the same rows are the same input; in fact the first row alone identifies the
input. -/
theorem C53_perfect_injective (c : HashCfg) (hs : 0 < c.subFeatures) (hd : 0 < c.subDivisor)
    (hbig : 2 ^ c.hashLogsize ≥ c.inputLevel ^ c.inputSize) (x y : List Int)
    (hx : c.Valid x) (hy : c.Valid y) (rs rs' : List Nat)
    (h1 : c.forwardLong x = some rs) (h2 : c.forwardLong y = some rs')
    (hhead : rs.head? = rs'.head?) : x = y := by
  have hp : c.perfect = true := by simp [HashCfg.perfect, hbig]
  obtain ⟨n, hn, hidx⟩ := index_valid c x hx
  obtain ⟨m, hm, hidy⟩ := index_valid c y hy
  obtain ⟨r1, g1, g2, g3⟩ := forward_rows c hs hd x n hn hidx
  obtain ⟨r2, k1, k2, k3⟩ := forward_rows c hs hd y m hm hidy
  unfold HashCfg.forwardLong at h1 h2
  rw [invalid_false c x hx.2, g1] at h1
  rw [invalid_false c y hy.2, k1] at h2
  cases h1; cases h2
  have e1 : rs.head? = some n := by
    have : 0 < rs.length := by omega
    rw [List.head?_eq_getElem?, List.getElem?_eq_getElem this, g3 0 this]; simp [HashCfg.offset]
  have e2 : rs'.head? = some m := by
    have : 0 < rs'.length := by omega
    rw [List.head?_eq_getElem?, List.getElem?_eq_getElem this, k3 0 this]; simp [HashCfg.offset]
  rw [e1, e2] at hhead
  have hnm : n = m := Option.some.inj hhead
  rw [← hnm, ← hidx] at hidy
  unfold HashCfg.index at hidy
  simp only [hp, if_true, Option.some.injEq, Bool.false_eq_true, if_false] at hidy
  rcases Nat.eq_zero_or_pos c.inputLevel with h0 | hl
  · rcases x with _ | ⟨v, vs⟩
    · rcases y with _ | ⟨w, ws⟩
      · rfl
      · have := hy.2 w (by simp); omega
    · have := hx.2 v (by simp); omega
  · exact (strideSum_inj c.inputLevel hl y x 0 (by rw [hx.1, hy.1]) hy.2 hx.2 hidy).symm

theorem forward_invalid (c : HashCfg) (hs : 0 < c.subFeatures) (x : List Int) (hx : x ≠ []) :
    c.forwardWith true x = none := by
  unfold HashCfg.forwardWith HashCfg.index
  by_cases hp : c.perfect
  · simp only [hp, if_true, Option.bind_some]
    split
    · obtain ⟨n, hn⟩ : ∃ n, c.subFeatures = n + 1 := ⟨c.subFeatures - 1, by omega⟩
      rw [hn]
      simp only [HashCfg.subLookups]
      have : c.lookup ((c.offset (n + 1) : Int) + c.offset 0) = none := by
        unfold HashCfg.lookup; rw [rows_eq, hn, if_neg]; simp [HashCfg.offset]
      rw [this]; rfl
    · have : c.lookup (c.offset c.subFeatures : Int) = none := by
        unfold HashCfg.lookup; rw [rows_eq, if_neg]; simp
      rw [this]; rfl
  · simp only [hp, if_true, hashSum_invalid c x 0 hx]; rfl

/-- **C53** (out-of-range inputs never alias).  An input with any level below 0 or at or above
`input_level` never produces an embedding row: the call raises, in perfect and in hashed mode. -/
theorem C53_invalid_raises (c : HashCfg) (hs : 0 < c.subFeatures) (x : List Int)
    (hbad : ∃ v ∈ x, v < 0 ∨ (c.inputLevel : Int) ≤ v) : c.forwardLong x = none := by
  obtain ⟨v, hv, hb⟩ := hbad
  have : c.invalidLong x = true := by
    unfold HashCfg.invalidLong
    rw [List.any_eq_true]
    exact ⟨v, hv, by simp; omega⟩
  unfold HashCfg.forwardLong
  rw [this]
  exact forward_invalid c hs x (List.ne_nil_of_mem hv)

/-- **C53** (float inputs).  Float inputs in `[0, 1]` are accepted and read the rows of the nearest
levels (error at most half a level); NaN or an entry outside `[0, 1]` makes the call raise. -/
theorem C53_float (c : HashCfg) (hs : 0 < c.subFeatures) (hl : 0 < c.inputLevel)
    (x : List (Option ℚ)) (hlen : x.length = c.inputSize) :
    ((∀ v ∈ x, ∃ q, v = some q ∧ 0 ≤ q ∧ q ≤ 1) →
      ∃ levels, c.Valid levels ∧ c.forwardFloat x = c.forwardLong levels
        ∧ ∀ i (h1 : i < x.length) (h2 : i < levels.length), ∃ q, x[i] = some q
            ∧ |(levels[i] : ℚ) - (c.inputLevel - 1) * q| ≤ 1 / 2)
    ∧ ((∃ v ∈ x, v = none ∨ ∃ q, v = some q ∧ (q < 0 ∨ 1 < q)) → c.forwardFloat x = none) := by
  constructor
  · intro hv
    refine ⟨x.map (floatLevel c.inputLevel), ⟨by simpa using hlen, ?_⟩, ?_, ?_⟩
    · intro w hw
      obtain ⟨v, hvx, rfl⟩ := List.mem_map.1 hw
      obtain ⟨q, rfl, h0, h1⟩ := hv v hvx
      have hl1 : (1 : ℚ) ≤ c.inputLevel := by exact_mod_cast hl
      have := roundEven_mono_bounds (((c.inputLevel : ℚ) - 1) * q) 0 (c.inputLevel - 1)
        (by push_cast; apply mul_nonneg <;> linarith)
        (by push_cast; nlinarith)
      show 0 ≤ roundEven _ ∧ roundEven _ < _
      omega
    · unfold HashCfg.forwardFloat HashCfg.forwardLong
      congr 1
      have e1 : x.any floatInvalid = false := by
        rw [List.any_eq_false]
        intro v hvx
        obtain ⟨q, rfl, h0, h1⟩ := hv v hvx
        simp [floatInvalid, h0, h1]
      rw [e1]
      symm
      apply invalid_false
      intro w hw
      obtain ⟨v, hvx, rfl⟩ := List.mem_map.1 hw
      obtain ⟨q, rfl, h0, h1⟩ := hv v hvx
      have hl1 : (1 : ℚ) ≤ c.inputLevel := by exact_mod_cast hl
      have := roundEven_mono_bounds (((c.inputLevel : ℚ) - 1) * q) 0 (c.inputLevel - 1)
        (by push_cast; apply mul_nonneg <;> linarith)
        (by push_cast; nlinarith)
      show 0 ≤ roundEven _ ∧ roundEven _ < _
      omega
    · intro i h1 h2
      obtain ⟨q, hq, -, -⟩ := hv x[i] (List.getElem_mem h1)
      refine ⟨q, hq, ?_⟩
      simp only [List.getElem_map, hq, floatLevel]
      generalize ((c.inputLevel : ℚ) - 1) * q = t
      have a1 := Int.floor_le t
      have a2 := Int.lt_floor_add_one t
      unfold roundEven
      simp only
      rw [abs_le]
      split_ifs with c1 c2 c3 <;> push_cast <;> constructor <;> linarith
  · rintro ⟨v, hvx, hbad⟩
    unfold HashCfg.forwardFloat
    have e1 : x.any floatInvalid = true := by
      rw [List.any_eq_true]
      refine ⟨v, hvx, ?_⟩
      rcases hbad with rfl | ⟨q, rfl, h | h⟩
      · rfl
      · simp [floatInvalid, h]
      · simp [floatInvalid, h]
    rw [e1]
    apply forward_invalid c hs
    intro h
    have : x = [] := by simpa using h
    rw [this] at hvx
    simp at hvx

/-- Non-vacuity: a perfect configuration with three sub-tables. -/
example : let c : HashCfg := ⟨2, 3, 4, 3, 2, fun _ _ => 0⟩
    c.perfect = true ∧ c.rows = 17 ∧ c.forwardLong [2, 1] = some [5, 11, 15]
      ∧ c.forwardLong [3, 0] = none ∧ c.forwardLong [-1, 2] = none := by decide +kernel

/-- Non-vacuity: a hashed configuration. -/
example : let c : HashCfg := ⟨3, 4, 3, 2, 2, fun i v => -7 * i + 5 * v - 100⟩
    c.perfect = false ∧ c.rows = 12 ∧ c.forwardLong [3, 0, 2] = some [0, 8]
      ∧ c.forwardLong [3, 0, 4] = none := by decide +kernel

end Verif.Export
