import Verif.Rng.FastPaths
import Mathlib.Algebra.Order.Ring.Rat
import Mathlib.Tactic.NormNum

/-!
# Properties C01-C05: the dataset RNG

Specification vocabulary: a *word stream* `Nat → Option Nat` gives the 64-bit word at each counter.
-/
namespace Verif.Rng

/-! ## C01 -/

/-- **C01 (range, determinism).** Every successful draw is below the bound, the counter strictly advances and
stays in range, and the value is the residue of the first accepted word at or after the start counter (all
earlier words were rejected).  The result is a function of the arguments (`uniformBelow` is a function). -/
theorem C01_uniform_below_in_range (H : Digest) (n : Nat) (seed : Int) (domain : String) (key : Val)
    (c v c' : Nat) (h : uniformBelow H n seed domain key c = some (v, c')) :
    v < n ∧ c < c' ∧ c' ≤ 2 ^ 63 ∧
    (∃ w, rngU64 H seed domain key (c' - 1) = some w ∧ w < limit n ∧ v = w % n) ∧
    (∀ d, c ≤ d → d < c' - 1 → ∃ w, rngU64 H seed domain key d = some w ∧ limit n ≤ w) := by
  unfold uniformBelow boundedDraw at h
  split at h
  · simp at h
  · rename_i hn
    obtain ⟨h1, h2, h3, h4⟩ := rejectLoop_spec _ _ _ _ _ _ h
    obtain ⟨w, hw, hlt, rfl⟩ := h3
    exact ⟨Nat.mod_lt _ (by omega), h1, by omega, ⟨w, hw, hlt, rfl⟩, h4⟩

/-- **C01 (no modulo bias).** Among all 64-bit words, the accepted words of every residue class `v < n` are
equally many: `2^64 / n`; and fewer than `n` words are rejected altogether. -/
theorem C01_unbiased (n : Nat) (hn : 0 < n) :
    (∀ v, v < n → ((Finset.range (2 ^ 64)).filter (fun w => w < limit n ∧ w % n = v)).card = 2 ^ 64 / n) ∧
    ((Finset.range (2 ^ 64)).filter (fun w => ¬ w < limit n)).card < n := by
  exact ⟨fun v hv => card_accepted (2 ^ 64) n v hv, card_rejected (2 ^ 64) n hn⟩

/-- The draw succeeds as soon as one accepted word exists at an admissible counter (so the hypothesis of
`C01_uniform_below_in_range` is reachable for every valid bound, seed, key and counter). -/
theorem C01_progress (H : Digest) (n : Nat) (hn : 0 < n) (hn' : n ≤ 2 ^ 64) (seed : Int) (domain : String)
    (key : Val) (c d : Nat) (hcd : c ≤ d) (hd : d < 2 ^ 63)
    (hkey : (counterRngBase seed domain key).isSome)
    (hw : ∀ w, rngU64 H seed domain key d = some w → w < limit n) :
    (uniformBelow H n seed domain key c).isSome := by
  obtain ⟨b, hb⟩ := Option.isSome_iff_exists.mp hkey
  have hword : ∀ e, e < 2 ^ 63 → (rngU64 H seed domain key e).isSome := by
    intro e he; rw [rngU64_eq_base he, hb]; rfl
  unfold uniformBelow boundedDraw
  rw [if_neg (by omega)]
  apply rejectLoop_isSome
  obtain ⟨w, hw'⟩ := Option.isSome_iff_exists.mp (hword d hd)
  exact ⟨d, hcd, by omega, ⟨w, hw', hw w hw'⟩, fun e _ h => hword e (by omega)⟩

/-- Non-vacuity: a concrete digest and a bound (`2^63+1`) whose first word is rejected; the draw succeeds at
counter 2. -/
example : boundedDraw (fun c => some (if c = 0 then 2 ^ 64 - 1 else 12345)) (2 ^ 63 + 1) 0 = some (12345, 2) := by
  decide +kernel
example : uniformBelow (fun _ => 7) 5 (-3) "sample" (.seq [.int 1, .str "x"]) 0 = some (2, 1) := by
  decide +kernel

/-! ## C02 -/

/-- **C02.** Serialisation of RNG identities is injective, and no encoding is a proper prefix of another. -/
theorem C02_encoding_injective_prefix_free (v w : Val) (a b rest : List UInt8)
    (ha : tlv v = some a) (hb : tlv w = some b) (h : a ++ rest = b) : v = w ∧ rest = [] := by
  have := tlv_cancel v w a b rest [] ha hb (by simpa using h)
  exact this

/-- **C02.** Two draws hash the same bytes only if they have the same seed, domain, key and counter. -/
theorem C02_hash_input_injective (seed seed' : Int) (dom dom' : String) (key key' : Val) (c c' : Nat)
    (p : List UInt8) (h : payload seed dom key c = some p) (h' : payload seed' dom' key' c' = some p) :
    seed = seed' ∧ dom = dom' ∧ key = key' ∧ c = c' := by
  unfold payload at h h'
  split at h <;> split at h' <;> simp only [Option.map_eq_some_iff, reduceCtorEq] at h h'
  obtain ⟨a, ha, rfl⟩ := h
  obtain ⟨b, hb, hab⟩ := h'
  have hab' : b = a := List.append_cancel_left hab
  subst hab'
  have := (tlv_cancel _ _ b b [] [] ha hb rfl).1
  simp only [identity, Val.seq.injEq, List.cons.injEq, Val.str.injEq, Val.int.injEq, Int.natCast_inj,
    and_true] at this
  exact ⟨this.2.1, this.1, this.2.2.1, this.2.2.2⟩

/-- Non-vacuity: a nested key has a payload; `(1, (2,))` and `((1, 2),)` are different values. -/
example : (payload 5 "d" (.seq [.int 1, .seq [.int 2]]) 3).isSome := by decide +kernel
example : tlv (.bool true) ≠ tlv (.int 1) := by decide +kernel

/-! ## C03 -/

/-- **C03 (pre-seeded base).** Drawing from the pre-seeded hash state equals the scalar API. -/
theorem C03_base_path (H : Digest) (n : Nat) (seed : Int) (domain : String) (key : Val) (c : Nat) :
    (counterRngBase seed domain key).bind (fun b => uniformBelowFromBase H n b c)
      = uniformBelow H n seed domain key c :=
  (uniformBelow_eq_fromBase H n seed domain key c).symm

/-- **C03 (prefix-sharing batch).** For a valid bound, seed, epoch and domain, the batched routine is
element-wise an independent scalar draw with key `(epoch, sample_key, occurrence)` at counter 0 (keys whose
address does not have one or two components are refused). -/
theorem C03_batched_keys (H : Digest) (n : Nat) (hn : 0 < n) (hn' : n ≤ 2 ^ 64) (seed : Int) (domain : String)
    (epoch occ : Int) (hseed : -(2 ^ 63) ≤ seed ∧ seed < 2 ^ 63) (hep : -(2 ^ 63) ≤ epoch ∧ epoch < 2 ^ 63)
    (hdom : (utf8 domain).length < 2 ^ 32) (keys : List SampleKey) :
    uniformBelowForKeys H n seed domain epoch keys occ
      = keys.mapM fun k =>
          if k.address.length = 1 ∨ k.address.length = 2 then
            (uniformBelow H n seed domain (.seq [.int epoch, k.val, .int occ]) 0).map Prod.fst
          else none := by
  obtain ⟨pre, hpre⟩ := processedPrefix_isSome seed domain epoch hseed hep hdom
  unfold uniformBelowForKeys
  rw [if_neg (by omega)]
  simp only [hpre, Option.bind_eq_bind, Option.bind_some]
  exact processedLoop_eq H n seed domain epoch occ pre hpre keys none (by simp)

/-- The mix of one row on its own: what the v2 stream must return for a key, independent of the batch. -/
def v2Single (H : Digest) (n : Nat) (seed : Int) (domain : String) (epoch occ : Int) (k : SampleKey) :
    Option Nat := do
  let (c, r) ← cycleRow k.address
  let base ← groupBase H seed domain epoch k.baseKey occ
  let r' ← asU64 r
  let c' ← asU64 c
  some (mix (base + r' * rowGamma + c' * cycleGamma) &&& UInt64.ofNat (n - 1)).toNat

theorem mapM_map_toNat (f : SampleKey → Option UInt64) (keys : List SampleKey) :
    (keys.mapM f).map (List.map UInt64.toNat) = keys.mapM fun k => (f k).map UInt64.toNat := by
  induction keys with
  | nil => simp
  | cons k ks ih =>
    simp only [List.mapM_cons, Option.bind_eq_bind, Option.pure_def, ← ih]
    cases f k <;> cases ks.mapM f <;> simp

/-- **C03 (vectorised v2).** For a power of two bound, grouping keys by file and scattering gives each key the
value it would get alone. -/
theorem C03_v2_batched (H : Digest) (n : Nat) (hn : 0 < n) (hn' : n ≤ 2 ^ 64) (hp : n &&& (n - 1) = 0)
    (seed : Int) (domain : String) (epoch occ : Int) (keys : List SampleKey) :
    uniformBelowForKeysV2 H n seed domain epoch keys occ
      = keys.mapM (v2Single H n seed domain epoch occ) := by
  unfold uniformBelowForKeysV2
  rw [if_neg (by omega), if_neg (by simp [hp])]
  by_cases hk : keys = []
  · subst hk; simp
  · rw [if_neg hk]
    have h := scatter_eq_mapM H seed domain epoch occ (UInt64.ofNat (n - 1)) keys
    have h2 : (do
        let gs ← groupKeys 0 keys []
        let out ← scatterGroups H seed domain epoch occ (UInt64.ofNat (n - 1)) gs (List.replicate keys.length 0)
        some (out.map UInt64.toNat))
        = ((groupKeys 0 keys []).bind fun gs => scatterGroups H seed domain epoch occ (UInt64.ofNat (n - 1)) gs
            (List.replicate keys.length 0)).map (List.map UInt64.toNat) := by
      cases groupKeys 0 keys [] with
      | none => rfl
      | some gs => simp only [Option.bind_eq_bind, Option.bind_some]; exact Option.map_eq_bind.symm
    rw [h2, h, mapM_map_toNat]
    congr 1
    funext k
    simp only [keyValue, v2Single, entryValue, groupValue, Option.bind_eq_bind]
    cases cycleRow k.address with
    | none => rfl
    | some cr =>
      simp only [Option.bind_some]
      cases groupBase H seed domain epoch k.baseKey occ with
      | none => rfl
      | some b =>
        simp only [Option.bind_some]
        cases asU64 cr.2 <;> cases asU64 cr.1 <;> rfl

/-- **C03 (packed rows).** The structured packed-row routine equals the keyed routine on the keys
`("root", digest, "npz-row", (row,))`, provided every file index is valid. -/
theorem C03_v2_packed_rows (H : Digest) (n : Nat) (hn : 0 < n) (hn' : n ≤ 2 ^ 64) (hp : n &&& (n - 1) = 0)
    (seed : Int) (domain : String) (epoch occ : Int) (digests : List (List UInt8))
    (rows : List (Nat × UInt64)) (hidx : ∀ r ∈ rows, r.1 < digests.length) :
    uniformBelowForPackedRowsV2 H n seed domain epoch digests rows occ
      = uniformBelowForKeysV2 H n seed domain epoch
          (rows.map fun r => ⟨"root", digests.getD r.1 [], "npz-row", [(r.2.toNat : Int)]⟩) occ := by
  rw [C03_v2_batched H n hn hn' hp]
  unfold uniformBelowForPackedRowsV2
  rw [if_neg (by simp [hp]; omega)]
  induction rows with
  | nil => simp
  | cons r rs ih =>
    have hr := hidx r (by simp)
    have ih' := ih (fun r hr => hidx r (List.mem_cons_of_mem _ hr))
    simp only [List.mapM_cons, List.map_cons, ih']
    congr 1
    · have h1 : digests[r.1]? = some (digests.getD r.1 []) := by
        rw [List.getD_eq_getElem?_getD, List.getElem?_eq_getElem hr]; rfl
      have h2 : asU64 (r.2.toNat : Int) = some r.2 := by
        unfold asU64
        have := r.2.toNat_lt
        rw [if_pos ⟨by omega, by exact_mod_cast this⟩, Int.toNat_natCast, UInt64.ofNat_toNat]
      have h3 : asU64 (0 : Int) = some 0 := by decide
      simp only [h1, v2Single, cycleRow, h2, h3, SampleKey.baseKey, Option.bind_eq_bind, Option.bind_some,
        List.length_singleton]
      cases groupBase H seed domain epoch ("root", digests.getD r.1 [], "npz-row", 1) occ with
      | none => simp only [Option.bind_none]
      | some b =>
        have h4 : ∀ x : UInt64, x + 0 * cycleGamma = x := by intro x; rw [UInt64.zero_mul, UInt64.add_zero]
        simp only [Option.bind_some, h4]

/-- **C03 (v2 range).** -/
theorem C03_v2_in_range (H : Digest) (n : Nat) (hn : 0 < n) (hn' : n ≤ 2 ^ 64)
    (seed : Int) (domain : String) (epoch occ : Int) (k : SampleKey) (v : Nat)
    (h : v2Single H n seed domain epoch occ k = some v) : v < n := by
  simp only [v2Single, Option.bind_eq_bind, Option.bind_eq_some_iff, Option.some.injEq] at h
  obtain ⟨_, _, _, _, _, _, _, _, rfl⟩ := h
  have h1 : (UInt64.ofNat (n - 1)).toNat = n - 1 := by
    rw [UInt64.toNat_ofNat']; exact Nat.mod_eq_of_lt (by omega)
  rw [UInt64.toNat_and, h1]
  have := @Nat.and_le_right (mix (‹UInt64› + ‹UInt64› * rowGamma + ‹UInt64› * cycleGamma)).toNat (n - 1)
  refine lt_of_le_of_lt Nat.and_le_right ?_
  omega

/-- Non-vacuity: two files, three interleaved rows. -/
example : (uniformBelowForKeysV2 (fun p => UInt64.ofNat p.length) 8 1 "symmetry" 0
    [⟨"root", [1], "npz-row", [5]⟩, ⟨"root", [2, 2], "npz-row", [7]⟩, ⟨"root", [1], "npz-row", [9]⟩] 0).isSome := by
  decide +kernel
example : (uniformBelowForKeys (fun p => UInt64.ofNat p.length) 5 1 "symmetry" 0
    [⟨"root", [1], "npz-row", [5]⟩, ⟨"root", [2, 2], "npz-row", [3, 7]⟩] 0).isSome := by
  decide +kernel

/-! ## C04 -/

/-- **C04.** Whenever `deterministic_permutation` returns, it returns a permutation of `0..length-1`. -/
theorem C04_permutation (H : Digest) (length : Nat) (seed : Int) (domain : String) (key : Val) (p : List Nat)
    (h : deterministicPermutation H length seed domain key = some p) : p.Perm (List.range length) := by
  simp only [deterministicPermutation, Option.bind_eq_bind, Option.bind_eq_some_iff] at h
  obtain ⟨b, _, h⟩ := h
  exact fisherYates_perm _ _ _ _ _ h

/-- **C04 (every permutation equally likely).** Different sequences of in-range draws give different
permutations; as there are exactly `length!` such sequences, the shuffle maps draw sequences one-to-one onto
permutations. `j i` is the draw at loop index `i` (`0 ≤ j i ≤ i`). -/
theorem C04_distinct_draws_distinct_results (m : Nat) (l : List Nat) (hl : l.Nodup) (hlen : m < l.length)
    (j j' : Nat → Nat) (hj : ∀ i, j i ≤ i) (hj' : ∀ i, j' i ≤ i)
    (h : fisherYates (fun n c => some (j (n - 1), c + 1)) m 0 l
       = fisherYates (fun n c => some (j' (n - 1), c + 1)) m 0 l) :
    ∀ i, 1 ≤ i → i ≤ m → j i = j' i := by
  have gen : ∀ m c c' l, l.Nodup → m < l.length →
      fisherYates (fun n c => some (j (n - 1), c + 1)) m c l
        = fisherYates (fun n c => some (j' (n - 1), c + 1)) m c' l → ∀ i, 1 ≤ i → i ≤ m → j i = j' i := by
    intro m
    induction m with
    | zero => intro _ _ _ _ _ _ i _ _; omega
    | succ m ih =>
      intro c c' l hl hlen h
      simp only [fisherYates, Option.bind_eq_bind, Option.bind_some] at h
      have e1 : m + 2 - 1 = m + 1 := by omega
      rw [e1] at h
      have ex : ∀ (j : Nat → Nat) i c l, ∃ p, fisherYates (fun n c => some (j (n - 1), c + 1)) i c l = some p := by
        intro j i
        induction i with
        | zero => intro c l; exact ⟨l, rfl⟩
        | succ i ih => intro c l; simpa [fisherYates] using ih _ _
      obtain ⟨p, hp⟩ := ex j m (c + 1) (swap l (m + 1) (j (m + 1)))
      have hp' := h ▸ hp
      have hr : ∀ (j : Nat → Nat), (∀ i, j i ≤ i) → ∀ n c x c', (some (j (n - 1), c + 1) : Option (Nat × Nat)) = some (x, c') →
          n = 0 ∨ x < n := by
        intro j hj n c x c' h
        simp only [Option.some.injEq, Prod.mk.injEq] at h
        have := hj (n - 1); omega
      -- position m+1 of the result
      have tail : ∀ (j : Nat → Nat), (∀ i, j i ≤ i) → ∀ c q, fisherYates (fun n c => some (j (n - 1), c + 1)) m c
          (swap l (m + 1) (j (m + 1))) = some q → q[m + 1]? = l[j (m + 1)]? := by
        intro j hj c q hq
        have : q[m + 1]? = (swap l (m + 1) (j (m + 1)))[m + 1]? := by
          have aux : ∀ i c l q, i ≤ m → fisherYates (fun n c => some (j (n - 1), c + 1)) i c l = some q →
              q[m + 1]? = l[m + 1]? := by
            intro i
            induction i with
            | zero => intro c l q _ h; simp [fisherYates] at h; simp [h]
            | succ i ih =>
              intro c l q hi h
              simp only [fisherYates, Option.bind_eq_bind, Option.bind_some] at h
              rw [ih _ _ _ (by omega) h]
              have e : i + 2 - 1 = i + 1 := by omega
              rw [e]
              have := hj (i + 1)
              unfold swap
              split
              · rw [List.getElem?_set_ne (by omega), List.getElem?_set_ne (by omega)]
              · rfl
          exact aux m c _ q (Nat.le_refl _) hq
        rw [this]
        have h1 := hj (m + 1)
        unfold swap
        have e1 : l[m + 1]? = some l[m + 1] := List.getElem?_eq_getElem hlen
        have e2 : l[j (m + 1)]? = some (l[j (m + 1)]'(by omega)) := List.getElem?_eq_getElem (by omega)
        rw [e1, e2]
        simp only
        by_cases hq : j (m + 1) = m + 1
        · have : l[j (m + 1)]'(by omega) = l[m + 1] := by congr 1
          rw [this]
          have e3 : ((l.set (m + 1) l[m + 1]).set (m + 1) l[m + 1])[m + 1]? = some l[m + 1] :=
            List.getElem?_set_self (by simpa using hlen)
          simp [hq]
        · rw [List.getElem?_set_ne (by omega), List.getElem?_set_self (by simpa using hlen)]
      have t1 := tail j hj _ _ hp
      have t2 := tail j' hj' _ _ hp'
      have heq : l[j (m + 1)]? = l[j' (m + 1)]? := by rw [← t1, ← t2]
      have hjj : j (m + 1) = j' (m + 1) := by
        have := hj (m + 1); have := hj' (m + 1)
        rw [List.getElem?_eq_getElem (by omega), List.getElem?_eq_getElem (by omega)] at heq
        exact (List.Nodup.getElem_inj_iff hl).mp (by simpa using heq)
      intro i h1 h2
      rcases Nat.eq_or_lt_of_le h2 with rfl | hlt
      · exact hjj
      · rw [hjj] at h
        exact ih _ _ _ ((swap_perm _ _ _).nodup_iff.mpr hl) (by simp; omega) h i h1 (by omega)
  exact gen m 0 0 l hl hlen h

/-- Non-vacuity: a concrete digest function whose draws are not all trivial. -/
example : deterministicPermutation (fun p => UInt64.ofNat (p.foldl (fun a b => a * 31 + b.toNat) 7)) 5 1 "x" .none
    ≠ some (List.range 5) ∧
    (deterministicPermutation (fun p => UInt64.ofNat (p.foldl (fun a b => a * 31 + b.toNat) 7)) 5 1 "x" .none).isSome := by
  decide +kernel

/-! ## C05 -/

section C05
variable {Q : Type} [LinearOrder Q]

/-- **C05 (determinism, ends).** Within the legal range: rate `≤ 0` admits nothing, rate `≥ 1` everything, and
otherwise the decision depends only on the seed, epoch and the sample's own key, through one random word. -/
theorem C05_ends (zero one : Q) (h01 : zero < one) (quot : Nat → Q) (H : Digest) (seed epoch : Int) (k : Val) :
    sampleIsAdmitted zero one quot H zero seed epoch k = some false ∧
    sampleIsAdmitted zero one quot H one seed epoch k = some true ∧
    (∀ rate, rate < zero ∨ one < rate → sampleIsAdmitted zero one quot H rate seed epoch k = none) := by
  refine ⟨?_, ?_, ?_⟩
  · simp [sampleIsAdmitted, le_of_lt h01]
  · simp [sampleIsAdmitted, le_of_lt h01, h01]
  · intro rate h
    unfold sampleIsAdmitted
    rw [if_pos]
    rintro ⟨h1, h2⟩
    rcases h with h | h
    · exact absurd h1 (not_le.mpr h)
    · exact absurd h2 (not_le.mpr h)

/-- **C05 (monotone).** A sample admitted at one rate is admitted at every larger legal rate, for every
rounding of the quotient. -/
theorem C05_monotone (zero one : Q) (quot : Nat → Q) (H : Digest) (seed epoch : Int) (k : Val) (r r' : Q)
    (hrr : r ≤ r') (hr' : r' ≤ one) (hk : (rngU64 H seed "sample" (.seq [.int epoch, k]) 0).isSome)
    (h : sampleIsAdmitted zero one quot H r seed epoch k = some true) :
    sampleIsAdmitted zero one quot H r' seed epoch k = some true := by
  obtain ⟨u, hu⟩ := Option.isSome_iff_exists.mp hk
  unfold sampleIsAdmitted at h ⊢
  rw [hu] at h ⊢
  split at h
  · simp at h
  rename_i hr
  rw [not_not] at hr
  rw [if_neg (by rw [not_not]; exact ⟨hr.1.trans hrr, hr'⟩)]
  split at h
  · simp at h
  rename_i h0
  rw [if_neg (fun hc => h0 (hrr.trans hc))]
  split
  · rfl
  rename_i h1
  split at h
  · rename_i h1'; exact absurd (h1'.trans hrr) h1
  · simp only [Option.map_some, Option.some.injEq, decide_eq_true_eq] at h ⊢
    exact lt_of_lt_of_le h hrr

/-- **C05 (determined by the word).** Strictly between the ends, the sample is admitted exactly when its own
word's quotient is below the rate. -/
theorem C05_iff (zero one : Q) (quot : Nat → Q) (H : Digest) (seed epoch : Int) (k : Val) (r : Q)
    (h0 : zero < r) (h1 : r < one) (u : Nat) (hu : rngU64 H seed "sample" (.seq [.int epoch, k]) 0 = some u) :
    sampleIsAdmitted zero one quot H r seed epoch k = some (decide (quot u < r)) := by
  unfold sampleIsAdmitted
  rw [if_neg (by rw [not_not]; exact ⟨h0.le, h1.le⟩), if_neg (not_le.mpr h0), if_neg (not_le.mpr h1), hu]
  rfl
end C05

example : sampleIsAdmitted (0 : Rat) 1 (fun u => (u : Rat) / 2 ^ 64) (fun _ => UInt64.ofNat (2 ^ 62)) (1 / 2) 3 0 (.int 4)
    = some true := by
  rw [C05_iff 0 1 _ _ 3 0 (.int 4) (1 / 2) (by norm_num) (by norm_num) (2 ^ 62) (by decide +kernel)]
  norm_num

end Verif.Rng
