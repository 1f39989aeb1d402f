import Verif.Vq.Props78
import Mathlib.Tactic.ByContra
import Mathlib.Data.List.Nodup

namespace Verif.Vq

variable {G : Type}

theorem traverse_one {α β : Type} (f : α → Except String β) (x : α) (y : β) (h : f x = .ok y) :
    traverse f [x] = .ok [y] := by simp [traverse, h]

theorem sampleLocal_ok (c : Cfg G) (hc : c.Valid) (world : Nat) (rng : G) (xs : List Vec) (hx : xs ≠ []) (num : Nat) :
    ∃ v rng', sampleLocal c.gen world rng xs num = .ok (v, rng') ∧ v.length = (num + world - 1) / world ∧
      ∀ q ∈ v, q ∈ xs := by
  unfold sampleLocal
  have h0 : xs.length ≠ 0 := by simpa using hx
  dsimp only
  rw [if_neg h0]
  refine ⟨_, _, rfl, ?_, ?_⟩
  · by_cases hp : (num + world - 1) / world ≤ xs.length
    · rw [if_pos hp]
      dsimp only
      rw [List.length_map, List.length_take, (hc.randperm_perm rng xs.length).length_eq, List.length_range]
      omega
    · rw [if_neg hp]
      rw [List.length_map, hc.randint_length _ _ _ (by omega)]
  · intro q hq
    obtain ⟨i, hi, rfl⟩ := List.mem_map.1 hq
    have hlt : i < xs.length := by
      by_cases hp : (num + world - 1) / world ≤ xs.length
      · rw [if_pos hp] at hi
        have := (hc.randperm_perm rng xs.length).mem_iff.1 (List.mem_of_mem_take hi)
        simpa using this
      · rw [if_neg hp] at hi
        exact hc.randint_range _ _ _ (by omega) _ hi
    rw [List.getD_eq_getElem _ _ hlt]
    exact List.getElem_mem _

theorem dead_length (t : ℚ) (sizes : List ℚ) : (dead t sizes).length = sizes.length := by simp [dead]

theorem replace_inv (c : Cfg G) (hc : c.Valid) (b : Book) (h : GoodSizes c.size b.sizes) (mask : List Bool)
    (hm : mask.any id = true) (hl : mask.length = b.sizes.length) (v : List Vec) : Inv c (replaceCodes c b mask v) := by
  obtain ⟨h1, h2, h3⟩ := h
  have hpos : ∀ s ∈ (replaceCodes c b mask v).sizes, 0 ≤ s := by
    intro s hs
    rcases maskedSet_mem _ _ _ _ hs with h | h
    · exact h2 s h
    · rw [List.mem_replicate] at h
      rw [h.2]
      exact le_of_lt hc.reset0
  refine ⟨⟨?_, hpos, ?_⟩, ?_⟩
  · show (maskedSet _ _ _).length = _
    rw [maskedSet_length, h1]
  · have hin : c.reset ∈ (replaceCodes c b mask v).sizes := maskedSet_hit mask b.sizes c.reset _ hm hl rfl
    exact lt_of_lt_of_le hc.reset0 (List.single_le_sum hpos _ hin)
  · intro p hp
    cases hp

/-- the expiry phase on a single rank is the exact check -/
theorem expire_ok (c : Cfg G) (hc : c.Valid) (r : Rank G) (h : Inv c r.book) (xs : List Vec) (hx : xs ≠ []) :
    ∃ r' out, expirePhase c [(r, xs)] = .ok [(r', out)] ∧ plainExpire c r.plain xs = .ok (r'.plain, out) ∧
      Inv c r'.book := by
  obtain ⟨b', hd, hb1, hb2, hb3, hi⟩ := decision_ok c hc r.book h
  unfold expirePhase
  rw [traverse_one (fun q : Rank G × List Vec => expireDecision c [(r, xs)].length q.1.book) (r, xs) _ hd]
  unfold plainExpire
  dsimp only [Rank.plain]
  by_cases hany : (dead c.threshold r.book.sizes).any id = true
  · rw [if_pos hany]
    simp only [if_pos hany, List.all_cons, List.all_nil, List.any_cons, List.any_nil, Option.isNone_some,
      Bool.false_and, Bool.or_false, Bool.false_eq_true, if_false, Option.getD_some]
    obtain ⟨v, rng', hv, hvl, -⟩ := sampleLocal_ok c hc 1 r.rng xs hx (maskCount (dead c.threshold r.book.sizes))
    have hv' : sampleLocal c.gen [(r, xs)].length r.rng xs (maskCount (dead c.threshold r.book.sizes)) = .ok (v, rng') := hv
    have hcnt : (dead c.threshold r.book.sizes).count true = maskCount (dead c.threshold r.book.sizes) := rfl
    simp only [List.zip_cons_cons, List.zip_nil_right]
    rw [traverse_one _ _ (v, rng') (by simpa using hv')]
    simp only [hcnt, hv, List.zip_cons_cons, List.zip_nil_right]
    have hlen : v.length = maskCount (dead c.threshold r.book.sizes) := by rw [hvl]; simp
    have hg : sampleGather (maskCount (dead c.threshold r.book.sizes)) [v] = .ok v := by
      unfold sampleGather
      simp only [List.flatten_cons, List.flatten_nil, List.append_nil]
      rw [if_neg (by omega), ← hlen, List.take_length]
    refine ⟨⟨replaceCodes c b' (dead c.threshold r.book.sizes) v, rng'⟩,
      some (maskCount (dead c.threshold r.book.sizes)), ?_, ?_, ?_⟩
    · apply traverse_one
      simp only [List.map_cons, List.map_nil, Option.getD_some]
      rw [hg]
    · unfold replaceCodes
      dsimp only
      rw [hb1, hb2, hb3]
    · exact replace_inv c hc b' hi.good _ hany (by rw [dead_length, hb1]) v
  · rw [if_neg hany]
    simp only [if_neg hany, List.all_cons, List.all_nil, Option.isNone_none, Bool.and_true, if_true,
      List.zipWith_cons_cons, List.zipWith_nil_right]
    refine ⟨⟨b', r.rng⟩, none, rfl, ?_, hi⟩
    dsimp only
    rw [hb1, hb2, hb3]

theorem history_ok (c : Cfg G) (hc : c.Valid) (events : List Event) : ∀ r : Rank G, Inv c r.book →
    (∀ e ∈ events, e.Valid c.size) →
    ∃ r' outs, history c r events = .ok (r', outs) ∧ plainHistory c r.plain events = .ok (r'.plain, outs) := by
  induction events with
  | nil => intro r _ _; exact ⟨r, [], rfl, rfl⟩
  | cons e events ih =>
    intro r hr hv
    have hv' : ∀ e ∈ events, e.Valid c.size := fun x hx => hv x (List.mem_cons_of_mem _ hx)
    have he := hv e (List.mem_cons_self ..)
    cases e with
    | load s m a =>
      exact ih ⟨loadBook s m a, r.rng⟩ ⟨he, fun p hp => by cases hp⟩ hv'
    | optimise m =>
      exact ih ⟨{ r.book with embed := m }, r.rng⟩ ⟨hr.good, hr.bound⟩ hv'
    | forward xs =>
      obtain ⟨r1, out, h1, h2, h3⟩ := expire_ok c hc r hr xs he
      obtain ⟨r2, h4, h5, h6⟩ := update_ok c hc r1 h3 xs he
      obtain ⟨r3, outs, h7, h8⟩ := ih r2 h6 hv'
      refine ⟨r3, out :: outs, ?_, ?_⟩
      · rw [history]
        unfold trainStep
        rw [h1]
        simp only [List.zipWith_cons_cons, List.zipWith_nil_left, h4, List.map_cons, List.map_nil, List.getD_cons_zero, h7]
        rfl
      · rw [plainHistory, h2]
        dsimp only
        rw [← h5, h8]

/-- On a single process every history of training forwards, state dict loads and optimizer steps goes exactly as if
each step looked at the true usage numbers: the same states, the same random draws, the same reported numbers of
expired codes, and no host check ever divides by zero. -/
theorem C78_cache_invisible (c : Cfg G) (hc : c.Valid) (sizes : List ℚ) (embed avg : List Vec) (rng : G)
    (hs : GoodSizes c.size sizes) (events : List Event) (hv : ∀ e ∈ events, e.Valid c.size) :
    ∃ r outs, history c ⟨loadBook sizes embed avg, rng⟩ events = .ok (r, outs) ∧
      plainHistory c ⟨sizes, embed, avg, rng⟩ events = .ok (⟨r.book.sizes, r.book.embed, r.book.avg, r.rng⟩, outs) :=
  history_ok c hc events ⟨loadBook sizes embed avg, rng⟩ ⟨hs, fun p hp => by cases hp⟩ hv

theorem maskedSet_get {α : Type} (m : List Bool) (xs vs : List α) (h : m.length = xs.length)
    (hv : vs.length = m.count true) (k : Nat) :
    (maskedSet m xs vs)[k]? = if m[k]? = some true then vs[(m.take k).count true]? else xs[k]? := by
  induction m generalizing xs vs k with
  | nil =>
    cases xs with
    | nil => simp [maskedSet]
    | cons _ _ => simp at h
  | cons b m ih =>
    cases xs with
    | nil => simp at h
    | cons x xs =>
      have h' : m.length = xs.length := by simpa using h
      cases b with
      | true =>
        cases vs with
        | nil => simp at hv
        | cons v vs =>
          rw [maskedSet]
          cases k with
          | zero => simp
          | succ k =>
            have := ih xs vs h' (by simpa using hv) k
            simpa using this
      | false =>
        have hv' : vs.length = m.count true := by simpa using hv
        have he : maskedSet (false :: m) (x :: xs) vs = x :: maskedSet m xs vs := by
          cases vs <;> rw [maskedSet]
        rw [he]
        cases k with
        | zero => simp
        | succ k =>
          have := ih xs vs h' hv' k
          simpa using this

/-- What the exact check does. It reports the number of dead codes (nothing if there are none); every dead code takes
an entry of the batch (from different positions if the batch is large enough), the reset size and the matching
average; every other code is untouched. -/
theorem C78_expiry (c : Cfg G) (hc : c.Valid) (s : Plain G) (xs : List Vec) (hx : xs ≠ [])
    (he : s.embed.length = s.sizes.length) (ha : s.avg.length = s.sizes.length) :
    ∃ s' out, plainExpire c s xs = .ok (s', out) ∧
      out.getD 0 = (s.sizes.filter (fun z => z * s.sizes.length < c.threshold * s.sizes.sum)).length ∧
      ∃ pos : List Nat, pos.length = out.getD 0 ∧ (∀ i ∈ pos, i < xs.length) ∧
        (pos.length ≤ xs.length → pos.Nodup) ∧
        ∀ (k : Nat) (z : ℚ), s.sizes[k]? = some z →
          if z * s.sizes.length < c.threshold * s.sizes.sum then
            ∃ j i x, pos[j]? = some i ∧ xs[i]? = some x ∧
              j = ((s.sizes.take k).filter (fun z => z * s.sizes.length < c.threshold * s.sizes.sum)).length ∧
              s'.sizes[k]? = some c.reset ∧ s'.embed[k]? = some x ∧ s'.avg[k]? = some (x.map (fun y => y * c.reset))
          else s'.sizes[k]? = some z ∧ s'.embed[k]? = s.embed[k]? ∧ s'.avg[k]? = s.avg[k]? := by
  have hcount : ∀ l : List ℚ, (l.map (fun z => decide (z * s.sizes.length < c.threshold * s.sizes.sum))).count true =
      (l.filter (fun z => z * s.sizes.length < c.threshold * s.sizes.sum)).length := by
    intro l
    induction l with
    | nil => rfl
    | cons a l ih =>
      by_cases h : a * s.sizes.length < c.threshold * s.sizes.sum
      · simp [h, ih]
      · simp [h, ih]
  have hget : ∀ (k : Nat) (z : ℚ), s.sizes[k]? = some z →
      (dead c.threshold s.sizes)[k]? = some (decide (z * s.sizes.length < c.threshold * s.sizes.sum)) := by
    intro k z hz
    unfold dead
    simp [hz]
  have htake : ∀ k, ((dead c.threshold s.sizes).take k).count true =
      ((s.sizes.take k).filter (fun z => z * s.sizes.length < c.threshold * s.sizes.sum)).length := by
    intro k
    unfold dead
    rw [← List.map_take, hcount]
  unfold plainExpire
  dsimp only
  by_cases hany : (dead c.threshold s.sizes).any id = true
  · rw [if_pos hany]
    obtain ⟨n, hn⟩ : ∃ n, n = (dead c.threshold s.sizes).count true := ⟨_, rfl⟩
    have hn' : n = (s.sizes.filter (fun z => z * s.sizes.length < c.threshold * s.sizes.sum)).length := by
      rw [hn]; exact hcount s.sizes
    have hpos : ∃ (pos : List Nat) (rng' : G), sampleLocal c.gen 1 s.rng xs n = .ok (pos.map (fun i => xs.getD i []), rng') ∧
        pos.length = n ∧ (∀ i ∈ pos, i < xs.length) ∧ (pos.length ≤ xs.length → pos.Nodup) := by
      unfold sampleLocal
      have h0 : xs.length ≠ 0 := by simpa using hx
      dsimp only
      rw [if_neg h0]
      have hper : (n + 1 - 1) / 1 = n := by simp
      rw [hper]
      by_cases hp : n ≤ xs.length
      · rw [if_pos hp]
        refine ⟨_, _, rfl, ?_, ?_, ?_⟩
        · rw [List.length_take, (hc.randperm_perm s.rng xs.length).length_eq, List.length_range]
          omega
        · intro i hi
          have := (hc.randperm_perm s.rng xs.length).mem_iff.1 (List.mem_of_mem_take hi)
          simpa using this
        · intro _
          exact ((hc.randperm_perm s.rng xs.length).nodup_iff.2 List.nodup_range).sublist (List.take_sublist _ _)
      · rw [if_neg hp]
        refine ⟨_, _, rfl, hc.randint_length _ _ _ (by omega), hc.randint_range _ _ _ (by omega), ?_⟩
        intro h
        rw [hc.randint_length _ _ _ (by omega)] at h
        omega
    obtain ⟨pos, rng', h1, h2, h3, h4⟩ := hpos
    rw [← hn, h1]
    dsimp only
    refine ⟨_, _, rfl, hn', pos, h2, h3, h4, ?_⟩
    intro k z hz
    have hk : k < s.sizes.length := by
      by_contra hge
      rw [List.getElem?_eq_none (by omega)] at hz
      cases hz
    dsimp only
    rw [maskedSet_get _ _ _ (dead_length _ _) (by rw [List.length_replicate, hn]),
      maskedSet_get _ _ _ (by rw [dead_length, he]) (by rw [List.length_map, h2, hn]),
      maskedSet_get _ _ _ (by rw [dead_length, ha]) (by rw [List.length_map, List.length_map, h2, hn]), hget k z hz]
    by_cases hd : z * s.sizes.length < c.threshold * s.sizes.sum
    · rw [if_pos hd]
      simp only [hd, decide_true, if_true]
      have hjlt : ((dead c.threshold s.sizes).take k).count true < n := by
        have hsplit : (dead c.threshold s.sizes).count true = ((dead c.threshold s.sizes).take k).count true +
            ((dead c.threshold s.sizes).drop k).count true := by
          rw [← List.count_append, List.take_append_drop]
        have hpos' : 0 < ((dead c.threshold s.sizes).drop k).count true := by
          rw [List.count_pos_iff]
          have := hget k z hz
          rw [decide_eq_true hd] at this
          have h0 : ((dead c.threshold s.sizes).drop k)[0]? = some true := by
            rw [List.getElem?_drop]; simpa using this
          exact List.mem_of_getElem? h0
        omega
      have hpj := List.getElem?_eq_getElem (l := pos) (i := ((dead c.threshold s.sizes).take k).count true) (by omega)
      have hin := h3 _ (List.getElem_mem (l := pos) (n := ((dead c.threshold s.sizes).take k).count true) (by omega))
      refine ⟨_, _, _, hpj, List.getElem?_eq_getElem hin, htake k, ?_, ?_, ?_⟩
      · rw [List.getElem?_replicate, if_pos hjlt]
      · rw [List.getElem?_map, hpj, Option.map_some, List.getD_eq_getElem _ _ hin]
      · rw [List.getElem?_map, List.getElem?_map, hpj, Option.map_some, Option.map_some, List.getD_eq_getElem _ _ hin]
    · rw [if_neg hd]
      simp [hd, hz]
  · rw [if_neg hany]
    have hz0 : (s.sizes.filter (fun z => z * s.sizes.length < c.threshold * s.sizes.sum)).length = 0 := by
      rw [← hcount s.sizes, List.count_eq_zero]
      intro hmem
      apply hany
      rw [List.any_eq_true]
      exact ⟨true, hmem, rfl⟩
    refine ⟨_, _, rfl, ?_, [], rfl, ?_, ?_, ?_⟩
    · exact hz0.symm
    · intro i hi; cases hi
    · intro _; exact List.nodup_nil
    · intro k z hz
      have hd : ¬ z * s.sizes.length < c.threshold * s.sizes.sum := by
        intro hd
        have : z ∈ s.sizes.filter (fun z => z * s.sizes.length < c.threshold * s.sizes.sum) :=
          List.mem_filter.2 ⟨List.mem_of_getElem? hz, by simpa using hd⟩
        rw [List.length_eq_zero_iff] at hz0
        rw [hz0] at this
        cases this
      rw [if_neg hd]
      exact ⟨hz, rfl, rfl⟩

end Verif.Vq
