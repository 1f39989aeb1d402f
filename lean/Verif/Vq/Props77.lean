import Verif.Vq.Owned
import Mathlib.Algebra.BigOperators.Group.List.Basic
import Mathlib.Algebra.BigOperators.Group.Finset.Basic
import Mathlib.Data.List.Forall2

/-!
C77: in a global evaluation batch every distinct line that occurs in a real row is counted by exactly one rank, so
the statistics of the quantizer, summed over the ranks, are those of the set of distinct lines, however the rows
are split over the ranks.
-/

namespace Verif.Vq

theorem select_ids (ids : List Int) (p : Int → Bool) : select ids (ids.map p) = ids.filter p := select_map_mask ids p

/-- what rank `r` knows -/
def rankUniq (r : EvalRank) : Uniq := ⟨uniqueIds (r.entries.map Prod.fst),
  (uniqueIds (r.entries.map Prod.fst)).map (fun e => decide (e ∈ r.counted))⟩

theorem counted_sub (r : EvalRank) (e : Int) (h : e ∈ r.counted) : e ∈ uniqueIds (r.entries.map Prod.fst) := by
  unfold EvalRank.counted at h
  by_cases hc : r.collecting = true
  · rw [if_pos hc, List.mem_flatMap] at h
    obtain ⟨x, hx, he⟩ := h
    rw [List.mem_map] at he
    obtain ⟨y, hy, rfl⟩ := he
    rw [mem_uniqueIds]
    unfold EvalRank.entries
    exact List.mem_map.2 ⟨y, List.mem_flatten.2 ⟨x.1, (List.of_mem_zip (List.mem_filter.1 hx).1).1, hy⟩, rfl⟩
  · rw [if_neg hc] at h
    cases h

theorem mem_realIds (r : EvalRank) (e : Int) : e ∈ (rankUniq r).realIds ↔ e ∈ r.counted := by
  unfold Uniq.realIds rankUniq
  dsimp only
  rw [select_ids, List.mem_filter]
  constructor
  · rintro ⟨-, h⟩; simpa using h
  · intro h; exact ⟨counted_sub r e h, by simpa using h⟩

/-- the encodings counted by rank `k` -/
def ownedBy (ranks : List EvalRank) (x : EvalRank × Nat) : List Int :=
  (uniqueIds (x.1.entries.map Prod.fst)).filter (fun e =>
    decide (e ∈ x.1.counted) && (ranks.take x.2).all (fun r => !decide (e ∈ r.counted)))

theorem owned_rest (rs : List EvalRank) : ∀ pre : List EvalRank,
    ((rs.zipIdx pre.length).flatMap (ownedBy (pre ++ rs))).Nodup ∧
    ∀ e, e ∈ (rs.zipIdx pre.length).flatMap (ownedBy (pre ++ rs)) ↔
      (∃ r ∈ rs, e ∈ r.counted) ∧ ∀ r ∈ pre, e ∉ r.counted := by
  induction rs with
  | nil => intro pre; simp
  | cons r rs ih =>
    intro pre
    have hih := ih (pre ++ [r])
    rw [List.append_assoc, List.length_append, List.length_singleton] at hih
    obtain ⟨hnd, hmem⟩ := hih
    rw [List.zipIdx_cons, List.flatMap_cons]
    have hfirst : ∀ e, e ∈ ownedBy (pre ++ r :: rs) (r, pre.length) ↔ e ∈ r.counted ∧ ∀ q ∈ pre, e ∉ q.counted := by
      intro e
      unfold ownedBy
      rw [List.mem_filter]
      dsimp only
      rw [List.take_left', Bool.and_eq_true, List.all_eq_true]
      · constructor
        · rintro ⟨-, h1, h2⟩
          exact ⟨by simpa using h1, fun q hq => by simpa using h2 q hq⟩
        · rintro ⟨h1, h2⟩
          exact ⟨counted_sub r e h1, by simpa using h1, fun q hq => by simpa using h2 q hq⟩
      · rfl
    constructor
    · rw [List.nodup_append']
      refine ⟨?_, hnd, ?_⟩
      · unfold ownedBy
        exact (nodup_uniqueIds _).filter _
      · intro e h1 h2
        rw [hfirst] at h1
        rw [List.singleton_append, ] at hmem
        rw [hmem] at h2
        exact h2.2 r (by simp) h1.1
    · intro e
      rw [List.singleton_append] at hmem
      rw [List.mem_append, hfirst, hmem]
      constructor
      · rintro (⟨h1, h2⟩ | ⟨⟨q, hq, h1⟩, h2⟩)
        · exact ⟨⟨r, List.mem_cons_self .., h1⟩, h2⟩
        · exact ⟨⟨q, List.mem_cons_of_mem _ hq, h1⟩, fun p hp => h2 p (List.mem_append_left _ hp)⟩
      · rintro ⟨⟨q, hq, h1⟩, h2⟩
        by_cases hr : e ∈ r.counted
        · exact Or.inl ⟨hr, h2⟩
        · right
          rcases List.mem_cons.1 hq with rfl | hq
          · exact absurd h1 hr
          · refine ⟨⟨q, hq, h1⟩, ?_⟩
            intro p hp
            rcases List.mem_append.1 hp with hp | hp
            · exact h2 p hp
            · rw [List.mem_singleton] at hp
              subst hp
              exact hr

/-- the counted encodings of all ranks together: the lines of the batch, each once -/
theorem owned_all (ranks : List EvalRank) :
    (ranks.zipIdx.flatMap (ownedBy ranks)).Nodup ∧
      (ranks.zipIdx.flatMap (ownedBy ranks)).toFinset = lines ranks := by
  obtain ⟨h1, h2⟩ := owned_rest ranks []
  refine ⟨h1, ?_⟩
  ext e
  have := h2 e
  simp only [List.length_nil, List.nil_append] at this
  rw [List.mem_toFinset, this]
  unfold lines
  rw [List.mem_toFinset, List.mem_flatMap]
  simp

/-- the masks are those of `ownedBy` -/
theorem masks_eq (distributed : Bool) (ranks : List EvalRank) (hd : distributed = true ∨ ranks.length = 1) :
    ownedMasks distributed (ranks.map rankUniq) =
      ranks.zipIdx.map (fun x => (uniqueIds (x.1.entries.map Prod.fst)).map (fun e =>
        decide (e ∈ x.1.counted) && (ranks.take x.2).all (fun r => !decide (e ∈ r.counted)))) := by
  unfold ownedMasks
  rw [List.zipIdx_map, List.map_map]
  apply List.map_congr_left
  intro x hx
  obtain ⟨r, k⟩ := x
  have hk : ranks[k]? = some r := by
    have := List.mem_zipIdx hx
    obtain ⟨h1, h2, h3⟩ := this
    rw [List.getElem?_eq_some_iff]
    exact ⟨by omega, by simpa using h3.symm⟩
  simp only [Function.comp_apply, Prod.map_apply, id_eq]
  rw [ownedMask_eq (ranks.map rankUniq) k (rankUniq r) (by simp [hk]) (fun e => decide (e ∈ r.counted)) rfl
    distributed (by simpa using hd)]
  apply List.map_congr_left
  intro e _
  congr 1
  rw [← List.map_take, List.all_map, Bool.eq_iff_iff, List.all_eq_true, List.all_eq_true]
  constructor
  · intro h q hq
    have := h q hq
    simp only [Function.comp_apply, Bool.not_eq_true', List.contains_eq_mem, decide_eq_false_iff_not,
      mem_realIds] at this
    simpa using this
  · intro h q hq
    have := h q hq
    simp only [Function.comp_apply, Bool.not_eq_true', List.contains_eq_mem, decide_eq_false_iff_not, mem_realIds]
    simpa using this

/-- Every line of the batch is counted exactly once: over all ranks, exactly one flag at an entry with this encoding
is set; no flag is set at any other entry. -/
theorem C77_each_once (distributed : Bool) (ranks : List EvalRank) (hd : distributed = true ∨ ranks.length = 1)
    (hw : ∀ r ∈ ranks, r.WellFormed) :
    ∃ us, uniqs ranks = .ok us ∧ (ownedMasks distributed us).length = us.length ∧
      (∀ x ∈ us.zip (ownedMasks distributed us), x.2.length = x.1.ids.length) ∧
      ∀ e, ((us.zip (ownedMasks distributed us)).flatMap (fun x => select x.1.ids x.2)).count e =
        if e ∈ lines ranks then 1 else 0 := by
  have hz : (ranks.map rankUniq).zip (ownedMasks distributed (ranks.map rankUniq)) =
      ranks.zipIdx.map (fun x => (rankUniq x.1, (uniqueIds (x.1.entries.map Prod.fst)).map (fun e =>
        decide (e ∈ x.1.counted) && (ranks.take x.2).all (fun r => !decide (e ∈ r.counted))))) := by
    rw [masks_eq distributed ranks hd]
    have hm : ranks.map rankUniq = ranks.zipIdx.map (fun x => rankUniq x.1) := by
      rw [← Function.comp_def rankUniq Prod.fst, ← List.map_map, List.zipIdx_map_fst]
    rw [hm, List.zip_map']
  refine ⟨ranks.map rankUniq, uniqs_ok ranks hw, ?_, ?_, ?_⟩
  · simp [ownedMasks]
  · rw [hz]
    intro x hx
    obtain ⟨y, -, rfl⟩ := List.mem_map.1 hx
    simp [rankUniq]
  · intro e
    have hflat : ((ranks.map rankUniq).zip (ownedMasks distributed (ranks.map rankUniq))).flatMap
        (fun x => select x.1.ids x.2) = ranks.zipIdx.flatMap (ownedBy ranks) := by
      rw [hz, List.flatMap_map]
      apply List.flatMap_congr
      intro x _
      exact select_ids _ _
    rw [hflat]
    obtain ⟨h1, h2⟩ := owned_all ranks
    by_cases he : e ∈ lines ranks
    · rw [if_pos he]
      exact List.count_eq_one_of_mem h1 (by rw [← List.mem_toFinset, h2]; exact he)
    · rw [if_neg he]
      exact List.count_eq_zero_of_not_mem (by rw [← List.mem_toFinset, h2]; exact he)

/-- All ranks take part in the same collective calls: either no rank calls the second one, or all do, with
messages of one length. -/
theorem C77_collectives (us : List Uniq) :
    (∀ u ∈ us, idMessage (us.map countMessage) u = none) ∨
    ∃ n, ∀ u ∈ us, ∃ m, idMessage (us.map countMessage) u = some m ∧ m.length = n := by
  by_cases h : maxCount (us.map countMessage) = 0
  · left
    intro u _
    unfold idMessage
    rw [if_pos h]
  · right
    refine ⟨maxCount (us.map countMessage), fun u hu => ?_⟩
    unfold idMessage
    rw [if_neg h]
    refine ⟨_, rfl, ?_⟩
    have hle : ∀ (l : List Nat) (a x : Nat), x ∈ l ∨ x ≤ a → x ≤ l.foldl max a := by
      intro l
      induction l with
      | nil =>
        intro a x h
        rcases h with h | h
        · cases h
        · exact h
      | cons y l ih =>
        intro a x h
        rw [List.foldl_cons]
        apply ih
        rcases h with h | h
        · rcases List.mem_cons.1 h with rfl | h
          · exact Or.inr (by omega)
          · exact Or.inl h
        · exact Or.inr (by omega)
    have := hle (us.map countMessage) 0 (countMessage u) (Or.inl (List.mem_map.2 ⟨u, hu, rfl⟩))
    unfold countMessage at this
    simp only [List.length_append, List.length_replicate]
    unfold maxCount
    unfold countMessage at *
    omega

end Verif.Vq
