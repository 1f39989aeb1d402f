import Verif.Vq.Props77
import Mathlib.Algebra.BigOperators.Ring.Finset
import Mathlib.Algebra.BigOperators.Group.Finset.Piecewise

namespace Verif.Vq

/-- the features handed to the quantizer: those of the distinct encodings -/
theorem uniqueFeatures_eq (r : EvalRank) (f : Int → List ℚ) (hf : ∀ row ∈ r.rows, ∀ e ∈ row, e.2 = f e.1) :
    r.uniqueFeatures = (uniqueIds (r.entries.map Prod.fst)).map f := by
  obtain ⟨enc, henc⟩ : ∃ enc, enc = r.entries.map Prod.fst := ⟨_, rfl⟩
  obtain ⟨ids, hids⟩ : ∃ ids, ids = uniqueIds enc := ⟨_, rfl⟩
  have hnd : ids.Nodup := by rw [hids]; exact nodup_uniqueIds _
  unfold EvalRank.uniqueFeatures
  have hfo : r.firstOccurrence = scatter min 0 (List.replicate ids.length enc.length)
      ((inverseIndices ids enc).zip (List.range enc.length)) := by
    unfold EvalRank.firstOccurrence
    dsimp only
    rw [← henc, ← hids]
  rw [← henc, ← hids]
  apply List.ext_getElem
  · rw [List.length_map, hfo, scatter_length]; simp
  · intro i h1 h2
    rw [List.length_map] at h2
    rw [List.getElem_map, List.getElem_map]
    have hlen : i < r.firstOccurrence.length := by simpa using h1
    obtain ⟨p, hp⟩ : ∃ p, p = r.firstOccurrence[i]'hlen := ⟨_, rfl⟩
    rw [← hp]
    have hp' : p = ((inverseIndices ids enc).zip (List.range enc.length) |>.filter
        (fun q => decide (q.1 = i))).foldl (fun a q => min a q.2) enc.length := by
      have : p = (scatter min 0 (List.replicate ids.length enc.length)
          ((inverseIndices ids enc).zip (List.range enc.length))).getD i 0 := by
        rw [hp, List.getD_eq_getElem _ _ (by rw [scatter_length]; simpa using h2)]
        congr 1
      rw [this, scatter_getD _ _ _ _ _ (by simpa using h2)]
      congr 1
      rw [List.getD_eq_getElem _ _ (by simpa using h2)]
      simp
    have hpair : ∀ q : Nat × Nat, q ∈ (inverseIndices ids enc).zip (List.range enc.length) ↔
        ∃ h : q.2 < enc.length, ids.idxOf (enc[q.2]'h) = q.1 := by
      intro q
      rw [List.mem_iff_getElem]
      constructor
      · rintro ⟨j, hj, hq⟩
        have hj' : j < enc.length := by simpa [inverseIndices] using hj
        rw [List.getElem_zip] at hq
        subst hq
        simp only [List.getElem_range]
        exact ⟨hj', by simp [inverseIndices]⟩
      · rintro ⟨h, hq⟩
        refine ⟨q.2, by simpa [inverseIndices] using h, ?_⟩
        rw [List.getElem_zip]
        simp only [List.getElem_range, inverseIndices, List.getElem_map]
        rw [hq]
    have hin : ids[i] ∈ enc := by
      rw [← mem_uniqueIds enc, ← hids]; exact List.getElem_mem h2
    obtain ⟨j, hj, hje⟩ := List.mem_iff_getElem.1 hin
    have hmem : (i, j) ∈ ((inverseIndices ids enc).zip (List.range enc.length)).filter
        (fun q => decide (q.1 = i)) := by
      rw [List.mem_filter]
      refine ⟨(hpair (i, j)).2 ⟨hj, ?_⟩, by simp⟩
      simp only [hje]
      exact hnd.idxOf_getElem i h2
    have hle := (foldl_min_le (((inverseIndices ids enc).zip (List.range enc.length)).filter
      (fun q => decide (q.1 = i))) enc.length).2 _ hmem
    rw [← hp'] at hle
    have hplt : p < enc.length := lt_of_le_of_lt hle hj
    rcases foldl_min_mem (((inverseIndices ids enc).zip (List.range enc.length)).filter
      (fun q => decide (q.1 = i))) enc.length with h | ⟨q, hq, h⟩
    · rw [← hp'] at h; omega
    · rw [← hp'] at h
      rw [List.mem_filter] at hq
      obtain ⟨hq1, hq2⟩ := hq
      obtain ⟨hb, hidx⟩ := (hpair q).1 hq1
      have hqi : q.1 = i := by simpa using hq2
      subst h
      have hep : enc[q.2] = ids[i] := by
        have hm : enc[q.2] ∈ ids := by rw [hids, mem_uniqueIds]; exact List.getElem_mem hb
        have := List.getElem_idxOf (List.idxOf_lt_length_iff.2 hm)
        rw [← this]
        congr 1
        rw [hidx, hqi]
      have hbe : q.2 < r.entries.length := by rw [henc] at hb; simpa using hb
      rw [List.getD_eq_getElem _ _ (by simpa using hbe), List.getElem_map]
      have h3 : (r.entries[q.2]).1 = ids[i] := by
        rw [← hep]
        simp only [henc, List.getElem_map]
      rw [← h3]
      have hmem := List.getElem_mem hbe
      unfold EvalRank.entries at hmem
      obtain ⟨row, hrow, he⟩ := List.mem_flatten.1 hmem
      exact hf row hrow _ he

/-- the statistics of some encodings -/
def statsOf (q : Codebook) (dim g : Nat) (f : Int → List ℚ) (ids : List Int) : EvalStats :=
  { embedSum := (ids.map (fun e => sqDist (q.quantize (group dim g (f e))) (group dim g (f e)))).sum
    commitSum := (ids.map (fun e => sqDist (q.quantize (group dim g (f e))) (group dim g (f e)))).sum
    elements := ids.length * dim
    vectors := ids.length
    probability := (List.range q.codes.length).map (fun i =>
      (ids.map (fun e => (q.soft (group dim g (f e))).getD i 0)).sum)
    usage := (List.range q.codes.length).map (fun c => (ids.map (fun e => q.nearest (group dim g (f e)))).count c) }

theorem evalStats_ids (q : Codebook) (dim g : Nat) (f : Int → List ℚ) (ids : List Int) (p : Int → Bool) :
    evalStats q dim ((ids.map f).map (group dim g)) (ids.map p) = .ok (statsOf q dim g f (ids.filter p)) := by
  unfold evalStats
  rw [if_neg (by simp)]
  dsimp only
  simp only [select_map, select_ids]
  congr 1
  unfold statsOf
  congr 1
  · congr 1
    simp only [List.map_map, List.zipWith_map, List.zipWith_self]
    rfl
  · congr 1
    simp only [List.map_map, List.zipWith_map, List.zipWith_self]
    rfl
  · simp
  · simp
  · unfold vecSum
    simp [Function.comp_def]
  · unfold bincount
    simp [Function.comp_def]

theorem productStats_ids (dim : Nat) (f : Int → List ℚ) (ids : List Int) (p : Int → Bool)
    (qs : List (Codebook × Nat)) : productStats dim (ids.map f) (ids.map p) qs =
      .ok (qs.map (fun qg => statsOf qg.1 dim qg.2 f (ids.filter p))) := by
  induction qs with
  | nil => rfl
  | cons qg qs ih =>
    obtain ⟨q, g⟩ := qg
    rw [productStats, evalStats_ids, ih]
    rfl

theorem layer_ids (dim : Nat) (qs : List (Codebook × Nat)) (r : EvalRank) (f : Int → List ℚ)
    (hf : ∀ row ∈ r.rows, ∀ e ∈ row, e.2 = f e.1) (p : Int → Bool) :
    r.layer dim qs ((uniqueIds (r.entries.map Prod.fst)).map p) =
      .ok (r.entries.map (fun e => productQuantize dim qs e.2),
        qs.map (fun qg => statsOf qg.1 dim qg.2 f ((uniqueIds (r.entries.map Prod.fst)).filter p))) := by
  unfold EvalRank.layer
  rw [uniqueFeatures_eq r f hf, productStats_ids]
  dsimp only
  congr 2
  unfold inverseIndices
  rw [List.map_map, List.map_map]
  apply List.map_congr_left
  intro e he
  simp only [Function.comp_apply]
  have hm : e.1 ∈ uniqueIds (r.entries.map Prod.fst) := by
    rw [mem_uniqueIds]; exact List.mem_map.2 ⟨e, he, rfl⟩
  have hlt := List.idxOf_lt_length_iff.2 hm
  rw [List.getD_eq_getElem _ _ (by simpa using hlt)]
  simp only [List.getElem_map, List.getElem_idxOf]
  unfold EvalRank.entries at he
  obtain ⟨row, hrow, hee⟩ := List.mem_flatten.1 he
  rw [hf row hrow e hee]

/-- one layer on all ranks -/
theorem globalLayer_ok (distributed : Bool) (dim : Nat) (qs : List (Codebook × Nat)) (ranks : List EvalRank)
    (hd : distributed = true ∨ ranks.length = 1) (hw : ∀ r ∈ ranks, r.WellFormed) (f : Int → List ℚ)
    (hf : FeatureOf f ranks) :
    globalLayer distributed dim qs ranks = .ok (ranks.zipIdx.map (fun x =>
      (x.1.entries.map (fun e => productQuantize dim qs e.2),
        qs.map (fun qg => statsOf qg.1 dim qg.2 f (ownedBy ranks x))))) := by
  unfold globalLayer
  rw [uniqs_ok ranks hw]
  dsimp only
  have hm : ranks.map (fun r => (⟨uniqueIds (r.entries.map Prod.fst),
      (uniqueIds (r.entries.map Prod.fst)).map (fun e => decide (e ∈ r.counted))⟩ : Uniq)) = ranks.map rankUniq := rfl
  rw [hm, masks_eq distributed ranks hd]
  have hr : ranks.zip (ranks.zipIdx.map (fun x => (uniqueIds (x.1.entries.map Prod.fst)).map (fun e =>
        decide (e ∈ x.1.counted) && (ranks.take x.2).all (fun r => !decide (e ∈ r.counted))))) =
      ranks.zipIdx.map (fun x => (x.1, (uniqueIds (x.1.entries.map Prod.fst)).map (fun e =>
        decide (e ∈ x.1.counted) && (ranks.take x.2).all (fun r => !decide (e ∈ r.counted))))) := by
    have : ranks = ranks.zipIdx.map Prod.fst := (List.zipIdx_map_fst ..).symm
    conv_lhs => rw [this]
    rw [List.zipIdx_map_fst, ← List.zip_map']
    rw [List.zipIdx_map_fst]
  rw [hr]
  have gen : ∀ l : List (EvalRank × Nat), (∀ x ∈ l, x.1 ∈ ranks) →
      layers dim qs (l.map (fun x => (x.1, (uniqueIds (x.1.entries.map Prod.fst)).map (fun e =>
        decide (e ∈ x.1.counted) && (ranks.take x.2).all (fun r => !decide (e ∈ r.counted)))))) =
      .ok (l.map (fun x => (x.1.entries.map (fun e => productQuantize dim qs e.2),
        qs.map (fun qg => statsOf qg.1 dim qg.2 f (ownedBy ranks x))))) := by
    intro l
    induction l with
    | nil => intro _; rfl
    | cons x l ih =>
      intro hl
      rw [List.map_cons, layers, layer_ids dim qs x.1 f (hf x.1 (hl x (List.mem_cons_self ..))),
        ih (fun y hy => hl y (List.mem_cons_of_mem _ hy))]
      rfl
  exact gen _ (fun x hx => by
    have := List.mem_zipIdx hx
    obtain ⟨h1, h2, h3⟩ := this
    rw [h3]
    exact List.getElem_mem _)

theorem sum_flat {α : Type} [AddCommMonoid α] (ranks : List EvalRank) (g : Int → α) :
    (ranks.zipIdx.map (fun x => ((ownedBy ranks x).map g).sum)).sum = ∑ e ∈ lines ranks, g e := by
  obtain ⟨h1, h2⟩ := owned_all ranks
  rw [← h2, List.sum_toFinset _ h1]
  generalize ranks.zipIdx = l
  induction l with
  | nil => rfl
  | cons x l ih => rw [List.map_cons, List.sum_cons, ih, List.flatMap_cons, List.map_append, List.sum_append]

theorem count_sum {α : Type} [DecidableEq α] (l : List Int) (g : Int → α) (c : α) :
    (l.map g).count c = (l.map (fun e => if g e = c then 1 else 0)).sum := by
  induction l with
  | nil => rfl
  | cons x l ih =>
    rw [List.map_cons, List.count_cons, ih, List.map_cons, List.sum_cons, add_comm]
    congr 1
    by_cases h : g x = c <;> simp [h]

/-- Evaluation of a quantised layer over all ranks. Every entry is replaced by its quantised feature. For every
codebook the statistics of the ranks add up to the sums over the distinct lines of the batch: quantisation error,
commitment, number of vectors and elements, soft assignment, and code usage. -/
theorem C77_statistics (distributed : Bool) (dim : Nat) (qs : List (Codebook × Nat)) (ranks : List EvalRank)
    (hd : distributed = true ∨ ranks.length = 1) (hw : ∀ r ∈ ranks, r.WellFormed) (f : Int → List ℚ)
    (hf : FeatureOf f ranks) :
    ∃ outs, globalLayer distributed dim qs ranks = .ok outs ∧
      outs.map Prod.fst = ranks.map (fun r => r.entries.map (fun e => productQuantize dim qs e.2)) ∧
      (∀ o ∈ outs, o.2.length = qs.length) ∧
      ∀ (j : Nat) (q : Codebook) (g : Nat), qs[j]? = some (q, g) →
        ∃ stats : List EvalStats, outs.map (fun o => o.2[j]?) = stats.map some ∧
          (stats.map EvalStats.embedSum).sum =
            ∑ e ∈ lines ranks, sqDist (q.quantize (group dim g (f e))) (group dim g (f e)) ∧
          (stats.map EvalStats.commitSum).sum =
            ∑ e ∈ lines ranks, sqDist (q.quantize (group dim g (f e))) (group dim g (f e)) ∧
          (stats.map EvalStats.vectors).sum = (lines ranks).card ∧
          (stats.map EvalStats.elements).sum = (lines ranks).card * dim ∧
          (∀ i < q.codes.length, (stats.map (fun s => s.probability.getD i 0)).sum =
            ∑ e ∈ lines ranks, (q.soft (group dim g (f e))).getD i 0) ∧
          (∀ c < q.codes.length, (stats.map (fun s => s.usage.getD c 0)).sum =
            ((lines ranks).filter (fun e => q.nearest (group dim g (f e)) = c)).card) := by
  refine ⟨_, globalLayer_ok distributed dim qs ranks hd hw f hf, ?_, ?_, ?_⟩
  · rw [List.map_map]
    have : ranks.map (fun r => r.entries.map (fun e => productQuantize dim qs e.2)) =
        (ranks.zipIdx.map Prod.fst).map (fun r => r.entries.map (fun e => productQuantize dim qs e.2)) := by
      rw [List.zipIdx_map_fst]
    rw [this, List.map_map]
    rfl
  · intro o ho
    obtain ⟨x, -, rfl⟩ := List.mem_map.1 ho
    simp
  · intro j q g hj
    refine ⟨ranks.zipIdx.map (fun x => statsOf q dim g f (ownedBy ranks x)), ?_, ?_, ?_, ?_, ?_, ?_, ?_⟩
    · rw [List.map_map, List.map_map]
      apply List.map_congr_left
      intro x _
      simp [hj]
    · rw [List.map_map, ← sum_flat]; rfl
    · rw [List.map_map, ← sum_flat]; rfl
    · rw [List.map_map, Finset.card_eq_sum_ones, ← sum_flat]
      congr 1
      apply List.map_congr_left
      intro x _
      simp [statsOf]
    · rw [List.map_map, Finset.card_eq_sum_ones, Finset.sum_mul, ← sum_flat]
      congr 1
      apply List.map_congr_left
      intro x _
      simp [statsOf]
    · intro i hi
      rw [List.map_map, ← sum_flat]
      congr 1
      apply List.map_congr_left
      intro x _
      simp only [Function.comp_apply, statsOf]
      rw [List.getD_eq_getElem _ _ (by simpa using hi)]
      simp
    · intro c hc
      rw [List.map_map, Finset.card_filter, ← sum_flat]
      congr 1
      apply List.map_congr_left
      intro x _
      simp only [Function.comp_apply, statsOf]
      rw [List.getD_eq_getElem _ _ (by simpa using hc)]
      simp only [List.getElem_map, List.getElem_range]
      exact count_sum _ _ _

/-- What codebook `g` sees of a feature: entries `g * dim` to `g * dim + dim - 1`, in order; and the groups of a feature
of `n` groups make up the whole feature. -/
theorem C77_groups (dim : Nat) (x : List ℚ) :
    (∀ g i, (group dim g x)[i]? = if i < dim then x[g * dim + i]? else none) ∧
    (∀ n, x.length = n * dim → (List.range n).flatMap (fun g => group dim g x) = x) := by
  constructor
  · intro g i
    unfold group
    rw [List.getElem?_take, List.getElem?_drop]
  · intro n hn
    have key : ∀ m, (List.range m).flatMap (fun g => group dim g x) = x.take (m * dim) := by
      intro m
      induction m with
      | zero => simp
      | succ m ih =>
        rw [List.range_succ, List.flatMap_append, ih, List.flatMap_singleton, Nat.succ_mul, List.take_add]
        rfl
    rw [key, ← hn, List.take_length]

end Verif.Vq
