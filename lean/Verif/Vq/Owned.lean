import Verif.Vq.Lemmas
import Verif.Vq.Spec
import Mathlib.Data.List.GetD

namespace Verif.Vq

/-! ### One rank -/

theorem zip_entryReal (rows : List (List Entry)) : ∀ real : List Bool, real.length = rows.length →
    (rows.flatten.map Prod.fst).zip (List.zipWith (fun row f => List.replicate row.length f) rows real).flatten =
      (rows.zip real).flatMap (fun x => x.1.map (fun e => (e.1, x.2))) := by
  induction rows with
  | nil => intro real _; rfl
  | cons row rows ih =>
    intro real h
    cases real with
    | nil => simp at h
    | cons f real =>
      have hl : real.length = rows.length := by simpa using h
      simp only [List.flatten_cons, List.map_append, List.zipWith_cons_cons, List.zip_cons_cons, List.flatMap_cons]
      rw [List.zip_append (by simp), ih real hl]
      congr 1
      clear ih h hl
      induction row with
      | nil => rfl
      | cons e row ih => simp only [List.map_cons, List.length_cons, List.replicate_succ, List.zip_cons_cons, ih]

theorem idxOf_inj {ids : List Int} {a b : Int} (ha : a ∈ ids) (h : ids.idxOf a = ids.idxOf b) : a = b := by
  have h1 : ids[ids.idxOf a]'(List.idxOf_lt_length_iff.2 ha) = a := List.getElem_idxOf _
  have hb : ids.idxOf b < ids.length := h ▸ List.idxOf_lt_length_iff.2 ha
  have h2 : ids[ids.idxOf b]'hb = b := List.getElem_idxOf _
  rw [← h1, ← h2]
  congr 1

/-- what a rank knows after comparing its own rows -/
theorem uniq_ok (r : EvalRank) (hw : r.WellFormed) :
    r.uniq = .ok ⟨uniqueIds (r.entries.map Prod.fst),
      (uniqueIds (r.entries.map Prod.fst)).map (fun e => decide (e ∈ r.counted))⟩ := by
  unfold EvalRank.uniq
  rw [if_neg (by simpa [EvalRank.WellFormed] using hw)]
  dsimp only
  obtain ⟨ids, hids⟩ : ∃ ids, ids = uniqueIds (r.entries.map Prod.fst) := ⟨_, rfl⟩
  rw [← hids]
  congr 2
  by_cases hc : r.collecting = true
  · rw [if_pos hc]
    apply List.ext_getElem
    · simp [scatter_length]
    · intro i h1 h2
      rw [List.length_map, scatter_length, List.length_replicate] at h1
      rw [List.getElem_map, List.getElem_map]
      have hg : (scatter max 0 (List.replicate ids.length 0) ((inverseIndices ids (r.entries.map Prod.fst)).zip
          (r.entryReal.map (fun b => if b then 1 else 0))))[i]'(by rw [scatter_length]; simpa using h1) =
          (scatter max 0 (List.replicate ids.length 0) ((inverseIndices ids (r.entries.map Prod.fst)).zip
          (r.entryReal.map (fun b => if b then 1 else 0)))).getD i 0 := by
        rw [List.getD_eq_getElem]
      rw [hg, scatter_getD _ _ _ _ _ (by simpa using h1)]
      rw [decide_eq_decide, foldl_max_ne_zero]
      have h0 : (List.replicate ids.length 0).getD i 0 = 0 := by
        rw [List.getD_eq_getElem _ _ (by simpa using h1)]; simp
      rw [h0]
      simp only [ne_eq, not_true, false_or]
      have hz : (inverseIndices ids (r.entries.map Prod.fst)).zip
          (r.entryReal.map (fun b => if b then 1 else 0)) =
          ((r.rows.zip r.real).flatMap (fun x => x.1.map (fun e => (e.1, x.2)))).map
            (fun p => (ids.idxOf p.1, if p.2 then 1 else 0)) := by
        rw [← zip_entryReal r.rows r.real hw]
        unfold inverseIndices EvalRank.entries EvalRank.entryReal
        rw [List.zip_map]
        rfl
      rw [hz]
      constructor
      · rintro ⟨p, hp, hne⟩
        rw [List.mem_filter, List.mem_map] at hp
        obtain ⟨⟨q, hq, rfl⟩, hi⟩ := hp
        have hq2 : q.2 = true := by
          by_contra hf
          exact hne (by rw [if_neg hf])
        have hi : ids.idxOf q.1 = i := by simpa using hi
        rw [List.mem_flatMap] at hq
        obtain ⟨x, hx, hq⟩ := hq
        rw [List.mem_map] at hq
        obtain ⟨e, he, rfl⟩ := hq
        have hmem : e.1 ∈ ids := by
          rw [hids, mem_uniqueIds]
          unfold EvalRank.entries
          exact List.mem_map.2 ⟨e, List.mem_flatten.2 ⟨x.1, (List.of_mem_zip hx).1, he⟩, rfl⟩
        have : ids[i]'h1 = e.1 := by
          have := List.getElem_idxOf (List.idxOf_lt_length_iff.2 hmem)
          rw [← this]
          congr 1
          exact hi.symm
        rw [this]
        unfold EvalRank.counted
        rw [if_pos hc, List.mem_flatMap]
        exact ⟨x, List.mem_filter.2 ⟨hx, hq2⟩, List.mem_map.2 ⟨e, he, rfl⟩⟩
      · intro hm'
        have hm : ids[i]'h1 ∈ r.counted := hm'
        unfold EvalRank.counted at hm
        rw [if_pos hc, List.mem_flatMap] at hm
        obtain ⟨x, hx, he⟩ := hm
        rw [List.mem_filter] at hx
        rw [List.mem_map] at he
        obtain ⟨e, he, hee⟩ := he
        refine ⟨(ids.idxOf e.1, 1), ?_, by simp⟩
        rw [List.mem_filter, List.mem_map]
        refine ⟨⟨(e.1, x.2), List.mem_flatMap.2 ⟨x, hx.1, List.mem_map.2 ⟨e, he, rfl⟩⟩, ?_⟩, ?_⟩
        · have : x.2 = true := hx.2
          simp [this]
        · rw [hee]
          have hnd : ids.Nodup := by rw [hids]; exact nodup_uniqueIds _
          simpa using hnd.idxOf_getElem i h1
  · rw [if_neg hc]
    have : ∀ e, e ∉ r.counted := by
      intro e
      unfold EvalRank.counted
      rw [if_neg hc]
      simp
    simp only [this, decide_false]
    rw [List.map_const']

theorem uniqs_ok (ranks : List EvalRank) (hw : ∀ r ∈ ranks, r.WellFormed) :
    uniqs ranks = .ok (ranks.map (fun r => ⟨uniqueIds (r.entries.map Prod.fst),
      (uniqueIds (r.entries.map Prod.fst)).map (fun e => decide (e ∈ r.counted))⟩)) := by
  induction ranks with
  | nil => rfl
  | cons r ranks ih =>
    rw [uniqs, uniq_ok r (hw r (List.mem_cons_self ..)), ih (fun x hx => hw x (List.mem_cons_of_mem _ hx))]
    rfl

/-! ### The loop over the lower ranks -/

theorem strike_map (ids : List Int) (p : Int → Bool) (count : Nat) (g : List Int) :
    strike ids (ids.map p) count g = ids.map (fun e => p e && !(g.take count).contains e) := by
  unfold strike
  by_cases h : count ≠ 0
  · rw [if_pos h]
    induction ids with
    | nil => rfl
    | cons x ids ih => simp only [List.map_cons, List.zipWith_cons_cons, ih]
  · rw [if_neg h]
    have : count = 0 := by omega
    subst this
    simp

theorem strikeLower_map (ids : List Int) (counts : List Nat) (g : List (List Int)) (lower : List Nat) :
    ∀ p : Int → Bool, strikeLower ids counts g lower (ids.map p) =
      ids.map (fun e => p e && lower.all (fun j => !((g.getD j []).take (counts.getD j 0)).contains e)) := by
  induction lower with
  | nil => intro p; simp [strikeLower]
  | cons j lower ih =>
    intro p
    rw [strikeLower, strike_map, ih]
    apply List.map_congr_left
    intro e _
    simp only [List.all_cons, Bool.and_assoc]

theorem maxCount_zero (us : List Uniq) (h : maxCount (us.map countMessage) = 0) : ∀ u ∈ us, u.realIds = [] := by
  have gen : ∀ (l : List Nat) (a : Nat), l.foldl max a = 0 → a = 0 ∧ ∀ x ∈ l, x = 0 := by
    intro l
    induction l with
    | nil => intro a h; exact ⟨h, by simp⟩
    | cons y l ih =>
      intro a h
      rw [List.foldl_cons] at h
      obtain ⟨h1, h2⟩ := ih _ h
      refine ⟨by omega, ?_⟩
      intro x hx
      rcases List.mem_cons.1 hx with rfl | hx
      · omega
      · exact h2 x hx
  intro u hu
  have := (gen _ _ h).2 (countMessage u) (List.mem_map.2 ⟨u, hu, rfl⟩)
  exact List.length_eq_zero_iff.1 this

theorem message_take (counts : List Nat) (u : Uniq) :
    ((idMessage counts u).getD []).take (countMessage u) = u.realIds ∨ maxCount counts = 0 := by
  by_cases h : maxCount counts = 0
  · exact Or.inr h
  · left
    unfold idMessage
    rw [if_neg h]
    simp [countMessage]

/-- a rank's final mask -/
theorem ownedMask_eq (us : List Uniq) (k : Nat) (u : Uniq) (hk : us[k]? = some u) (p : Int → Bool)
    (hp : u.real = u.ids.map p) (distributed : Bool) (hd : distributed = true ∨ us.length = 1) :
    ownedMask distributed k (us.map countMessage) (us.map (idMessage (us.map countMessage))) u =
      u.ids.map (fun e => p e && (us.take k).all (fun v => !v.realIds.contains e)) := by
  have hklt : k < us.length := (List.getElem?_eq_some_iff.1 hk).1
  unfold ownedMask
  by_cases hnd : distributed = true
  · rw [if_neg (by simp [hnd])]
    by_cases h0 : maxCount (us.map countMessage) = 0
    · rw [if_pos h0, hp]
      apply List.map_congr_left
      intro e _
      have : (us.take k).all (fun v => !v.realIds.contains e) = true := by
        rw [List.all_eq_true]
        intro v hv
        rw [maxCount_zero us h0 v (List.mem_of_mem_take hv)]
        rfl
      rw [this, Bool.and_true]
    · rw [if_neg h0, hp, strikeLower_map]
      apply List.map_congr_left
      intro e _
      congr 1
      rw [Bool.eq_iff_iff, List.all_eq_true, List.all_eq_true]
      have key : ∀ j, ∀ hj : j < us.length, (((us.map (idMessage (us.map countMessage))).map
          (fun m => m.getD [])).getD j []).take ((us.map countMessage).getD j 0) = (us[j]).realIds := by
        intro j hj
        rw [List.getD_eq_getElem _ _ (by simpa using hj), List.getD_eq_getElem _ _ (by simpa using hj)]
        simp only [List.getElem_map]
        rcases message_take (us.map countMessage) us[j] with h | h
        · exact h
        · exact absurd h h0
      constructor
      · intro h v hv
        obtain ⟨j, hj, rfl⟩ := List.mem_iff_getElem.1 hv
        rw [List.length_take] at hj
        have := h j (by rw [List.mem_range]; omega)
        rw [key j (by omega)] at this
        simpa using this
      · intro h j hj
        rw [List.mem_range] at hj
        rw [key j (by omega)]
        exact h _ (List.mem_iff_getElem.2 ⟨j, by rw [List.length_take]; omega, by simp⟩)
  · have : us.length = 1 := by
      rcases hd with h | h
      · exact absurd h hnd
      · exact h
    have hk0 : k = 0 := by omega
    subst hk0
    rw [if_pos (by simpa using hnd), hp]
    simp

end Verif.Vq
