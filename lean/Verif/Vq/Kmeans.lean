import Verif.Vq.Spec79

namespace Verif.Vq

variable {G : Type}

/-- the usage counts of an assignment -/
theorem bins_eq (c : InitCfg G) (means : List Vec) (inputs : List (List Vec)) (k : Nat) :
    ((inputs.map (fun x => x.map (c.assign means))).map (fun b => b.count k)).sum =
      (inputs.flatten.filter (fun x => decide (c.assign means x = k))).length := by
  induction inputs with
  | nil => rfl
  | cons x inputs ih =>
    rw [List.map_cons, List.map_cons, List.sum_cons, ih, List.flatten_cons, List.filter_append, List.length_append]
    congr 1
    induction x with
    | nil => rfl
    | cons v x ihx =>
      by_cases h : c.assign means v = k
      · simp [h, ihx]
      · simp [h, ihx]

theorem sums_eq (c : InitCfg G) (means : List Vec) (inputs : List (List Vec)) (k i : Nat) :
    (inputs.map (fun x => scatterSum (x.map (c.assign means)) x k i)).sum =
      ((inputs.flatten.filter (fun x => decide (c.assign means x = k))).map (fun x => x.getD i 0)).sum := by
  induction inputs with
  | nil => rfl
  | cons x inputs ih =>
    rw [List.map_cons, List.sum_cons, ih, List.flatten_cons, List.filter_append, List.map_append, List.sum_append]
    congr 1
    unfold scatterSum
    induction x with
    | nil => rfl
    | cons v x ihx =>
      rw [List.map_cons, List.zip_cons_cons, List.map_cons, List.sum_cons, ihx, List.filter_cons]
      by_cases h : c.assign means v = k
      · rw [if_pos h, if_pos (decide_eq_true h), List.map_cons, List.sum_cons]
      · rw [if_neg h, if_neg (by simpa using h), zero_add]

/-- one iteration on ranks with the same means is Lloyd's step on all inputs -/
theorem kmeansIter_eq (c : InitCfg G) (means : List Vec) (inputs : List (List Vec)) :
    kmeansIter c ((List.replicate inputs.length means).zip inputs) =
      List.replicate inputs.length (lloyd c inputs.flatten means,
        (List.range c.base.size).map (fun k => (inputs.flatten.filter (fun x => decide (c.assign means x = k))).length)) := by
  have hz : (List.replicate inputs.length means).zip inputs = inputs.map (fun x => (means, x)) := by
    have h1 : List.replicate inputs.length means = inputs.map (fun _ => means) := by simp
    rw [h1]
    have := List.zip_map' (f := fun _ : List Vec => means) (g := fun x => x) (l := inputs)
    simpa using this
  rw [hz]
  unfold kmeansIter
  dsimp only
  have hbuck : (inputs.map (fun x => (means, x))).map (fun r => r.2.map (c.assign r.1)) =
      inputs.map (fun x => x.map (c.assign means)) := by rw [List.map_map]; rfl
  rw [hbuck]
  have hb : (List.range c.base.size).map (fun k => ((inputs.map (fun x => x.map (c.assign means))).map (fun b => b.count k)).sum) =
      (List.range c.base.size).map (fun k => (inputs.flatten.filter (fun x => decide (c.assign means x = k))).length) := by
    apply List.map_congr_left
    intro k _
    exact bins_eq c means inputs k
  rw [hb]
  rw [List.eq_replicate_iff]
  refine ⟨by simp, ?_⟩
  intro y hy
  rw [List.map_map] at hy
  obtain ⟨x, -, rfl⟩ := List.mem_map.1 hy
  simp only [Function.comp_apply, Prod.mk.injEq, and_true]
  unfold lloyd
  apply List.map_congr_left
  intro k hk
  rw [List.mem_range] at hk
  have hbk : ((List.range c.base.size).map (fun k =>
      (inputs.flatten.filter (fun x => decide (c.assign means x = k))).length)).getD k 0 =
      (inputs.flatten.filter (fun x => decide (c.assign means x = k))).length := by
    rw [List.getD_eq_getElem _ _ (by simpa using hk)]
    simp
  simp only [hbk, List.length_eq_zero_iff]
  by_cases hnil : inputs.flatten.filter (fun x => decide (c.assign means x = k)) = []
  · rw [if_pos hnil, if_pos hnil]
  · rw [if_neg hnil, if_neg hnil]
    have hrow : (matrix c.base.size c.base.dim (fun k i =>
        (List.zipWith (fun (b : List Nat) (r : List Vec × List Vec) => scatterSum b r.2 k i)
          (inputs.map (fun x => x.map (c.assign means)))
          (inputs.map (fun x => (means, x)))).sum /
        ((((List.range c.base.size).map (fun k =>
          (inputs.flatten.filter (fun x => decide (c.assign means x = k))).length)).map
            (fun n => if n = 0 then 1 else n)).getD k 1 : ℕ))).getD k [] =
        (List.range c.base.dim).map (fun i =>
          ((inputs.flatten.filter (fun x => decide (c.assign means x = k))).map (fun x => x.getD i 0)).sum /
            (inputs.flatten.filter (fun x => decide (c.assign means x = k))).length) := by
      unfold matrix
      rw [List.getD_eq_getElem _ _ (by simpa using hk)]
      simp only [List.getElem_map, List.getElem_range]
      apply List.map_congr_left
      intro i _
      rw [List.zipWith_map, List.zipWith_self, ← sums_eq c means inputs k i]
      congr 1
      rw [List.getD_eq_getElem _ _ (by simpa using hk)]
      simp only [List.getElem_map, List.getElem_range, List.length_eq_zero_iff]
      rw [if_neg hnil]
    by_cases hcos : c.base.cosine = true
    · rw [if_pos hcos, if_pos hcos]
      have hlt : k < (matrix c.base.size c.base.dim (fun k i =>
        (List.zipWith (fun (b : List Nat) (r : List Vec × List Vec) => scatterSum b r.2 k i)
          (inputs.map (fun x => x.map (c.assign means)))
          (inputs.map (fun x => (means, x)))).sum /
        ((((List.range c.base.size).map (fun k =>
          (inputs.flatten.filter (fun x => decide (c.assign means x = k))).length)).map
            (fun n => if n = 0 then 1 else n)).getD k 1 : ℕ))).length := by simpa [matrix] using hk
      rw [← hrow, List.getD_eq_getElem _ _ (by simpa using hlt), List.getD_eq_getElem _ _ hlt, List.getElem_map]
    · rw [if_neg hcos, if_neg hcos]
      exact hrow

theorem kmeansLoop_eq (c : InitCfg G) (inputs : List (List Vec)) (n : Nat) : ∀ means : List Vec,
    kmeansLoop c inputs (n + 1) (List.replicate inputs.length means) =
      List.replicate inputs.length (lloyd c inputs.flatten ((lloyd c inputs.flatten)^[n] means),
        some ((List.range c.base.size).map (fun k => (inputs.flatten.filter
          (fun x => decide (c.assign ((lloyd c inputs.flatten)^[n] means) x = k))).length))) := by
  induction n with
  | zero =>
    intro means
    rw [kmeansLoop, kmeansIter_eq, List.map_replicate]
    rfl
  | succ n ih =>
    intro means
    rw [kmeansLoop, kmeansIter_eq, List.map_replicate]
    dsimp only
    rw [ih, Function.iterate_succ_apply]

/-- the result of `_init_embed` on ranks with `t` inputs each -/
theorem initEmbed_eq (c : InitCfg G) (hc : c.Valid) (t : Nat) (gx : List (G × List Vec)) (hne : gx ≠ [])
    (ht : ∀ p ∈ gx, p.2.length = t) (h0 : 0 < t) (hsz : c.base.size ≤ t * gx.length) :
    ∃ rs, initEmbed c gx = .ok rs ∧
      rs.map (fun r => (r.book.data, r.rng)) = (initSpec c gx).2.map (fun g => ((initSpec c gx).1, g)) ∧
      rs.length = gx.length ∧
      (∀ r ∈ rs, r.inited = true ∧ r.book.cache = none) ∧ GoodSizes c.base.size (initSpec c gx).1.1 := by
  have hlen : (gx.flatMap Prod.snd).length = t * gx.length := by
    clear hne hsz
    induction gx with
    | nil => simp
    | cons p gx ih =>
      rw [List.flatMap_cons, List.length_append, ih (fun q hq => ht q (List.mem_cons_of_mem _ hq)),
        ht p (List.mem_cons_self ..), List.length_cons, Nat.mul_succ]
      omega
  have hx : ∀ p ∈ gx, p.2 ≠ [] := by
    intro p hp h
    have := ht p hp
    rw [h] at this
    simp at this
    omega
  have hany : gx.any (fun r => decide (r.2.length * gx.length < c.base.size)) = false := by
    rw [List.any_eq_false]
    intro p hp
    rw [ht p hp]
    simpa using hsz
  unfold initEmbed
  rw [hany]
  simp only [Bool.false_eq_true, if_false]
  by_cases hgt : t * gx.length > c.base.size
  · have hall : gx.all (fun r => decide (r.2.length * gx.length > c.base.size)) = true := by
      rw [List.all_eq_true]
      intro p hp
      rw [ht p hp]
      simpa using hgt
    rw [if_pos hall]
    obtain ⟨hg1, hg2, hg3⟩ := gather_ok c.base hc.base c.base.size gx hne hx
    obtain ⟨means0, hm0⟩ : ∃ m, m = ((gx.map (drawOf c.base gx.length c.base.size)).flatMap Prod.fst).take c.base.size :=
      ⟨_, rfl⟩
    rw [← hm0] at hg1
    have hk : kmeans c gx = .ok (gx.map (fun p => ((lloyd c (gx.flatMap Prod.snd)
        ((lloyd c (gx.flatMap Prod.snd))^[c.iters - 1] means0),
        (List.range c.base.size).map (fun k => ((gx.flatMap Prod.snd).filter
          (fun x => decide (c.assign ((lloyd c (gx.flatMap Prod.snd))^[c.iters - 1] means0) x = k))).length)),
        (drawOf c.base gx.length c.base.size p).2))) := by
      unfold kmeans
      rw [hany]
      simp only [Bool.false_eq_true, if_false]
      rw [traverse_all _ (drawOf c.base gx.length c.base.size) gx (fun p hp => (drawOf_ok c.base hc.base _ _ p (hx p hp)).1)]
      dsimp only
      rw [List.map_map]
      have hg1' : sampleGather c.base.size (gx.map (Prod.fst ∘ drawOf c.base gx.length c.base.size)) = .ok means0 := hg1
      rw [hg1', traverse_all _ (fun _ => means0) _ (fun _ _ => rfl)]
      dsimp only
      have hrep : (gx.map (drawOf c.base gx.length c.base.size)).map (fun _ => means0) =
          List.replicate (gx.map Prod.snd).length means0 := by
        rw [List.map_const', List.length_map, List.length_map]
      obtain ⟨n, hn⟩ : ∃ n, c.iters = n + 1 := ⟨c.iters - 1, by have := hc.iters; omega⟩
      rw [hrep, hn, kmeansLoop_eq, Nat.add_sub_cancel]
      have hfl : (gx.map Prod.snd).flatten = gx.flatMap Prod.snd := rfl
      rw [hfl, List.length_map]
      have hzip : ∀ (y : List Vec × Option (List Nat)), (List.replicate gx.length y).zip
          (gx.map (drawOf c.base gx.length c.base.size)) = gx.map (fun p => (y, drawOf c.base gx.length c.base.size p)) := by
        intro y
        have h1 : List.replicate gx.length y = gx.map (fun _ => y) := by simp
        rw [h1, List.zip_map']
      rw [hzip]
      rw [traverse_all _ (fun x => ((lloyd c (gx.flatMap Prod.snd) ((lloyd c (gx.flatMap Prod.snd))^[n] means0),
        (List.range c.base.size).map (fun k => ((gx.flatMap Prod.snd).filter
          (fun x => decide (c.assign ((lloyd c (gx.flatMap Prod.snd))^[n] means0) x = k))).length)), x.2.2)) _ (by
        intro x hxm
        obtain ⟨p, -, rfl⟩ := List.mem_map.1 hxm
        rfl)]
      rw [List.map_map]
      rfl
    rw [hk]
    dsimp only
    have hspec : initSpec c gx = (((List.range c.base.size).map (fun k => (((gx.flatMap Prod.snd).filter
          (fun x => decide (c.assign ((lloyd c (gx.flatMap Prod.snd))^[c.iters - 1] means0) x = k))).length : ℚ)),
        lloyd c (gx.flatMap Prod.snd) ((lloyd c (gx.flatMap Prod.snd))^[c.iters - 1] means0),
        List.zipWith (fun v n => v.map (fun q => q * n))
          (lloyd c (gx.flatMap Prod.snd) ((lloyd c (gx.flatMap Prod.snd))^[c.iters - 1] means0))
          ((List.range c.base.size).map (fun k => (((gx.flatMap Prod.snd).filter
          (fun x => decide (c.assign ((lloyd c (gx.flatMap Prod.snd))^[c.iters - 1] means0) x = k))).length : ℚ)))),
        (gx.map (drawOf c.base gx.length c.base.size)).map Prod.snd) := by
      unfold initSpec
      dsimp only
      rw [if_neg (by omega), ← hm0]
    refine ⟨_, rfl, ?_, by simp, ?_, ?_⟩
    · rw [hspec]
      simp only [List.map_map]
      apply List.map_congr_left
      intro p _
      simp only [Function.comp_apply, Prod.mk.injEq, and_true]
      unfold fromKmeans Book.data
      simp only [Prod.mk.injEq, true_and]
      refine ⟨?_, ?_⟩
      · rw [List.map_map]; rfl
      · rw [List.zipWith_map_right, List.zipWith_map_right]
    · intro r hrm
      obtain ⟨p, -, rfl⟩ := List.mem_map.1 hrm
      exact ⟨rfl, rfl⟩
    · rw [hspec]
      refine ⟨by simp, ?_, ?_⟩
      · intro s hs
        obtain ⟨k, -, rfl⟩ := List.mem_map.1 hs
        positivity
      · have := sum_counts c.base.size ((gx.flatMap Prod.snd).map
          (c.assign ((lloyd c (gx.flatMap Prod.snd))^[c.iters - 1] means0))) (by
            intro i hi
            obtain ⟨x, -, rfl⟩ := List.mem_map.1 hi
            exact hc.assign_range _ _)
        rw [List.length_map, hlen] at this
        have heq : (List.range c.base.size).map (fun k => (((gx.flatMap Prod.snd).map
            (c.assign ((lloyd c (gx.flatMap Prod.snd))^[c.iters - 1] means0))).count k : ℚ)) =
            (List.range c.base.size).map (fun k => (((gx.flatMap Prod.snd).filter
              (fun x => decide (c.assign ((lloyd c (gx.flatMap Prod.snd))^[c.iters - 1] means0) x = k))).length : ℚ)) := by
          apply List.map_congr_left
          intro k _
          rw [List.count_eq_length_filter, List.filter_map, List.length_map]
          congr 2
        dsimp only
        rw [← heq, this]
        have : 0 < t * gx.length := by omega
        exact_mod_cast this
  · have heq : t * gx.length = c.base.size := by omega
    have hpos : gx.length ≠ 0 := by simpa using hne
    obtain ⟨p0, rest, hcons⟩ := List.exists_cons_of_ne_nil hne
    have hall : ¬ gx.all (fun r => decide (r.2.length * gx.length > c.base.size)) = true := by
      rw [List.all_eq_true]
      intro h
      have := h p0 (by rw [hcons]; exact List.mem_cons_self ..)
      rw [ht p0 (by rw [hcons]; exact List.mem_cons_self ..)] at this
      simp at this
      omega
    have hany2 : ¬ gx.any (fun r => decide (r.2.length * gx.length > c.base.size)) = true := by
      rw [List.any_eq_true]
      rintro ⟨p, hp, h⟩
      rw [ht p hp] at h
      simp at h
      omega
    rw [if_neg hall, if_neg hany2]
    have hspec : initSpec c gx = ((List.replicate c.base.size 1, gx.flatMap Prod.snd, gx.flatMap Prod.snd), gx.map Prod.fst) := by
      unfold initSpec
      dsimp only
      rw [if_pos (by omega)]
    refine ⟨_, rfl, ?_, by simp, ?_, ?_⟩
    · rw [hspec]
      simp only [List.map_map]
      rfl
    · intro r hrm
      obtain ⟨p, -, rfl⟩ := List.mem_map.1 hrm
      exact ⟨rfl, rfl⟩
    · rw [hspec]
      refine ⟨by simp, ?_, ?_⟩
      · intro s hs
        rw [(List.mem_replicate.1 hs).2]
        norm_num
      · dsimp only
        rw [List.sum_replicate, nsmul_eq_mul, mul_one]
        exact_mod_cast hc.size

end Verif.Vq
