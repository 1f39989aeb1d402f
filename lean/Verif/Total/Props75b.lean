import Verif.Total.Props75

/-! C75, with a teacher. -/

namespace Verif.Total

open Verif.Stats

variable {Part : Type}

def deps (terms : List (Term Part)) : List (Term Part) := terms.filter (fun t => t.dependent)
def indeps (terms : List (Term Part)) : List (Term Part) := terms.filter (fun t => !t.dependent)

/-- the items of the total with a teacher -/
def kdItems (kd real : List (Term Part)) : List (Item Part) :=
  itemsOf "kd" (deps kd) ++ itemsOf "real" (deps real) ++ itemsOf "independent" (indeps real)

def cfgT (dd : String × String) (alpha temp : ℚ) : List (TSpec Part) :=
  [con "kd_alpha_sum" dd alpha, con "kd_alpha_square_sum" dd (alpha ^ 2),
   con "kd_temperature_sum" dd temp, con "kd_temperature_square_sum" dd (temp ^ 2)]

def cfgC : List (CSpec Part) := [⟨"kd_config_replicas", fun _ => 1⟩]

theorem cfgT_names (dd : String × String) (alpha temp : ℚ) :
    (cfgT (Part := Part) dd alpha temp).map TSpec.name = kdTensorKeys := rfl
theorem cfgC_names : (cfgC (Part := Part)).map CSpec.name = kdCountKeys := rfl

theorem kdKeys_colon : ∀ k ∈ kdTensorKeys ++ kdCountKeys, ':' ∉ k.toList := by decide

theorem itemsT_colon (items : List (Item Part)) (k : String) (hk : k ∈ (itemsT 0 items).map TSpec.name) :
    ':' ∈ k.toList := by
  unfold itemsT at hk
  rw [List.map_flatMap, List.mem_flatMap] at hk
  obtain ⟨x, _, hk⟩ := hk
  obtain ⟨K, r, _, rfl, _⟩ := head_ts_keyOf _ _ _ _ _ hk
  exact ckey_colon K _ r

theorem itemsC_colon (items : List (Item Part)) (k : String) (hk : k ∈ (itemsC 0 items).map CSpec.name) :
    ':' ∈ k.toList := by
  unfold itemsC at hk
  rw [List.map_flatMap, List.mem_flatMap] at hk
  obtain ⟨x, _, hk⟩ := hk
  obtain ⟨K, r, _, rfl, _⟩ := head_cs_keyOf _ _ _ _ hk
  exact ckey_colon K _ r

theorem kd_nodupT (items : List (Item Part)) (h : ∀ x ∈ items, ItemOk x) (dd : String × String) (a t : ℚ) :
    ((itemsT 0 items ++ cfgT dd a t).map TSpec.name).Nodup := by
  rw [List.map_append, List.nodup_append]
  refine ⟨itemsT_nodup 0 items h, by rw [cfgT_names]; decide, ?_⟩
  intro x hx y hy hxy
  subst hxy
  rw [cfgT_names] at hy
  exact kdKeys_colon x (List.mem_append_left _ hy) (itemsT_colon items x hx)

theorem kd_nodupC (items : List (Item Part)) (h : ∀ x ∈ items, ItemOk x) :
    ((itemsC 0 items ++ cfgC).map CSpec.name).Nodup := by
  rw [List.map_append, List.nodup_append]
  refine ⟨itemsC_nodup 0 items h, by rw [cfgC_names]; decide, ?_⟩
  intro x hx y hy hxy
  subst hxy
  rw [cfgC_names] at hy
  exact kdKeys_colon x (List.mem_append_right _ hy) (itemsC_colon items x hx)

theorem itemsOf_group (g : String) (terms : List (Term Part)) (x : Item Part) (hx : x ∈ itemsOf g terms) :
    x.1 = g := by
  unfold itemsOf at hx
  rw [List.mem_map] at hx
  obtain ⟨t, _, rfl⟩ := hx
  rfl

theorem filter_itemsOf_ne (g g' : String) (hne : g' ≠ g) (terms : List (Term Part)) :
    (itemsOf g' terms).filter (fun x => decide (x.1 = g)) = [] := by
  rw [List.filter_eq_nil_iff]
  intro x hx
  rw [itemsOf_group g' terms x hx]
  simpa using hne

theorem deps_mem {terms : List (Term Part)} {t : Term Part} (h : t ∈ deps terms) : t ∈ terms :=
  (List.mem_filter.1 h).1
theorem indeps_mem {terms : List (Term Part)} {t : Term Part} (h : t ∈ indeps terms) : t ∈ terms :=
  (List.mem_filter.1 h).1

/-- With a teacher. Every rank's statistic is built without an error. If every loss head has entries in the
parts that count, the global batch closes with one evaluation entry whose value is `alpha * T^2` times the weighted sum of the teacher's target-dependent
terms, plus `1 - alpha` times that of the target-dependent terms against the data, plus the
target-independent terms once, unscaled — each averaged over all rows of all parts that count; if a head
has no entries, the close is an error. -/
theorem C75_total_teacher (eps : ℚ) (heps : 0 ≤ eps) (log : ℚ → ℚ) (kd real : List (Term Part))
    (hkd : ∃ t ∈ kd, t.dependent = true) (hreal : ∃ t ∈ real, t.dependent = true) (alpha temp : ℚ)
    (hwk : ∀ t ∈ kd, t.head.wellNamed) (hwr : ∀ t ∈ real, t.head.wellNamed)
    (b : List (Part × Bool)) (hb : b ≠ []) :
    ∃ stats : List (SufficientStats × Bool),
      List.Forall₂ (fun p s => kdTotal (rawTerms kd p.1) (rawTerms real p.1) alpha temp = .ok s.1 ∧ s.2 = p.2)
        b stats ∧
      ((∀ t ∈ kd, t.dependent = true → t.head.nonEmpty (ownParts b)) →
       (∀ t ∈ real, t.head.nonEmpty (ownParts b)) →
        ∃ v, closeGlobalSuff validSchema (finalize eps log) stats = .ok v ∧
          v.scope = .evaluation ∧ v.count = 1 ∧
          v.sum.data = [alpha * temp ^ 2 * weighted log (kd.filter (fun t => t.dependent)) (ownParts b) +
            (1 - alpha) * weighted log (real.filter (fun t => t.dependent)) (ownParts b) +
            weighted log (real.filter (fun t => !t.dependent)) (ownParts b)]) ∧
      ((∃ t ∈ kd, t.dependent = true ∧ ¬ t.head.nonEmpty (ownParts b)) ∨
       (∃ t ∈ real, ¬ t.head.nonEmpty (ownParts b)) →
        ∃ e, closeGlobalSuff validSchema (finalize eps log) stats = .error e) := by
  have hok : ∀ x ∈ kdItems kd real, ItemOk x ∧ x.2.1.wellNamed := by
    intro x hx
    unfold kdItems at hx
    simp only [List.mem_append] at hx
    rcases hx with (hx | hx) | hx
    · exact itemsOf_ok "kd" (by decide) _ (fun t ht => hwk t (deps_mem ht)) x hx
    · exact itemsOf_ok "real" (by decide) _ (fun t ht => hwr t (deps_mem ht)) x hx
    · exact itemsOf_ok "independent" (by decide) _ (fun t ht => hwr t (indeps_mem ht)) x hx
  obtain ⟨tk, htk, htk'⟩ := hkd
  obtain ⟨tr, htr, htr'⟩ := hreal
  have gk : ∃ x ∈ kdItems kd real, x.1 = "kd" :=
    ⟨("kd", tk.head, tk.weight), by
      unfold kdItems
      exact List.mem_append_left _ (List.mem_append_left _
        (List.mem_map.2 ⟨tk, List.mem_filter.2 ⟨htk, htk'⟩, rfl⟩)), rfl⟩
  have gr : ∃ x ∈ kdItems kd real, x.1 = "real" :=
    ⟨("real", tr.head, tr.weight), by
      unfold kdItems
      exact List.mem_append_left _ (List.mem_append_right _
        (List.mem_map.2 ⟨tr, List.mem_filter.2 ⟨htr, htr'⟩, rfl⟩)), rfl⟩
  -- the reference tensor
  have hTne : itemsT 0 (kdItems kd real) ≠ [] := by
    obtain ⟨x, hx, -⟩ := gk
    obtain ⟨i, hi, rfl⟩ := List.mem_iff_getElem.1 hx
    have hm : ((kdItems kd real)[i], i) ∈ (kdItems kd real).zipIdx 0 := by
      rw [List.mem_iff_getElem]; exact ⟨i, by simpa using hi, by simp⟩
    intro hnil
    have hw := (hok _ hx).2
    have hin : ∀ t ∈ ((kdItems kd real)[i]).2.1.ts ((kdItems kd real)[i]).1 i ((kdItems kd real)[i]).2.2, False := by
      intro t ht
      have : t ∈ itemsT 0 (kdItems kd real) := List.mem_flatMap.2 ⟨_, hm, ht⟩
      rw [hnil] at this
      simp at this
    cases hd : ((kdItems kd real)[i]).2.1 with
    | mean a c d => rw [hd] at hin; exact hin _ (List.mem_cons_self ..)
    | reg a c d => rw [hd] at hin; exact hin _ (List.mem_cons_self ..)
    | vq slots =>
      rw [hd] at hin hw
      obtain ⟨s, hs⟩ := List.exists_mem_of_ne_nil _ hw.1
      exact hin _ (List.mem_map.2 ⟨sca (nkey "embed_sum" s.id) s.dd s.embed,
        List.mem_flatMap.2 ⟨s, hs, by simp [Slot.ts, Slot.base]⟩, rfl⟩)
  obtain ⟨t0, trest, hT0⟩ := List.exists_cons_of_ne_nil hTne
  obtain ⟨dd, hdd⟩ : ∃ dd : String × String, dd = t0.info.2 := ⟨_, rfl⟩
  obtain ⟨ts, hts⟩ : ∃ ts : List (TSpec Part), ts = itemsT 0 (kdItems kd real) ++ cfgT dd alpha temp := ⟨_, rfl⟩
  obtain ⟨cs, hcs⟩ : ∃ cs : List (CSpec Part), cs = itemsC 0 (kdItems kd real) ++ cfgC := ⟨_, rfl⟩
  have ndT : (ts.map TSpec.name).Nodup := hts ▸ kd_nodupT _ (fun x hx => (hok x hx).1) dd alpha temp
  have ndC : (cs.map CSpec.name).Nodup := hcs ▸ kd_nodupC _ (fun x hx => (hok x hx).1)
  have nT : ts.map TSpec.name = (itemsT 0 (kdItems kd real)).map TSpec.name ++ kdTensorKeys := by
    rw [hts, List.map_append, cfgT_names]
  have nC : cs.map CSpec.name = (itemsC 0 (kdItems kd real)).map CSpec.name ++ kdCountKeys := by
    rw [hcs, List.map_append, cfgC_names]
  have cn : ∀ P, CompNames (suffStat .globalBatch "kd_total_v1" ts cs P).tensors
      (suffStat .globalBatch "kd_total_v1" ts cs P).counts (kdItems kd real) kdTensorKeys kdCountKeys :=
    fun P => {
      ten := by intro k; rw [names_suffT, nT, List.mem_append]
      cnt := by intro k; rw [names_suffC, nC, List.mem_append]
      exT := fun k hk => kdKeys_colon k (List.mem_append_left _ hk)
      exC := fun k hk => kdKeys_colon k (List.mem_append_right _ hk)
      dot := fun x hx => (hok x hx).1.1
      well := fun x hx => (hok x hx).2 }
  have groups : ∀ x ∈ kdItems kd real, x.1 = "kd" ∨ x.1 = "real" ∨ x.1 = "independent" := by
    intro x hx
    unfold kdItems at hx
    simp only [List.mem_append] at hx
    rcases hx with (hx | hx) | hx
    · exact Or.inl (itemsOf_group _ _ x hx)
    · exact Or.inr (Or.inl (itemsOf_group _ _ x hx))
    · exact Or.inr (Or.inr (itemsOf_group _ _ x hx))
  have expT : ∀ P, eqSet (names (suffStat .globalBatch "kd_total_v1" ts cs P).tensors)
      (kdTensorKeys ++ expectedTensors (suffStat .globalBatch "kd_total_v1" ts cs P).tensors "kd" ++
        expectedTensors (suffStat .globalBatch "kd_total_v1" ts cs P).tensors "real" ++
        expectedTensors (suffStat .globalBatch "kd_total_v1" ts cs P).tensors "independent") = true := by
    intro P
    rw [eqSet_iff]
    intro k
    simp only [List.mem_append]
    rw [expectedTensors_mem (cn P) "kd" (by decide), expectedTensors_mem (cn P) "real" (by decide),
      expectedTensors_mem (cn P) "independent" (by decide), names_suffT, nT, List.mem_append]
    unfold itemsT
    rw [List.map_flatMap, List.mem_flatMap]
    constructor
    · rintro (⟨x, hx, hk⟩ | hk)
      · rcases groups _ (List.fst_mem_of_mem_zipIdx hx) with hg | hg | hg
        · exact Or.inl (Or.inl (Or.inr ⟨x, hx, hg, hk⟩))
        · exact Or.inl (Or.inr ⟨x, hx, hg, hk⟩)
        · exact Or.inr ⟨x, hx, hg, hk⟩
      · exact Or.inl (Or.inl (Or.inl hk))
    · rintro (((hk | ⟨x, hx, _, hk⟩) | ⟨x, hx, _, hk⟩) | ⟨x, hx, _, hk⟩)
      · exact Or.inr hk
      · exact Or.inl ⟨x, hx, hk⟩
      · exact Or.inl ⟨x, hx, hk⟩
      · exact Or.inl ⟨x, hx, hk⟩
  have expC : ∀ P, eqSet (names (suffStat .globalBatch "kd_total_v1" ts cs P).counts)
      (kdCountKeys ++ expectedCounts (suffStat .globalBatch "kd_total_v1" ts cs P).tensors
          (suffStat .globalBatch "kd_total_v1" ts cs P).counts "kd" ++
        expectedCounts (suffStat .globalBatch "kd_total_v1" ts cs P).tensors
          (suffStat .globalBatch "kd_total_v1" ts cs P).counts "real" ++
        expectedCounts (suffStat .globalBatch "kd_total_v1" ts cs P).tensors
          (suffStat .globalBatch "kd_total_v1" ts cs P).counts "independent") = true := by
    intro P
    rw [eqSet_iff]
    intro k
    simp only [List.mem_append]
    rw [expectedCounts_mem (cn P) "kd" (by decide), expectedCounts_mem (cn P) "real" (by decide),
      expectedCounts_mem (cn P) "independent" (by decide), names_suffC, nC, List.mem_append]
    unfold itemsC
    rw [List.map_flatMap, List.mem_flatMap]
    constructor
    · rintro (⟨x, hx, hk⟩ | hk)
      · rcases groups _ (List.fst_mem_of_mem_zipIdx hx) with hg | hg | hg
        · exact Or.inl (Or.inl (Or.inr ⟨x, hx, hg, hk⟩))
        · exact Or.inl (Or.inr ⟨x, hx, hg, hk⟩)
        · exact Or.inr ⟨x, hx, hg, hk⟩
      · exact Or.inl (Or.inl (Or.inl hk))
    · rintro (((hk | ⟨x, hx, _, hk⟩) | ⟨x, hx, _, hk⟩) | ⟨x, hx, _, hk⟩)
      · exact Or.inr hk
      · exact Or.inl ⟨x, hx, hk⟩
      · exact Or.inl ⟨x, hx, hk⟩
      · exact Or.inl ⟨x, hx, hk⟩
  have schema : ∀ P, validSchema (suffStat .globalBatch "kd_total_v1" ts cs P) = true := by
    intro P
    obtain ⟨h1, a1, b1⟩ := compositionSchema_ok (cn P) "kd" (by decide)
    obtain ⟨h2, a2, b2⟩ := compositionSchema_ok (cn P) "real" (by decide)
    obtain ⟨h3, a3, b3⟩ := compositionSchema_ok (cn P) "independent" (by decide)
    unfold validSchema
    have hf : (suffStat .globalBatch "kd_total_v1" ts cs P).finalizer = "kd_total_v1" := rfl
    rw [hf, if_neg (by decide), if_neg (by decide), if_pos rfl]
    simp only [a1, a2, a3, b1 gk, b2 gr, expT P, expC P, Bool.and_self]
  refine ⟨b.map (fun p => (suffStat .globalBatch "kd_total_v1" ts cs [p.1], p.2)), ?_, ?_⟩
  · apply forall₂_stats (fun (p : Part) s => kdTotal (rawTerms kd p) (rawTerms real p) alpha temp = .ok s)
      (fun p => suffStat .globalBatch "kd_total_v1" ts cs [p])
    rintro ⟨p, own⟩ _
    unfold kdTotal
    rw [evalTerms_raw kd hwk, evalTerms_raw real hwr]
    dsimp only
    have ha := addTerms_items p (kdItems kd real) 0 [] [] (fun x hx => (hok x hx).1.2)
      (by simpa [names_atT] using itemsT_nodup 0 (kdItems kd real) (fun x hx => (hok x hx).1))
      (by simpa [names_atC] using itemsC_nodup 0 (kdItems kd real) (fun x hx => (hok x hx).1))
    have e : (List.map (fun t : Stat × Bool × ℚ => ("kd", t.1, t.2.2)) (List.filter (fun t => t.2.1)
          (List.map (fun t : Term Part => (t.head.statAt p, t.dependent, t.weight)) kd)) ++
        List.map (fun t : Stat × Bool × ℚ => ("real", t.1, t.2.2)) (List.filter (fun t => t.2.1)
          (List.map (fun t : Term Part => (t.head.statAt p, t.dependent, t.weight)) real)) ++
        List.map (fun t : Stat × Bool × ℚ => ("independent", t.1, t.2.2)) (List.filter (fun t => !t.2.1)
          (List.map (fun t : Term Part => (t.head.statAt p, t.dependent, t.weight)) real))) =
        (kdItems kd real).map (fun x => (x.1, x.2.1.statAt p, x.2.2)) := by
      simp only [kdItems, itemsOf, deps, indeps, List.map_append, List.map_map, List.filter_map,
        Function.comp_def]
    rw [e]
    unfold kdStat
    rw [ha, List.nil_append, List.nil_append]
    have hat : atT (itemsT 0 (kdItems kd real)) p = (t0.name, vec t0.info (t0.val p)) :: atT trest p := by
      rw [hT0]; rfl
    rw [hat]
    dsimp only
    have hcfg : [("kd_alpha_sum", newTensor (vec t0.info (t0.val p)) alpha),
        ("kd_alpha_square_sum", newTensor (vec t0.info (t0.val p)) (alpha ^ 2)),
        ("kd_temperature_sum", newTensor (vec t0.info (t0.val p)) temp),
        ("kd_temperature_square_sum", newTensor (vec t0.info (t0.val p)) (temp ^ 2))] =
        atT (cfgT dd alpha temp) p := by
      simp only [cfgT, atT, List.map_cons, List.map_nil, con, vec_scalar, hdd]
      rfl
    rw [hcfg, ← hat, update_new, ← atT_append, ← hts]
    swap
    · rw [← atT_append, names_atT, ← hts]; exact ndT
    have hcc : setKey (atC (itemsC 0 (kdItems kd real)) p) "kd_config_replicas" 1 = atC cs p := by
      have := update_new (atC (itemsC 0 (kdItems kd real)) p) (atC cfgC p)
        (by rw [← atC_append, names_atC, ← hcs]; exact ndC)
      rw [hcs, atC_append, ← this]
      rfl
    rw [hcc, ← suffStat_one]
    unfold SufficientStats.mk?
    rw [if_neg, if_neg (by rw [schema]; decide)]
    rw [suffStat_one]
    simp [atC_nonneg]
  constructor
  · intro hpk hpr
    rw [C08_global_sufficient validSchema validSchema_names _ (finalize eps log) _ _ ndT ndC (schema []) b hb]
    have hGT := getT_suff ts cs .globalBatch "kd_total_v1" (ownParts b) ndT
    have hGC := getC_suff ts cs .globalBatch "kd_total_v1" (ownParts b) ndC
    have iT : GetT (suffStat .globalBatch "kd_total_v1" ts cs (ownParts b)).tensors
        (itemsT 0 (kdItems kd real)) (ownParts b) :=
      fun t ht => hGT t (by rw [hts]; exact List.mem_append_left _ ht)
    have iC : GetC (suffStat .globalBatch "kd_total_v1" ts cs (ownParts b)).counts
        (itemsC 0 (kdItems kd real)) (ownParts b) :=
      fun t ht => hGC t (by rw [hcs]; exact List.mem_append_left _ ht)
    have pos : ∀ x ∈ kdItems kd real, x.2.1.nonEmpty (ownParts b) := by
      intro x hx
      unfold kdItems itemsOf at hx
      simp only [List.mem_append, List.mem_map] at hx
      rcases hx with (⟨t, ht, rfl⟩ | ⟨t, ht, rfl⟩) | ⟨t, ht, rfl⟩
      · exact hpk t (deps_mem ht) (List.mem_filter.1 ht).2
      · exact hpr t (deps_mem ht)
      · exact hpr t (indeps_mem ht)
    have hP : ownParts b ≠ [] := by
      have hr := hpr tr htr
      have hwr' := hwr tr htr
      cases hd : tr.head with
      | mean _ _ n => rw [hd] at hr; exact totalN_ne (f := n) hr
      | reg _ _ n => rw [hd] at hr; exact totalN_ne (f := n) hr
      | vq slots =>
        rw [hd] at hr hwr'
        obtain ⟨s, hs⟩ := List.exists_mem_of_ne_nil _ hwr'.1
        exact totalN_ne (hr s hs).1
    obtain ⟨r1, h1, v1, n1⟩ := group_value (cn (ownParts b)) eps heps log (ownParts b) iT iC "kd" (by decide) pos
    obtain ⟨r2, h2, v2, n2⟩ := group_value (cn (ownParts b)) eps heps log (ownParts b) iT iC "real" (by decide) pos
    obtain ⟨r3, h3, v3, n3⟩ := group_value (cn (ownParts b)) eps heps log (ownParts b) iT iC "independent"
      (by decide) pos
    have f1 : (kdItems kd real).filter (fun x => decide (x.1 = "kd")) =
        (itemsOf "kd" (deps kd)).filter (fun x => decide (x.1 = "kd")) := by
      unfold kdItems
      rw [List.filter_append, List.filter_append, filter_itemsOf_ne "kd" "real" (by decide),
        filter_itemsOf_ne "kd" "independent" (by decide), List.append_nil, List.append_nil]
    have f2 : (kdItems kd real).filter (fun x => decide (x.1 = "real")) =
        (itemsOf "real" (deps real)).filter (fun x => decide (x.1 = "real")) := by
      unfold kdItems
      rw [List.filter_append, List.filter_append, filter_itemsOf_ne "real" "kd" (by decide),
        filter_itemsOf_ne "real" "independent" (by decide), List.append_nil, List.nil_append]
    have f3 : (kdItems kd real).filter (fun x => decide (x.1 = "independent")) =
        (itemsOf "independent" (indeps real)).filter (fun x => decide (x.1 = "independent")) := by
      unfold kdItems
      rw [List.filter_append, List.filter_append, filter_itemsOf_ne "independent" "kd" (by decide),
        filter_itemsOf_ne "independent" "real" (by decide), List.nil_append, List.nil_append]
    rw [f1, weighted_items] at v1
    rw [f2, weighted_items] at v2
    rw [f3, weighted_items] at v3
    have ca : constMean eps (suffStat .globalBatch "kd_total_v1" ts cs (ownParts b)).tensors
        (suffStat .globalBatch "kd_total_v1" ts cs (ownParts b)).counts "kd_alpha_sum" "kd_alpha_square_sum"
        "kd_config_replicas" = .ok (scalar dd alpha) :=
      constMean_con eps heps hP hGT hGC (by rw [hts]; simp [cfgT]) (by rw [hts]; simp [cfgT])
        (by rw [hcs]; simp [cfgC])
    have ct : constMean eps (suffStat .globalBatch "kd_total_v1" ts cs (ownParts b)).tensors
        (suffStat .globalBatch "kd_total_v1" ts cs (ownParts b)).counts "kd_temperature_sum"
        "kd_temperature_square_sum" "kd_config_replicas" = .ok (scalar dd temp) :=
      constMean_con eps heps hP hGT hGC (by rw [hts]; simp [cfgT]) (by rw [hts]; simp [cfgT])
        (by rw [hcs]; simp [cfgC])
    cases r1 with
    | none => exact absurd rfl (n1 gk)
    | some k =>
      cases r2 with
      | none => exact absurd rfl (n2 gr)
      | some r =>
        have hfin : finalize eps log (suffStat .globalBatch "kd_total_v1" ts cs (ownParts b)) =
            .ok (kdFormula (scalar dd alpha) (scalar dd temp) k r r3) := by
          unfold finalize
          have hf : (suffStat .globalBatch "kd_total_v1" ts cs (ownParts b)).finalizer = "kd_total_v1" := rfl
          rw [hf, if_neg (by decide), if_neg (by decide), if_pos rfl]
          unfold finalizeKd
          rw [if_neg, ca, ct]
          · dsimp only
            rw [h1, h2, h3]
            dsimp only
            rw [expT, expC]
            rfl
          · simp only [Bool.not_eq_false, Bool.and_eq_true, List.all_eq_true, List.contains_iff_mem]
            exact ⟨fun k hk => ((cn (ownParts b)).ten k).2 (Or.inr hk),
              fun k hk => ((cn (ownParts b)).cnt k).2 (Or.inr hk)⟩
        rw [hfin]
        refine ⟨_, rfl, rfl, rfl, ?_⟩
        have d1 : k.data = [weighted log (deps kd) (ownParts b)] := v1
        have d2 : r.data = [weighted log (deps real) (ownParts b)] := v2
        show (kdFormula (scalar dd alpha) (scalar dd temp) k r r3).data = _
        unfold kdFormula Ten.zip Ten.map
        cases r3 with
        | none =>
          have d3 : weighted log (indeps real) (ownParts b) = 0 := v3
          simp only [d1, d2, Option.getD_none, scalar, List.map_cons, List.map_nil, List.zipWith_cons_cons,
            List.zipWith_nil_left]
          unfold indeps at d3
          rw [d3]
          rfl
        | some i =>
          have d3 : i.data = [weighted log (indeps real) (ownParts b)] := v3
          simp only [d1, d2, d3, Option.getD_some, scalar, List.map_cons, List.map_nil, List.zipWith_cons_cons,
            List.zipWith_nil_left]
          rfl
  · intro h0
    rw [C08_global_sufficient validSchema validSchema_names _ (finalize eps log) _ _ ndT ndC (schema []) b hb]
    have hGC := getC_suff ts cs .globalBatch "kd_total_v1" (ownParts b) ndC
    have iC : GetC (suffStat .globalBatch "kd_total_v1" ts cs (ownParts b)).counts
        (itemsC 0 (kdItems kd real)) (ownParts b) :=
      fun t ht => hGC t (by rw [hcs]; exact List.mem_append_left _ ht)
    have ref : ∀ (g : String), '.' ∉ g.toList →
        (∃ x ∈ kdItems kd real, x.1 = g ∧ ¬ x.2.1.nonEmpty (ownParts b)) →
        ∃ e, finalizeGroup eps log (suffStat .globalBatch "kd_total_v1" ts cs (ownParts b)).tensors
          (suffStat .globalBatch "kd_total_v1" ts cs (ownParts b)).counts g = .error e :=
      fun g hg hx => group_refuses (cn (ownParts b)) eps log (ownParts b) iC g hg hx
    have bad : (∃ e, finalizeGroup eps log (suffStat .globalBatch "kd_total_v1" ts cs (ownParts b)).tensors
          (suffStat .globalBatch "kd_total_v1" ts cs (ownParts b)).counts "kd" = .error e) ∨
        (∃ e, finalizeGroup eps log (suffStat .globalBatch "kd_total_v1" ts cs (ownParts b)).tensors
          (suffStat .globalBatch "kd_total_v1" ts cs (ownParts b)).counts "real" = .error e) ∨
        (∃ e, finalizeGroup eps log (suffStat .globalBatch "kd_total_v1" ts cs (ownParts b)).tensors
          (suffStat .globalBatch "kd_total_v1" ts cs (ownParts b)).counts "independent" = .error e) := by
      rcases h0 with ⟨t, ht, hd, he⟩ | ⟨t, ht, he⟩
      · refine Or.inl (ref "kd" (by decide) ⟨("kd", t.head, t.weight), ?_, rfl, he⟩)
        exact List.mem_append_left _ (List.mem_append_left _
          (List.mem_map.2 ⟨t, List.mem_filter.2 ⟨ht, hd⟩, rfl⟩))
      · cases hd : t.dependent with
        | true =>
          refine Or.inr (Or.inl (ref "real" (by decide) ⟨("real", t.head, t.weight), ?_, rfl, he⟩))
          exact List.mem_append_left _ (List.mem_append_right _
            (List.mem_map.2 ⟨t, List.mem_filter.2 ⟨ht, hd⟩, rfl⟩))
        | false =>
          refine Or.inr (Or.inr (ref "independent" (by decide) ⟨("independent", t.head, t.weight), ?_, rfl, he⟩))
          exact List.mem_append_right _
            (List.mem_map.2 ⟨t, List.mem_filter.2 ⟨ht, by rw [hd]; rfl⟩, rfl⟩)
    have hfin : ∃ e, finalize eps log (suffStat .globalBatch "kd_total_v1" ts cs (ownParts b)) = .error e := by
      unfold finalize
      have hf : (suffStat .globalBatch "kd_total_v1" ts cs (ownParts b)).finalizer = "kd_total_v1" := rfl
      rw [hf, if_neg (by decide), if_neg (by decide), if_pos rfl]
      unfold finalizeKd
      split
      · exact ⟨_, rfl⟩
      · split
        · split
          · rename_i g1 g2 g3
            rcases bad with ⟨e, he⟩ | ⟨e, he⟩ | ⟨e, he⟩
            · rw [g1] at he; cases he
            · rw [g2] at he; cases he
            · rw [g3] at he; cases he
          · exact ⟨_, rfl⟩
        · exact ⟨_, rfl⟩
    obtain ⟨e, he⟩ := hfin
    exact ⟨e, by rw [he]; rfl⟩

end Verif.Total
