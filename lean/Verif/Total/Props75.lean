import Verif.Total.Refuse

/-!
C75: the validation total loss. The statistic that every rank builds for its share of a global batch, reduced
over the ranks and finalised, is the weighted sum of the loss terms over all rows that count; with a teacher
it is `alpha * T^2 * (teacher terms) + (1 - alpha) * (target terms) + (target independent terms)`.
-/

namespace Verif.Total

open Verif.Stats

variable {Part : Type}

/-! ### The schema check reads names only -/

theorem schemaIds_names {α β : Type} (d : Dict α) (e : Dict β) (h : names d = names e) (p : String) :
    schemaIds d p = schemaIds e p := by
  unfold schemaIds; rw [h]

theorem vqIds_names {α β : Type} (d : Dict α) (e : Dict β) (h : names d = names e) (g : String) :
    vqIds d g = vqIds e g := by
  unfold vqIds; rw [h]

theorem names_extract {α : Type} (d : Dict α) (p : String) :
    names (extract d p) = (names d).filterMap (stripPrefix p) := by
  induction d with
  | nil => rfl
  | cons a d ih =>
    obtain ⟨k, v⟩ := a
    unfold extract names at *
    rw [List.filterMap_cons, List.map_cons, List.filterMap_cons]
    cases stripPrefix p k with
    | none => exact ih
    | some r => simp only [Option.map_some, List.map_cons]; rw [ih]

theorem extract_names {α β : Type} (d : Dict α) (e : Dict β) (h : names d = names e) (p : String) :
    names (extract d p) = names (extract e p) := by
  rw [names_extract, names_extract, h]

theorem vqSchema_names {T T' : Dict (Ten ℚ)} {C C' : Dict Int} (hT : names T = names T')
    (hC : names C = names C') : vqSchema T C = vqSchema T' C' := by
  unfold vqSchema
  rw [schemaIds_names T T' hT, hT, hC]

theorem nestedSchemas_names {T T' : Dict (Ten ℚ)} {C C' : Dict Int} (hT : names T = names T')
    (hC : names C = names C') (g : String) (ids : List String) :
    nestedSchemas T C g ids = nestedSchemas T' C' g ids := by
  induction ids with
  | nil => rfl
  | cons i ids ih =>
    unfold nestedSchemas
    dsimp only
    rw [vqSchema_names (extract_names _ _ hT _) (extract_names _ _ hC _), ih]

theorem compositionSchema_names {T T' : Dict (Ten ℚ)} {C C' : Dict Int} (hT : names T = names T')
    (hC : names C = names C') (g : String) : compositionSchema T C g = compositionSchema T' C' g := by
  unfold compositionSchema
  simp only [schemaIds_names T T' hT, vqIds_names T T' hT, nestedSchemas_names hT hC,
    extract_names T T' hT, extract_names C C' hC]

theorem validSchema_names : NamesOnly validSchema := by
  intro a b h1 h2 h3
  have hT : names a.tensors = names b.tensors := h2
  have hC : names a.counts = names b.counts := h3
  unfold validSchema
  simp only [h1, vqSchema_names hT hC, compositionSchema_names hT hC, hT, hC,
    simpleSchema_names a b h1 h2 h3]

/-! ### Without a teacher -/

theorem suffStat_one (scp : Scope) (fin : String) (ts : List (TSpec Part)) (cs : List (CSpec Part)) (p : Part) :
    suffStat scp fin ts cs [p] = ⟨scp, fin, atT ts p, atC cs p⟩ := by
  unfold suffStat atT atC
  simp

theorem evalTerms_raw (terms : List (Term Part)) (hw : ∀ t ∈ terms, t.head.wellNamed) (p : Part) :
    evalTerms (rawTerms terms p) = .ok (terms.map (fun t => (t.head.statAt p, t.dependent, t.weight))) := by
  induction terms with
  | nil => rfl
  | cons t terms ih =>
    have := ih (fun x hx => hw x (List.mem_cons_of_mem _ hx))
    unfold rawTerms at *
    rw [List.map_cons, evalTerms, raw_stat t.head (hw t (List.mem_cons_self ..)) p]
    dsimp only
    rw [this]
    rfl

/-- the items of a list of terms in a group -/
def itemsOf (g : String) (terms : List (Term Part)) : List (Item Part) :=
  terms.map (fun t => (g, t.head, t.weight))

theorem getT_suff (ts : List (TSpec Part)) (cs : List (CSpec Part)) (scp fin) (P : List Part)
    (hnd : (ts.map TSpec.name).Nodup) : GetT (suffStat scp fin ts cs P).tensors ts P := by
  intro t ht
  exact get?_map ts TSpec.name (fun t => vec t.info (fun i => (P.map (fun p => t.val p i)).sum)) hnd t ht

theorem getC_suff (ts : List (TSpec Part)) (cs : List (CSpec Part)) (scp fin) (P : List Part)
    (hnd : (cs.map CSpec.name).Nodup) : GetC (suffStat scp fin ts cs P).counts cs P := by
  intro c hc
  exact get?_map cs CSpec.name (fun c => (((P.map c.val).sum : Nat) : Int)) hnd c hc

theorem names_suffT (ts : List (TSpec Part)) (cs : List (CSpec Part)) (scp fin) (P : List Part) :
    names (suffStat scp fin ts cs P).tensors = ts.map TSpec.name := by
  simp [names, suffStat, Function.comp_def]

theorem names_suffC (ts : List (TSpec Part)) (cs : List (CSpec Part)) (scp fin) (P : List Part) :
    names (suffStat scp fin ts cs P).counts = cs.map CSpec.name := by
  simp [names, suffStat, Function.comp_def]

theorem weighted_items (log : ℚ → ℚ) (g : String) (terms : List (Term Part)) (P : List Part) :
    (((itemsOf g terms).filter (fun x => decide (x.1 = g))).map (fun x => x.2.2 * x.2.1.value log P)).sum =
      weighted log terms P := by
  unfold itemsOf weighted
  rw [List.filter_eq_self.2]
  · rw [List.map_map]; rfl
  · intro x hx
    rw [List.mem_map] at hx
    obtain ⟨t, _, rfl⟩ := hx
    simp

theorem itemsOf_ok (g : String) (hg : '.' ∉ g.toList) (terms : List (Term Part))
    (hw : ∀ t ∈ terms, t.head.wellNamed) : ∀ x ∈ itemsOf g terms, ItemOk x ∧ x.2.1.wellNamed := by
  intro x hx
  unfold itemsOf at hx
  rw [List.mem_map] at hx
  obtain ⟨t, ht, rfl⟩ := hx
  exact ⟨⟨hg, Head.wellNamed_ids (hw t ht)⟩, hw t ht⟩

theorem forall₂_stats {α β : Type} (R : α → β → Prop) (f : α → β) (b : List (α × Bool))
    (h : ∀ p ∈ b, R p.1 (f p.1)) :
    List.Forall₂ (fun p (s : β × Bool) => R p.1 s.1 ∧ s.2 = p.2) b (b.map (fun p => (f p.1, p.2))) := by
  induction b with
  | nil => exact .nil
  | cons p b ih =>
    exact .cons ⟨h p (List.mem_cons_self ..), rfl⟩ (ih (fun x hx => h x (List.mem_cons_of_mem _ hx)))

/-- Without a teacher. Every rank's statistic is built without an error. If every loss head has entries in
the parts that count, the global batch closes with one evaluation entry whose value is the weighted sum of
the loss terms, each averaged over all rows of all parts that count; otherwise the close is an error. -/
theorem C75_total (eps : ℚ) (heps : 0 ≤ eps) (log : ℚ → ℚ) (terms : List (Term Part)) (hne : terms ≠ [])
    (hw : ∀ t ∈ terms, t.head.wellNamed) (b : List (Part × Bool)) (hb : b ≠ []) :
    ∃ stats : List (SufficientStats × Bool),
      List.Forall₂ (fun p s => plainTotal (rawTerms terms p.1) = .ok s.1 ∧ s.2 = p.2) b stats ∧
      ((∀ t ∈ terms, t.head.nonEmpty (ownParts b)) →
        ∃ v, closeGlobalSuff validSchema (finalize eps log) stats = .ok v ∧
          v.scope = .evaluation ∧ v.count = 1 ∧ v.sum.data = [weighted log terms (ownParts b)]) ∧
      ((∃ t ∈ terms, ¬ t.head.nonEmpty (ownParts b)) →
        ∃ e, closeGlobalSuff validSchema (finalize eps log) stats = .error e) := by
  have hok := itemsOf_ok "all" (by decide) terms hw
  have ndT := itemsT_nodup 0 (itemsOf "all" terms) (fun x hx => (hok x hx).1)
  have ndC := itemsC_nodup 0 (itemsOf "all" terms) (fun x hx => (hok x hx).1)
  have cn : ∀ P, CompNames (suffStat .globalBatch "loss_composition_v1" (itemsT 0 (itemsOf "all" terms))
      (itemsC 0 (itemsOf "all" terms)) P).tensors (suffStat .globalBatch "loss_composition_v1"
      (itemsT 0 (itemsOf "all" terms)) (itemsC 0 (itemsOf "all" terms)) P).counts (itemsOf "all" terms) [] [] :=
    fun P => {
      ten := by intro k; rw [names_suffT]; simp
      cnt := by intro k; rw [names_suffC]; simp
      exT := by simp
      exC := by simp
      dot := fun x hx => (hok x hx).1.1
      well := fun x hx => (hok x hx).2 }
  have hall : ∃ x ∈ itemsOf "all" terms, x.1 = "all" := by
    obtain ⟨t, ht⟩ := List.exists_mem_of_ne_nil _ hne
    exact ⟨_, List.mem_map.2 ⟨t, ht, rfl⟩, rfl⟩
  have expT : ∀ P, eqSet (names (suffStat .globalBatch "loss_composition_v1" (itemsT 0 (itemsOf "all" terms))
      (itemsC 0 (itemsOf "all" terms)) P).tensors) (expectedTensors (suffStat .globalBatch "loss_composition_v1"
      (itemsT 0 (itemsOf "all" terms)) (itemsC 0 (itemsOf "all" terms)) P).tensors "all") = true := by
    intro P
    rw [eqSet_iff]
    intro k
    rw [expectedTensors_mem (cn P) "all" (by decide), names_suffT]
    unfold itemsT
    rw [List.map_flatMap, List.mem_flatMap]
    constructor
    · rintro ⟨x, hx, hk⟩
      refine ⟨x, hx, ?_, hk⟩
      have := List.fst_mem_of_mem_zipIdx hx
      unfold itemsOf at this
      rw [List.mem_map] at this
      obtain ⟨t, _, ht⟩ := this
      rw [← ht]
    · rintro ⟨x, hx, _, hk⟩; exact ⟨x, hx, hk⟩
  have expC : ∀ P, eqSet (names (suffStat .globalBatch "loss_composition_v1" (itemsT 0 (itemsOf "all" terms))
      (itemsC 0 (itemsOf "all" terms)) P).counts) (expectedCounts (suffStat .globalBatch "loss_composition_v1"
      (itemsT 0 (itemsOf "all" terms)) (itemsC 0 (itemsOf "all" terms)) P).tensors
      (suffStat .globalBatch "loss_composition_v1"
      (itemsT 0 (itemsOf "all" terms)) (itemsC 0 (itemsOf "all" terms)) P).counts "all") = true := by
    intro P
    rw [eqSet_iff]
    intro k
    rw [expectedCounts_mem (cn P) "all" (by decide), names_suffC]
    unfold itemsC
    rw [List.map_flatMap, List.mem_flatMap]
    constructor
    · rintro ⟨x, hx, hk⟩
      refine ⟨x, hx, ?_, hk⟩
      have := List.fst_mem_of_mem_zipIdx hx
      unfold itemsOf at this
      rw [List.mem_map] at this
      obtain ⟨t, _, ht⟩ := this
      rw [← ht]
    · rintro ⟨x, hx, _, hk⟩; exact ⟨x, hx, hk⟩
  have schema : ∀ P, validSchema (suffStat .globalBatch "loss_composition_v1" (itemsT 0 (itemsOf "all" terms))
      (itemsC 0 (itemsOf "all" terms)) P) = true := by
    intro P
    obtain ⟨has, h1, h2⟩ := compositionSchema_ok (cn P) "all" (by decide)
    unfold validSchema
    have hf : (suffStat .globalBatch "loss_composition_v1" (itemsT 0 (itemsOf "all" terms))
      (itemsC 0 (itemsOf "all" terms)) P).finalizer = "loss_composition_v1" := rfl
    rw [hf, if_neg (by decide), if_pos rfl]
    simp only [h1, h2 hall, expT P, expC P, Bool.and_self]
  refine ⟨b.map (fun p => (suffStat .globalBatch "loss_composition_v1" (itemsT 0 (itemsOf "all" terms))
      (itemsC 0 (itemsOf "all" terms)) [p.1], p.2)), ?_, ?_⟩
  · apply forall₂_stats (fun (p : Part) s => plainTotal (rawTerms terms p) = .ok s)
      (fun p => suffStat .globalBatch "loss_composition_v1" (itemsT 0 (itemsOf "all" terms))
      (itemsC 0 (itemsOf "all" terms)) [p])
    intro p _
    unfold plainTotal
    rw [evalTerms_raw terms hw]
    dsimp only
    unfold compositionStat
    have ha := addTerms_items p.1 (itemsOf "all" terms) 0 [] [] (fun x hx => (hok x hx).1.2)
      (by simpa [names_atT] using ndT) (by simpa [names_atC] using ndC)
    have e : (terms.map (fun t => (t.head.statAt p.1, t.dependent, t.weight))).map
        (fun t => ("all", t.1, t.2.2)) = (itemsOf "all" terms).map (fun x => (x.1, x.2.1.statAt p.1, x.2.2)) := by
      simp [itemsOf, Function.comp_def]
    rw [e, ha]
    dsimp only
    rw [List.nil_append, List.nil_append, ← suffStat_one]
    unfold SufficientStats.mk?
    rw [if_neg, if_neg (by rw [schema]; decide)]
    rw [suffStat_one]
    simp [atC_nonneg]
  constructor
  · intro hpos
    rw [C08_global_sufficient validSchema validSchema_names _ (finalize eps log) _ _ ndT ndC (schema []) b hb]
    obtain ⟨r, h1, h2, h3⟩ := group_value (cn (ownParts b)) eps heps log (ownParts b)
      (getT_suff _ _ _ _ _ ndT) (getC_suff _ _ _ _ _ ndC) "all" (by decide) (by
        intro x hx
        unfold itemsOf at hx
        rw [List.mem_map] at hx
        obtain ⟨t, ht, rfl⟩ := hx
        exact hpos t ht)
    rw [weighted_items] at h2
    have h3 := h3 hall
    cases r with
    | none => exact absurd rfl h3
    | some v =>
      have hfin : finalize eps log (suffStat .globalBatch "loss_composition_v1" (itemsT 0 (itemsOf "all" terms))
          (itemsC 0 (itemsOf "all" terms)) (ownParts b)) = .ok v := by
        unfold finalize
        have hf : (suffStat .globalBatch "loss_composition_v1" (itemsT 0 (itemsOf "all" terms))
          (itemsC 0 (itemsOf "all" terms)) (ownParts b)).finalizer = "loss_composition_v1" := rfl
        rw [hf, if_neg (by decide), if_pos rfl]
        unfold finalizeLoss
        rw [h1]
        dsimp only
        rw [expT, expC]
        rfl
      rw [hfin]
      exact ⟨_, rfl, rfl, rfl, h2⟩
  · rintro ⟨t, ht, hempty⟩
    rw [C08_global_sufficient validSchema validSchema_names _ (finalize eps log) _ _ ndT ndC (schema []) b hb]
    obtain ⟨e, he⟩ := group_refuses (cn (ownParts b)) eps log (ownParts b) (getC_suff _ _ _ _ _ ndC) "all"
      (by decide) ⟨("all", t.head, t.weight), List.mem_map.2 ⟨t, ht, rfl⟩, rfl, hempty⟩
    refine ⟨e, ?_⟩
    have hf : (suffStat .globalBatch "loss_composition_v1" (itemsT 0 (itemsOf "all" terms))
      (itemsC 0 (itemsOf "all" terms)) (ownParts b)).finalizer = "loss_composition_v1" := rfl
    unfold finalize
    rw [hf, if_neg (by decide), if_pos rfl]
    unfold finalizeLoss
    rw [he]
    rfl

end Verif.Total
