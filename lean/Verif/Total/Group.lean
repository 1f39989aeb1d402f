import Verif.Total.Finalize

/-! The groups of a composition. -/

namespace Verif.Total

open Verif.Stats

variable {Part : Type}

def meanNs : List String := ["mean_sum", "mean_weight_sum", "mean_weight_square_sum"]
def regNs : List String := ["reg_sum", "reg_weight_sum", "reg_weight_square_sum"]
def meanCs : List String := ["mean_count", "mean_replicas"]
def regCs : List String := ["reg_cells", "reg_replicas"]

/-- the tensor `K:g.r` belongs to the head of ordinal `n` -/
def Head.hasT (h : Head Part) (K r : String) (n : Nat) : Prop :=
  match h with
  | .mean _ _ _ => K ∈ meanNs ∧ r = pad4 n
  | .reg _ _ _ => K ∈ regNs ∧ r = pad4 n
  | .vq slots => K = "vq" ∧ ∃ s ∈ slots, ∃ N ∈ s.Ns, r = nkey (pad4 n) (nkey N s.id)

def Head.hasC (h : Head Part) (K r : String) (n : Nat) : Prop :=
  match h with
  | .mean _ _ _ => K ∈ meanCs ∧ r = pad4 n
  | .reg _ _ _ => K ∈ regCs ∧ r = pad4 n
  | .vq slots => K = "vq" ∧ ∃ s ∈ slots, ∃ N ∈ cntNs, r = nkey (pad4 n) (nkey N s.id)

theorem head_ts_mem (h : Head Part) (g : String) (n : Nat) (w : ℚ) (k : String) :
    k ∈ (h.ts g n w).map TSpec.name ↔ ∃ K r, ':' ∉ K.toList ∧ k = ckey K g r ∧ h.hasT K r n := by
  cases h with
  | mean dd s c =>
    have e : ((Head.mean dd s c).ts g n w).map TSpec.name = meanNs.map (fun K => ckey K g (pad4 n)) := rfl
    rw [e, List.mem_map]
    constructor
    · rintro ⟨K, hK, rfl⟩; exact ⟨K, _, by revert K; decide, rfl, hK, rfl⟩
    · rintro ⟨K, r, _, rfl, hK, rfl⟩; exact ⟨K, hK, rfl⟩
  | reg dd s c =>
    have e : ((Head.reg dd s c).ts g n w).map TSpec.name = regNs.map (fun K => ckey K g (pad4 n)) := rfl
    rw [e, List.mem_map]
    constructor
    · rintro ⟨K, hK, rfl⟩; exact ⟨K, _, by revert K; decide, rfl, hK, rfl⟩
    · rintro ⟨K, r, _, rfl, hK, rfl⟩; exact ⟨K, hK, rfl⟩
  | vq slots =>
    have e : ((Head.vq slots).ts g n w).map TSpec.name = ((slotsT slots w).map TSpec.name).map (vkey g n) := by
      simp only [Head.ts, List.map_map]
      rfl
    rw [e, slotsT_names]
    simp only [List.mem_map, List.mem_flatMap]
    constructor
    · rintro ⟨k, ⟨s, hs, N, hN, rfl⟩, rfl⟩
      exact ⟨"vq", _, by decide, rfl, rfl, s, hs, N, hN, rfl⟩
    · rintro ⟨K, r, _, rfl, rfl, s, hs, N, hN, rfl⟩
      exact ⟨_, ⟨s, hs, N, hN, rfl⟩, rfl⟩

theorem head_cs_mem (h : Head Part) (g : String) (n : Nat) (k : String) :
    k ∈ (h.cs g n).map CSpec.name ↔ ∃ K r, ':' ∉ K.toList ∧ k = ckey K g r ∧ h.hasC K r n := by
  cases h with
  | mean dd s c =>
    have e : ((Head.mean dd s c).cs g n).map CSpec.name = meanCs.map (fun K => ckey K g (pad4 n)) := rfl
    rw [e, List.mem_map]
    constructor
    · rintro ⟨K, hK, rfl⟩; exact ⟨K, _, by revert K; decide, rfl, hK, rfl⟩
    · rintro ⟨K, r, _, rfl, hK, rfl⟩; exact ⟨K, hK, rfl⟩
  | reg dd s c =>
    have e : ((Head.reg dd s c).cs g n).map CSpec.name = regCs.map (fun K => ckey K g (pad4 n)) := rfl
    rw [e, List.mem_map]
    constructor
    · rintro ⟨K, hK, rfl⟩; exact ⟨K, _, by revert K; decide, rfl, hK, rfl⟩
    · rintro ⟨K, r, _, rfl, hK, rfl⟩; exact ⟨K, hK, rfl⟩
  | vq slots =>
    have e : ((Head.vq slots).cs g n).map CSpec.name = ((slotsC slots).map CSpec.name).map (vkey g n) := by
      simp only [Head.cs, List.map_map]
      rfl
    rw [e, slotsC_names]
    simp only [List.mem_map, List.mem_flatMap]
    constructor
    · rintro ⟨k, ⟨s, hs, N, hN, rfl⟩, rfl⟩
      exact ⟨"vq", _, by decide, rfl, rfl, s, hs, N, hN, rfl⟩
    · rintro ⟨K, r, _, rfl, rfl, s, hs, N, hN, rfl⟩
      exact ⟨_, ⟨s, hs, N, hN, rfl⟩, rfl⟩

/-- The names of the dictionaries: those of the items, and some names without a colon. -/
structure CompNames (T : Dict (Ten ℚ)) (C : Dict Int) (items : List (Item Part)) (exT exC : List String) :
    Prop where
  ten : ∀ k, k ∈ names T ↔ k ∈ (itemsT 0 items).map TSpec.name ∨ k ∈ exT
  cnt : ∀ k, k ∈ names C ↔ k ∈ (itemsC 0 items).map CSpec.name ∨ k ∈ exC
  exT : ∀ k ∈ exT, ':' ∉ k.toList
  exC : ∀ k ∈ exC, ':' ∉ k.toList
  dot : ∀ x ∈ items, '.' ∉ x.1.toList
  well : ∀ x ∈ items, x.2.1.wellNamed

section

variable {T : Dict (Ten ℚ)} {C : Dict Int} {items : List (Item Part)} {exT exC : List String}
  (h : CompNames T C items exT exC)

include h

theorem CompNames.dotIdx {x : Item Part × Nat} (hx : x ∈ items.zipIdx 0) : '.' ∉ x.1.1.toList :=
  h.dot x.1 (List.fst_mem_of_mem_zipIdx hx)

theorem CompNames.wellIdx {x : Item Part × Nat} (hx : x ∈ items.zipIdx 0) : x.1.2.1.wellNamed :=
  h.well x.1 (List.fst_mem_of_mem_zipIdx hx)

theorem memT (K g r : String) (hK : ':' ∉ K.toList) (hg : '.' ∉ g.toList) :
    ckey K g r ∈ names T ↔ ∃ x ∈ items.zipIdx 0, x.1.1 = g ∧ x.1.2.1.hasT K r x.2 := by
  rw [h.ten]
  constructor
  · rintro (hk | hk)
    · unfold itemsT at hk
      rw [List.map_flatMap, List.mem_flatMap] at hk
      obtain ⟨x, hx, hk⟩ := hk
      rw [head_ts_mem] at hk
      obtain ⟨K', r', hK', he, hh⟩ := hk
      obtain ⟨rfl, rfl, rfl⟩ := ckey_inj hK hK' hg (h.dotIdx hx) he
      exact ⟨x, hx, rfl, hh⟩
    · exact absurd (ckey_colon K g r) (h.exT _ hk)
  · rintro ⟨x, hx, rfl, hh⟩
    left
    unfold itemsT
    rw [List.map_flatMap, List.mem_flatMap]
    exact ⟨x, hx, (head_ts_mem _ _ _ _ _).2 ⟨K, r, hK, rfl, hh⟩⟩

theorem memC (K g r : String) (hK : ':' ∉ K.toList) (hg : '.' ∉ g.toList) :
    ckey K g r ∈ names C ↔ ∃ x ∈ items.zipIdx 0, x.1.1 = g ∧ x.1.2.1.hasC K r x.2 := by
  rw [h.cnt]
  constructor
  · rintro (hk | hk)
    · unfold itemsC at hk
      rw [List.map_flatMap, List.mem_flatMap] at hk
      obtain ⟨x, hx, hk⟩ := hk
      rw [head_cs_mem] at hk
      obtain ⟨K', r', hK', he, hh⟩ := hk
      obtain ⟨rfl, rfl, rfl⟩ := ckey_inj hK hK' hg (h.dotIdx hx) he
      exact ⟨x, hx, rfl, hh⟩
    · exact absurd (ckey_colon K g r) (h.exC _ hk)
  · rintro ⟨x, hx, rfl, hh⟩
    left
    unfold itemsC
    rw [List.map_flatMap, List.mem_flatMap]
    exact ⟨x, hx, (head_cs_mem _ _ _ _).2 ⟨K, r, hK, rfl, hh⟩⟩

end

def Head.isMean : Head Part → Bool | .mean _ _ _ => true | _ => false
def Head.isReg : Head Part → Bool | .reg _ _ _ => true | _ => false
def Head.isVq : Head Part → Bool | .vq _ => true | _ => false

/-- the numbered items of a group with a property -/
def sel (items : List (Item Part)) (g : String) (q : Head Part → Bool) : List (Item Part × Nat) :=
  (items.zipIdx 0).filter (fun x => decide (x.1.1 = g) && q x.1.2.1)

theorem mem_sel {items : List (Item Part)} {g : String} {q : Head Part → Bool} {x : Item Part × Nat} :
    x ∈ sel items g q ↔ x ∈ items.zipIdx 0 ∧ x.1.1 = g ∧ q x.1.2.1 = true := by
  simp [sel]

theorem sel_pads_nodup (items : List (Item Part)) (g : String) (q : Head Part → Bool) :
    ((sel items g q).map (fun x => pad4 x.2)).Nodup := by
  rw [List.nodup_iff_pairwise_ne, List.pairwise_map]
  refine ((zipIdx_pairwise items 0).filter _).imp ?_
  intro a b hab he
  exact hab (pad4_inj he)

section

variable {T : Dict (Ten ℚ)} {C : Dict Int} {items : List (Item Part)} {exT exC : List String}
  (h : CompNames T C items exT exC)

include h

theorem mean_ids (g : String) (hg : '.' ∉ g.toList) :
    (schemaIds T ("mean_sum:" ++ g ++ ".")).Perm ((sel items g Head.isMean).map (fun x => pad4 x.2)) := by
  rw [List.perm_ext_iff_of_nodup (nodup_schemaIds _ _) (sel_pads_nodup _ _ _)]
  intro id
  rw [mem_schemaIds]
  have e : "mean_sum:" ++ g ++ "." ++ id = ckey "mean_sum" g id := rfl
  rw [e, memT h _ _ _ (by decide) hg, List.mem_map]
  constructor
  · rintro ⟨x, hx, hg', hh⟩
    refine ⟨x, mem_sel.2 ⟨hx, hg', ?_⟩, ?_⟩ <;> cases hd : x.1.2.1 <;> rw [hd] at hh
    · rfl
    · exact absurd hh.1 (by decide)
    · exact absurd hh.1 (by decide)
    · exact hh.2.symm
    · exact absurd hh.1 (by decide)
    · exact absurd hh.1 (by decide)
  · rintro ⟨x, hx, rfl⟩
    obtain ⟨hx, hg', hq⟩ := mem_sel.1 hx
    refine ⟨x, hx, hg', ?_⟩
    cases hd : x.1.2.1 <;> rw [hd] at hq
    · exact ⟨by decide, rfl⟩
    · cases hq
    · cases hq

theorem reg_ids (g : String) (hg : '.' ∉ g.toList) :
    (schemaIds T ("reg_sum:" ++ g ++ ".")).Perm ((sel items g Head.isReg).map (fun x => pad4 x.2)) := by
  rw [List.perm_ext_iff_of_nodup (nodup_schemaIds _ _) (sel_pads_nodup _ _ _)]
  intro id
  rw [mem_schemaIds]
  have e : "reg_sum:" ++ g ++ "." ++ id = ckey "reg_sum" g id := rfl
  rw [e, memT h _ _ _ (by decide) hg, List.mem_map]
  constructor
  · rintro ⟨x, hx, hg', hh⟩
    refine ⟨x, mem_sel.2 ⟨hx, hg', ?_⟩, ?_⟩ <;> cases hd : x.1.2.1 <;> rw [hd] at hh
    · exact absurd hh.1 (by decide)
    · rfl
    · exact absurd hh.1 (by decide)
    · exact absurd hh.1 (by decide)
    · exact hh.2.symm
    · exact absurd hh.1 (by decide)
  · rintro ⟨x, hx, rfl⟩
    obtain ⟨hx, hg', hq⟩ := mem_sel.1 hx
    refine ⟨x, hx, hg', ?_⟩
    cases hd : x.1.2.1 <;> rw [hd] at hq
    · cases hq
    · exact ⟨by decide, rfl⟩
    · cases hq

theorem vq_ids (g : String) (hg : '.' ∉ g.toList) :
    (vqIds T g).Perm ((sel items g Head.isVq).map (fun x => pad4 x.2)) := by
  have hnd : (vqIds T g).Nodup := List.nodup_dedup _
  rw [List.perm_ext_iff_of_nodup hnd (sel_pads_nodup _ _ _)]
  intro id
  rw [mem_vqIds, List.mem_map]
  constructor
  · rintro ⟨r, hr, rfl⟩
    have e : "vq:" ++ g ++ "." ++ r = ckey "vq" g r := rfl
    rw [e, memT h _ _ _ (by decide) hg] at hr
    obtain ⟨x, hx, hg', hh⟩ := hr
    refine ⟨x, mem_sel.2 ⟨hx, hg', ?_⟩, ?_⟩ <;> cases hd : x.1.2.1 <;> rw [hd] at hh
    · exact absurd hh.1 (by decide)
    · exact absurd hh.1 (by decide)
    · rfl
    · exact absurd hh.1 (by decide)
    · exact absurd hh.1 (by decide)
    · obtain ⟨_, s, hs, N, hN, rfl⟩ := hh
      exact (beforeColon_nkey _ _ (pad4_colon _)).symm
  · rintro ⟨x, hx, rfl⟩
    obtain ⟨hx, hg', hq⟩ := mem_sel.1 hx
    have hw := h.wellIdx hx
    cases hd : x.1.2.1 with
    | mean _ _ _ => rw [hd] at hq; cases hq
    | reg _ _ _ => rw [hd] at hq; cases hq
    | vq slots =>
      rw [hd] at hw
      obtain ⟨s, hs⟩ := List.exists_mem_of_ne_nil _ hw.1
      refine ⟨nkey (pad4 x.2) (nkey "embed_sum" s.id), ?_, beforeColon_nkey _ _ (pad4_colon _)⟩
      have e : "vq:" ++ g ++ "." ++ nkey (pad4 x.2) (nkey "embed_sum" s.id) =
        ckey "vq" g (nkey (pad4 x.2) (nkey "embed_sum" s.id)) := rfl
      rw [e, memT h _ _ _ (by decide) hg]
      refine ⟨x, hx, hg', ?_⟩
      rw [hd]
      exact ⟨rfl, s, hs, "embed_sum", by simp [Slot.Ns, baseNs], rfl⟩

omit h in
theorem zip_unique {x y : Item Part × Nat} (hx : x ∈ items.zipIdx 0) (hy : y ∈ items.zipIdx 0)
    (he : x.2 = y.2) : x = y := by
  have h1 := List.mem_zipIdx hx
  have h2 := List.mem_zipIdx hy
  obtain ⟨a, n⟩ := x
  obtain ⟨b, m⟩ := y
  simp only at he
  subst he
  have h3 := h1.2.2
  have h4 := h2.2.2
  simp only at h3 h4
  rw [h3, h4]

/-- the nested dictionaries of a VQ item -/
theorem nested_names (x : Item Part × Nat) (hx : x ∈ items.zipIdx 0) (slots : List (Slot Part))
    (hd : x.1.2.1 = .vq slots) :
    SlotNames (extract T ("vq:" ++ x.1.1 ++ "." ++ pad4 x.2 ++ ":"))
      (extract C ("vq:" ++ x.1.1 ++ "." ++ pad4 x.2 ++ ":")) slots := by
  have hg := h.dotIdx hx
  have e : ∀ k, "vq:" ++ x.1.1 ++ "." ++ pad4 x.2 ++ ":" ++ k = ckey "vq" x.1.1 (nkey (pad4 x.2) k) := by
    intro k
    unfold ckey nkey
    apply str_ext; simp
  constructor
  · intro k
    rw [mem_names_extract, e, memT h _ _ _ (by decide) hg]
    constructor
    · rintro ⟨y, hy, -, hh⟩
      cases hdy : y.1.2.1 <;> rw [hdy] at hh
      · exact absurd hh.1 (by decide)
      · exact absurd hh.1 (by decide)
      · obtain ⟨_, s, hs, N, hN, hk⟩ := hh
        obtain ⟨h1, h2⟩ := nkey_inj (pad4_colon _) (pad4_colon _) hk
        have := zip_unique hx hy (pad4_inj h1)
        subst this
        rw [hd] at hdy
        cases hdy
        exact ⟨s, hs, N, hN, h2⟩
    · rintro ⟨s, hs, N, hN, rfl⟩
      refine ⟨x, hx, rfl, ?_⟩
      rw [hd]
      exact ⟨rfl, s, hs, N, hN, rfl⟩
  · intro k
    rw [mem_names_extract, e, memC h _ _ _ (by decide) hg]
    constructor
    · rintro ⟨y, hy, -, hh⟩
      cases hdy : y.1.2.1 <;> rw [hdy] at hh
      · exact absurd hh.1 (by decide)
      · exact absurd hh.1 (by decide)
      · obtain ⟨_, s, hs, N, hN, hk⟩ := hh
        obtain ⟨h1, h2⟩ := nkey_inj (pad4_colon _) (pad4_colon _) hk
        have := zip_unique hx hy (pad4_inj h1)
        subst this
        rw [hd] at hdy
        cases hdy
        exact ⟨s, hs, N, hN, h2⟩
    · rintro ⟨s, hs, N, hN, rfl⟩
      refine ⟨x, hx, rfl, ?_⟩
      rw [hd]
      exact ⟨rfl, s, hs, N, hN, rfl⟩

/-! ### The schema -/

theorem nestedSchemas_ok (g : String) : ∀ L : List (Item Part × Nat), (∀ x ∈ L, x ∈ sel items g Head.isVq) →
    nestedSchemas T C g (L.map (fun x => pad4 x.2)) = .ok () := by
  intro L
  induction L with
  | nil => intro _; rfl
  | cons x L ih =>
    intro hL
    obtain ⟨hx, rfl, hq⟩ := mem_sel.1 (hL x (List.mem_cons_self ..))
    have hw := h.wellIdx hx
    cases hd : x.1.2.1 with
    | mean _ _ _ => rw [hd] at hq; cases hq
    | reg _ _ _ => rw [hd] at hq; cases hq
    | vq slots =>
      rw [hd] at hw
      rw [List.map_cons, nestedSchemas]
      simp only [vqSchema_ok (nested_names h x hx slots hd) hw.2.1 hw.1]
      exact ih (fun y hy => hL y (List.mem_cons_of_mem _ hy))

theorem compositionSchema_ok (g : String) (hg : '.' ∉ g.toList) :
    ∃ has, compositionSchema T C g = .ok (expectedTensors T g, expectedCounts T C g, has) ∧
      ((∃ x ∈ items, x.1 = g) → has = true) := by
  obtain ⟨L, hL, he⟩ := perm_map_inv (fun x : Item Part × Nat => pad4 x.2) (vq_ids h g hg) _ rfl
  have hn : nestedSchemas T C g (vqIds T g) = .ok () := by
    rw [he]; exact nestedSchemas_ok h g L (fun x hx => hL.mem_iff.1 hx)
  unfold compositionSchema
  simp only [hn]
  refine ⟨_, rfl, ?_⟩
  rintro ⟨x, hx, rfl⟩
  obtain ⟨n, hn'⟩ : ∃ n, (x, n) ∈ items.zipIdx 0 := by
    obtain ⟨i, hi, rfl⟩ := List.mem_iff_getElem.1 hx
    exact ⟨i, by rw [List.mem_iff_getElem]; exact ⟨i, by simpa using hi, by simp⟩⟩
  have ne : ∀ {l : List String} {L : List (Item Part × Nat)}, l.Perm (L.map (fun x => pad4 x.2)) →
      (x, n) ∈ L → (!l.isEmpty) = true := by
    intro l L hp hm
    have := hp.mem_iff.2 (List.mem_map.2 ⟨_, hm, rfl⟩)
    cases l with
    | nil => simp at this
    | cons a l => rfl
  simp only [Bool.or_eq_true]
  cases hd : x.2.1 with
  | mean a b c =>
    exact Or.inl (Or.inl (ne (mean_ids h x.1 hg) (mem_sel.2 ⟨hn', rfl, by simp only [hd]; rfl⟩)))
  | reg a b c =>
    exact Or.inl (Or.inr (ne (reg_ids h x.1 hg) (mem_sel.2 ⟨hn', rfl, by simp only [hd]; rfl⟩)))
  | vq s => exact Or.inr (ne (vq_ids h x.1 hg) (mem_sel.2 ⟨hn', rfl, by simp only [hd]; rfl⟩))

omit h in
theorem mem_ids {l : List String} {L : List (Item Part × Nat)} (hp : l.Perm (L.map (fun x => pad4 x.2)))
    (id : String) : id ∈ l ↔ ∃ x ∈ L, pad4 x.2 = id := by
  rw [hp.mem_iff, List.mem_map]

theorem expectedTensors_mem (g : String) (hg : '.' ∉ g.toList) (k : String) :
    k ∈ expectedTensors T g ↔ ∃ x ∈ items.zipIdx 0, x.1.1 = g ∧
      k ∈ (x.1.2.1.ts x.1.1 x.2 x.1.2.2).map TSpec.name := by
  unfold expectedTensors
  simp only [List.mem_append, List.mem_flatMap, mem_ids (mean_ids h g hg), mem_ids (reg_ids h g hg),
    mem_ids (vq_ids h g hg)]
  have km : ∀ id, termTensorKeys "mean" (g ++ "." ++ id) = meanNs.map (fun K => ckey K g id) := by
    intro id
    simp only [termTensorKeys, meanNs, List.map_cons, List.map_nil, ckey, String.append_assoc]
    rfl
  have kr : ∀ id, termTensorKeys "reg" (g ++ "." ++ id) = regNs.map (fun K => ckey K g id) := by
    intro id
    simp only [termTensorKeys, regNs, List.map_cons, List.map_nil, ckey, String.append_assoc]
    rfl
  have kv : ∀ id k, "vq:" ++ g ++ "." ++ id ++ ":" ++ k = ckey "vq" g (nkey id k) := by
    intro id k
    unfold ckey nkey
    apply str_ext; simp
  simp only [km, kr, kv, List.mem_map]
  constructor
  · rintro ((⟨_, ⟨x, hx, rfl⟩, K, hK, rfl⟩ | ⟨_, ⟨x, hx, rfl⟩, K, hK, rfl⟩) | ⟨_, ⟨x, hx, rfl⟩, k', hk', rfl⟩)
    · replace hx := mem_sel.1 hx
      obtain ⟨hx, rfl, hq⟩ := hx
      refine ⟨x, hx, rfl, ?_⟩
      rw [← List.mem_map, head_ts_mem]
      refine ⟨K, _, by revert K; decide, rfl, ?_⟩
      cases hd : x.1.2.1 <;> rw [hd] at hq
      · exact ⟨hK, rfl⟩
      · cases hq
      · cases hq
    · replace hx := mem_sel.1 hx
      obtain ⟨hx, rfl, hq⟩ := hx
      refine ⟨x, hx, rfl, ?_⟩
      rw [← List.mem_map, head_ts_mem]
      refine ⟨K, _, by revert K; decide, rfl, ?_⟩
      cases hd : x.1.2.1 <;> rw [hd] at hq
      · cases hq
      · exact ⟨hK, rfl⟩
      · cases hq
    · replace hx := mem_sel.1 hx
      obtain ⟨hx, rfl, hq⟩ := hx
      refine ⟨x, hx, rfl, ?_⟩
      rw [← List.mem_map, head_ts_mem]
      cases hd : x.1.2.1 with
      | mean _ _ _ => rw [hd] at hq; cases hq
      | reg _ _ _ => rw [hd] at hq; cases hq
      | vq slots =>
        rw [(nested_names h x hx slots hd).ten] at hk'
        obtain ⟨s, hs, N, hN, rfl⟩ := hk'
        exact ⟨"vq", _, by decide, rfl, rfl, s, hs, N, hN, rfl⟩
  · rintro ⟨x, hx, rfl, hk⟩
    rw [← List.mem_map, head_ts_mem] at hk
    obtain ⟨K, r, hKc, rfl, hh⟩ := hk
    cases hd : x.1.2.1 with
    | mean a b c =>
      rw [hd] at hh
      obtain ⟨hK, rfl⟩ := hh
      exact Or.inl (Or.inl ⟨_, ⟨x, mem_sel.2 ⟨hx, rfl, by rw [hd]; rfl⟩, rfl⟩, K, hK, rfl⟩)
    | reg a b c =>
      rw [hd] at hh
      obtain ⟨hK, rfl⟩ := hh
      exact Or.inl (Or.inr ⟨_, ⟨x, mem_sel.2 ⟨hx, rfl, by rw [hd]; rfl⟩, rfl⟩, K, hK, rfl⟩)
    | vq slots =>
      rw [hd] at hh
      obtain ⟨rfl, s, hs, N, hN, rfl⟩ := hh
      refine Or.inr ⟨_, ⟨x, mem_sel.2 ⟨hx, rfl, by rw [hd]; rfl⟩, rfl⟩, nkey N s.id, ?_, rfl⟩
      rw [(nested_names h x hx slots hd).ten]
      exact ⟨s, hs, N, hN, rfl⟩

theorem expectedCounts_mem (g : String) (hg : '.' ∉ g.toList) (k : String) :
    k ∈ expectedCounts T C g ↔ ∃ x ∈ items.zipIdx 0, x.1.1 = g ∧
      k ∈ (x.1.2.1.cs x.1.1 x.2).map CSpec.name := by
  unfold expectedCounts
  simp only [List.mem_append, List.mem_flatMap, mem_ids (mean_ids h g hg), mem_ids (reg_ids h g hg),
    mem_ids (vq_ids h g hg)]
  have km : ∀ id, meanCountKeys (g ++ "." ++ id) = meanCs.map (fun K => ckey K g id) := by
    intro id
    simp only [meanCountKeys, meanCs, List.map_cons, List.map_nil, ckey, String.append_assoc]
    rfl
  have kr : ∀ id, regCountKeys (g ++ "." ++ id) = regCs.map (fun K => ckey K g id) := by
    intro id
    simp only [regCountKeys, regCs, List.map_cons, List.map_nil, ckey, String.append_assoc]
    rfl
  have kv : ∀ id k, "vq:" ++ g ++ "." ++ id ++ ":" ++ k = ckey "vq" g (nkey id k) := by
    intro id k
    unfold ckey nkey
    apply str_ext; simp
  simp only [km, kr, kv, List.mem_map]
  constructor
  · rintro ((⟨_, ⟨x, hx, rfl⟩, K, hK, rfl⟩ | ⟨_, ⟨x, hx, rfl⟩, K, hK, rfl⟩) | ⟨_, ⟨x, hx, rfl⟩, k', hk', rfl⟩)
    · replace hx := mem_sel.1 hx
      obtain ⟨hx, rfl, hq⟩ := hx
      refine ⟨x, hx, rfl, ?_⟩
      rw [← List.mem_map, head_cs_mem]
      refine ⟨K, _, by revert K; decide, rfl, ?_⟩
      cases hd : x.1.2.1 <;> rw [hd] at hq
      · exact ⟨hK, rfl⟩
      · cases hq
      · cases hq
    · replace hx := mem_sel.1 hx
      obtain ⟨hx, rfl, hq⟩ := hx
      refine ⟨x, hx, rfl, ?_⟩
      rw [← List.mem_map, head_cs_mem]
      refine ⟨K, _, by revert K; decide, rfl, ?_⟩
      cases hd : x.1.2.1 <;> rw [hd] at hq
      · cases hq
      · exact ⟨hK, rfl⟩
      · cases hq
    · replace hx := mem_sel.1 hx
      obtain ⟨hx, rfl, hq⟩ := hx
      refine ⟨x, hx, rfl, ?_⟩
      rw [← List.mem_map, head_cs_mem]
      cases hd : x.1.2.1 with
      | mean _ _ _ => rw [hd] at hq; cases hq
      | reg _ _ _ => rw [hd] at hq; cases hq
      | vq slots =>
        rw [(nested_names h x hx slots hd).cnt] at hk'
        obtain ⟨s, hs, N, hN, rfl⟩ := hk'
        exact ⟨"vq", _, by decide, rfl, rfl, s, hs, N, hN, rfl⟩
  · rintro ⟨x, hx, rfl, hk⟩
    rw [← List.mem_map, head_cs_mem] at hk
    obtain ⟨K, r, hKc, rfl, hh⟩ := hk
    cases hd : x.1.2.1 with
    | mean a b c =>
      rw [hd] at hh
      obtain ⟨hK, rfl⟩ := hh
      exact Or.inl (Or.inl ⟨_, ⟨x, mem_sel.2 ⟨hx, rfl, by rw [hd]; rfl⟩, rfl⟩, K, hK, rfl⟩)
    | reg a b c =>
      rw [hd] at hh
      obtain ⟨hK, rfl⟩ := hh
      exact Or.inl (Or.inr ⟨_, ⟨x, mem_sel.2 ⟨hx, rfl, by rw [hd]; rfl⟩, rfl⟩, K, hK, rfl⟩)
    | vq slots =>
      rw [hd] at hh
      obtain ⟨rfl, s, hs, N, hN, rfl⟩ := hh
      refine Or.inr ⟨_, ⟨x, mem_sel.2 ⟨hx, rfl, by rw [hd]; rfl⟩, rfl⟩, nkey N s.id, ?_, rfl⟩
      rw [(nested_names h x hx slots hd).cnt]
      exact ⟨s, hs, N, hN, rfl⟩

/-! ### The value of a group -/

theorem group_value (eps : ℚ) (heps : 0 ≤ eps) (log : ℚ → ℚ) (P : List Part)
    (hT : GetT T (itemsT 0 items) P) (hC : GetC C (itemsC 0 items) P) (g : String) (hg : '.' ∉ g.toList)
    (hpos : ∀ x ∈ items, x.2.1.nonEmpty P) :
    ∃ r, finalizeGroup eps log T C g = .ok r ∧
      AccIs r ((items.filter (fun x => decide (x.1 = g))).map (fun x => x.2.2 * x.2.1.value log P)).sum ∧
      ((∃ x ∈ items, x.1 = g) → r ≠ none) := by
  have gT : ∀ x ∈ items.zipIdx 0, GetT T (x.1.2.1.ts x.1.1 x.2 x.1.2.2) P := fun x hx t ht =>
    hT t (List.mem_flatMap.2 ⟨x, hx, ht⟩)
  have gC : ∀ x ∈ items.zipIdx 0, GetC C (x.1.2.1.cs x.1.1 x.2) P := fun x hx c hc =>
    hC c (List.mem_flatMap.2 ⟨x, hx, hc⟩)
  have pos : ∀ x ∈ items.zipIdx 0, x.1.2.1.nonEmpty P := fun x hx =>
    hpos x.1 (List.fst_mem_of_mem_zipIdx hx)
  let v : Item Part × Nat → ℚ := fun x => x.1.2.2 * x.1.2.1.value log P
  have hmean : ∀ x ∈ sel items g Head.isMean, ∃ t, meanValue eps T C g (pad4 x.2) = .ok t ∧ t.data = [v x] := by
    intro x hx
    replace hx := mem_sel.1 hx
    obtain ⟨hx, rfl, hq⟩ := hx
    have h1 := gT x hx
    have h2 := gC x hx
    have h3 := pos x hx
    cases hd : x.1.2.1 with
    | reg _ _ _ => rw [hd] at hq; cases hq
    | vq _ => rw [hd] at hq; cases hq
    | mean dd s c =>
      rw [hd] at h1 h2 h3
      have h3' : 0 < totalN c P := h3
      have hP := totalN_ne h3'
      have k : ∀ K : String, K ++ ":" ++ (x.1.1 ++ "." ++ pad4 x.2) = ckey K x.1.1 (pad4 x.2) := fun K => by
        unfold ckey; simp only [String.append_assoc]
      unfold meanValue
      have c1 : countOf C ("mean_count:" ++ (x.1.1 ++ "." ++ pad4 x.2)) = (totalN c P : Int) := by
        have := k "mean_count"
        rw [show "mean_count:" = "mean_count" ++ ":" from rfl, this]
        exact getC_count h2 (by simp [Head.cs])
      have c2 : constMean eps T C ("mean_weight_sum:" ++ (x.1.1 ++ "." ++ pad4 x.2))
          ("mean_weight_square_sum:" ++ (x.1.1 ++ "." ++ pad4 x.2))
          ("mean_replicas:" ++ (x.1.1 ++ "." ++ pad4 x.2)) = .ok (scalar dd x.1.2.2) := by
        rw [show "mean_weight_sum:" = "mean_weight_sum" ++ ":" from rfl,
          show "mean_weight_square_sum:" = "mean_weight_square_sum" ++ ":" from rfl,
          show "mean_replicas:" = "mean_replicas" ++ ":" from rfl, k, k, k]
        exact constMean_con eps heps hP h1 h2 (by simp [Head.ts]) (by simp [Head.ts]) (by simp [Head.cs])
      have c3 : lookup T ("mean_sum:" ++ (x.1.1 ++ "." ++ pad4 x.2)) = .ok (scalar dd (total s P)) := by
        rw [show "mean_sum:" = "mean_sum" ++ ":" from rfl, k]
        exact getT_sca h1 (by simp [Head.ts])
      simp only [c1, c2, c3]
      rw [if_neg (by omega)]
      refine ⟨_, rfl, ?_⟩
      show [x.1.2.2 * total s P / ((totalN c P : Int) : ℚ)] = [v x]
      simp only [v, hd, Head.value]
      push_cast
      rw [mul_div_assoc]
  have hreg : ∀ x ∈ sel items g Head.isReg, ∃ t, regValue eps T C g (pad4 x.2) = .ok t ∧ t.data = [v x] := by
    intro x hx
    replace hx := mem_sel.1 hx
    obtain ⟨hx, rfl, hq⟩ := hx
    have h1 := gT x hx
    have h2 := gC x hx
    have h3 := pos x hx
    cases hd : x.1.2.1 with
    | mean _ _ _ => rw [hd] at hq; cases hq
    | vq _ => rw [hd] at hq; cases hq
    | reg dd s c =>
      rw [hd] at h1 h2 h3
      have h3' : 0 < totalN c P := h3
      have hP := totalN_ne h3'
      have k : ∀ K : String, K ++ ":" ++ (x.1.1 ++ "." ++ pad4 x.2) = ckey K x.1.1 (pad4 x.2) := fun K => by
        unfold ckey; simp only [String.append_assoc]
      unfold regValue
      have c1 : countOf C ("reg_cells:" ++ (x.1.1 ++ "." ++ pad4 x.2)) = (totalN c P : Int) := by
        rw [show "reg_cells:" = "reg_cells" ++ ":" from rfl, k]
        exact getC_count h2 (by simp [Head.cs])
      have c2 : constMean eps T C ("reg_weight_sum:" ++ (x.1.1 ++ "." ++ pad4 x.2))
          ("reg_weight_square_sum:" ++ (x.1.1 ++ "." ++ pad4 x.2))
          ("reg_replicas:" ++ (x.1.1 ++ "." ++ pad4 x.2)) = .ok (scalar dd x.1.2.2) := by
        rw [show "reg_weight_sum:" = "reg_weight_sum" ++ ":" from rfl,
          show "reg_weight_square_sum:" = "reg_weight_square_sum" ++ ":" from rfl,
          show "reg_replicas:" = "reg_replicas" ++ ":" from rfl, k, k, k]
        exact constMean_con eps heps hP h1 h2 (by simp [Head.ts]) (by simp [Head.ts]) (by simp [Head.cs])
      have c3 : lookup T ("reg_sum:" ++ (x.1.1 ++ "." ++ pad4 x.2)) = .ok (scalar dd (total s P)) := by
        rw [show "reg_sum:" = "reg_sum" ++ ":" from rfl, k]
        exact getT_sca h1 (by simp [Head.ts])
      simp only [c1, c2, c3]
      rw [if_neg (by omega)]
      refine ⟨_, rfl, ?_⟩
      show [x.1.2.2 * (total s P / ((totalN c P : Int) : ℚ)) ^ 2] = [v x]
      simp only [v, hd, Head.value]
      push_cast
      rfl
  have hvq : ∀ x ∈ sel items g Head.isVq, ∃ t, vqValue eps log T C g (pad4 x.2) = .ok t ∧ t.data = [v x] := by
    intro x hx
    replace hx := mem_sel.1 hx
    obtain ⟨hx, rfl, hq⟩ := hx
    have h1 := gT x hx
    have h2 := gC x hx
    have h3 := pos x hx
    have hw := h.wellIdx hx
    cases hd : x.1.2.1 with
    | mean _ _ _ => rw [hd] at hq; cases hq
    | reg _ _ _ => rw [hd] at hq; cases hq
    | vq slots =>
      rw [hd] at h1 h2 h3 hw
      have e : ∀ k, "vq:" ++ x.1.1 ++ "." ++ pad4 x.2 ++ ":" ++ k = vkey x.1.1 x.2 k := by
        intro k
        unfold vkey ckey nkey
        apply str_ext; simp
      obtain ⟨t, ht, hdata⟩ := finalizeVq_ok eps heps log (extract T ("vq:" ++ x.1.1 ++ "." ++ pad4 x.2 ++ ":"))
        (extract C ("vq:" ++ x.1.1 ++ "." ++ pad4 x.2 ++ ":")) slots (nested_names h x hx slots hd) hw.2.1 hw.1
        x.1.2.2 P
        (by
          intro t ht
          rw [get?_extract, e]
          exact h1 (renT (vkey x.1.1 x.2) t) (List.mem_map.2 ⟨t, ht, rfl⟩))
        (by
          intro c hc
          rw [get?_extract, e]
          exact h2 (renC (vkey x.1.1 x.2) c) (List.mem_map.2 ⟨c, hc, rfl⟩))
        h3
      refine ⟨t, ht, ?_⟩
      rw [hdata]
      simp only [v, hd, Head.value]
  obtain ⟨r1, a1, b1, d1⟩ := addAll_ids (meanValue eps T C g) (fun x : Item Part × Nat => pad4 x.2) v _ _
    (mean_ids h g hg) none 0 rfl hmean
  obtain ⟨r2, a2, b2, d2⟩ := addAll_ids (regValue eps T C g) (fun x : Item Part × Nat => pad4 x.2) v _ _
    (reg_ids h g hg) r1 _ b1 hreg
  obtain ⟨r3, a3, b3, d3⟩ := addAll_ids (vqValue eps log T C g) (fun x : Item Part × Nat => pad4 x.2) v _ _
    (vq_ids h g hg) r2 _ b2 hvq
  refine ⟨r3, ?_, ?_, ?_⟩
  · unfold finalizeGroup
    simp only [a1, a2, a3]
  · have split : ∀ L : List (Item Part × Nat),
        ((L.filter (fun x => decide (x.1.1 = g) && x.1.2.1.isMean)).map v).sum +
        ((L.filter (fun x => decide (x.1.1 = g) && x.1.2.1.isReg)).map v).sum +
        ((L.filter (fun x => decide (x.1.1 = g) && x.1.2.1.isVq)).map v).sum =
        ((L.filter (fun x => decide (x.1.1 = g))).map v).sum := by
      intro L
      induction L with
      | nil => simp
      | cons x L ih =>
        simp only [List.filter_cons]
        by_cases hgx : x.1.1 = g
        · cases hd : x.1.2.1 <;>
            simp only [hgx, Head.isMean, Head.isReg, Head.isVq, decide_true, Bool.and_self, Bool.and_false,
              if_true, Bool.false_eq_true, if_false, List.map_cons, List.sum_cons, ← ih] <;> ring
        · simp only [hgx, decide_false, Bool.false_and, Bool.false_eq_true, if_false, ← ih]
    have last : ∀ (l : List (Item Part)) (n : Nat),
        (((l.zipIdx n).filter (fun x => decide (x.1.1 = g))).map v).sum =
        ((l.filter (fun x => decide (x.1 = g))).map (fun x => x.2.2 * x.2.1.value log P)).sum := by
      intro l
      induction l with
      | nil => intro n; rfl
      | cons x l ih =>
        intro n
        simp only [List.zipIdx_cons, List.filter_cons]
        by_cases hgx : x.1 = g
        · simp only [hgx, decide_true, if_true, List.map_cons, List.sum_cons, ih, v]
        · simp only [hgx, decide_false, Bool.false_eq_true, if_false, ih]
    rw [← last items 0, ← split]
    simpa only [zero_add, sel] using b3
  · rintro ⟨x, hx, hxg⟩ hr
    obtain ⟨hr2, e3⟩ := d3.1 hr
    obtain ⟨hr1, e2⟩ := d2.1 hr2
    obtain ⟨-, e1⟩ := d1.1 hr1
    obtain ⟨i, hi, rfl⟩ := List.mem_iff_getElem.1 hx
    have hm : (items[i], i) ∈ items.zipIdx 0 := by
      rw [List.mem_iff_getElem]; exact ⟨i, by simpa using hi, by simp⟩
    cases hd : (items[i]).2.1 with
    | mean a b c =>
      have := mem_sel (q := Head.isMean).2 ⟨hm, hxg, by simp only [hd]; rfl⟩
      rw [e1] at this; simp at this
    | reg a b c =>
      have := mem_sel (q := Head.isReg).2 ⟨hm, hxg, by simp only [hd]; rfl⟩
      rw [e2] at this; simp at this
    | vq a =>
      have := mem_sel (q := Head.isVq).2 ⟨hm, hxg, by simp only [hd]; rfl⟩
      rw [e3] at this; simp at this

end

end Verif.Total
