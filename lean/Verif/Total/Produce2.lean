import Verif.Total.Produce

/-! The schema of a VQ statistic, and the dictionaries of a composition. -/

namespace Verif.Total

open Verif.Stats

variable {Part : Type}

/-- the names of the two dictionaries are those of the slots -/
structure SlotNames (T : Dict (Ten ℚ)) (C : Dict Int) (slots : List (Slot Part)) : Prop where
  ten : ∀ k, k ∈ names T ↔ ∃ s ∈ slots, ∃ N ∈ s.Ns, k = nkey N s.id
  cnt : ∀ k, k ∈ names C ↔ ∃ s ∈ slots, ∃ N ∈ cntNs, k = nkey N s.id

theorem slot_unique {slots : List (Slot Part)} (hid : (slots.map Slot.id).Nodup) {a b : Slot Part}
    (ha : a ∈ slots) (hb : b ∈ slots) (h : a.id = b.id) : a = b := by
  induction slots with
  | nil => simp at ha
  | cons s slots ih =>
    simp only [List.map_cons, List.nodup_cons] at hid
    rcases List.mem_cons.1 ha with ha | ha <;> rcases List.mem_cons.1 hb with hb | hb
    · rw [ha, hb]
    · exact absurd (List.mem_map.2 ⟨b, hb, by rw [← h, ha]⟩) hid.1
    · exact absurd (List.mem_map.2 ⟨a, ha, by rw [h, hb]⟩) hid.1
    · exact ih hid.2 ha hb

theorem slot_mem {T : Dict (Ten ℚ)} {C : Dict Int} {slots : List (Slot Part)} (h : SlotNames T C slots)
    (hid : (slots.map Slot.id).Nodup) (s : Slot Part) (hs : s ∈ slots) (N : String)
    (hN : N ∈ baseNs ++ entNs) : nkey N s.id ∈ names T ↔ N ∈ s.Ns := by
  rw [h.ten]
  constructor
  · rintro ⟨s', hs', M, hM, he⟩
    obtain ⟨h1, h2⟩ := nkey_inj (allNs_colon N (List.mem_append_left _ hN)) (Ns_colon s' M hM) he
    rw [slot_unique hid hs hs' h2, h1]; exact hM
  · intro hN; exact ⟨s, hs, N, hN, rfl⟩

theorem slot_ids {T : Dict (Ten ℚ)} {C : Dict Int} {slots : List (Slot Part)} (h : SlotNames T C slots)
    (hid : (slots.map Slot.id).Nodup) : (schemaIds T "embed_sum:").Perm (slots.map Slot.id) := by
  rw [List.perm_ext_iff_of_nodup (nodup_schemaIds _ _) hid]
  intro id
  rw [mem_schemaIds, h.ten, List.mem_map]
  constructor
  · rintro ⟨s, hs, N, hN, he⟩
    have he' : nkey "embed_sum" id = nkey N s.id := he
    exact ⟨s, hs, (nkey_inj (by decide) (Ns_colon s N hN) he').2.symm⟩
  · rintro ⟨s, hs, rfl⟩
    exact ⟨s, hs, "embed_sum", by simp [Slot.Ns, baseNs], rfl⟩

theorem ent_present {T : Dict (Ten ℚ)} {C : Dict Int} {slots : List (Slot Part)} (h : SlotNames T C slots)
    (hid : (slots.map Slot.id).Nodup) (s : Slot Part) (hs : s ∈ slots) :
    (entropyKeys s.id).filter (fun k => (names T).contains k) =
      if s.entropy = 0 then [] else entropyKeys s.id := by
  have key : ∀ N ∈ entNs, (nkey N s.id ∈ names T ↔ ¬ s.entropy = 0) := by
    intro N hN
    rw [slot_mem h hid s hs N (List.mem_append_right _ hN)]
    unfold Slot.Ns
    by_cases he : s.entropy = 0
    · simp only [he, if_true, List.append_nil, not_true_eq_false, iff_false]
      revert N; decide
    · simp only [he, if_false, not_false_eq_true, iff_true]
      exact List.mem_append_right _ hN
  have all : ∀ k ∈ entropyKeys s.id, ((names T).contains k = true ↔ ¬ s.entropy = 0) := by
    intro k hk
    have : k ∈ entNs.map (fun N => nkey N s.id) := hk
    rw [List.mem_map] at this
    obtain ⟨N, hN, rfl⟩ := this
    rw [List.contains_iff_mem]
    exact key N hN
  by_cases he : s.entropy = 0
  · rw [if_pos he, List.filter_eq_nil_iff]
    intro k hk
    rw [all k hk]
    simp [he]
  · rw [if_neg he, List.filter_eq_self]
    intro k hk
    rw [all k hk]
    exact he

theorem slotSchema_ok {T : Dict (Ten ℚ)} {C : Dict Int} {slots : List (Slot Part)} (h : SlotNames T C slots)
    (hid : (slots.map Slot.id).Nodup) (s : Slot Part) (hs : s ∈ slots) :
    slotSchema (names T) s.id = .ok (s.Ns.map (fun N => nkey N s.id)) := by
  unfold slotSchema
  simp only [ent_present h hid s hs]
  by_cases he : s.entropy = 0
  · simp only [he, if_true, List.isEmpty_nil]
    simp only [Slot.Ns, he, if_true, List.append_nil]
    rfl
  · simp only [he, if_false]
    rw [if_neg (by simp [entropyKeys]), if_neg (by simp [eqSet_iff])]
    simp only [Slot.Ns, he, if_false, List.map_append]
    rfl

theorem slotsSchema_ok {T : Dict (Ten ℚ)} {C : Dict Int} {slots : List (Slot Part)} (h : SlotNames T C slots)
    (hid : (slots.map Slot.id).Nodup) : ∀ sub : List (Slot Part), (∀ s ∈ sub, s ∈ slots) →
      slotsSchema (names T) (sub.map Slot.id) =
        .ok (sub.flatMap (fun s => s.Ns.map (fun N => nkey N s.id))) := by
  intro sub
  induction sub with
  | nil => intro _; rfl
  | cons s sub ih =>
    intro hs
    rw [List.map_cons, slotsSchema, slotSchema_ok h hid s (hs s (List.mem_cons_self ..)),
      ih (fun x hx => hs x (List.mem_cons_of_mem _ hx))]
    rfl

/-- both schema tests of a VQ statistic -/
theorem vq_sets {T : Dict (Ten ℚ)} {C : Dict Int} {slots : List (Slot Part)} (h : SlotNames T C slots)
    (hid : (slots.map Slot.id).Nodup) :
    ∃ expT, slotsSchema (names T) (schemaIds T "embed_sum:") = .ok expT ∧
      eqSet (names T) expT = true ∧
      eqSet (names C) ((schemaIds T "embed_sum:").flatMap slotCountKeys) = true := by
  obtain ⟨sub, hp, he⟩ := perm_map_inv Slot.id (slot_ids h hid) slots rfl
  rw [he]
  refine ⟨_, slotsSchema_ok h hid sub (fun s hs => hp.mem_iff.1 hs), ?_, ?_⟩
  · rw [eqSet_iff]
    intro k
    rw [h.ten]
    simp only [List.mem_flatMap, List.mem_map]
    constructor
    · rintro ⟨s, hs, N, hN, rfl⟩; exact ⟨s, hp.mem_iff.2 hs, N, hN, rfl⟩
    · rintro ⟨s, hs, N, hN, rfl⟩; exact ⟨s, hp.mem_iff.1 hs, N, hN, rfl⟩
  · rw [eqSet_iff]
    intro k
    rw [h.cnt]
    have e : ∀ id, slotCountKeys id = cntNs.map (fun N => nkey N id) := fun _ => rfl
    simp only [List.mem_flatMap, List.mem_map, e]
    constructor
    · rintro ⟨s, hs, N, hN, rfl⟩; exact ⟨s.id, ⟨s, hp.mem_iff.2 hs, rfl⟩, N, hN, rfl⟩
    · rintro ⟨_, ⟨s, hs, rfl⟩, N, hN, rfl⟩; exact ⟨s, hp.mem_iff.1 hs, N, hN, rfl⟩

theorem ids_ne {T : Dict (Ten ℚ)} {C : Dict Int} {slots : List (Slot Part)} (h : SlotNames T C slots)
    (hid : (slots.map Slot.id).Nodup) (hne : slots ≠ []) :
    (schemaIds T "embed_sum:").isEmpty = false := by
  cases hx : schemaIds T "embed_sum:" with
  | nil =>
    have := (slot_ids h hid).length_eq
    rw [hx] at this
    simp only [List.length_nil, List.length_map] at this
    exact absurd (List.eq_nil_of_length_eq_zero this.symm) hne
  | cons a l => rfl

theorem vqSchema_ok {T : Dict (Ten ℚ)} {C : Dict Int} {slots : List (Slot Part)} (h : SlotNames T C slots)
    (hid : (slots.map Slot.id).Nodup) (hne : slots ≠ []) : vqSchema T C = .ok () := by
  obtain ⟨e, h1, h2, h3⟩ := vq_sets h hid
  unfold vqSchema
  simp only [ids_ne h hid hne, h1, h2, h3, Bool.and_self, if_true, Bool.false_eq_true, if_false]

theorem slotNames_at (slots : List (Slot Part)) (w : ℚ) (T : Dict (Ten ℚ)) (C : Dict Int)
    (hT : names T = (slotsT slots w).map TSpec.name) (hC : names C = (slotsC slots).map CSpec.name) :
    SlotNames T C slots := by
  constructor
  · intro k
    rw [hT, slotsT_names]
    simp only [List.mem_flatMap, List.mem_map]
    constructor
    · rintro ⟨s, hs, N, hN, rfl⟩; exact ⟨s, hs, N, hN, rfl⟩
    · rintro ⟨s, hs, N, hN, rfl⟩; exact ⟨s, hs, N, hN, rfl⟩
  · intro k
    rw [hC, slotsC_names]
    simp only [List.mem_flatMap, List.mem_map]
    constructor
    · rintro ⟨s, hs, N, hN, rfl⟩; exact ⟨s, hs, N, hN, rfl⟩
    · rintro ⟨s, hs, N, hN, rfl⟩; exact ⟨s, hs, N, hN, rfl⟩

theorem atC_nonneg (cs : List (CSpec Part)) (p : Part) :
    (atC cs p).any (fun kv => decide (kv.2 < 0)) = false := by
  simp only [atC, List.any_map, List.any_eq_false, Function.comp_apply, decide_eq_true_eq]
  intro c _
  omega

/-- `_vq_loss_stat` of a well named sidecar -/
theorem vqLossStat_raw (slots : List (Slot Part)) (hne : slots ≠ []) (hid : (slots.map Slot.id).Nodup)
    (hc : ∀ s ∈ slots, s.id ≠ "" ∧ ':' ∉ s.id.toList) (p : Part) :
    vqLossStat (slots.map (fun s => s.raw p)) =
      .ok ⟨.globalBatch, "vq_composition_v1", atT (slotsT slots 1) p, atC (slotsC slots) p⟩ := by
  unfold vqLossStat
  rw [if_neg (by simpa using hne)]
  have := slotLoop_raw p slots [] (by simpa using hid) hc
  simp only [List.nil_append] at this
  have e : slotLoop 1 [] [] (slots.map (fun s => s.raw p)) =
      .ok (atT (slotsT slots 1) p, atC (slotsC slots) p) := this
  rw [e]
  simp only
  unfold SufficientStats.mk?
  rw [if_neg (by simp [atC_nonneg]), if_neg]
  unfold validSchema
  simp only [if_true]
  rw [vqSchema_ok (slotNames_at slots 1 _ _ (names_atT _ _) (names_atC _ _)) hid hne]
  simp [Except.isOk, Except.toBool]

/-! ### The entries of a composition -/

/-- rename the tensors of a statistic -/
def renT (f : String → String) (t : TSpec Part) : TSpec Part := { t with name := f t.name }
def renC (f : String → String) (c : CSpec Part) : CSpec Part := { c with name := f c.name }

/-- `vq:g.n:k` -/
def vkey (g : String) (n : Nat) (k : String) : String := ckey "vq" g (nkey (pad4 n) k)

def Head.ts (h : Head Part) (g : String) (n : Nat) (w : ℚ) : List (TSpec Part) :=
  match h with
  | .mean dd s _ => [sca (ckey "mean_sum" g (pad4 n)) dd s, con (ckey "mean_weight_sum" g (pad4 n)) dd w,
      con (ckey "mean_weight_square_sum" g (pad4 n)) dd (w ^ 2)]
  | .reg dd s _ => [sca (ckey "reg_sum" g (pad4 n)) dd s, con (ckey "reg_weight_sum" g (pad4 n)) dd w,
      con (ckey "reg_weight_square_sum" g (pad4 n)) dd (w ^ 2)]
  | .vq slots => (slotsT slots w).map (renT (vkey g n))

def Head.cs (h : Head Part) (g : String) (n : Nat) : List (CSpec Part) :=
  match h with
  | .mean _ _ c => [⟨ckey "mean_count" g (pad4 n), c⟩, ⟨ckey "mean_replicas" g (pad4 n), fun _ => 1⟩]
  | .reg _ _ c => [⟨ckey "reg_cells" g (pad4 n), c⟩, ⟨ckey "reg_replicas" g (pad4 n), fun _ => 1⟩]
  | .vq slots => (slotsC slots).map (renC (vkey g n))

/-- group, head, weight -/
abbrev Item (Part : Type) := String × Head Part × ℚ

def itemsT (n : Nat) (items : List (Item Part)) : List (TSpec Part) :=
  (items.zipIdx n).flatMap (fun x => x.1.2.1.ts x.1.1 x.2 x.1.2.2)

def itemsC (n : Nat) (items : List (Item Part)) : List (CSpec Part) :=
  (items.zipIdx n).flatMap (fun x => x.1.2.1.cs x.1.1 x.2)

theorem vkey_inj {g g' : String} {n n' : Nat} {k k' : String} (hg : '.' ∉ g.toList) (hg' : '.' ∉ g'.toList)
    (h : vkey g n k = vkey g' n' k') : g = g' ∧ n = n' ∧ k = k' := by
  unfold vkey at h
  obtain ⟨_, h1, h2⟩ := ckey_inj (by decide) (by decide) hg hg' h
  obtain ⟨h3, h4⟩ := nkey_inj (pad4_colon n) (pad4_colon n') h2
  exact ⟨h1, pad4_inj h3, h4⟩

/-- the parts of a composed name: kind, group, ordinal -/
def KeyOf (k : String) (g : String) (n : Nat) : Prop :=
  ∃ K r, ':' ∉ K.toList ∧ k = ckey K g r ∧ beforeColon r = pad4 n

theorem beforeColon_pad (n : Nat) : beforeColon (pad4 n) = pad4 n := by
  apply str_ext
  unfold beforeColon
  rw [String.toList_ofList]
  have := List.takeWhile_append_of_pos (p := fun c : Char => c != ':') (l₁ := (pad4 n).toList) (l₂ := []) ?_
  · simpa using this
  intro c hc
  simp only [bne_iff_ne, ne_eq]
  rintro rfl
  exact pad4_colon n hc

theorem KeyOf_inj {k g g' : String} {n n' : Nat} (hg : '.' ∉ g.toList) (hg' : '.' ∉ g'.toList)
    (h : KeyOf k g n) (h' : KeyOf k g' n') : n = n' := by
  obtain ⟨K, r, hK, rfl, hr⟩ := h
  obtain ⟨K', r', hK', he, hr'⟩ := h'
  obtain ⟨_, _, rfl⟩ := ckey_inj hK hK' hg hg' he
  exact pad4_inj (hr.symm.trans hr')

theorem keyOf_simple (K g : String) (n : Nat) (hK : ':' ∉ K.toList) : KeyOf (ckey K g (pad4 n)) g n :=
  ⟨K, pad4 n, hK, rfl, beforeColon_pad n⟩

theorem keyOf_vkey (g : String) (n : Nat) (k : String) : KeyOf (vkey g n k) g n :=
  ⟨"vq", nkey (pad4 n) k, by decide, rfl, beforeColon_nkey _ _ (pad4_colon n)⟩

theorem head_ts_keyOf (h : Head Part) (g : String) (n : Nat) (w : ℚ) (k : String)
    (hk : k ∈ (h.ts g n w).map TSpec.name) : KeyOf k g n := by
  cases h with
  | mean dd s c =>
    simp only [Head.ts, sca, con, List.map_cons, List.map_nil, List.mem_cons, List.not_mem_nil, or_false] at hk
    rcases hk with rfl | rfl | rfl
    all_goals exact keyOf_simple _ g n (by decide)
  | reg dd s c =>
    simp only [Head.ts, sca, con, List.map_cons, List.map_nil, List.mem_cons, List.not_mem_nil, or_false] at hk
    rcases hk with rfl | rfl | rfl
    all_goals exact keyOf_simple _ g n (by decide)
  | vq slots =>
    simp only [Head.ts, List.map_map, List.mem_map] at hk
    obtain ⟨t, _, rfl⟩ := hk
    exact keyOf_vkey g n t.name

theorem head_cs_keyOf (h : Head Part) (g : String) (n : Nat) (k : String)
    (hk : k ∈ (h.cs g n).map CSpec.name) : KeyOf k g n := by
  cases h with
  | mean dd s c =>
    simp only [Head.cs, List.map_cons, List.map_nil, List.mem_cons, List.not_mem_nil, or_false] at hk
    rcases hk with rfl | rfl
    all_goals exact keyOf_simple _ g n (by decide)
  | reg dd s c =>
    simp only [Head.cs, List.map_cons, List.map_nil, List.mem_cons, List.not_mem_nil, or_false] at hk
    rcases hk with rfl | rfl
    all_goals exact keyOf_simple _ g n (by decide)
  | vq slots =>
    simp only [Head.cs, List.map_map, List.mem_map] at hk
    obtain ⟨t, _, rfl⟩ := hk
    exact keyOf_vkey g n t.name

theorem ckeys_nodup (Ks : List String) (g r : String) (hg : '.' ∉ g.toList) (hK : Ks.Nodup)
    (hc : ∀ K ∈ Ks, ':' ∉ K.toList) : (Ks.map (fun K => ckey K g r)).Nodup := by
  rw [List.nodup_map_iff_inj_on hK]
  intro x hx y hy h
  exact (ckey_inj (hc x hx) (hc y hy) hg hg h).1

/-- the ids of a VQ head are distinct -/
def Head.idsNodup (h : Head Part) : Prop :=
  match h with
  | .vq slots => (slots.map Slot.id).Nodup
  | _ => True

theorem Head.wellNamed_ids {h : Head Part} (hw : h.wellNamed) : h.idsNodup := by
  cases h with
  | mean _ _ _ => trivial
  | reg _ _ _ => trivial
  | vq slots => exact hw.2.1

theorem head_ts_nodup (h : Head Part) (g : String) (n : Nat) (w : ℚ) (hg : '.' ∉ g.toList)
    (hw : h.idsNodup) : ((h.ts g n w).map TSpec.name).Nodup := by
  cases h with
  | mean dd s c =>
    exact ckeys_nodup ["mean_sum", "mean_weight_sum", "mean_weight_square_sum"] g (pad4 n) hg (by decide)
      (by decide)
  | reg dd s c =>
    exact ckeys_nodup ["reg_sum", "reg_weight_sum", "reg_weight_square_sum"] g (pad4 n) hg (by decide)
      (by decide)
  | vq slots =>
    have e : ((Head.vq slots).ts g n w).map TSpec.name = ((slotsT slots w).map TSpec.name).map (vkey g n) := by
      simp only [Head.ts, List.map_map]
      rfl
    rw [e]
    rw [List.nodup_map_iff_inj_on (slotsT_nodup slots w hw)]
    intro x _ y _ h
    exact (vkey_inj hg hg h).2.2

theorem head_cs_nodup (h : Head Part) (g : String) (n : Nat) (hg : '.' ∉ g.toList)
    (hw : h.idsNodup) : ((h.cs g n).map CSpec.name).Nodup := by
  cases h with
  | mean dd s c =>
    exact ckeys_nodup ["mean_count", "mean_replicas"] g (pad4 n) hg (by decide) (by decide)
  | reg dd s c =>
    exact ckeys_nodup ["reg_cells", "reg_replicas"] g (pad4 n) hg (by decide) (by decide)
  | vq slots =>
    have e : ((Head.vq slots).cs g n).map CSpec.name = ((slotsC slots).map CSpec.name).map (vkey g n) := by
      simp only [Head.cs, List.map_map]
      rfl
    rw [e]
    rw [List.nodup_map_iff_inj_on (slotsC_nodup slots hw)]
    intro x _ y _ h
    exact (vkey_inj hg hg h).2.2

/-- well formed items: group names without a dot, distinct slot ids -/
def ItemOk (x : Item Part) : Prop := '.' ∉ x.1.toList ∧ x.2.1.idsNodup

theorem zipIdx_pairwise {α : Type} (l : List α) (n : Nat) :
    (l.zipIdx n).Pairwise (fun a b => a.2 ≠ b.2) := by
  induction l generalizing n with
  | nil => exact List.Pairwise.nil
  | cons a l ih =>
    rw [List.zipIdx_cons, List.pairwise_cons]
    refine ⟨?_, ih (n + 1)⟩
    intro b hb
    have := List.le_snd_of_mem_zipIdx hb
    simp only
    omega

theorem pairwise_mem {α : Type} {R : α → α → Prop} {l : List α} (h : l.Pairwise R) :
    l.Pairwise (fun a b => a ∈ l ∧ b ∈ l ∧ R a b) := List.Pairwise.and_mem.1 h

theorem itemsT_nodup (n : Nat) (items : List (Item Part)) (h : ∀ x ∈ items, ItemOk x) :
    ((itemsT n items).map TSpec.name).Nodup := by
  unfold itemsT
  rw [List.map_flatMap, List.nodup_flatMap]
  have hmem : ∀ x ∈ items.zipIdx n, ItemOk x.1 := fun x hx =>
    h x.1 (List.fst_mem_of_mem_zipIdx hx)
  refine ⟨fun x hx => head_ts_nodup _ _ _ _ (hmem x hx).1 (hmem x hx).2, ?_⟩
  refine (pairwise_mem (zipIdx_pairwise items n)).imp ?_
  rintro a b ⟨ha, hb, hab⟩
  rw [Function.onFun, List.disjoint_left]
  intro k hk hk'
  exact hab (KeyOf_inj (hmem a ha).1 (hmem b hb).1 (head_ts_keyOf _ _ _ _ _ hk) (head_ts_keyOf _ _ _ _ _ hk'))

theorem itemsC_nodup (n : Nat) (items : List (Item Part)) (h : ∀ x ∈ items, ItemOk x) :
    ((itemsC n items).map CSpec.name).Nodup := by
  unfold itemsC
  rw [List.map_flatMap, List.nodup_flatMap]
  have hmem : ∀ x ∈ items.zipIdx n, ItemOk x.1 := fun x hx =>
    h x.1 (List.fst_mem_of_mem_zipIdx hx)
  refine ⟨fun x hx => head_cs_nodup _ _ _ (hmem x hx).1 (hmem x hx).2, ?_⟩
  refine (pairwise_mem (zipIdx_pairwise items n)).imp ?_
  rintro a b ⟨ha, hb, hab⟩
  rw [Function.onFun, List.disjoint_left]
  intro k hk hk'
  exact hab (KeyOf_inj (hmem a ha).1 (hmem b hb).1 (head_cs_keyOf _ _ _ _ hk) (head_cs_keyOf _ _ _ _ hk'))

/-! ### `_add_composition_term` -/

/-- the statistic of a head at a part -/
def Head.statAt (h : Head Part) (p : Part) : Stat :=
  match h with
  | .mean dd s n => .sc ⟨.globalBatch, scalar dd (s p), n p⟩
  | .reg dd s n => .ss ⟨.globalBatch, "policy_mean_square_v1", [("valid_logit_sum", scalar dd (s p))],
      [("valid_cells", n p)]⟩
  | .vq slots => .ss ⟨.globalBatch, "vq_composition_v1", atT (slotsT slots 1) p, atC (slotsC slots) p⟩

theorem raw_stat (h : Head Part) (hw : h.wellNamed) (p : Part) : (h.raw p).stat = .ok (h.statAt p) := by
  cases h with
  | mean dd s n =>
    simp only [Head.raw, RawTerm.stat, SumCount.mk?, Head.statAt]
    rw [if_neg (by omega)]; rfl
  | reg dd s n =>
    simp only [Head.raw, RawTerm.stat, SufficientStats.mk?, Head.statAt]
    rw [if_neg (by simp), if_neg]
    · rfl
    · rw [Bool.not_eq_false]
      rfl
  | vq slots =>
    simp only [Head.raw, RawTerm.stat, Head.statAt]
    rw [vqLossStat_raw slots hw.1 hw.2.1 hw.2.2 p]
    rfl

theorem setKey3 {α : Type} (d : Dict α) (a b c : String × α) (h : (names (d ++ [a, b, c])).Nodup) :
    setKey (setKey (setKey d a.1 a.2) b.1 b.2) c.1 c.2 = d ++ [a, b, c] := by
  have := update_new d [a, b, c] h
  simpa [update] using this

theorem setKey2 {α : Type} (d : Dict α) (a b : String × α) (h : (names (d ++ [a, b])).Nodup) :
    setKey (setKey d a.1 a.2) b.1 b.2 = d ++ [a, b] := by
  have := update_new d [a, b] h
  simpa [update] using this

theorem ckey_eq (K g r : String) : K ++ (":" ++ (g ++ ("." ++ r))) = ckey K g r := by
  unfold ckey; simp only [String.append_assoc]

theorem vkey_eq (g : String) (n : Nat) (k : String) :
    "vq:" ++ (g ++ "." ++ pad4 n) ++ ":" ++ k = vkey g n k := by
  unfold vkey ckey nkey
  apply str_ext
  simp

theorem addTerm_head (h : Head Part) (hw : h.idsNodup) (p : Part) (T : Dict (Ten ℚ)) (C : Dict Int)
    (g : String) (n : Nat) (w : ℚ) (hT : (names (T ++ atT (h.ts g n w) p)).Nodup)
    (hC : (names (C ++ atC (h.cs g n) p)).Nodup) :
    addTerm T C g n (h.statAt p) w = .ok (T ++ atT (h.ts g n w) p, C ++ atC (h.cs g n) p) := by
  cases h with
  | mean dd s c =>
    unfold addTerm
    simp only [Head.statAt]
    have k1 : ∀ K : String, K ++ ":" ++ (g ++ "." ++ pad4 n) = ckey K g (pad4 n) := fun K => by
      unfold ckey; simp only [String.append_assoc]
    have eT : atT ((Head.mean dd s c).ts g n w) p =
        [("mean_sum:" ++ (g ++ "." ++ pad4 n), scalar dd (s p)),
         ("mean_weight_sum:" ++ (g ++ "." ++ pad4 n), newTensor (scalar dd (s p)) w),
         ("mean_weight_square_sum:" ++ (g ++ "." ++ pad4 n), newTensor (scalar dd (s p)) (w ^ 2))] := by
      simp only [Head.ts, atT, List.map_cons, List.map_nil, sca, con, vec_scalar, ← k1]
      rfl
    have eC : atC ((Head.mean dd s c).cs g n) p =
        [("mean_count:" ++ (g ++ "." ++ pad4 n), (c p : Int)), ("mean_replicas:" ++ (g ++ "." ++ pad4 n), 1)] := by
      simp only [Head.cs, atC, List.map_cons, List.map_nil, ← k1]
      rfl
    rw [eT] at hT ⊢
    rw [eC] at hC ⊢
    rw [← setKey3 _ _ _ _ hT, ← setKey2 _ _ _ hC]
  | reg dd s c =>
    unfold addTerm
    simp only [Head.statAt, if_true, get?]
    have k1 : ∀ K : String, K ++ ":" ++ (g ++ "." ++ pad4 n) = ckey K g (pad4 n) := fun K => by
      unfold ckey; simp only [String.append_assoc]
    have eT : atT ((Head.reg dd s c).ts g n w) p =
        [("reg_sum:" ++ (g ++ "." ++ pad4 n), scalar dd (s p)),
         ("reg_weight_sum:" ++ (g ++ "." ++ pad4 n), newTensor (scalar dd (s p)) w),
         ("reg_weight_square_sum:" ++ (g ++ "." ++ pad4 n), newTensor (scalar dd (s p)) (w ^ 2))] := by
      simp only [Head.ts, atT, List.map_cons, List.map_nil, sca, con, vec_scalar, ← k1]
      rfl
    have eC : atC ((Head.reg dd s c).cs g n) p =
        [("reg_cells:" ++ (g ++ "." ++ pad4 n), (c p : Int)), ("reg_replicas:" ++ (g ++ "." ++ pad4 n), 1)] := by
      simp only [Head.cs, atC, List.map_cons, List.map_nil, ← k1]
      rfl
    rw [eT] at hT ⊢
    rw [eC] at hC ⊢
    rw [← setKey3 _ _ _ _ hT, ← setKey2 _ _ _ hC]
  | vq slots =>
    unfold addTerm
    simp only [Head.statAt]
    rw [if_neg (by decide)]
    have hsc := scaleVq_slots w p slots [] hw
    have e0 : scaleVq w (names (atT (slotsT slots 1) p)) (atT (slotsT slots 1) p) =
        .ok (atT (slotsT slots w) p) := by
      rw [names_atT]
      exact hsc
    simp only [e0, if_true]
    have eT : (atT (slotsT slots w) p).map (fun kv => ("vq:" ++ (g ++ "." ++ pad4 n) ++ ":" ++ kv.1, kv.2)) =
        atT ((Head.vq slots).ts g n w) p := by
      simp only [Head.ts, atT, List.map_map, Function.comp_def, vkey_eq, renT]
    have eC : (atC (slotsC slots) p).map (fun kv => ("vq:" ++ (g ++ "." ++ pad4 n) ++ ":" ++ kv.1, kv.2)) =
        atC ((Head.vq slots).cs g n) p := by
      simp only [Head.cs, atC, List.map_map, Function.comp_def, vkey_eq, renC]
    rw [eT, eC, update_new _ _ hT, update_new _ _ hC]

theorem itemsT_cons (n : Nat) (x : Item Part) (items : List (Item Part)) :
    itemsT n (x :: items) = x.2.1.ts x.1 n x.2.2 ++ itemsT (n + 1) items := by
  simp [itemsT, List.zipIdx_cons]

theorem itemsC_cons (n : Nat) (x : Item Part) (items : List (Item Part)) :
    itemsC n (x :: items) = x.2.1.cs x.1 n ++ itemsC (n + 1) items := by
  simp [itemsC, List.zipIdx_cons]

theorem addTerms_items (p : Part) :
    ∀ (items : List (Item Part)) (n : Nat) (T : Dict (Ten ℚ)) (C : Dict Int),
      (∀ x ∈ items, x.2.1.idsNodup) →
      (names (T ++ atT (itemsT n items) p)).Nodup → (names (C ++ atC (itemsC n items) p)).Nodup →
      addTerms T C n (items.map (fun x => (x.1, x.2.1.statAt p, x.2.2))) =
        .ok (T ++ atT (itemsT n items) p, C ++ atC (itemsC n items) p) := by
  intro items
  induction items with
  | nil => intro n T C _ _ _; simp [addTerms, itemsT, itemsC, atT, atC]
  | cons x items ih =>
    intro n T C hid hT hC
    rw [itemsT_cons, atT_append, ← List.append_assoc] at hT
    rw [itemsC_cons, atC_append, ← List.append_assoc] at hC
    rw [List.map_cons, addTerms]
    have hT1 : (names (T ++ atT (x.2.1.ts x.1 n x.2.2) p)).Nodup := by
      rw [names_append] at hT; exact (List.nodup_append.1 hT).1
    have hC1 : (names (C ++ atC (x.2.1.cs x.1 n) p)).Nodup := by
      rw [names_append] at hC; exact (List.nodup_append.1 hC).1
    rw [addTerm_head x.2.1 (hid x (List.mem_cons_self ..)) p T C x.1 n x.2.2 hT1 hC1]
    dsimp only
    rw [ih (n + 1) _ _ (fun y hy => hid y (List.mem_cons_of_mem _ hy)) hT hC, itemsT_cons, itemsC_cons,
      atT_append, atC_append]
    simp

end Verif.Total
