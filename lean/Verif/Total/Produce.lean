import Verif.Total.Lemmas
import Verif.Total.Spec
import Mathlib.Tactic.Ring

/-! What the producers build: the dictionaries of one part are the entries below. -/

namespace Verif.Total

open Verif.Stats

variable {Part : Type}

/-- metadata of a scalar -/
def sc (dd : String × String) : List Nat × String × String := ([], dd.1, dd.2)

def con (name : String) (dd : String × String) (x : ℚ) : TSpec Part := ⟨name, sc dd, 1, fun _ _ => x⟩
def sca (name : String) (dd : String × String) (f : Part → ℚ) : TSpec Part := ⟨name, sc dd, 1, fun p _ => f p⟩

def baseNs : List String :=
  ["embed_sum", "commit_sum", "slot_weight_sum", "slot_weight_square_sum", "commit_weight_sum",
   "commit_weight_square_sum"]
def entNs : List String := ["probability_sum", "entropy_weight_sum", "entropy_weight_square_sum"]
def cntNs : List String := ["elements", "vectors", "constant_replicas"]

/-- the base entries of a slot with its weight scaled by `w` -/
def Slot.base (s : Slot Part) (w : ℚ) : List (TSpec Part) :=
  [sca (nkey "embed_sum" s.id) s.dd s.embed, sca (nkey "commit_sum" s.id) s.dd s.commit,
   con (nkey "slot_weight_sum" s.id) s.dd (s.weight * w),
   con (nkey "slot_weight_square_sum" s.id) s.dd ((s.weight * w) ^ 2),
   con (nkey "commit_weight_sum" s.id) s.dd s.commitment,
   con (nkey "commit_weight_square_sum" s.id) s.dd (s.commitment ^ 2)]

def Slot.ent (s : Slot Part) : List (TSpec Part) :=
  if s.entropy = 0 then [] else
  [⟨nkey "probability_sum" s.id, ([s.codes], s.dd.1, s.dd.2), s.codes, s.prob⟩,
   con (nkey "entropy_weight_sum" s.id) s.dd s.entropy,
   con (nkey "entropy_weight_square_sum" s.id) s.dd (s.entropy ^ 2)]

def Slot.ts (s : Slot Part) (w : ℚ) : List (TSpec Part) := s.base w ++ s.ent

def Slot.cs (s : Slot Part) : List (CSpec Part) :=
  [⟨nkey "elements" s.id, s.elements⟩, ⟨nkey "vectors" s.id, s.vectors⟩,
   ⟨nkey "constant_replicas" s.id, fun _ => 1⟩]

def Slot.Ns (s : Slot Part) : List String := baseNs ++ if s.entropy = 0 then [] else entNs

/-- dictionaries of one part -/
def atT (ts : List (TSpec Part)) (p : Part) : Dict (Ten ℚ) := ts.map (fun t => (t.name, vec t.info (t.val p)))
def atC (cs : List (CSpec Part)) (p : Part) : Dict Int := cs.map (fun c => (c.name, (c.val p : Int)))

theorem names_atT (ts : List (TSpec Part)) (p : Part) : names (atT ts p) = ts.map TSpec.name := by
  simp [names, atT, Function.comp_def]

theorem names_atC (cs : List (CSpec Part)) (p : Part) : names (atC cs p) = cs.map CSpec.name := by
  simp [names, atC, Function.comp_def]

theorem atT_append (a b : List (TSpec Part)) (p : Part) : atT (a ++ b) p = atT a p ++ atT b p := List.map_append
theorem atC_append (a b : List (CSpec Part)) (p : Part) : atC (a ++ b) p = atC a p ++ atC b p := List.map_append

theorem vec_scalar (dd : String × String) (f : Fin 1 → ℚ) : vec (sc dd) f = scalar dd (f 0) := by
  unfold vec scalar sc
  simp

theorem names_ts (s : Slot Part) (w : ℚ) : (s.ts w).map TSpec.name = s.Ns.map (fun N => nkey N s.id) := by
  unfold Slot.ts Slot.base Slot.ent Slot.Ns baseNs entNs
  by_cases h : s.entropy = 0
  · simp [h, sca, con]
  · simp [h, sca, con]

theorem names_cs (s : Slot Part) : s.cs.map CSpec.name = cntNs.map (fun N => nkey N s.id) := rfl

theorem Ns_nodup (s : Slot Part) : s.Ns.Nodup := by
  unfold Slot.Ns
  by_cases h : s.entropy = 0
  · rw [if_pos h]; decide
  · rw [if_neg h]; decide

theorem Ns_sub (s : Slot Part) : ∀ N ∈ s.Ns, N ∈ baseNs ++ entNs := by
  intro N hN
  unfold Slot.Ns at hN
  by_cases h : s.entropy = 0
  · rw [if_pos h, List.append_nil] at hN; exact List.mem_append_left _ hN
  · rwa [if_neg h] at hN

theorem allNs_colon : ∀ N ∈ baseNs ++ entNs ++ cntNs, ':' ∉ N.toList := by decide

theorem Ns_colon (s : Slot Part) : ∀ N ∈ s.Ns, ':' ∉ N.toList := fun N hN =>
  allNs_colon N (List.mem_append_left _ (Ns_sub s N hN))

theorem nodup_map_nkey (l : List String) (id : String) (hl : l.Nodup) (hc : ∀ N ∈ l, ':' ∉ N.toList) :
    (l.map (fun N => nkey N id)).Nodup := by
  rw [List.nodup_map_iff_inj_on hl]
  intro x hx y hy h
  exact (nkey_inj (hc x hx) (hc y hy) h).1

theorem names_flatMap {α β : Type} (l : List α) (f : α → List β) (g : β → String) :
    (l.flatMap f).map g = l.flatMap (fun a => (f a).map g) := List.map_flatMap

/-- the nested names are distinct -/
theorem nested_nodup (slots : List (Slot Part)) (hid : (slots.map Slot.id).Nodup)
    (Ks : Slot Part → List String) (hK : ∀ s, (Ks s).Nodup) (hc : ∀ s, ∀ N ∈ Ks s, ':' ∉ N.toList) :
    (slots.flatMap (fun s => (Ks s).map (fun N => nkey N s.id))).Nodup := by
  rw [List.nodup_flatMap]
  refine ⟨fun s _ => nodup_map_nkey _ _ (hK s) (hc s), ?_⟩
  have := List.pairwise_map.1 (List.nodup_iff_pairwise_ne.1 hid)
  refine this.imp ?_
  intro a b hab
  simp only [List.disjoint_left, List.mem_map, not_exists, not_and]
  rintro k ⟨N, hN, rfl⟩ M hM h
  exact hab (nkey_inj (hc b M hM) (hc a N hN) h).2.symm

def slotsT (slots : List (Slot Part)) (w : ℚ) : List (TSpec Part) := slots.flatMap (fun s => s.ts w)
def slotsC (slots : List (Slot Part)) : List (CSpec Part) := slots.flatMap Slot.cs

theorem slotsT_names (slots : List (Slot Part)) (w : ℚ) :
    (slotsT slots w).map TSpec.name = slots.flatMap (fun s => s.Ns.map (fun N => nkey N s.id)) := by
  unfold slotsT
  rw [List.map_flatMap]
  congr 1
  funext s
  exact names_ts s w

theorem slotsC_names (slots : List (Slot Part)) :
    (slotsC slots).map CSpec.name = slots.flatMap (fun s => cntNs.map (fun N => nkey N s.id)) := by
  unfold slotsC
  rw [List.map_flatMap]
  rfl

theorem slotsT_nodup (slots : List (Slot Part)) (w : ℚ) (hid : (slots.map Slot.id).Nodup) :
    ((slotsT slots w).map TSpec.name).Nodup := by
  rw [slotsT_names]
  exact nested_nodup slots hid _ Ns_nodup Ns_colon

theorem slotsC_nodup (slots : List (Slot Part)) (hid : (slots.map Slot.id).Nodup) :
    ((slotsC slots).map CSpec.name).Nodup := by
  rw [slotsC_names]
  exact nested_nodup slots hid (fun _ => cntNs) (fun _ => by decide)
    (fun _ N hN => allNs_colon N (List.mem_append_right _ hN))

/-! ### `_vq_loss_stat` -/

theorem slotEntries_raw (s : Slot Part) (p : Part) :
    slotEntries (s.raw p) 1 = (atT (s.base 1) p, atC s.cs p) := by
  unfold slotEntries Slot.raw atT atC Slot.base Slot.cs
  simp only [List.map_cons, List.map_nil, sca, con, vec_scalar]
  rfl

theorem slotEntropy_raw (s : Slot Part) (p : Part) :
    slotEntropyEntries (s.raw p) = .ok (atT s.ent p) := by
  unfold slotEntropyEntries Slot.raw Slot.ent
  by_cases h : s.entropy = 0
  · simp [h, atT]
  · simp only [h, ne_eq, not_false_eq_true, if_true, if_false]
    rw [if_neg (by simp)]
    simp only [atT, List.map_cons, List.map_nil, con, vec_scalar]
    rfl

theorem slotLoop_raw (p : Part) :
    ∀ (slots done : List (Slot Part)), ((done ++ slots).map Slot.id).Nodup →
      (∀ s ∈ slots, s.id ≠ "" ∧ ':' ∉ s.id.toList) →
      slotLoop 1 (atT (slotsT done 1) p) (atC (slotsC done) p) (slots.map (fun s => s.raw p)) =
        .ok (atT (slotsT (done ++ slots) 1) p, atC (slotsC (done ++ slots)) p) := by
  intro slots
  induction slots with
  | nil => intro done _ _; simp [slotLoop]
  | cons s slots ih =>
    intro done hnd hid
    have hs := hid s (List.mem_cons_self ..)
    simp only [List.map_cons, slotLoop]
    have e1 : (s.raw p).id = s.id := rfl
    rw [e1, if_neg (by rintro (h | h); exacts [hs.1 h, hs.2 h])]
    have hnd2 : ((done ++ [s]).map Slot.id).Nodup := by
      have : (done ++ s :: slots) = (done ++ [s]) ++ slots := by simp
      rw [this, List.map_append] at hnd
      exact (List.nodup_append.1 hnd).1
    have hT := slotsT_nodup (done ++ [s]) 1 hnd2
    have hC := slotsC_nodup (done ++ [s]) hnd2
    have eT : slotsT (done ++ [s]) (1 : ℚ) = slotsT done 1 ++ (s.base 1 ++ s.ent) := by
      simp [slotsT, Slot.ts]
    have eC : slotsC (done ++ [s]) = slotsC done ++ s.cs := by simp [slotsC]
    rw [if_neg]
    swap
    · intro hm
      rw [names_atT] at hm
      rw [eT, List.map_append] at hT
      refine (List.nodup_append.1 hT).2.2 _ hm _ ?_ rfl
      rw [← Slot.ts, names_ts]
      exact List.mem_map.2 ⟨"embed_sum", by simp [Slot.Ns, baseNs], rfl⟩
    rw [if_neg (by simp [Slot.raw, scalar]), if_neg (by simp [Slot.raw]), slotEntropy_raw]
    simp only [slotEntries_raw]
    have u1 : update (atT (slotsT done 1) p) (atT (s.base 1) p) = atT (slotsT done 1 ++ s.base 1) p := by
      rw [atT_append]
      apply update_new
      rw [← atT_append, names_atT]
      rw [eT, ← List.append_assoc, List.map_append] at hT
      exact (List.nodup_append.1 hT).1
    have u2 : update (atT (slotsT done 1 ++ s.base 1) p) (atT s.ent p) = atT (slotsT (done ++ [s]) 1) p := by
      rw [eT, ← List.append_assoc]
      refine (update_new _ _ ?_).trans (atT_append _ _ _).symm
      rw [← atT_append, names_atT, List.append_assoc, ← eT]
      exact hT
    have u3 : update (atC (slotsC done) p) (atC s.cs p) = atC (slotsC (done ++ [s])) p := by
      rw [eC, atC_append]
      apply update_new
      rw [← atC_append, names_atC, ← eC]
      exact hC
    rw [u1, u2, u3, ih (done ++ [s]) (by simpa using hnd)
      (fun x hx => hid x (List.mem_cons_of_mem _ hx))]
    simp

/-! ### `_scale_vq_stat` -/

theorem setKey_mid {α : Type} (pre post : Dict α) (k : String) (v v' : α)
    (hnd : (names (pre ++ (k, v) :: post)).Nodup) :
    setKey (pre ++ (k, v) :: post) k v' = pre ++ (k, v') :: post := by
  unfold setKey
  rw [if_pos (by simp [names])]
  rw [names_append] at hnd
  have h := List.nodup_append.1 hnd
  have hpre : pre.map (fun kv => if kv.1 = k then (k, v') else kv) = pre := by
    conv_rhs => rw [← List.map_id pre]
    apply List.map_congr_left
    intro a ha
    rw [if_neg]; · rfl
    intro he
    exact h.2.2 a.1 (List.mem_map.2 ⟨a, ha, rfl⟩) k (by simp [names]) he
  have hpost : post.map (fun kv => if kv.1 = k then (k, v') else kv) = post := by
    conv_rhs => rw [← List.map_id post]
    apply List.map_congr_left
    intro a ha
    rw [if_neg]; · rfl
    intro he
    have h2 := h.2.1
    simp only [names, List.map_cons, List.nodup_cons] at h2
    exact h2.1 (he ▸ List.mem_map.2 ⟨a, ha, rfl⟩)
  rw [List.map_append, List.map_cons, hpre, hpost]
  simp

theorem scaleVq_skip (w : ℚ) : ∀ (ks rest : List String) (T : Dict (Ten ℚ)),
    (∀ k ∈ ks, stripPrefix "slot_weight_sum:" k = none) → scaleVq w (ks ++ rest) T = scaleVq w rest T := by
  intro ks
  induction ks with
  | nil => intro rest T _; rfl
  | cons k ks ih =>
    intro rest T h
    rw [List.cons_append, scaleVq, h k (List.mem_cons_self ..)]
    exact ih rest T (fun x hx => h x (List.mem_cons_of_mem _ hx))

theorem strip_nkey_none (N M id : String) (hN : ':' ∉ N.toList) (hM : ':' ∉ M.toList) (h : N ≠ M) :
    stripPrefix (M ++ ":") (nkey N id) = none := by
  cases hs : stripPrefix (M ++ ":") (nkey N id) with
  | none => rfl
  | some r =>
    rw [strip_iff] at hs
    exact absurd (nkey_inj (i := id) (i' := r) hN hM (hs.trans rfl)).1 h

theorem scaleVq_slot (w : ℚ) (p : Part) (s : Slot Part) (pre post : Dict (Ten ℚ)) (rest : List String)
    (hnd : (names (pre ++ atT (s.ts 1) p ++ post)).Nodup) :
    scaleVq w ((s.ts 1).map TSpec.name ++ rest) (pre ++ atT (s.ts 1) p ++ post) =
      scaleVq w rest (pre ++ atT (s.ts w) p ++ post) := by
  obtain ⟨a1, ha1⟩ : ∃ x : Dict (Ten ℚ), x = [(nkey "embed_sum" s.id, scalar s.dd (s.embed p)),
    (nkey "commit_sum" s.id, scalar s.dd (s.commit p))] := ⟨_, rfl⟩
  obtain ⟨a2, ha2⟩ : ∃ x : Dict (Ten ℚ), x = [(nkey "commit_weight_sum" s.id, scalar s.dd s.commitment),
    (nkey "commit_weight_square_sum" s.id, scalar s.dd (s.commitment ^ 2))] ++ atT s.ent p := ⟨_, rfl⟩
  obtain ⟨kw, hkw⟩ : ∃ x, x = nkey "slot_weight_sum" s.id := ⟨_, rfl⟩
  obtain ⟨kq, hkq⟩ : ∃ x, x = nkey "slot_weight_square_sum" s.id := ⟨_, rfl⟩
  have form : ∀ w : ℚ, atT (s.ts w) p = a1 ++ (kw, scalar s.dd (s.weight * w)) ::
      (kq, scalar s.dd ((s.weight * w) ^ 2)) :: a2 := by
    intro w
    unfold Slot.ts
    rw [atT_append]
    simp [Slot.base, atT, sca, con, vec_scalar, ha1, ha2, hkw, hkq]
  have fnames : (s.ts 1).map TSpec.name = [nkey "embed_sum" s.id, nkey "commit_sum" s.id] ++ (kw ::
      ([kq, nkey "commit_weight_sum" s.id, nkey "commit_weight_square_sum" s.id] ++ s.ent.map TSpec.name)) := by
    unfold Slot.ts
    rw [List.map_append, hkw, hkq]
    rfl
  rw [fnames, form 1, form w]
  rw [form 1] at hnd
  rw [List.append_assoc, scaleVq_skip]
  swap
  · intro k hk
    simp only [List.mem_cons, List.not_mem_nil, or_false] at hk
    rcases hk with rfl | rfl
    · exact strip_nkey_none "embed_sum" "slot_weight_sum" s.id (by decide) (by decide) (by decide)
    · exact strip_nkey_none "commit_sum" "slot_weight_sum" s.id (by decide) (by decide) (by decide)
  rw [List.cons_append, scaleVq]
  have hst : stripPrefix "slot_weight_sum:" kw = some s.id := (strip_iff _ _ _).2 hkw
  rw [hst]
  have haf : afterColon kw = s.id := hkw ▸ afterColon_nkey "slot_weight_sum" s.id (by decide)
  simp only [haf]
  have e1 : pre ++ (a1 ++ (kw, scalar s.dd (s.weight * 1)) :: (kq, scalar s.dd ((s.weight * 1) ^ 2)) :: a2) ++
      post = (pre ++ a1) ++ (kw, scalar s.dd (s.weight * 1)) ::
        ((kq, scalar s.dd ((s.weight * 1) ^ 2)) :: a2 ++ post) := by simp
  rw [e1] at hnd ⊢
  have hl1 : lookup ((pre ++ a1) ++ (kw, scalar s.dd (s.weight * 1)) ::
        ((kq, scalar s.dd ((s.weight * 1) ^ 2)) :: a2 ++ post)) kw = .ok (scalar s.dd (s.weight * 1)) := by
    unfold lookup
    rw [get?_of_mem _ hnd kw _ (List.mem_append_right _ (List.mem_cons_self ..))]
  rw [hl1]
  dsimp only
  rw [setKey_mid _ _ _ _ _ hnd]
  have hkq' : "slot_weight_square_sum:" ++ s.id = kq := hkq.symm
  rw [hkq']
  have e2 : (pre ++ a1) ++ (kw, (scalar s.dd (s.weight * 1)).map (· * w)) ::
        ((kq, scalar s.dd ((s.weight * 1) ^ 2)) :: a2 ++ post) =
      (pre ++ a1 ++ [(kw, (scalar s.dd (s.weight * 1)).map (· * w))]) ++
        (kq, scalar s.dd ((s.weight * 1) ^ 2)) :: (a2 ++ post) := by simp
  have hnd2 : (names ((pre ++ a1 ++ [(kw, (scalar s.dd (s.weight * 1)).map (· * w))]) ++
        (kq, scalar s.dd ((s.weight * 1) ^ 2)) :: (a2 ++ post))).Nodup := by
    have : names ((pre ++ a1 ++ [(kw, (scalar s.dd (s.weight * 1)).map (· * w))]) ++
        (kq, scalar s.dd ((s.weight * 1) ^ 2)) :: (a2 ++ post)) =
      names ((pre ++ a1) ++ (kw, scalar s.dd (s.weight * 1)) ::
        ((kq, scalar s.dd ((s.weight * 1) ^ 2)) :: a2 ++ post)) := by simp [names]
    rw [this]; exact hnd
  rw [e2]
  have hl2 : lookup ((pre ++ a1 ++ [(kw, (scalar s.dd (s.weight * 1)).map (· * w))]) ++
        (kq, scalar s.dd ((s.weight * 1) ^ 2)) :: (a2 ++ post)) kq =
      .ok (scalar s.dd ((s.weight * 1) ^ 2)) := by
    unfold lookup
    rw [get?_of_mem _ hnd2 kq _ (List.mem_append_right _ (List.mem_cons_self ..))]
  rw [hl2]
  dsimp only
  rw [setKey_mid _ _ _ _ _ hnd2, scaleVq_skip]
  swap
  · intro k hk
    simp only [List.mem_append, List.mem_cons, List.not_mem_nil, or_false] at hk
    rcases hk with (rfl | rfl | rfl) | hk
    · rw [hkq]
      exact strip_nkey_none "slot_weight_square_sum" "slot_weight_sum" s.id (by decide) (by decide) (by decide)
    · exact strip_nkey_none "commit_weight_sum" "slot_weight_sum" s.id (by decide) (by decide) (by decide)
    · exact strip_nkey_none "commit_weight_square_sum" "slot_weight_sum" s.id (by decide) (by decide) (by decide)
    · unfold Slot.ent at hk
      by_cases he : s.entropy = 0
      · simp [he] at hk
      · simp only [he, if_false, List.map_cons, List.map_nil, con, List.mem_cons, List.not_mem_nil, or_false] at hk
        rcases hk with rfl | rfl | rfl
        · exact strip_nkey_none "probability_sum" "slot_weight_sum" s.id (by decide) (by decide) (by decide)
        · exact strip_nkey_none "entropy_weight_sum" "slot_weight_sum" s.id (by decide) (by decide) (by decide)
        · exact strip_nkey_none "entropy_weight_square_sum" "slot_weight_sum" s.id (by decide) (by decide)
            (by decide)
  have v1 : (scalar s.dd (s.weight * 1)).map (· * w) = scalar s.dd (s.weight * w) := by
    simp [scalar, Ten.map]
  have v2 : (scalar s.dd ((s.weight * 1) ^ 2)).map (· * w ^ 2) = scalar s.dd ((s.weight * w) ^ 2) := by
    simp [scalar, Ten.map, mul_pow]
  rw [v1, v2]
  simp

theorem scaleVq_slots (w : ℚ) (p : Part) :
    ∀ (slots done : List (Slot Part)), ((done ++ slots).map Slot.id).Nodup →
      scaleVq w ((slotsT slots 1).map TSpec.name) (atT (slotsT done w) p ++ atT (slotsT slots 1) p) =
        .ok (atT (slotsT (done ++ slots) w) p) := by
  intro slots
  induction slots with
  | nil => intro done _; simp [slotsT, scaleVq, atT]
  | cons s slots ih =>
    intro done hnd
    have eT : slotsT (s :: slots) (1 : ℚ) = s.ts 1 ++ slotsT slots 1 := by simp [slotsT]
    rw [eT, List.map_append, atT_append, ← List.append_assoc, scaleVq_slot]
    · have : atT (slotsT done w) p ++ atT (s.ts w) p = atT (slotsT (done ++ [s]) w) p := by
        rw [← atT_append]; simp [slotsT]
      rw [this, ih (done ++ [s]) (by simpa using hnd)]
      simp
    · have h := slotsT_nodup (done ++ s :: slots) w hnd
      have e : names (atT (slotsT done w) p ++ atT (s.ts 1) p ++ atT (slotsT slots 1) p) =
          (slotsT (done ++ s :: slots) w).map TSpec.name := by
        rw [names_append, names_append, names_atT, names_atT, names_atT]
        simp only [slotsT_names, names_ts]
        simp
      rw [e]; exact h

end Verif.Total
