import Verif.Weights.Props110
import Mathlib.Data.List.Forall2

/-!
# C110: loading weights takes exactly the matching tensors

This file: the reported keys, and the theorems.
-/
namespace Verif.Weights

variable {D : Type}

/-! ### Specification -/

/-- `x` is `m` or somewhere inside it. -/
inductive Inside : Mod D → Mod D → Prop
  | refl (m : Mod D) : Inside m m
  | deeper (kind : Kind) (ps : List (String × Tensor D)) (ks : Kids D) (n : String) (m x : Mod D) :
      (n, m) ∈ ks.toList → Inside m x → Inside (.mk kind ps ks) x

def Accepted (r : Mod D × Except String (List Key × List Key)) : Prop := ∃ rep, r.2 = .ok rep

/-! ### Auxiliary -/

theorem ignored_ne (m : Mod D) (k : Key) (h : Ignored m k) : k ≠ [] := by
  cases h <;> simp

theorem ignored_iff (kind : Kind) (ps : List (String × Tensor D)) (ks : Kids D) (hw : (Mod.mk kind ps ks).WF) (k : Key) :
    Ignored (.mk kind ps ks) k ↔ (kind = .ladder ∧ isLegacy (numConvs ks) k = true) ∨ ∃ n m r, (n, m) ∈ ks.toList ∧ k = n :: r ∧ Ignored m r := by
  unfold Mod.WF at hw
  constructor
  · intro h
    cases h with
    | here _ _ conv s i r h1 h2 h3 h4 =>
      refine .inl ⟨rfl, (isLegacy_iff _ _).mpr ⟨s, r, i, rfl, h2, ?_, h4⟩⟩
      rw [numConvs_eq ks hw.2.1 conv h1]; exact h3
    | deeper _ _ _ n m r h1 h2 => exact .inr ⟨n, m, r, h1, rfl, h2⟩
  · rintro (⟨rfl, h⟩ | ⟨n, m, r, h1, rfl, h2⟩)
    · obtain ⟨s, r, i, rfl, h2, h3, h4⟩ := (isLegacy_iff _ _).mp h
      obtain ⟨conv, hc, _⟩ := hw.1 rfl
      rw [numConvs_eq ks hw.2.1 conv hc] at h3
      exact .here ps ks conv s i r hc h2 h3 h4
    · exact .deeper kind ps ks n m r h1 h2

theorem mem_before (kind : Kind) (ks : Kids D) (d : Dict D) (k : Key) : k ∈ (beforeLoad kind ks d).map Prod.fst ↔
    k ∈ d.map Prod.fst ∧ ¬ (kind = .ladder ∧ isLegacy (numConvs ks) k = true) := by
  unfold beforeLoad
  cases kind with
  | plain => simp
  | quantizer => simp
  | ladder =>
    simp only [true_and, Bool.not_eq_true]
    rw [List.mem_map, List.mem_map]
    constructor
    · rintro ⟨e, he, rfl⟩
      rw [List.mem_filter] at he
      exact ⟨⟨e, he.1, rfl⟩, by simpa using he.2⟩
    · rintro ⟨⟨e, he, rfl⟩, h⟩
      exact ⟨e, List.mem_filter.mpr ⟨he, by simpa using h⟩, rfl⟩

mutual
theorem Mod.unexpected_iff : ∀ (m : Mod D) (d : Dict D), m.WF → ∀ k, k ∈ (m.load d).2.unexpected ↔
    k ∈ d.map Prod.fst ∧ k ∉ m.dict.map Prod.fst ∧ ¬ Ignored m k
  | .mk kind ps ks, d0 => by
    intro hw k
    have hwk : ks.WF := by unfold Mod.WF at hw; exact hw.2.2
    have hnd : (ks.toList.map Prod.fst).Nodup := by unfold Mod.WF at hw; exact hw.2.1
    have hk := Kids.unexpected_iff ks (beforeLoad kind ks d0) hwk k
    have hign := ignored_iff kind ps ks hw k
    have hdict := mod_mem_dict kind ps ks k
    have hbef := mem_before kind ks d0 k
    unfold Mod.load
    simp only []
    rw [List.mem_append, List.mem_filter, hk, hdict, hign, hbef]
    constructor
    · rintro (⟨⟨h1, h2⟩, h3⟩ | ⟨n, m, r, h1, rfl, h2, h3, h4, h5⟩)
      · refine ⟨h1, ?_, ?_⟩
        · rintro (⟨n, hn, rfl⟩ | h)
          · have : isUnexpected (ps.map Prod.fst) (ks.toList.map Prod.fst) [n] = !(ps.map Prod.fst).contains n := rfl
            rw [this] at h3
            simp only [Bool.not_eq_true', List.contains_iff_mem, ← Bool.not_eq_true] at h3
            exact h3 hn
          · obtain ⟨n, m, r, g1, rfl, g2⟩ := (kids_mem_dict ks k).mp h
            obtain ⟨e, he, rfl⟩ := List.mem_map.mp g2
            have hne := Mod.dict_ne m e he
            obtain ⟨a, l, hal⟩ := List.exists_cons_of_ne_nil hne
            rw [hal] at h3
            have : isUnexpected (ps.map Prod.fst) (ks.toList.map Prod.fst) (n :: a :: l) = !(ks.toList.map Prod.fst).contains n := rfl
            rw [this] at h3
            simp only [Bool.not_eq_true', List.contains_iff_mem, ← Bool.not_eq_true] at h3
            exact h3 (List.mem_map_of_mem (f := Prod.fst) g1)
        · rintro (h | ⟨n, m, r, g1, rfl, g2⟩)
          · exact h2 h
          · obtain ⟨a, l, hal⟩ := List.exists_cons_of_ne_nil (ignored_ne m r g2)
            rw [hal] at h3
            have : isUnexpected (ps.map Prod.fst) (ks.toList.map Prod.fst) (n :: a :: l) = !(ks.toList.map Prod.fst).contains n := rfl
            rw [this] at h3
            simp only [Bool.not_eq_true', List.contains_iff_mem, ← Bool.not_eq_true] at h3
            exact h3 (List.mem_map_of_mem (f := Prod.fst) g1)
      · obtain ⟨h3, h3'⟩ := h3
        refine ⟨h3, ?_, ?_⟩
        · rintro (⟨n', _, hn⟩ | h)
          · simp only [List.cons.injEq] at hn
            exact h2 hn.2
          · obtain ⟨n', m', r', g1, g2, g3⟩ := (kids_mem_dict ks _).mp h
            simp only [List.cons.injEq] at g2
            have : (n', m') = (n, m) := List.inj_on_of_nodup_map hnd g1 h1 g2.1.symm
            simp only [Prod.mk.injEq] at this
            rw [← g2.2, this.2] at g3
            exact h4 g3
        · rintro (h | ⟨n', m', r', g1, g2, g3⟩)
          · exact h3' h
          · simp only [List.cons.injEq] at g2
            have : (n', m') = (n, m) := List.inj_on_of_nodup_map hnd g1 h1 g2.1.symm
            simp only [Prod.mk.injEq] at this
            rw [← g2.2, this.2] at g3
            exact h5 g3
    · rintro ⟨h1, h2, h3⟩
      rw [not_or] at h2 h3
      match k, h1, h2, h3 with
      | [], h1, h2, h3 => exact .inl ⟨⟨h1, h3.1⟩, rfl⟩
      | [n], h1, h2, h3 =>
        refine .inl ⟨⟨h1, h3.1⟩, ?_⟩
        have : isUnexpected (ps.map Prod.fst) (ks.toList.map Prod.fst) [n] = !(ps.map Prod.fst).contains n := rfl
        rw [this]
        simp only [Bool.not_eq_true', List.contains_iff_mem, ← Bool.not_eq_true]
        intro hn
        exact h2.1 ⟨n, hn, rfl⟩
      | n :: a :: l, h1, h2, h3 =>
        by_cases hn : n ∈ ks.toList.map Prod.fst
        · obtain ⟨⟨n', m⟩, hm, rfl⟩ := List.mem_map.mp hn
          refine .inr ⟨n', m, a :: l, hm, rfl, by simp, ⟨h1, h3.1⟩, ?_, ?_⟩
          · intro hc
            exact h2.2 ((kids_mem_dict ks _).mpr ⟨n', m, a :: l, hm, rfl, hc⟩)
          · intro hc
            exact h3.2 ⟨n', m, a :: l, hm, rfl, hc⟩
        · refine .inl ⟨⟨h1, h3.1⟩, ?_⟩
          have : isUnexpected (ps.map Prod.fst) (ks.toList.map Prod.fst) (n :: a :: l) = !(ks.toList.map Prod.fst).contains n := rfl
          rw [this]
          simp only [Bool.not_eq_true', List.contains_iff_mem, ← Bool.not_eq_true]
          exact hn
theorem Kids.unexpected_iff : ∀ (ks : Kids D) (d : Dict D), ks.WF → ∀ k, k ∈ (ks.load d).2.unexpected ↔
    ∃ n m r, (n, m) ∈ ks.toList ∧ k = n :: r ∧ r ≠ [] ∧ k ∈ d.map Prod.fst ∧ r ∉ m.dict.map Prod.fst ∧ ¬ Ignored m r
  | .nil, d => by
    intro _ k
    simp [Kids.load, Kids.toList]
  | .cons n m rest, d => by
    intro hw k
    unfold Kids.WF at hw
    have hm := Mod.unexpected_iff m (sub d n) hw.1
    have hr := Kids.unexpected_iff rest d hw.2 k
    unfold Kids.load Kids.toList
    simp only []
    rw [List.mem_append, hr]
    constructor
    · rintro (h | ⟨n', m', r, h1, h2⟩)
      · obtain ⟨r, h1, rfl⟩ := List.mem_map.mp h
        obtain ⟨h2, h3, h4⟩ := (hm r).mp h1
        obtain ⟨h5, h6⟩ := (mem_sub d n r).mp h2
        exact ⟨n, m, r, List.mem_cons_self, rfl, h5, h6, h3, h4⟩
      · exact ⟨n', m', r, List.mem_cons_of_mem _ h1, h2⟩
    · rintro ⟨n', m', r, h1, rfl, h2, h3, h4, h5⟩
      rcases List.mem_cons.mp h1 with h | h
      · simp only [Prod.mk.injEq] at h
        obtain ⟨rfl, rfl⟩ := h
        exact .inl (List.mem_map.mpr ⟨r, (hm r).mpr ⟨(mem_sub d n' r).mpr ⟨h2, h3⟩, h4, h5⟩, rfl⟩)
      · exact .inr ⟨n', m', r, h, rfl, h2, h3, h4, h5⟩
end

theorem kids_wf (ks : Kids D) (h : ks.WF) : ∀ e ∈ ks.toList, e.2.WF := by
  match ks with
  | .nil => intro e he; simp [Kids.toList] at he
  | .cons n m r =>
    unfold Kids.WF at h
    intro e he
    unfold Kids.toList at he
    rcases List.mem_cons.mp he with rfl | he
    · exact h.1
    · exact kids_wf r h.2 e he

/-- No key of the model is ignored. -/
theorem own_not_ignored (m : Mod D) (k : Key) (h : Ignored m k) : m.WF → k ∉ m.dict.map Prod.fst := by
  induction h with
  | here ps ks conv s i r h1 h2 h3 h4 =>
    intro hw hk
    have := own_not_legacy .ladder ps ks hw rfl _ hk
    have h5 : isLegacy (numConvs ks) ("convs" :: s :: r) = true := by
      refine (isLegacy_iff _ _).mpr ⟨s, r, i, rfl, h2, ?_, h4⟩
      unfold Mod.WF at hw
      rw [numConvs_eq ks hw.2.1 conv h1]; exact h3
    rw [this] at h5
    simp at h5
  | deeper kind ps ks n m r h1 h2 ih =>
    intro hw hk
    unfold Mod.WF at hw
    rcases (mod_mem_dict kind ps ks _).mp hk with ⟨n', _, h⟩ | h
    · simp only [List.cons.injEq] at h
      exact ignored_ne m r h2 h.2
    · obtain ⟨n', m', r', g1, g2, g3⟩ := (kids_mem_dict ks _).mp h
      simp only [List.cons.injEq] at g2
      have : (n', m') = (n, m) := List.inj_on_of_nodup_map hw.2.1 g1 h1 g2.1.symm
      simp only [Prod.mk.injEq] at this
      rw [← g2.2, this.2] at g3
      exact ih (kids_wf ks hw.2.2 _ h1) g3

theorem loadStateDict_fst (strict : Bool) (m : Mod D) (d : Dict D) : (loadStateDict strict m d).1 = (m.load d).1 := by
  unfold loadStateDict
  simp only []
  by_cases h1 : (m.load d).2.errors ≠ []
  · rw [if_pos h1]
  · rw [if_neg h1]
    by_cases h2 : strict = true ∧ ((m.load d).2.missing ≠ [] ∨ (m.load d).2.unexpected ≠ [])
    · rw [if_pos h2]
    · rw [if_neg h2]

theorem accepted_iff (strict : Bool) (m : Mod D) (d : Dict D) (rep : List Key × List Key) : (loadStateDict strict m d).2 = .ok rep ↔
    (m.load d).2.errors = [] ∧ (strict = true → (m.load d).2.missing = [] ∧ (m.load d).2.unexpected = []) ∧
    rep = ((m.load d).2.missing, (m.load d).2.unexpected) := by
  unfold loadStateDict
  simp only []
  by_cases h1 : (m.load d).2.errors ≠ []
  · rw [if_pos h1]
    exact ⟨fun h => by simp at h, fun h => absurd h.1 h1⟩
  · rw [if_neg h1]
    by_cases h2 : strict = true ∧ ((m.load d).2.missing ≠ [] ∨ (m.load d).2.unexpected ≠ [])
    · rw [if_pos h2]
      constructor
      · intro h; simp at h
      · rintro ⟨_, h, _⟩
        rcases h2.2 with h3 | h3
        · exact absurd (h h2.1).1 h3
        · exact absurd (h h2.1).2 h3
    · rw [if_neg h2]
      simp only [Except.ok.injEq]
      constructor
      · intro h
        refine ⟨not_not.mp h1, fun hs => ?_, h.symm⟩
        constructor
        · by_contra hc; exact h2 ⟨hs, .inl hc⟩
        · by_contra hc; exact h2 ⟨hs, .inr hc⟩
      · rintro ⟨_, _, h⟩; exact h.symm

theorem wrong_iff (d : Dict D) (hd : (d.map Prod.fst).Nodup) (e : Key × Tensor D) : wrong d e = true ↔ ∃ v, Has d e.1 v ∧ ∀ t, ¬ Becomes e.2 v t := by
  unfold wrong
  cases hl : look d e.1 with
  | none =>
    rw [look_none] at hl
    constructor
    · intro h; simp at h
    · rintro ⟨v, hv, _⟩; exact absurd hv (hl v)
  | some v =>
    simp only []
    rw [Option.isNone_iff_eq_none]
    constructor
    · intro h
      refine ⟨v, (look_some d hd _ _).mp hl, fun t ht => ?_⟩
      rw [← copied_iff, h] at ht
      simp at ht
    · rintro ⟨v', hv', h⟩
      rw [← look_some d hd, hl] at hv'
      simp only [Option.some.injEq] at hv'
      cases hc : copied e.2 v with
      | none => rfl
      | some t => exact absurd ((copied_iff _ _ _).mp hc) (hv' ▸ h t)

theorem errors_nil (m : Mod D) (hw : m.WF) (d : Dict D) (hd : (d.map Prod.fst).Nodup) : (m.load d).2.errors = [] ↔
    ∀ k p v, Has m.dict k p → Has d k v → ∃ t, Becomes p v t := by
  rw [(Mod.load_eq m d hw).2.2, List.map_eq_nil_iff, List.filter_eq_nil_iff]
  constructor
  · intro h k p v hp hv
    by_contra hc
    push Not at hc
    exact h (k, p) hp ((wrong_iff d hd _).mpr ⟨v, hv, hc⟩)
  · rintro h ⟨k, p⟩ he hwr
    obtain ⟨v, hv, hn⟩ := (wrong_iff d hd _).mp hwr
    obtain ⟨t, ht⟩ := h k p v he hv
    exact hn t ht

theorem missing_iff (m : Mod D) (hw : m.WF) (d : Dict D) (k : Key) : k ∈ (m.load d).2.missing ↔ k ∈ m.dict.map Prod.fst ∧ Absent d k := by
  rw [(Mod.load_eq m d hw).2.1, List.mem_map, List.mem_map]
  constructor
  · rintro ⟨e, he, rfl⟩
    rw [List.mem_filter] at he
    exact ⟨⟨e, he.1, rfl⟩, (look_none d e.1).mp (Option.isNone_iff_eq_none.mp he.2)⟩
  · rintro ⟨⟨e, he, rfl⟩, h⟩
    exact ⟨e, List.mem_filter.mpr ⟨he, Option.isNone_iff_eq_none.mpr ((look_none d e.1).mpr h)⟩, rfl⟩

theorem newVal_spec (d : Dict D) (hd : (d.map Prod.fst).Nodup) (e : Key × Tensor D) :
    (∃ v, Has d e.1 v ∧ Becomes e.2 v (newVal d e)) ∨ ((Absent d e.1 ∨ ∃ v, Has d e.1 v ∧ ∀ t, ¬ Becomes e.2 v t) ∧ newVal d e = e.2) := by
  unfold newVal
  cases hl : look d e.1 with
  | none => exact .inr ⟨.inl ((look_none d _).mp hl), rfl⟩
  | some v =>
    simp only []
    have hv := (look_some d hd _ _).mp hl
    cases hc : copied e.2 v with
    | some t => exact .inl ⟨v, hv, (copied_iff _ _ _).mp hc⟩
    | none =>
      refine .inr ⟨.inr ⟨v, hv, fun t ht => ?_⟩, rfl⟩
      rw [← copied_iff, hc] at ht
      simp at ht

theorem forall2_self_map {α : Type} (R : α → α → Prop) (f : α → α) (l : List α) (h : ∀ a ∈ l, R a (f a)) : List.Forall₂ R l (l.map f) := by
  induction l with
  | nil => exact .nil
  | cons a l ih => exact .cons (h a List.mem_cons_self) (ih fun b hb => h b (List.mem_cons_of_mem _ hb))

mutual
theorem Mod.load_fresh : ∀ (m : Mod D) (d : Dict D) (x : Mod D), Inside (m.load d).1 x → ∀ c ps ks, x = .mk (.quantizer c) ps ks → c = none
  | .mk kind ps ks, d0 => by
    intro x hx c ps' ks' hxe
    unfold Mod.load at hx
    simp only [] at hx
    cases hx with
    | refl =>
      simp only [Mod.mk.injEq] at hxe
      have := hxe.1
      unfold afterLoad at this
      cases kind with
      | plain => simp at this
      | ladder => simp at this
      | quantizer => simp only [Kind.quantizer.injEq] at this; exact this.symm
    | deeper _ _ _ n m _ h1 h2 => exact Kids.load_fresh ks (beforeLoad kind ks d0) (n, m) h1 x h2 c ps' ks' hxe
theorem Kids.load_fresh : ∀ (ks : Kids D) (d : Dict D), ∀ e ∈ (ks.load d).1.toList, ∀ (x : Mod D), Inside e.2 x →
    ∀ c ps ks', x = .mk (.quantizer c) ps ks' → c = none
  | .nil, d => by intro e he; simp [Kids.load, Kids.toList] at he
  | .cons n m rest, d => by
    intro e he
    unfold Kids.load Kids.toList at he
    rcases List.mem_cons.mp he with rfl | he
    · exact Mod.load_fresh m (sub d n)
    · exact Kids.load_fresh rest d e he
end

/-! ### Theorems -/

/-- **C110 (values).** After any load — strict or not, accepted or refused — the model has the tensors it had, and each has the value of the
dictionary if there is one for its key that fits, and its old value otherwise. -/
theorem C110_values (strict : Bool) (m : Mod D) (hw : m.WF) (d : Dict D) (hd : (d.map Prod.fst).Nodup) :
    List.Forall₂ (fun e e' : Key × Tensor D => e'.1 = e.1 ∧
      ((∃ v, Has d e.1 v ∧ Becomes e.2 v e'.2) ∨ ((Absent d e.1 ∨ ∃ v, Has d e.1 v ∧ ∀ t, ¬ Becomes e.2 v t) ∧ e'.2 = e.2)))
      m.dict (loadStateDict strict m d).1.dict := by
  rw [loadStateDict_fst, (Mod.load_eq m d hw).1]
  exact forall2_self_map _ _ _ fun e _ => ⟨rfl, newVal_spec d hd e⟩

/-- **C110 (strict).** A strict load is accepted exactly when the dictionary has a fitting value for every tensor of the model and no other
keys, old convolutions of the ladder model excepted. -/
theorem C110_strict (m : Mod D) (hw : m.WF) (d : Dict D) (hd : (d.map Prod.fst).Nodup) : Accepted (loadStateDict true m d) ↔
    (∀ k p, Has m.dict k p → ∃ v t, Has d k v ∧ Becomes p v t) ∧ ∀ k t, Has d k t → k ∈ m.dict.map Prod.fst ∨ Ignored m k := by
  unfold Accepted
  constructor
  · rintro ⟨rep, h⟩
    obtain ⟨h1, h2, _⟩ := (accepted_iff true m d rep).mp h
    obtain ⟨h2, h3⟩ := h2 rfl
    refine ⟨?_, ?_⟩
    · intro k p hp
      have : ¬ Absent d k := by
        intro ha
        have := (missing_iff m hw d k).mpr ⟨List.mem_map_of_mem (f := Prod.fst) hp, ha⟩
        rw [h2] at this
        simp at this
      unfold Absent at this
      push Not at this
      obtain ⟨v, hv⟩ := this
      obtain ⟨t, ht⟩ := (errors_nil m hw d hd).mp h1 k p v hp hv
      exact ⟨v, t, hv, ht⟩
    · intro k t ht
      by_contra hc
      rw [not_or] at hc
      have := (Mod.unexpected_iff m d hw k).mpr ⟨List.mem_map_of_mem (f := Prod.fst) ht, hc⟩
      rw [h3] at this
      simp at this
  · rintro ⟨h1, h2⟩
    refine ⟨_, (accepted_iff true m d _).mpr ⟨(errors_nil m hw d hd).mpr ?_, fun _ => ⟨?_, ?_⟩, rfl⟩⟩
    · intro k p v hp hv
      obtain ⟨v', t, hv', ht⟩ := h1 k p hp
      have : v = v' := by
        rw [← look_some d hd] at hv hv'
        rw [hv] at hv'
        simpa using hv'
      exact ⟨t, this ▸ ht⟩
    · rw [List.eq_nil_iff_forall_not_mem]
      intro k hk
      obtain ⟨hk1, hk2⟩ := (missing_iff m hw d k).mp hk
      obtain ⟨⟨k', p⟩, he, rfl⟩ := List.mem_map.mp hk1
      obtain ⟨v, t, hv, _⟩ := h1 k' p he
      exact hk2 v hv
    · rw [List.eq_nil_iff_forall_not_mem]
      intro k hk
      obtain ⟨hk1, hk2, hk3⟩ := (Mod.unexpected_iff m d hw k).mp hk
      obtain ⟨⟨k', t⟩, he, rfl⟩ := List.mem_map.mp hk1
      rcases h2 k' t he with h | h
      · exact hk2 h
      · exact hk3 h

/-- **C110 (not strict).** A load that is not strict is refused exactly when some value does not fit. -/
theorem C110_lenient (m : Mod D) (hw : m.WF) (d : Dict D) (hd : (d.map Prod.fst).Nodup) : Accepted (loadStateDict false m d) ↔
    ∀ k p v, Has m.dict k p → Has d k v → ∃ t, Becomes p v t := by
  rw [← errors_nil m hw d hd]
  constructor
  · rintro ⟨rep, h⟩; exact ((accepted_iff false m d rep).mp h).1
  · intro h; exact ⟨_, (accepted_iff false m d _).mpr ⟨h, by simp, rfl⟩⟩

/-- **C110 (saved and loaded).** Loading the weights saved from a model of the same shape is accepted and gives its weights. -/
theorem C110_roundtrip (m m' : Mod D) (hw : m.WF) (hd : (m'.dict.map Prod.fst).Nodup)
    (hs : List.Forall₂ (fun e e' : Key × Tensor D => e'.1 = e.1 ∧ e'.2.size = e.2.size) m.dict m'.dict) :
    Accepted (loadStateDict true m m'.dict) ∧ (loadStateDict true m m'.dict).1.dict = m'.dict := by
  have hkeys : m'.dict.map Prod.fst = m.dict.map Prod.fst := by
    have : ∀ l l' : Dict D, List.Forall₂ (fun e e' : Key × Tensor D => e'.1 = e.1 ∧ e'.2.size = e.2.size) l l' → l'.map Prod.fst = l.map Prod.fst := by
      intro l l' h
      induction h with
      | nil => rfl
      | cons h _ ih => rw [List.map_cons, List.map_cons, ih, h.1]
    exact this _ _ hs
  have hfit : ∀ k p, Has m.dict k p → ∃ v, Has m'.dict k v ∧ v.size = p.size := by
    have : ∀ l l' : Dict D, List.Forall₂ (fun e e' : Key × Tensor D => e'.1 = e.1 ∧ e'.2.size = e.2.size) l l' →
        ∀ k p, (k, p) ∈ l → ∃ v, (k, v) ∈ l' ∧ v.size = p.size := by
      intro l l' h
      induction h with
      | nil => intro k p hp; simp at hp
      | @cons a b l l' h _ ih =>
        intro k p hp
        rcases List.mem_cons.mp hp with hp | hp
        · refine ⟨b.2, List.mem_cons.mpr (.inl ?_), ?_⟩
          · rw [← show b.1 = k from h.1.trans (by rw [← hp])]
          · rw [h.2, ← hp]
        · obtain ⟨v, hv, h2⟩ := ih k p hp
          exact ⟨v, List.mem_cons_of_mem _ hv, h2⟩
    exact this _ _ hs
  refine ⟨(C110_strict m hw m'.dict hd).mpr ⟨?_, ?_⟩, ?_⟩
  · intro k p hp
    obtain ⟨v, hv, h2⟩ := hfit k p hp
    exact ⟨v, v, hv, .inl ⟨h2, rfl⟩⟩
  · intro k t ht
    left
    rw [← hkeys]
    exact List.mem_map_of_mem (f := Prod.fst) ht
  · rw [loadStateDict_fst, (Mod.load_eq m m'.dict hw).1]
    have key : ∀ l l' : Dict D, List.Forall₂ (fun e e' : Key × Tensor D => e'.1 = e.1 ∧ e'.2.size = e.2.size) l l' → (∀ e ∈ l', e ∈ m'.dict) →
        l.map (fun e => (e.1, newVal m'.dict e)) = l' := by
      intro l l' h
      induction h with
      | nil => intro _; rfl
      | @cons a b l l' h _ ih =>
        intro hm
        rw [List.map_cons, ih fun e he => hm e (List.mem_cons_of_mem _ he)]
        have hb : look m'.dict a.1 = some b.2 := by
          rw [look_some _ hd, ← h.1]
          exact hm b List.mem_cons_self
        have : newVal m'.dict a = b.2 := by
          unfold newVal
          rw [hb]
          simp only []
          have : copied a.2 b.2 = some b.2 := (copied_iff _ _ _).mpr (.inl ⟨h.2, rfl⟩)
          rw [this]; rfl
        rw [this, ← h.1]
    exact key _ _ hs fun e he => he

/-- **C110 (old ladder models).** Old convolutions in the dictionary make no difference; no tensor of the model is one. -/
theorem C110_legacy (m : Mod D) (hw : m.WF) (d d' : Dict D) (hd : (d.map Prod.fst).Nodup) (hd' : (d'.map Prod.fst).Nodup)
    (h : ∀ k t, ¬ Ignored m k → (Has d k t ↔ Has d' k t)) :
    (Accepted (loadStateDict true m d) ↔ Accepted (loadStateDict true m d')) ∧
    ∀ strict, (loadStateDict strict m d).1.dict = (loadStateDict strict m d').1.dict := by
  have hni : ∀ k p, Has m.dict k p → ¬ Ignored m k := fun k p hp hi => own_not_ignored m k hi hw (List.mem_map_of_mem (f := Prod.fst) hp)
  refine ⟨?_, ?_⟩
  · rw [C110_strict m hw d hd, C110_strict m hw d' hd']
    have half : ∀ a b : Dict D, (∀ k t, ¬ Ignored m k → (Has a k t ↔ Has b k t)) →
        ((∀ k p, Has m.dict k p → ∃ v t, Has a k v ∧ Becomes p v t) ∧ ∀ k t, Has a k t → k ∈ m.dict.map Prod.fst ∨ Ignored m k) →
        ((∀ k p, Has m.dict k p → ∃ v t, Has b k v ∧ Becomes p v t) ∧ ∀ k t, Has b k t → k ∈ m.dict.map Prod.fst ∨ Ignored m k) := by
      rintro a b hab ⟨h1, h2⟩
      refine ⟨?_, ?_⟩
      · intro k p hp
        obtain ⟨v, t, hv, ht⟩ := h1 k p hp
        exact ⟨v, t, (hab k v (hni k p hp)).mp hv, ht⟩
      · intro k t ht
        by_cases hi : Ignored m k
        · exact .inr hi
        · exact h2 k t ((hab k t hi).mpr ht)
    exact ⟨half d d' h, half d' d fun k t hk => (h k t hk).symm⟩
  · intro strict
    rw [loadStateDict_fst, loadStateDict_fst, (Mod.load_eq m d hw).1, (Mod.load_eq m d' hw).1]
    refine List.map_congr_left fun e he => ?_
    have : look d e.1 = look d' e.1 := by
      have hk := hni e.1 e.2 he
      cases hl : look d' e.1 with
      | none =>
        rw [look_none] at hl ⊢
        intro t ht
        exact hl t ((h e.1 t hk).mp ht)
      | some v =>
        rw [look_some d' hd'] at hl
        rw [look_some d hd]
        exact (h e.1 v hk).mpr hl
    unfold newVal
    rw [this]

/-- **C110 (pretrained).** Loading pretrained weights is never refused. Each tensor gets the value under its key if that has its size, and
keeps its own otherwise; the keys reported missing are exactly those of the model without such a value, and those reported unexpected exactly
the keys of the file that are not of the model (old convolutions excepted). -/
theorem C110_pretrained (m : Mod D) (hw : m.WF) (hn : (m.dict.map Prod.fst).Nodup) (d : Dict D) (hd : (d.map Prod.fst).Nodup) :
    ∃ missing unexpected, (loadPretrained m d).2 = .ok (missing, unexpected) ∧
      (∀ k, k ∈ missing ↔ ∃ p, Has m.dict k p ∧ ∀ v, Has d k v → v.size ≠ p.size) ∧
      (∀ k, k ∈ unexpected ↔ (∃ v, Has d k v) ∧ k ∉ m.dict.map Prod.fst ∧ ¬ Ignored m k) ∧
      List.Forall₂ (fun e e' : Key × Tensor D => e'.1 = e.1 ∧
        ((∃ v, Has d e.1 v ∧ v.size = e.2.size ∧ e'.2 = v) ∨ ((∀ v, Has d e.1 v → v.size ≠ e.2.size) ∧ e'.2 = e.2)))
        m.dict (loadPretrained m d).1.dict := by
  have hd1 : ((dropSizeUnmatched m d).map Prod.fst).Nodup := List.Nodup.sublist (List.Sublist.map _ List.filter_sublist) hd
  have hin : ∀ k p v, Has m.dict k p → (Has (dropSizeUnmatched m d) k v ↔ Has d k v ∧ v.size = p.size) := by
    intro k p v hp
    unfold dropSizeUnmatched Has
    rw [List.mem_filter]
    unfold keepSize
    rw [(look_some m.dict hn k p).mpr hp]
    simp only [decide_eq_true_eq]
    exact ⟨fun h => ⟨h.1, h.2.symm⟩, fun h => ⟨h.1, h.2.symm⟩⟩
  have hout : ∀ k v, k ∉ m.dict.map Prod.fst → (Has (dropSizeUnmatched m d) k v ↔ Has d k v) := by
    intro k v hk
    unfold dropSizeUnmatched Has
    rw [List.mem_filter]
    unfold keepSize
    rw [(look_none m.dict k).mpr ((absent_iff m.dict k).mpr hk)]
    simp
  have herr : (m.load (dropSizeUnmatched m d)).2.errors = [] := by
    rw [errors_nil m hw _ hd1]
    intro k p v hp hv
    exact ⟨v, .inl ⟨((hin k p v hp).mp hv).2, rfl⟩⟩
  refine ⟨_, _, (accepted_iff false m _ _).mpr ⟨herr, by simp, rfl⟩, ?_, ?_, ?_⟩
  · intro k
    rw [missing_iff m hw]
    constructor
    · rintro ⟨hk, ha⟩
      obtain ⟨⟨k', p⟩, he, rfl⟩ := List.mem_map.mp hk
      exact ⟨p, he, fun v hv hs => ha v ((hin k' p v he).mpr ⟨hv, hs⟩)⟩
    · rintro ⟨p, hp, h⟩
      exact ⟨List.mem_map_of_mem (f := Prod.fst) hp, fun v hv => h v ((hin k p v hp).mp hv).1 ((hin k p v hp).mp hv).2⟩
  · intro k
    rw [Mod.unexpected_iff m _ hw]
    constructor
    · rintro ⟨h1, h2, h3⟩
      obtain ⟨⟨k', v⟩, he, rfl⟩ := List.mem_map.mp h1
      exact ⟨⟨v, (hout k' v h2).mp he⟩, h2, h3⟩
    · rintro ⟨⟨v, hv⟩, h2, h3⟩
      exact ⟨List.mem_map_of_mem (f := Prod.fst) ((hout k v h2).mpr hv), h2, h3⟩
  · unfold loadPretrained
    rw [loadStateDict_fst, (Mod.load_eq m _ hw).1]
    refine forall2_self_map _ _ _ fun e he => ⟨rfl, ?_⟩
    show (∃ v, Has d e.1 v ∧ v.size = e.2.size ∧ newVal _ e = v) ∨ ((∀ v, Has d e.1 v → v.size ≠ e.2.size) ∧ newVal _ e = e.2)
    unfold newVal
    cases hl : look (dropSizeUnmatched m d) e.1 with
    | none =>
      right
      rw [look_none] at hl
      exact ⟨fun v hv hs => hl v ((hin e.1 e.2 v he).mpr ⟨hv, hs⟩), rfl⟩
    | some v =>
      left
      have hv := (hin e.1 e.2 v he).mp ((look_some _ hd1 _ _).mp hl)
      refine ⟨v, hv.1, hv.2, ?_⟩
      simp only []
      rw [(copied_iff e.2 v v).mpr (.inl ⟨hv.2, rfl⟩)]
      rfl

/-- **C110 (initialised flag).** After any load, accepted or refused, every quantiser says it is initialised exactly when its loaded tensor
says so, whatever it had cached. -/
theorem C110_initialized (truth : Tensor D → Bool) (strict : Bool) (m : Mod D) (d : Dict D) (c : Option Bool) (ps : List (String × Tensor D))
    (ks : Kids D) (hx : Inside (loadStateDict strict m d).1 (.mk (.quantizer c) ps ks)) (hn : (ps.map Prod.fst).Nodup) (t : Tensor D)
    (ht : ("inited", t) ∈ ps) : isInitialized truth (.mk (.quantizer c) ps ks) = some (truth t) := by
  rw [loadStateDict_fst] at hx
  have hc := Mod.load_fresh m d _ hx c ps ks rfl
  subst hc
  unfold isInitialized
  cases hf : ps.find? (fun p => decide (p.1 = "inited")) with
  | none =>
    rw [List.find?_eq_none] at hf
    exact absurd (hf _ ht) (by simp)
  | some p =>
    have h1 := List.mem_of_find?_eq_some hf
    have h2 : p.1 = "inited" := by simpa using List.find?_some hf
    have : p = ("inited", t) := List.inj_on_of_nodup_map hn h1 ht h2
    subst this
    simp only []
    rw [hf]; rfl

end Verif.Weights
