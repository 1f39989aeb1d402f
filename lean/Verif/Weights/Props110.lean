import Verif.Weights.Model
import Mathlib.Data.List.Nodup
import Mathlib.Data.List.Induction
import Mathlib.Data.Nat.Digits.Defs
import Mathlib.Tactic.Push

/-!
# C110: loading weights takes exactly the matching tensors

The specification knows state dictionaries as finite maps from keys, and nothing of the module-by-module loading.
-/
namespace Verif.Weights

variable {D : Type}

/-! ### Specification -/

/-- `s` is a decimal numeral of `i`. -/
def Decimal (s : List Char) (i : Nat) : Prop :=
  s ≠ [] ∧ (∀ c ∈ s, c.isDigit = true) ∧ Nat.ofDigits 10 (s.reverse.map fun c => c.toNat - 48) = i

/-- The names of what a module holds directly. -/
def Mod.inner : Mod D → List String
  | .mk _ ps ks => ps.map Prod.fst ++ ks.toList.map Prod.fst

/-- A key of a convolution that old ladder models (25 mappings) had and this one has not: it is ignored. -/
inductive Ignored : Mod D → Key → Prop
  | here (ps : List (String × Tensor D)) (ks : Kids D) (conv : Mod D) (s : String) (i : Nat) (r : Key) :
      ("convs", conv) ∈ ks.toList → Decimal s.toList i → conv.kids.toList.length ≤ i → i < 25 → Ignored (.mk .ladder ps ks) ("convs" :: s :: r)
  | deeper (kind : Kind) (ps : List (String × Tensor D)) (ks : Kids D) (n : String) (m : Mod D) (r : Key) :
      (n, m) ∈ ks.toList → Ignored m r → Ignored (.mk kind ps ks) (n :: r)

mutual
/-- Submodule names are distinct; the ladder model has a list of convolutions, named by the numbers below its length. -/
def Mod.WF : Mod D → Prop
  | .mk kind _ ks => (kind = .ladder → ∃ conv, ("convs", conv) ∈ ks.toList ∧ ∀ s ∈ conv.inner, ∀ i, Decimal s.toList i → i < conv.kids.toList.length) ∧
      (ks.toList.map Prod.fst).Nodup ∧ ks.WF
def Kids.WF : Kids D → Prop
  | .nil => True
  | .cons _ m r => m.WF ∧ r.WF
end

/-- `m` has the key with tensor `t`. -/
def Has (d : Dict D) (k : Key) (t : Tensor D) : Prop := (k, t) ∈ d

/-- The dictionary says nothing of `k`. -/
def Absent (d : Dict D) (k : Key) : Prop := ∀ t, ¬ Has d k t

/-- `t` is what a tensor like `p` becomes when `v` is loaded: `v` itself if the sizes agree; for a zero-dimensional tensor also the first
element of a one-dimensional one. -/
def Becomes (p v t : Tensor D) : Prop :=
  (v.size = p.size ∧ t = v) ∨ (p.size = [] ∧ (∃ n, v.size = [n]) ∧ ∃ x l, v.data = x :: l ∧ t = ⟨[], [x]⟩)

/-! ### Auxiliary -/

theorem look_some (d : Dict D) (hn : (d.map Prod.fst).Nodup) (k : Key) (t : Tensor D) : look d k = some t ↔ Has d k t := by
  induction d with
  | nil => simp [look, Has]
  | cons e d ih =>
    rw [List.map_cons, List.nodup_cons] at hn
    unfold Has at ih ⊢
    by_cases h : e.1 = k
    · have : look (e :: d) k = some e.2 := by unfold look; rw [List.find?_cons_of_pos (by simpa using h)]; rfl
      rw [this, List.mem_cons]
      constructor
      · intro h'
        simp only [Option.some.injEq] at h'
        left; rw [← h, ← h']
      · rintro (h' | h')
        · rw [← h']
        · exact absurd (List.mem_map_of_mem (f := Prod.fst) h') (by rw [← h]; exact hn.1)
    · have : look (e :: d) k = look d k := by unfold look; rw [List.find?_cons_of_neg (by simpa using h)]
      rw [this, ih hn.2, List.mem_cons]
      constructor
      · exact .inr
      · rintro (h' | h')
        · exact absurd (by rw [← h']) h
        · exact h'

theorem look_none (d : Dict D) (k : Key) : look d k = none ↔ Absent d k := by
  unfold look Absent Has
  rw [Option.map_eq_none_iff, List.find?_eq_none]
  constructor
  · intro h t ht
    exact h _ ht (by simp)
  · rintro h ⟨a, b⟩ he hk
    have : a = k := by simpa using hk
    exact h b (this ▸ he)

theorem absent_iff (d : Dict D) (k : Key) : Absent d k ↔ k ∉ d.map Prod.fst := by
  unfold Absent Has
  constructor
  · intro h hk
    obtain ⟨⟨a, b⟩, h1, h2⟩ := List.mem_map.mp hk
    exact h b (by rw [← h2]; exact h1)
  · intro h t ht
    exact h (List.mem_map_of_mem (f := Prod.fst) ht)

theorem copied_iff (p v t : Tensor D) : copied p v = some t ↔ Becomes p v t := by
  unfold copied Becomes
  by_cases h : p.size = [] ∧ v.size.length = 1 ∧ v.data ≠ []
  · rw [if_pos h]
    obtain ⟨n, hn⟩ := List.length_eq_one_iff.mp h.2.1
    cases hd : v.data with
    | nil => exact absurd hd h.2.2
    | cons x l =>
      simp only [Option.some.injEq, List.take_succ_cons, List.take_zero]
      constructor
      · intro h'; exact .inr ⟨h.1, ⟨n, hn⟩, x, l, rfl, h'.symm⟩
      · rintro (h' | h')
        · rw [h.1, hn] at h'; simp at h'
        · obtain ⟨_, _, x', l', h1, h2⟩ := h'
          simp only [List.cons.injEq] at h1
          rw [h2, h1.1]
  · rw [if_neg h]
    have hno : ¬ (p.size = [] ∧ (∃ n, v.size = [n]) ∧ ∃ x l, v.data = x :: l ∧ t = ⟨[], [x]⟩) := by
      rintro ⟨h1, ⟨n, h2⟩, x, l, h3, _⟩
      exact h ⟨h1, by rw [h2]; rfl, by rw [h3]; simp⟩
    by_cases h2 : v.size = p.size
    · rw [if_pos h2]
      simp only [Option.some.injEq]
      constructor
      · intro h'; exact .inl ⟨h2, h'.symm⟩
      · rintro (h' | h')
        · exact h'.2.symm
        · exact absurd h' hno
    · rw [if_neg h2]
      constructor
      · intro h'; simp at h'
      · rintro (h' | h')
        · exact absurd h'.1 h2
        · exact absurd h' hno

theorem look_sub (d : Dict D) (n : String) (r : Key) (hr : r ≠ []) : look (sub d n) r = look d (n :: r) := by
  induction d with
  | nil => rfl
  | cons e d ih =>
    obtain ⟨k, t⟩ := e
    unfold sub
    cases hs : strip n (k, t) with
    | none =>
      rw [List.filterMap_cons_none hs]
      have : look ((k, t) :: d) (n :: r) = look d (n :: r) := by
        unfold look
        rw [List.find?_cons_of_neg]
        simp only [decide_eq_true_eq]
        rintro rfl
        unfold strip at hs
        simp only [] at hs
        rw [if_pos ⟨trivial, hr⟩] at hs
        simp at hs
      rw [this, ← ih]; rfl
    | some e' =>
      rw [List.filterMap_cons_some hs]
      cases k with
      | nil => simp [strip] at hs
      | cons a k =>
        unfold strip at hs
        simp only [] at hs
        by_cases hc : a = n ∧ k ≠ []
        · rw [if_pos hc] at hs
          simp only [Option.some.injEq] at hs
          rw [← hs]
          unfold look
          by_cases hk : k = r
          · rw [List.find?_cons_of_pos (by simpa using hk), List.find?_cons_of_pos (by simp [hk, hc.1])]
            rfl
          · rw [List.find?_cons_of_neg (by simpa using hk), List.find?_cons_of_neg (by simp [hk])]
            exact ih
        · rw [if_neg hc] at hs; simp at hs

theorem mem_sub (d : Dict D) (n : String) (r : Key) : r ∈ (sub d n).map Prod.fst ↔ r ≠ [] ∧ (n :: r) ∈ d.map Prod.fst := by
  by_cases hr : r = []
  · constructor
    · intro h
      exfalso
      obtain ⟨e, he, h2⟩ := List.mem_map.mp h
      unfold sub at he
      obtain ⟨⟨k, t⟩, _, hs⟩ := List.mem_filterMap.mp he
      cases k with
      | nil => simp [strip] at hs
      | cons a k =>
        unfold strip at hs
        simp only [] at hs
        by_cases hc : a = n ∧ k ≠ []
        · rw [if_pos hc] at hs
          simp only [Option.some.injEq] at hs
          rw [← hs] at h2
          exact hc.2 (h2.trans hr)
        · rw [if_neg hc] at hs; simp at hs
    · intro h; exact absurd hr h.1
  · have h1 := look_none (sub d n) r
    have h2 := look_none d (n :: r)
    rw [absent_iff] at h1 h2
    rw [look_sub d n r hr] at h1
    have := h1.symm.trans h2
    constructor
    · intro h; exact ⟨hr, by_contra fun hc => absurd h (this.mpr hc)⟩
    · intro h; by_contra hc; exact (this.mp hc) h.2

/-- The value after loading. -/
def newVal (d : Dict D) (e : Key × Tensor D) : Tensor D :=
  match look d e.1 with
  | none => e.2
  | some v => (copied e.2 v).getD e.2

/-- Whether the shapes disagree. -/
def wrong (d : Dict D) (e : Key × Tensor D) : Bool :=
  match look d e.1 with
  | none => false
  | some v => (copied e.2 v).isNone

def absentB (d : Dict D) (e : Key × Tensor D) : Bool := (look d e.1).isNone

def own (ps : List (String × Tensor D)) : Dict D := ps.map fun p => ([p.1], p.2)

theorem loadParams_eq (d : Dict D) (ps : List (String × Tensor D)) :
    own (loadParams d ps).1 = (own ps).map (fun e => (e.1, newVal d e)) ∧
    (loadParams d ps).1.map Prod.fst = ps.map Prod.fst ∧
    (loadParams d ps).2.1 = ((own ps).filter (absentB d)).map Prod.fst ∧
    (loadParams d ps).2.2 = ((own ps).filter (wrong d)).map Prod.fst := by
  induction ps with
  | nil => exact ⟨rfl, rfl, rfl, rfl⟩
  | cons p ps ih =>
    obtain ⟨i1, i2, i3, i4⟩ := ih
    have ho : own (p :: ps) = ([p.1], p.2) :: own ps := rfl
    unfold loadParams
    simp only []
    cases hl : look d [p.1] with
    | none =>
      have e1 : newVal d ([p.1], p.2) = p.2 := by unfold newVal; rw [hl]
      have e2 : absentB d ([p.1], p.2) = true := by unfold absentB; rw [hl]; rfl
      have e3 : wrong d ([p.1], p.2) = false := by unfold wrong; rw [hl]
      rw [ho, List.map_cons, e1, List.filter_cons_of_pos e2, List.filter_cons_of_neg (by rw [e3]; simp), List.map_cons]
      exact ⟨congrArg (([p.1], p.2) :: ·) i1, congrArg (p.1 :: ·) i2, congrArg ([p.1] :: ·) i3, i4⟩
    | some v =>
      have e2 : absentB d ([p.1], p.2) = false := by unfold absentB; rw [hl]; rfl
      cases hc : copied p.2 v with
      | none =>
        have e1 : newVal d ([p.1], p.2) = p.2 := by unfold newVal; rw [hl]; simp only []; rw [hc]; rfl
        have e3 : wrong d ([p.1], p.2) = true := by unfold wrong; rw [hl]; simp only []; rw [hc]; rfl
        simp only [hc]
        rw [ho, List.map_cons, e1, List.filter_cons_of_neg (by rw [e2]; simp), List.filter_cons_of_pos e3, List.map_cons]
        exact ⟨congrArg (([p.1], p.2) :: ·) i1, congrArg (p.1 :: ·) i2, i3, congrArg ([p.1] :: ·) i4⟩
      | some t =>
        have e1 : newVal d ([p.1], p.2) = t := by unfold newVal; rw [hl]; simp only []; rw [hc]; rfl
        have e3 : wrong d ([p.1], p.2) = false := by unfold wrong; rw [hl]; simp only []; rw [hc]; rfl
        simp only [hc]
        rw [ho, List.map_cons, e1, List.filter_cons_of_neg (by rw [e2]; simp), List.filter_cons_of_neg (by rw [e3]; simp), List.map_cons]
        exact ⟨congrArg (([p.1], t) :: ·) i1, congrArg (p.1 :: ·) i2, i3, i4⟩

mutual
theorem Mod.dict_ne : ∀ (m : Mod D), ∀ e ∈ m.dict, e.1 ≠ []
  | .mk _ ps ks => by
    intro e he
    unfold Mod.dict at he
    rcases List.mem_append.mp he with h | h
    · obtain ⟨p, _, rfl⟩ := List.mem_map.mp h
      simp
    · exact Kids.dict_ne ks e h
theorem Kids.dict_ne : ∀ (ks : Kids D), ∀ e ∈ ks.dict, e.1 ≠ []
  | .nil => by intro e he; simp [Kids.dict] at he
  | .cons n m r => by
    intro e he
    unfold Kids.dict at he
    rcases List.mem_append.mp he with h | h
    · obtain ⟨p, _, rfl⟩ := List.mem_map.mp h
      simp
    · exact Kids.dict_ne r e h
end

theorem foldl_digits (s : List Char) : s.foldl (fun a c => 10 * a + (c.toNat - 48)) 0 = Nat.ofDigits 10 (s.reverse.map fun c => c.toNat - 48) := by
  induction s using List.reverseRecOn with
  | nil => rfl
  | append_singleton s c ih =>
    rw [List.foldl_append, List.reverse_append, List.foldl_cons, List.foldl_nil, ih]
    rw [List.reverse_singleton, List.singleton_append, List.map_cons, Nat.ofDigits_cons]
    omega

theorem parseIndex_iff (s : List Char) (i : Nat) : parseIndex s = some i ↔ Decimal s i := by
  unfold parseIndex Decimal
  rw [foldl_digits]
  by_cases h : s ≠ [] ∧ s.all Char.isDigit = true
  · rw [if_pos h]
    simp only [Option.some.injEq]
    exact ⟨fun h' => ⟨h.1, List.all_eq_true.mp h.2, h'⟩, fun h' => h'.2.2⟩
  · rw [if_neg h]
    constructor
    · intro h'; simp at h'
    · intro h'; exact absurd ⟨h'.1, List.all_eq_true.mpr h'.2.1⟩ h

theorem isLegacy_iff (n : Nat) (k : Key) : isLegacy n k = true ↔ ∃ s r i, k = kConvs :: s :: r ∧ Decimal s.toList i ∧ n ≤ i ∧ i < 25 := by
  unfold isLegacy
  match k with
  | [] => simp
  | [a] => simp
  | a :: s :: r =>
    simp only []
    by_cases h : a = kConvs
    · rw [if_pos h]
      cases hp : parseIndex s.toList with
      | none =>
        constructor
        · intro h'; simp at h'
        · rintro ⟨s', r', i, h1, h2, _⟩
          simp only [List.cons.injEq] at h1
          rw [← parseIndex_iff, ← h1.2.1, hp] at h2
          simp at h2
      | some i =>
        simp only [decide_eq_true_eq]
        constructor
        · intro h'; exact ⟨s, r, i, by rw [h], (parseIndex_iff _ _).mp hp, h'⟩
        · rintro ⟨s', r', i', h1, h2, h3⟩
          simp only [List.cons.injEq] at h1
          rw [← parseIndex_iff, ← h1.2.1, hp] at h2
          simp only [Option.some.injEq] at h2
          rw [h2]; exact h3
    · rw [if_neg h]
      constructor
      · intro h'; simp at h'
      · rintro ⟨s', r', i, h1, _⟩
        simp only [List.cons.injEq] at h1
        exact absurd h1.1 h

/-- With distinct names the convolutions are the one child of that name. -/
theorem numConvs_eq (ks : Kids D) (hn : (ks.toList.map Prod.fst).Nodup) (conv : Mod D) (h : ("convs", conv) ∈ ks.toList) :
    numConvs ks = conv.kids.toList.length := by
  unfold numConvs
  cases hf : ks.toList.find? (fun e => decide (e.1 = kConvs)) with
  | none =>
    rw [List.find?_eq_none] at hf
    exact absurd (hf _ h) (by simp [kConvs])
  | some e =>
    have h1 := List.mem_of_find?_eq_some hf
    have h2 : e.1 = kConvs := by simpa using List.find?_some hf
    have : e = ("convs", conv) := List.inj_on_of_nodup_map hn h1 h h2
    rw [this]

theorem look_filter (d : Dict D) (p : Key → Bool) (k : Key) (h : p k = true) : look (d.filter fun e => p e.1) k = look d k := by
  induction d with
  | nil => rfl
  | cons e d ih =>
    by_cases he : p e.1 = true
    · rw [List.filter_cons_of_pos (p := fun e : Key × Tensor D => p e.1) he]
      unfold look at ih ⊢
      by_cases hk : e.1 = k
      · rw [List.find?_cons_of_pos (by simpa using hk), List.find?_cons_of_pos (by simpa using hk)]
      · rw [List.find?_cons_of_neg (by simpa using hk), List.find?_cons_of_neg (by simpa using hk)]
        exact ih
    · rw [List.filter_cons_of_neg (p := fun e : Key × Tensor D => p e.1) he, ih]
      unfold look
      rw [List.find?_cons_of_neg]
      simp only [decide_eq_true_eq]
      rintro rfl
      exact he h

theorem kids_mem_dict (ks : Kids D) (k : Key) : k ∈ ks.dict.map Prod.fst ↔ ∃ n m r, (n, m) ∈ ks.toList ∧ k = n :: r ∧ r ∈ m.dict.map Prod.fst := by
  match ks with
  | .nil => simp [Kids.dict, Kids.toList]
  | .cons n m rest =>
    unfold Kids.dict Kids.toList
    rw [List.map_append, List.mem_append, kids_mem_dict rest k]
    constructor
    · rintro (h | ⟨n', m', r, h1, h2, h3⟩)
      · rw [List.map_map] at h
        obtain ⟨e, he, rfl⟩ := List.mem_map.mp h
        exact ⟨n, m, e.1, List.mem_cons_self, rfl, List.mem_map_of_mem (f := Prod.fst) he⟩
      · exact ⟨n', m', r, List.mem_cons_of_mem _ h1, h2, h3⟩
    · rintro ⟨n', m', r, h1, rfl, h3⟩
      rcases List.mem_cons.mp h1 with h | h
      · left
        simp only [Prod.mk.injEq] at h
        obtain ⟨e, he, h4⟩ := List.mem_map.mp h3
        rw [List.map_map]
        refine List.mem_map.mpr ⟨e, h.2 ▸ he, ?_⟩
        show n :: e.1 = n' :: r
        rw [h.1, h4]
      · exact .inr ⟨n', m', r, h, rfl, h3⟩

theorem mod_mem_dict (kind : Kind) (ps : List (String × Tensor D)) (ks : Kids D) (k : Key) :
    k ∈ (Mod.mk kind ps ks).dict.map Prod.fst ↔ (∃ n ∈ ps.map Prod.fst, k = [n]) ∨ k ∈ ks.dict.map Prod.fst := by
  unfold Mod.dict
  rw [List.map_append, List.mem_append, List.map_map]
  constructor
  · rintro (h | h)
    · obtain ⟨p, hp, rfl⟩ := List.mem_map.mp h
      exact .inl ⟨p.1, List.mem_map_of_mem (f := Prod.fst) hp, rfl⟩
    · exact .inr h
  · rintro (⟨n, hn, rfl⟩ | h)
    · obtain ⟨p, hp, rfl⟩ := List.mem_map.mp hn
      exact .inl (List.mem_map.mpr ⟨p, hp, rfl⟩)
    · exact .inr h

theorem dict_inner (m : Mod D) (s : String) (r : Key) (h : s :: r ∈ m.dict.map Prod.fst) : s ∈ m.inner := by
  obtain ⟨kind, ps, ks⟩ := m
  unfold Mod.inner
  rcases (mod_mem_dict kind ps ks _).mp h with ⟨n, hn, h2⟩ | h
  · simp only [List.cons.injEq] at h2
    exact List.mem_append_left _ (h2.1 ▸ hn)
  · obtain ⟨n, m, r', h1, h2, _⟩ := (kids_mem_dict ks _).mp h
    simp only [List.cons.injEq] at h2
    refine List.mem_append_right _ ?_
    rw [h2.1]
    exact List.mem_map_of_mem (f := Prod.fst) h1

/-- A key of the model is never taken for a legacy one. -/
theorem own_not_legacy (kind : Kind) (ps : List (String × Tensor D)) (ks : Kids D) (hw : (Mod.mk kind ps ks).WF) (hk : kind = .ladder)
    (k : Key) (h : k ∈ (Mod.mk kind ps ks).dict.map Prod.fst) : isLegacy (numConvs ks) k = false := by
  unfold Mod.WF at hw
  obtain ⟨conv, hc, hi⟩ := hw.1 hk
  by_contra hl
  obtain ⟨s, r, i, rfl, h2, h3, _⟩ := (isLegacy_iff _ _).mp (by simpa using hl)
  rw [numConvs_eq ks hw.2.1 conv hc] at h3
  rcases (mod_mem_dict kind ps ks _).mp h with ⟨n, _, h4⟩ | h
  · simp at h4
  · obtain ⟨n, m, r', h4, h5, h6⟩ := (kids_mem_dict ks _).mp h
    simp only [List.cons.injEq] at h5
    have : (n, m) = ("convs", conv) := List.inj_on_of_nodup_map hw.2.1 h4 hc h5.1.symm
    simp only [Prod.mk.injEq] at this
    rw [← h5.2, this.2] at h6
    have := hi s (dict_inner conv s r h6) i h2
    omega

theorem look_before (kind : Kind) (ps : List (String × Tensor D)) (ks : Kids D) (hw : (Mod.mk kind ps ks).WF) (d : Dict D) (k : Key)
    (h : k ∈ (Mod.mk kind ps ks).dict.map Prod.fst) : look (beforeLoad kind ks d) k = look d k := by
  unfold beforeLoad
  cases kind with
  | plain => rfl
  | quantizer => rfl
  | ladder =>
    simp only []
    exact look_filter d (fun k => !isLegacy (numConvs ks) k) k (by rw [own_not_legacy .ladder ps ks hw rfl k h]; rfl)

theorem filter_map_cons (n : String) (f g : Key × Tensor D → Bool) (l : Dict D) (h : ∀ e ∈ l, f (n :: e.1, e.2) = g e) :
    ((l.map fun e => (n :: e.1, e.2)).filter f).map Prod.fst = ((l.filter g).map Prod.fst).map (n :: ·) := by
  induction l with
  | nil => rfl
  | cons e l ih =>
    have ih := ih fun e he => h e (List.mem_cons_of_mem _ he)
    have h0 := h e List.mem_cons_self
    rw [List.map_cons]
    by_cases hg : g e = true
    · rw [List.filter_cons_of_pos hg, List.filter_cons_of_pos (h0.trans hg), List.map_cons, List.map_cons, List.map_cons, ih]
    · rw [List.filter_cons_of_neg hg, List.filter_cons_of_neg (by rw [h0]; exact hg), ih]

mutual
/-- The module-by-module loading, seen on the whole dictionary. -/
theorem Mod.load_eq : ∀ (m : Mod D) (d : Dict D), m.WF →
    (m.load d).1.dict = m.dict.map (fun e => (e.1, newVal d e)) ∧
    (m.load d).2.missing = (m.dict.filter (absentB d)).map Prod.fst ∧
    (m.load d).2.errors = (m.dict.filter (wrong d)).map Prod.fst
  | .mk kind ps ks, d0 => by
    intro hw
    have hks : ks.WF := by unfold Mod.WF at hw; exact hw.2.2
    obtain ⟨i1, i2, i3⟩ := Kids.load_eq ks (beforeLoad kind ks d0) hks
    obtain ⟨p1, _, p3, p4⟩ := loadParams_eq (beforeLoad kind ks d0) ps
    have hlook : ∀ e ∈ (Mod.mk kind ps ks).dict, look (beforeLoad kind ks d0) e.1 = look d0 e.1 := fun e he =>
      look_before kind ps ks hw d0 e.1 (List.mem_map_of_mem (f := Prod.fst) he)
    have hd : (Mod.mk kind ps ks).dict = own ps ++ ks.dict := by unfold Mod.dict; rfl
    have f1 : ∀ e ∈ own ps ++ ks.dict, newVal (beforeLoad kind ks d0) e = newVal d0 e := by
      intro e he; unfold newVal; rw [hlook e (hd ▸ he)]
    have f2 : ∀ e ∈ own ps ++ ks.dict, absentB (beforeLoad kind ks d0) e = absentB d0 e := by
      intro e he; unfold absentB; rw [hlook e (hd ▸ he)]
    have f3 : ∀ e ∈ own ps ++ ks.dict, wrong (beforeLoad kind ks d0) e = wrong d0 e := by
      intro e he; unfold wrong; rw [hlook e (hd ▸ he)]
    unfold Mod.load
    simp only []
    rw [hd]
    refine ⟨?_, ?_, ?_⟩
    · unfold Mod.dict
      show own _ ++ _ = _
      rw [p1, i1, ← List.map_append]
      exact List.map_congr_left fun e he => by rw [f1 e he]
    · rw [p3, i2, ← List.map_append, ← List.filter_append, List.filter_congr f2]
    · rw [p4, i3, ← List.map_append, ← List.filter_append, List.filter_congr f3]
theorem Kids.load_eq : ∀ (ks : Kids D) (d : Dict D), ks.WF →
    (ks.load d).1.dict = ks.dict.map (fun e => (e.1, newVal d e)) ∧
    (ks.load d).2.missing = (ks.dict.filter (absentB d)).map Prod.fst ∧
    (ks.load d).2.errors = (ks.dict.filter (wrong d)).map Prod.fst
  | .nil, d => fun _ => ⟨rfl, rfl, rfl⟩
  | .cons n m rest, d => by
    intro hw
    unfold Kids.WF at hw
    obtain ⟨a1, a2, a3⟩ := Mod.load_eq m (sub d n) hw.1
    obtain ⟨b1, b2, b3⟩ := Kids.load_eq rest d hw.2
    have hlook : ∀ e ∈ m.dict, look d (n :: e.1) = look (sub d n) e.1 := fun e he => (look_sub d n e.1 (Mod.dict_ne m e he)).symm
    unfold Kids.load
    simp only []
    unfold Kids.dict
    refine ⟨?_, ?_, ?_⟩
    · rw [a1, b1, List.map_append, List.map_map, List.map_map]
      congr 1
      refine List.map_congr_left fun e he => ?_
      show (n :: e.1, newVal (sub d n) e) = (n :: e.1, newVal d (n :: e.1, e.2))
      have : newVal (sub d n) e = newVal d (n :: e.1, e.2) := by unfold newVal; simp only []; rw [hlook e he]
      rw [this]
    · rw [a2, b2, List.filter_append, List.map_append]
      congr 1
      refine (filter_map_cons n _ _ _ fun e he => ?_).symm
      unfold absentB; simp only []; rw [hlook e he]
    · rw [a3, b3, List.filter_append, List.map_append]
      congr 1
      refine (filter_map_cons n _ _ _ fun e he => ?_).symm
      unfold wrong; simp only []; rw [hlook e he]
end

end Verif.Weights
