import Verif.Planner.Lemmas

/-! Facts about the shape-queue dictionary. -/
namespace Verif.Planner

variable {σ ε : Type}

theorem qget_nil (s : Nat) : qget ([] : List (Nat × List ε)) s = none := rfl

theorem qget_cons (p : Nat × List ε) (q : List (Nat × List ε)) (s : Nat) :
    qget (p :: q) s = if p.1 = s then some p.2 else qget q s := by
  unfold qget
  rw [List.find?_cons]
  by_cases h : p.1 = s
  · simp [h]
  · have : (p.1 == s) = false := by simpa using h
    simp [this, h]

theorem qget_mem {q : List (Nat × List ε)} {s : Nat} {l : List ε} (h : qget q s = some l) : (s, l) ∈ q := by
  induction q with
  | nil => simp [qget_nil] at h
  | cons p q ih =>
    rw [qget_cons] at h
    split at h
    · rename_i hp
      simp only [Option.some.injEq] at h
      rw [← hp, ← h]; exact List.mem_cons_self
    · exact List.mem_cons_of_mem _ (ih h)

theorem qget_none {q : List (Nat × List ε)} {s : Nat} (h : qget q s = none) : s ∉ q.map (·.1) := by
  induction q with
  | nil => simp
  | cons p q ih =>
    rw [qget_cons] at h
    split at h
    · simp at h
    · rename_i hp
      simp only [List.map_cons, List.mem_cons, not_or]
      exact ⟨fun e => hp e.symm, ih h⟩

theorem qget_of_mem {q : List (Nat × List ε)} (hn : (q.map (·.1)).Nodup) {p : Nat × List ε} (h : p ∈ q) :
    qget q p.1 = some p.2 := by
  induction q with
  | nil => simp at h
  | cons a q ih =>
    simp only [List.map_cons, List.nodup_cons] at hn
    rw [qget_cons]
    rcases List.mem_cons.mp h with rfl | h
    · simp
    · have : a.1 ≠ p.1 := fun e => hn.1 (e ▸ List.mem_map_of_mem (f := (·.1)) h)
      rw [if_neg this]
      exact ih hn.2 h

theorem qset_keys_some {q : List (Nat × List ε)} {s : Nat} {l l' : List ε} (h : qget q s = some l) :
    (qset q s l').map (·.1) = q.map (·.1) := by
  induction q with
  | nil => simp [qget_nil] at h
  | cons p q ih =>
    rw [qget_cons] at h
    unfold qset
    split at h
    · rename_i hp
      rw [if_pos hp]; simp [hp]
    · rename_i hp
      rw [if_neg hp]; simp [ih h]

theorem qset_none {q : List (Nat × List ε)} {s : Nat} {l : List ε} (h : qget q s = none) :
    qset q s l = q ++ [(s, l)] := by
  induction q with
  | nil => rfl
  | cons p q ih =>
    rw [qget_cons] at h
    unfold qset
    split at h
    · simp at h
    · rename_i hp
      rw [if_neg hp, ih h]; rfl

theorem qset_mem {q : List (Nat × List ε)} {s : Nat} {l : List ε} {p : Nat × List ε} (h : p ∈ qset q s l) :
    p = (s, l) ∨ p ∈ q := by
  induction q with
  | nil => simp [qset] at h; exact Or.inl h
  | cons a q ih =>
    unfold qset at h
    split at h
    · rcases List.mem_cons.mp h with h | h
      · exact Or.inl h
      · exact Or.inr (List.mem_cons_of_mem _ h)
    · rcases List.mem_cons.mp h with h | h
      · exact Or.inr (h ▸ List.mem_cons_self)
      · rcases ih h with h | h
        · exact Or.inl h
        · exact Or.inr (List.mem_cons_of_mem _ h)

theorem qset_queued {q : List (Nat × List ε)} {s : Nat} {l l' : List ε} (h : qget q s = some l) :
    (l ++ queued (qset q s l')).Perm (l' ++ queued q) := by
  induction q with
  | nil => simp [qget_nil] at h
  | cons p q ih =>
    rw [qget_cons] at h
    unfold qset
    split at h
    · rename_i hp
      simp only [Option.some.injEq] at h
      rw [if_pos hp]
      simp only [queued, List.flatMap_cons, h]
      rw [← List.append_assoc, ← List.append_assoc]
      exact List.perm_append_comm.append_right _
    · rename_i hp
      rw [if_neg hp]
      simp only [queued, List.flatMap_cons]
      have := ih h
      simp only [queued] at this
      calc (l ++ (p.2 ++ (qset q s l').flatMap (·.2))).Perm (p.2 ++ (l ++ (qset q s l').flatMap (·.2))) := by
            rw [← List.append_assoc, ← List.append_assoc]; exact List.perm_append_comm.append_right _
        _ |>.Perm (p.2 ++ (l' ++ q.flatMap (·.2))) := this.append_left _
        _ |>.Perm (l' ++ (p.2 ++ q.flatMap (·.2))) := by
            rw [← List.append_assoc, ← List.append_assoc]; exact List.perm_append_comm.append_right _

theorem qset_queued_none {q : List (Nat × List ε)} {s : Nat} {l : List ε} (h : qget q s = none) :
    queued (qset q s l) = queued q ++ l := by
  rw [qset_none h]; simp [queued]

theorem filter_queued {q : List (Nat × List ε)} (hn : (q.map (·.1)).Nodup) {s : Nat} {l : List ε}
    (h : qget q s = some l) : (l ++ queued (q.filter fun p => p.1 != s)).Perm (queued q) := by
  induction q with
  | nil => simp [qget_nil] at h
  | cons p q ih =>
    simp only [List.map_cons, List.nodup_cons] at hn
    rw [qget_cons] at h
    split at h
    · rename_i hp
      simp only [Option.some.injEq] at h
      have : (q.filter fun p => p.1 != s) = q := by
        rw [List.filter_eq_self]
        intro a ha
        simp only [bne_iff_ne, ne_eq]
        intro e
        exact hn.1 (by rw [hp, ← e]; exact List.mem_map_of_mem (f := (·.1)) ha)
      rw [List.filter_cons_of_neg (by simp [hp]), this]
      simp only [queued, List.flatMap_cons, h]
      exact List.Perm.refl _
    · rename_i hp
      rw [List.filter_cons_of_pos (by simpa using hp)]
      simp only [queued, List.flatMap_cons]
      have := ih hn.2 h
      simp only [queued] at this
      refine List.Perm.trans ?_ (this.append_left _)
      rw [← List.append_assoc, ← List.append_assoc]
      exact List.perm_append_comm.append_right _

theorem minShape_none {q : List (Nat × List ε)} (h : minShape q = none) : queued q = [] := by
  induction q with
  | nil => rfl
  | cons p q ih =>
    obtain ⟨s, l⟩ := p
    unfold minShape at h
    split at h
    · rename_i hm
      split at h
      · rename_i hl
        simp only [queued, List.flatMap_cons, hl]
        exact ih hm
      · simp at h
    · split at h <;> simp at h

theorem minShape_some {q : List (Nat × List ε)} {s : Nat} (hn : (q.map (·.1)).Nodup) (h : minShape q = some s) :
    ∃ l, l ≠ [] ∧ qget q s = some l ∧ ∀ p ∈ q, p.2 ≠ [] → s ≤ p.1 := by
  induction q generalizing s with
  | nil => simp [minShape] at h
  | cons p q ih =>
    obtain ⟨t, l⟩ := p
    simp only [List.map_cons, List.nodup_cons] at hn
    unfold minShape at h
    split at h
    · rename_i hm
      split at h
      · simp at h
      · rename_i hl
        simp only [Option.some.injEq] at h
        subst h
        refine ⟨l, hl, by rw [qget_cons]; simp, ?_⟩
        intro p hp hne
        rcases List.mem_cons.mp hp with rfl | hp
        · exact Nat.le_refl _
        · have := minShape_none hm
          simp only [queued, List.flatMap_eq_nil_iff] at this
          exact absurd (this p hp) hne
    · rename_i m hm
      obtain ⟨l', h1, h2, h3⟩ := ih hn.2 hm
      have hne : t ≠ m := fun e => hn.1 (e ▸ List.mem_map_of_mem (f := (·.1)) (qget_mem h2))
      split at h
      · rename_i hl
        simp only [Option.some.injEq] at h
        subst h
        refine ⟨l', h1, by rw [qget_cons, if_neg hne]; exact h2, ?_⟩
        intro p hp hpn
        rcases List.mem_cons.mp hp with rfl | hp
        · exact absurd hl hpn
        · exact h3 p hp hpn
      · rename_i hl
        simp only [Option.some.injEq] at h
        by_cases hlt : t ≤ m
        · have hs : s = t := by omega
          subst hs
          refine ⟨l, hl, by rw [qget_cons]; simp, ?_⟩
          intro p hp hpn
          rcases List.mem_cons.mp hp with rfl | hp
          · exact Nat.le_refl _
          · exact Nat.le_trans hlt (h3 p hp hpn)
        · have hs : s = m := by omega
          subst hs
          refine ⟨l', h1, by rw [qget_cons, if_neg hne]; exact h2, ?_⟩
          intro p hp hpn
          rcases List.mem_cons.mp hp with rfl | hp
          · omega
          · exact h3 p hp hpn

theorem queued_length_le {q : List (Nat × List ε)} {n : Nat} (h : ∀ p ∈ q, p.2.length < n) :
    (queued q).length + q.length ≤ q.length * n := by
  induction q with
  | nil => simp [queued]
  | cons p q ih =>
    have h1 := h p List.mem_cons_self
    have h2 := ih fun a ha => h a (List.mem_cons_of_mem _ ha)
    simp only [queued, List.flatMap_cons, List.length_append, List.length_cons] at h2 ⊢
    rw [Nat.add_mul]
    omega

/-- The records of one shape in the queues are those of its own queue. -/
theorem queued_filter_length (sh : ε → Nat) {q : List (Nat × List ε)} (hn : (q.map (·.1)).Nodup)
    (hs : ∀ p ∈ q, ∀ e ∈ p.2, sh e = p.1) {n : Nat} (hpos : 0 < n) (h : ∀ p ∈ q, p.2.length < n) (s : Nat) :
    ((queued q).filter fun e => sh e = s).length < n := by
  induction q with
  | nil => simpa [queued] using hpos
  | cons p q ih =>
    simp only [List.map_cons, List.nodup_cons] at hn
    simp only [queued, List.flatMap_cons, List.filter_append, List.length_append]
    by_cases hp : p.1 = s
    · have : ((q.flatMap (·.2)).filter fun e => sh e = s) = [] := by
        rw [List.filter_eq_nil_iff]
        intro e he
        obtain ⟨a, ha, he⟩ := List.mem_flatMap.mp he
        have := hs a (List.mem_cons_of_mem _ ha) e he
        simp only [decide_eq_true_eq]
        intro e2
        apply hn.1
        rw [hp, ← e2, this]
        exact List.mem_map_of_mem (f := (·.1)) ha
      rw [this]
      have h1 := h p List.mem_cons_self
      have h2 := List.length_filter_le (fun e => decide (sh e = s)) p.2
      simp only [List.length_nil]
      omega
    · have : (p.2.filter fun e => sh e = s) = [] := by
        rw [List.filter_eq_nil_iff]
        intro e he
        have := hs p List.mem_cons_self e he
        simp only [decide_eq_true_eq]
        omega
      rw [this]
      have := ih hn.2 (fun a ha => hs a (List.mem_cons_of_mem _ ha)) (fun a ha => h a (List.mem_cons_of_mem _ ha))
      simpa [queued] using this

/-- What appending a record to its queue does. -/
structure Appended (P : Planner σ ε) (q : List (Nat × List ε)) (e : ε) (l : List ε) (q' : List (Nat × List ε)) :
    Prop where
  queue : ∃ l0, l = l0 ++ [e] ∧ (l0 = [] ∨ (P.shape e, l0) ∈ q)
  get : qget q' (P.shape e) = some l
  nodup : (q'.map (·.1)).Nodup
  mem : ∀ p ∈ q', p = (P.shape e, l) ∨ p ∈ q
  perm : (queued q').Perm (queued q ++ [e])
  limit : q.length ≤ P.cfg.maxQueues → q'.length ≤ P.cfg.maxQueues

theorem qset_get {q : List (Nat × List ε)} {s : Nat} {l : List ε} : qget (qset q s l) s = some l := by
  induction q with
  | nil => simp [qset, qget_cons]
  | cons p q ih =>
    unfold qset
    split
    · simp [qget_cons]
    · rename_i hp
      rw [qget_cons, if_neg hp]; exact ih

theorem appendShape_spec {P : Planner σ ε} {q q' : List (Nat × List ε)} {e : ε} {l : List ε}
    (hn : (q.map (·.1)).Nodup) (h : appendShape P q e = .ok (l, q')) : Appended P q e l q' := by
  unfold appendShape at h
  split at h
  · rename_i l0 hg
    simp only [Except.ok.injEq, Prod.mk.injEq] at h
    obtain ⟨rfl, rfl⟩ := h
    refine ⟨⟨l0, rfl, Or.inr (qget_mem hg)⟩, qset_get, ?_, fun p hp => qset_mem hp, ?_, ?_⟩
    · rw [qset_keys_some hg]; exact hn
    · have := qset_queued (l' := l0 ++ [e]) hg
      rw [List.append_assoc] at this
      have := (List.perm_append_left_iff l0).mp this
      exact this.trans List.perm_append_comm
    · intro hl
      have := congrArg List.length (qset_keys_some (l' := l0 ++ [e]) hg)
      simp only [List.length_map] at this
      omega
  · rename_i hg
    split at h
    · simp at h
    rename_i hlim
    simp only [Except.ok.injEq, Prod.mk.injEq] at h
    obtain ⟨rfl, rfl⟩ := h
    refine ⟨⟨[], rfl, Or.inl rfl⟩, qset_get, ?_, fun p hp => qset_mem hp, ?_, ?_⟩
    · rw [qset_none hg]
      simp only [List.map_append, List.map_cons, List.map_nil]
      rw [List.nodup_append]
      refine ⟨hn, by simp, ?_⟩
      intro a ha b hb
      simp only [List.mem_singleton] at hb
      subst hb
      rintro rfl
      exact qget_none hg ha
    · rw [qset_queued_none hg]
    · intro _
      rw [qset_none hg]
      simp only [List.length_append, List.length_cons, List.length_nil]
      omega

end Verif.Planner
