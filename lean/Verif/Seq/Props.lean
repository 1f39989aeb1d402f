import Verif.Seq.Lemmas

/-!
# C18 (sequential source), C20, C21
-/
namespace Verif.Seq
open Verif.Rng (Val Digest deterministicPermutation)

/-! ### C21: file-to-rank assignment -/

theorem argmin_lt : ∀ (l : List Nat), l ≠ [] → argmin l < l.length
  | [], h => absurd rfl h
  | [_], _ => by simp [argmin]
  | a :: b :: rest, _ => by
    have ih := argmin_lt (b :: rest) (by simp)
    simp only [argmin]
    split
    · simp
    · simp only [List.length_cons] at ih ⊢; omega

theorem argmin_le : ∀ (l : List Nat) (k : Nat), k < l.length → l.getD (argmin l) 0 ≤ l.getD k 0
  | [], k, h => by simp at h
  | [a], k, h => by simp at h; simp [h, argmin]
  | a :: b :: rest, k, h => by
    have ih := argmin_le (b :: rest)
    simp only [argmin]
    split
    · rename_i hle
      cases k with
      | zero => simp
      | succ k =>
        have := ih k (by simpa using h)
        simp only [List.getD_cons_zero, List.getD_cons_succ]
        omega
    · rename_i hgt
      cases k with
      | zero => simp only [List.getD_cons_zero, List.getD_cons_succ]; omega
      | succ k =>
        have := ih k (by simpa using h)
        simp only [List.getD_cons_succ]
        omega

theorem flatten_modify {α : Type} (L : List (List α)) (r : Nat) (x : α) (h : r < L.length) :
    (L.modify r (· ++ [x])).flatten.Perm (x :: L.flatten) := by
  induction L generalizing r with
  | nil => simp at h
  | cons a L ih =>
    cases r with
    | zero =>
      simp only [List.modify_zero_cons, List.flatten_cons]
      rw [List.append_assoc]
      exact List.perm_middle
    | succ r =>
      simp only [List.modify_succ_cons, List.flatten_cons]
      exact ((ih r (by simpa using h)).append_left a).trans List.perm_middle

/-- Total size of a list of files. -/
def sizeSum (S : Src) (l : List Nat) : Nat := (l.map fun i => (S.file i).size).sum

theorem getD_modify {α : Type} (l : List α) (r k : Nat) (f : α → α) (d : α) (hr : r < l.length) :
    (l.modify r f).getD k d = if k = r then f (l.getD r d) else l.getD k d := by
  simp only [List.getD_eq_getElem?_getD, List.getElem?_modify]
  by_cases h : r = k
  · subst h; simp [hr]
  · rw [if_neg (fun h' => h h'.symm)]; simp [h]

/-- Invariant of the assignment loop. -/
structure AInv (S : Src) (M : Nat) (pos : Nat) (asg : List (List Nat)) (loads : List Nat) : Prop where
  la : asg.length = S.world
  ll : loads.length = S.world
  sum : ∀ k, loads.getD k 0 = sizeSum S (asg.getD k [])
  fresh : ∀ k, pos ≤ k → asg.getD k [] = []
  first : pos ≤ S.world → ∀ k, loads.getD k 0 ≤ M
  bal : ∀ r s, r < S.world → s < S.world → loads.getD r 0 ≤ loads.getD s 0 + M
  busy : ∀ k, k < pos → k < S.world → asg.getD k [] ≠ []

theorem assignLoop_spec (S : Src) (M : Nat) (hw : 0 < S.world) : ∀ (l : List Nat) (pos : Nat) (asg : List (List Nat))
    (loads : List Nat), (∀ i ∈ l, (S.file i).size ≤ M) → AInv S M pos asg loads →
    AInv S M (pos + l.length) (assignLoop S l pos asg loads).1 (assignLoop S l pos asg loads).2 ∧
    (assignLoop S l pos asg loads).1.flatten.Perm (l ++ asg.flatten)
  | [], pos, asg, loads, _, h => by simp only [assignLoop, List.length_nil, Nat.add_zero, List.nil_append]; exact ⟨h, List.Perm.refl _⟩
  | i :: l, pos, asg, loads, hM, h => by
    have hiM := hM i (by simp)
    simp only [assignLoop]
    set r := if pos < S.world then pos else argmin loads with hr
    have hrw : r < S.world := by
      rw [hr]; split
      · assumption
      · rw [← h.ll]; apply argmin_lt
        intro h0
        have := h.ll
        rw [h0] at this; simp at this; omega
    have ha : r < asg.length := by rw [h.la]; exact hrw
    have hl : r < loads.length := by rw [h.ll]; exact hrw
    have hle : ∀ s, s < S.world → loads.getD r 0 ≤ loads.getD s 0 := by
      intro s hs
      rw [hr]
      split
      · rename_i hp
        have : loads.getD pos 0 = 0 := by rw [h.sum, h.fresh pos (le_refl _)]; rfl
        omega
      · apply argmin_le; rw [h.ll]; exact hs
    have hnew : AInv S M (pos + 1) (asg.modify r (· ++ [i])) (loads.modify r (· + (S.file i).size)) := by
      refine ⟨by simpa using h.la, by simpa using h.ll, ?_, ?_, ?_, ?_, ?_⟩
      · intro k
        rw [getD_modify _ _ _ _ _ hl, getD_modify _ _ _ _ _ ha]
        split
        · rw [h.sum]; simp [sizeSum]
        · exact h.sum k
      · intro k hk
        rw [getD_modify _ _ _ _ _ ha]
        split
        · rename_i hkr
          exfalso
          by_cases hp : pos < S.world
          · rw [if_pos hp] at hr; omega
          · omega
        · exact h.fresh k (by omega)
      · intro hp k
        rw [getD_modify _ _ _ _ _ hl]
        split
        · have hpos : pos < S.world := by omega
          rw [if_pos hpos] at hr
          have : loads.getD r 0 = 0 := by rw [hr, h.sum, h.fresh pos (le_refl _)]; rfl
          omega
        · exact h.first (by omega) k
      · intro a b ha' hb'
        rw [getD_modify _ _ _ _ _ hl, getD_modify _ _ _ _ _ hl]
        have h1 := hle b hb'
        have h2 := h.bal a b ha' hb'
        have h3 := h.bal a r ha' hrw
        split <;> split <;> omega
      · intro k hk hkw
        rw [getD_modify _ _ _ _ _ ha]
        split
        · simp
        · rename_i hkr
          apply h.busy k _ hkw
          by_contra hc
          have : k = pos := by omega
          rw [if_pos (by omega)] at hr
          omega
    obtain ⟨g1, g2⟩ := assignLoop_spec S M hw l (pos + 1) _ _ (fun x hx => hM x (by simp [hx])) hnew
    refine ⟨by rw [List.length_cons, show pos + (l.length + 1) = pos + 1 + l.length by omega]; exact g1, ?_⟩
    refine g2.trans ?_
    exact ((flatten_modify asg r i ha).append_left l).trans List.perm_middle

theorem assignments_spec (S : Src) (hw : 0 < S.world) (M : Nat) (hM : ∀ i < S.files.length, (S.file i).size ≤ M) :
    (assignments S).flatten.Perm (List.range S.files.length) ∧ (assignments S).length = S.world ∧
    (∀ r s, r < S.world → s < S.world →
      sizeSum S ((assignments S).getD r []) ≤ sizeSum S ((assignments S).getD s []) + M) ∧
    (∀ r, r < S.world → r < S.files.length → (assignments S).getD r [] ≠ []) := by
  have hperm : (bySize S).Perm (List.range S.files.length) := List.mergeSort_perm _ _
  have h0 : AInv S M 0 (List.replicate S.world []) (List.replicate S.world 0) := by
    have e : ∀ k, (List.replicate S.world ([] : List Nat)).getD k [] = [] := by
      intro k; simp [List.getElem?_replicate]; split <;> rfl
    have e' : ∀ k, (List.replicate S.world 0).getD k 0 = 0 := by
      intro k; simp [List.getElem?_replicate]; split <;> rfl
    refine ⟨by simp, by simp, ?_, fun k _ => e k, fun _ k => by rw [e']; omega, fun r s _ _ => by rw [e', e']; omega,
      fun k hk => by omega⟩
    intro k; rw [e, e']; rfl
  have := assignLoop_spec S M hw (bySize S) 0 _ _
    (fun i hi => hM i (by have := hperm.mem_iff.mp hi; simpa using this)) h0
  obtain ⟨g1, g2⟩ := this
  refine ⟨?_, g1.la, ?_, ?_⟩
  · refine g2.trans ?_
    simp only [List.flatten_replicate_nil, List.append_nil]
    exact hperm
  · intro r s hr hs
    have := g1.bal r s hr hs
    rw [g1.sum, g1.sum] at this
    exact this
  · intro r hr hrf
    apply g1.busy r _ hr
    rw [hperm.length_eq]; simp; omega

theorem flatten_getD {α : Type} (L : List (List α)) :
    (List.range L.length).flatMap (fun r => L.getD r []) = L.flatten := by
  rw [List.flatMap_def]
  congr 1
  apply List.ext_getElem
  · simp
  · intro i h1 h2; simp [h2]

theorem range_map_getD (l p : List Nat) (h : p.Perm (List.range l.length)) : (p.map fun i => l.getD i 0).Perm l := by
  have : ((List.range l.length).map fun i => l.getD i 0) = l := by
    apply List.ext_getElem
    · simp
    · intro i h1 h2; simp [h2]
  exact (h.map _).trans (by rw [this])

theorem shard_perm (S : Src) (r : Nat) : (shard S r).Perm ((assignments S).getD r []) := List.mergeSort_perm _ _

theorem fileOrder_sharded {H : Digest} {S : Src} {e y r : Nat} {o : List Nat} (hs : S.sharded = true)
    (h : fileOrder H S e y r = some o) : o.Perm (shard S r) := by
  unfold fileOrder at h
  rw [if_neg (by simp [hs])] at h
  split at h
  · simp only [Option.some.injEq] at h; rw [h]
  · simp only [Option.map_eq_some_iff] at h
    obtain ⟨p, hp, rfl⟩ := h
    exact range_map_getD _ _ (Verif.Rng.C04_permutation _ _ _ _ _ _ hp)

theorem fileOrder_unsharded {H : Digest} {S : Src} {e y r : Nat} {o : List Nat} (hs : S.sharded = false)
    (h : fileOrder H S e y r = some o) : o.Perm (List.range S.files.length) := by
  unfold fileOrder at h
  rw [if_pos hs] at h
  split at h
  · simp only [Option.some.injEq] at h; rw [h]
  · exact Verif.Rng.C04_permutation _ _ _ _ _ _ h

/-- **C21 (file-to-rank assignment is a partition).** With rank-sharded reading over `w` ranks, the file orders the
ranks use in an epoch and cycle - shuffled or not - together contain every file exactly once: no file is read by two
ranks and none is left out. -/
theorem C21_partition (H : Digest) (S : Src) (w : Nat) (hw : 0 < w) (epoch cycle : Nat) (order : Nat → List Nat)
    (h : ∀ r, r < w → ∃ Sr, S.configure w r true = some Sr ∧ fileOrder H Sr epoch cycle r = some (order r)) :
    ((List.range w).flatMap order).Perm (List.range S.files.length) ∧
      ∀ r, r < w → order r ≠ [] := by
  have hlen : ¬ S.files.length < w := by
    obtain ⟨Sr, h1, -⟩ := h 0 hw
    intro hlt
    simp only [Src.configure] at h1
    rw [if_neg (by omega), if_pos (by simp [hlt])] at h1
    simp at h1
  have hconf : ∀ r, r < w → S.configure w r true = some { S with world := w, rank := r, sharded := true } := by
    intro r hr
    simp only [Src.configure]
    rw [if_neg (by omega), if_neg (by omega)]
  have hasg : ∀ r, assignments { S with world := w, rank := r, sharded := true } =
      assignments { S with world := w, rank := 0, sharded := true } := by
    intro r
    have : ∀ l p a b, assignLoop { S with world := w, rank := r, sharded := true } l p a b =
        assignLoop { S with world := w, rank := 0, sharded := true } l p a b := by
      intro l
      induction l with
      | nil => intros; rfl
      | cons i l ih => intro p a b; simp only [assignLoop]; rw [ih]; rfl
    simp only [assignments]
    rw [this]; rfl
  set A := assignments { S with world := w, rank := 0, sharded := true }
  have hord : ∀ r, r < w → (order r).Perm (A.getD r []) := by
    intro r hr
    obtain ⟨Sr, h1, h2⟩ := h r hr
    rw [hconf r hr, Option.some.injEq] at h1
    subst h1
    have := (fileOrder_sharded (by rfl) h2).trans (shard_perm _ r)
    rw [hasg r] at this
    exact this
  obtain ⟨M, hM⟩ : ∃ M, ∀ i < S.files.length, (S.file i).size ≤ M := by
    refine ⟨(S.files.map (·.size)).sum, ?_⟩
    intro i hi
    have : ∀ (l : List File) (i : Nat), i < l.length → (l.getD i default).size ≤ (l.map (·.size)).sum := by
      intro l
      induction l with
      | nil => intro i h; simp at h
      | cons a l ih =>
        intro i h
        cases i with
        | zero => simp
        | succ i =>
          have := ih i (by simpa using h)
          simp only [List.getD_cons_succ, List.map_cons, List.sum_cons]
          omega
    exact this S.files i hi
  obtain ⟨g1, g2, -, g4⟩ := assignments_spec { S with world := w, rank := 0, sharded := true } hw M hM
  refine ⟨?_, ?_⟩
  · have e : (List.range w).flatMap (fun r => A.getD r []) = A.flatten := by
      have := flatten_getD A
      rw [show A.length = w from g2] at this
      exact this
    refine List.Perm.trans ?_ (e ▸ g1)
    apply List.Perm.flatMap_left
    intro r hr
    exact hord r (by simpa using hr)
  · intro r hr h0
    have := hord r hr
    rw [h0] at this
    have := this.nil_eq
    exact g4 r hr (by change r < S.files.length; omega) this.symm

/-- **C21 (balanced).** The byte loads of any two ranks differ by at most the size of the largest file. -/
theorem C21_balanced (S : Src) (w r s M : Nat) (hr : r < w) (hs : s < w)
    (hM : ∀ i < S.files.length, (S.file i).size ≤ M) :
    sizeSum S (shard { S with world := w } r) ≤ sizeSum S (shard { S with world := w } s) + M := by
  obtain ⟨-, -, g3, -⟩ := assignments_spec { S with world := w } (by simp only; omega) M hM
  have := g3 r s hr hs
  have e : ∀ k, sizeSum S (shard { S with world := w } k) =
      sizeSum { S with world := w } ((assignments { S with world := w }).getD k []) := by
    intro k
    exact ((shard_perm { S with world := w } k).map _).sum_eq
  rw [e, e]
  exact this

/-! ### C20: what an epoch delivers -/

/-- What the work list still holds for file `i`. -/
def Rem (L : List (Nat × List Env)) (i : Nat) : List Env := (L.filter (·.1 == i)).flatMap (·.2)

theorem keys_filter (L : List (Nat × List Env)) (i : Nat) (h : (L.map (·.1)).Nodup) :
    (L.filter (·.1 == i)).length ≤ 1 := by
  have hn : ((L.filter (·.1 == i)).map (·.1)).Nodup := h.sublist (List.filter_sublist.map _)
  have he : (L.filter (·.1 == i)).map (·.1) = List.replicate (L.filter (·.1 == i)).length i := by
    rw [List.eq_replicate_iff]
    refine ⟨by simp, ?_⟩
    intro b hb
    simp only [List.mem_map, List.mem_filter, beq_iff_eq] at hb
    obtain ⟨a, ⟨_, ha⟩, rfl⟩ := hb
    exact ha
  rw [he] at hn
  exact List.nodup_replicate.mp hn

theorem Rem_perm {L L' : List (Nat × List Env)} (h : L.Perm L') (hn : (L.map (·.1)).Nodup) (i : Nat) :
    Rem L i = Rem L' i := by
  have hp := h.filter (·.1 == i)
  have hl := keys_filter L i hn
  have e : L.filter (·.1 == i) = L'.filter (·.1 == i) := by
    generalize L.filter (·.1 == i) = A at hp hl
    generalize L'.filter (·.1 == i) = B at hp
    cases A with
    | nil => exact hp.nil_eq
    | cons a t =>
      have : t = [] := List.length_eq_zero_iff.mp (by simp only [List.length_cons] at hl; omega)
      subst this
      exact (List.perm_singleton.mp hp.symm).symm
  unfold Rem
  rw [e]

theorem Rem_cons_self (f : Nat) (l : List Env) (O : List (Nat × List Env)) (h : f ∉ O.map (·.1)) :
    Rem ((f, l) :: O) f = l := by
  have : O.filter (·.1 == f) = [] := by
    rw [List.filter_eq_nil_iff]
    intro a ha hb
    simp only [beq_iff_eq] at hb
    exact h (by rw [List.mem_map]; exact ⟨a, ha, hb⟩)
  simp [Rem, this]

theorem Rem_cons_ne (f i : Nat) (l : List Env) (O : List (Nat × List Env)) (h : i ≠ f) :
    Rem ((f, l) :: O) i = Rem O i := by
  simp [Rem, List.filter_cons, Ne.symm h]

/-- One call: what it takes from the work list. -/
theorem nextLoop_spec {S : Src} (hq : 0 < S.quantum) : ∀ (fuel : Nat) (c c' : Cursor) (o : Option Env), Inv S c →
    Inv2 S c → c.order.Nodup → ((todo S c).map (·.1)).Nodup → nextLoop S fuel c = some (o, c') →
    Same c c' ∧ Inv S c' ∧ Inv2 S c' ∧ ((todo S c').map (·.1)).Nodup ∧
    (∀ i, i ∈ (todo S c').map (·.1) → i ∈ (todo S c).map (·.1)) ∧
    (match o with
      | none => c'.active = [] ∧ ∀ i, Rem (todo S c') i = Rem (todo S c) i
      | some e => e.source ∈ (todo S c).map (·.1) ∧ Rem (todo S c) e.source = e :: Rem (todo S c') e.source ∧
          ∀ i, i ≠ e.source → Rem (todo S c) i = Rem (todo S c') i)
  | 0, c, c', o, _, _, _, _, h => by simp [nextLoop] at h
  | fuel + 1, c, c', o, hi, h2, hon, hn, h => by
    unfold nextLoop at h
    by_cases ha : c.active = []
    · rw [if_pos ha] at h
      simp only [Option.some.injEq, Prod.mk.injEq] at h
      obtain ⟨rfl, rfl⟩ := h
      exact ⟨⟨rfl, rfl, rfl, rfl⟩, hi, h2, hn, fun _ h => h, ha, fun _ => rfl⟩
    · rw [if_neg ha] at h
      cases hit : iter S c with
      | none => rw [hit] at h; simp at h
      | some p =>
        obtain ⟨o1, c1⟩ := p
        rw [hit] at h
        obtain ⟨f, l, O, hp, hs, hi1, he⟩ := iter_spec S c c1 o1 hi hq ha hit
        have h21 := iter_inv2 hon hi h2 ha hit
        have hnp : f ∉ O.map (·.1) ∧ (O.map (·.1)).Nodup := by
          have := (hp.map (·.1)).nodup_iff.mp hn
          simpa [List.nodup_cons] using this
        have hmem : ∀ i, i ∈ (todo S c).map (·.1) ↔ i = f ∨ i ∈ O.map (·.1) := by
          intro i; rw [(hp.map (·.1)).mem_iff]; simp
        cases o1 with
        | some e =>
          simp only [Option.some.injEq, Prod.mk.injEq] at h
          obtain ⟨rfl, rfl⟩ := h
          obtain ⟨l', rfl, hsrc, hp'⟩ := he
          subst hsrc
          have hn' : ((todo S c1).map (·.1)).Nodup := by
            rw [(hp'.map (·.1)).nodup_iff]
            simp only [List.map_cons, List.nodup_cons]
            exact hnp
          refine ⟨hs, hi1, h21, hn', ?_, ?_, ?_, ?_⟩
          · intro i; rw [hmem, (hp'.map (·.1)).mem_iff]; simp
          · rw [hmem]; exact Or.inl rfl
          · rw [Rem_perm hp hn, Rem_perm hp' hn', Rem_cons_self _ _ _ hnp.1, Rem_cons_self _ _ _ hnp.1]
          · intro i hne
            rw [Rem_perm hp hn, Rem_perm hp' hn', Rem_cons_ne _ _ _ _ hne, Rem_cons_ne _ _ _ _ hne]
        | none =>
          simp only at h
          have hq1 : ((todo S c1).map (·.1)).Nodup ∧ (∀ i, i ∈ (todo S c1).map (·.1) → i ∈ (todo S c).map (·.1)) ∧
              ∀ i, Rem (todo S c1) i = Rem (todo S c) i := by
            rcases he.1 with hp' | ⟨rfl, hp'⟩
            · have hn' : ((todo S c1).map (·.1)).Nodup := by
                rw [(hp'.map (·.1)).nodup_iff]
                simp only [List.map_cons, List.nodup_cons]
                exact hnp
              refine ⟨hn', ?_, ?_⟩
              · intro i; rw [hmem, (hp'.map (·.1)).mem_iff]; simp
              · intro i; rw [Rem_perm hp hn, Rem_perm hp' hn']
            · have hn' : ((todo S c1).map (·.1)).Nodup := by
                rw [(hp'.map (·.1)).nodup_iff]; exact hnp.2
              refine ⟨hn', ?_, ?_⟩
              · intro i hi'; rw [hmem]; right; rwa [(hp'.map (·.1)).mem_iff] at hi'
              · intro i
                rw [Rem_perm hp hn, Rem_perm hp' hn']
                by_cases hif : i = f
                · subst hif
                  rw [Rem_cons_self _ _ _ hnp.1]
                  have : O.filter (·.1 == i) = [] := by
                    rw [List.filter_eq_nil_iff]
                    intro a ha hb
                    simp only [beq_iff_eq] at hb
                    exact hnp.1 (by rw [List.mem_map]; exact ⟨a, ha, hb⟩)
                  simp [Rem, this]
                · rw [Rem_cons_ne _ _ _ _ hif]
          obtain ⟨q1, q2, q3⟩ := hq1
          obtain ⟨s1, s2, s3, s4, s5, s6⟩ := nextLoop_spec hq fuel c1 c' o hi1 h21 (hs.order ▸ hon) q1 h
          refine ⟨⟨s1.epoch.trans hs.epoch, s1.cycle.trans hs.cycle, s1.rank.trans hs.rank, s1.order.trans hs.order⟩,
            s2, s3, s4, fun i h => q2 i (s5 i h), ?_⟩
          cases o with
          | none =>
            simp only at s6 ⊢
            exact ⟨s6.1, fun i => (s6.2 i).trans (q3 i)⟩
          | some e =>
            simp only at s6 ⊢
            refine ⟨q2 _ s6.1, ?_, ?_⟩
            · rw [← q3]; exact s6.2.1
            · intro i hne; rw [← q3]; exact s6.2.2 i hne

/-- A run of successful calls and what they returned. -/
inductive Run (S : Src) : Cursor → List Env → Cursor → Prop
  | nil (c : Cursor) : Run S c [] c
  | cons {c c1 c2 : Cursor} {e : Env} {out : List Env} : nextEnvelope S c = some (some e, c1) → Run S c1 out c2 →
      Run S c (e :: out) c2

/-- Settings accepted by the constructor (lines 119-124). -/
def Src.Valid (S : Src) : Prop := 0 < S.quantum ∧ 0 < S.activeStreams

/-- Everything known about cursors of an epoch. -/
structure Ok (H : Digest) (S : Src) (c : Cursor) : Prop where
  inv : Inv S c
  inv2 : Inv2 S c
  order : fileOrder H S c.epoch c.cycle c.rank = some c.order
  rank : c.rank = S.rank ∧ S.rank < S.world
  nodup : c.order.Nodup
  keys : ((todo S c).map (·.1)).Nodup

theorem order_nodup {H : Digest} {S : Src} {e y r : Nat} {o : List Nat} (hr : r < S.world)
    (h : fileOrder H S e y r = some o) : o.Nodup ∧ ∀ i ∈ o, i < S.files.length := by
  cases hs : S.sharded with
  | false =>
    have := fileOrder_unsharded hs h
    exact ⟨this.nodup_iff.mpr List.nodup_range, fun i hi => by simpa using this.mem_iff.mp hi⟩
  | true =>
    have hp := (fileOrder_sharded hs h).trans (shard_perm S r)
    obtain ⟨M, hM⟩ : ∃ M, ∀ i < S.files.length, (S.file i).size ≤ M := by
      have : ∀ n, ∃ M, ∀ i < n, (S.file i).size ≤ M := by
        intro n
        induction n with
        | zero => exact ⟨0, fun i hi => by omega⟩
        | succ n ih =>
          obtain ⟨M, hM⟩ := ih
          refine ⟨max M (S.file n).size, fun i hi => ?_⟩
          rcases Nat.lt_or_ge i n with h | h
          · have := hM i h; omega
          · have : i = n := by omega
            subst this; omega
      exact this _
    obtain ⟨g1, g2, -, -⟩ := assignments_spec S (by omega) M hM
    have hsub : ((assignments S).getD r []).Sublist (assignments S).flatten := by
      have hr' : r < (assignments S).length := by omega
      have : (assignments S).getD r [] = (assignments S)[r] := by simp [hr']
      rw [this]
      exact List.sublist_flatten_of_mem (List.getElem_mem hr')
    refine ⟨hp.nodup_iff.mpr ((g1.nodup_iff.mpr List.nodup_range).sublist hsub), ?_⟩
    intro i hi
    have := g1.mem_iff.mp (hsub.subset (hp.mem_iff.mp hi))
    simpa using this

theorem startCycle_eq {H : Digest} {S : Src} {e y r : Nat} {c : Cursor} (h : startCycle H S e y r = some c) :
    r = S.rank ∧ S.rank < S.world ∧ fileOrder H S e y r = some c.order ∧
      c = ⟨e, y, r, c.order, min S.activeStreams c.order.length,
        (c.order.take (min S.activeStreams c.order.length)).map openReader, 0, 0⟩ := by
  unfold startCycle at h
  split at h
  · simp at h
  · rename_i hn
    simp only [Option.map_eq_some_iff] at h
    obtain ⟨o, ho, rfl⟩ := h
    push Not at hn
    obtain ⟨rfl, h2⟩ := hn
    exact ⟨rfl, h2, ho, rfl⟩

theorem start_todo (S : Src) (e y r n : Nat) (o : List Nat) :
    todo S ⟨e, y, r, o, n, (o.take n).map openReader, 0, 0⟩ =
      o.map fun i => (i, (fileRecs S e y i).filter (admitted S)) := by
  unfold todo
  simp only [List.map_map]
  have : ((fun r : Reader => (r.file, remR S e y r)) ∘ openReader) =
      fun i => (i, (fileRecs S e y i).filter (admitted S)) := by
    funext i
    simp [openReader, remR, pendRecs, rest, fileRecs]
  rw [this, ← List.map_append, List.take_append_drop]

theorem start_ok {H : Digest} {S : Src} (hv : S.Valid) {e y : Nat} {c : Cursor}
    (h : startCycle H S e y S.rank = some c) : Ok H S c := by
  obtain ⟨_, hw, ho, he⟩ := startCycle_eq h
  obtain ⟨hnd, hlt⟩ := order_nodup hw ho
  have htodo : (todo S c).map (·.1) = c.order := by
    rw [he, start_todo]; simp only [List.map_map]
    have : ((fun x : Nat × List Env => x.1) ∘ fun i => (i, (fileRecs S e y i).filter (admitted S))) = id := by
      funext i; rfl
    rw [this, List.map_id]
  have htake : (c.order.take (min S.activeStreams c.order.length)).length = min S.activeStreams c.order.length := by
    simp
  have hv2 := hv.2
  refine ⟨?_, ?_, ?_, ?_, hnd, htodo ▸ hnd⟩
  · rw [he]
    refine ⟨?_, ?_, ?_, hv.1, by simp only; omega, by simp only [List.length_map, htake]; omega⟩
    · intro hne
      simp only at hne ⊢
      exact List.length_pos_iff.mpr hne
    · intro h0
      simp only [List.map_eq_nil_iff] at h0
      rw [h0] at htake
      simp only [List.length_nil] at htake
      simp only [true_and]
      omega
    · intro r hr p hp
      simp only [List.mem_map] at hr
      obtain ⟨i, _, rfl⟩ := hr
      simp [openReader] at hp
  · rw [he]
    refine ⟨?_, ?_, ?_⟩
    · simp only [List.map_map]
      have : ((fun r : Reader => r.file) ∘ openReader) = id := by funext i; rfl
      rw [this, List.map_id]
      exact hnd.sublist (List.take_sublist _ _)
    · intro r hr
      simp only [List.mem_map] at hr
      obtain ⟨i, hi, rfl⟩ := hr
      exact hi
    · intro r hr p hp
      simp only [List.mem_map] at hr
      obtain ⟨i, _, rfl⟩ := hr
      simp [openReader] at hp
  · have e1 : c.epoch = e := by rw [he]
    have e2 : c.cycle = y := by rw [he]
    have e3 : c.rank = S.rank := by rw [he]
    rw [e1, e2, e3]; exact ho
  · exact ⟨by rw [he], hw⟩

theorem next_ok {H : Digest} {S : Src} (hv : S.Valid) {c c' : Cursor} {o : Option Env} (hc : Ok H S c)
    (h : nextEnvelope S c = some (o, c')) : Ok H S c' ∧ Same c c' := by
  obtain ⟨s1, s2, s3, s4, s5, s6⟩ := nextLoop_spec hv.1 _ c c' o hc.inv hc.inv2 hc.nodup hc.keys h
  refine ⟨⟨s2, s3, ?_, ?_, ?_, s4⟩, s1⟩
  · rw [s1.epoch, s1.cycle, s1.rank, s1.order]; exact hc.order
  · rw [s1.rank]; exact hc.rank
  · rw [s1.order]; exact hc.nodup

theorem run_spec {H : Digest} {S : Src} (hv : S.Valid) {c c' : Cursor} {out : List Env} (hrun : Run S c out c') :
    Ok H S c → Ok H S c' ∧ Same c c' ∧
      (∀ e ∈ out, e.source ∈ (todo S c).map (·.1)) ∧
      (∀ i, Rem (todo S c) i = out.filter (·.source == i) ++ Rem (todo S c') i) := by
  induction hrun with
  | nil c => intro hc; exact ⟨hc, ⟨rfl, rfl, rfl, rfl⟩, by simp, by simp⟩
  | @cons c c1 c2 e out h hrun ih =>
    intro hc
    obtain ⟨s1, s2, s3, s4, s5, s6⟩ := nextLoop_spec hv.1 _ c c1 (some e) hc.inv hc.inv2 hc.nodup hc.keys h
    obtain ⟨hc1, hs⟩ := next_ok hv hc h
    obtain ⟨g1, g2, g3, g4⟩ := ih hc1
    simp only at s6
    refine ⟨g1, ⟨g2.epoch.trans hs.epoch, g2.cycle.trans hs.cycle, g2.rank.trans hs.rank, g2.order.trans hs.order⟩,
      ?_, ?_⟩
    · intro x hx
      simp only [List.mem_cons] at hx
      rcases hx with rfl | hx
      · exact s6.1
      · exact s5 _ (g3 x hx)
    · intro i
      by_cases hie : i = e.source
      · subst hie
        rw [s6.2.1, g4, List.filter_cons_of_pos (by simp)]; rfl
      · rw [s6.2.2 i hie, g4, List.filter_cons_of_neg (by simpa using fun h => hie h.symm)]

/-- The records of file `i` in an epoch/cycle that sampling admits, in file order. -/
def delivered (S : Src) (epoch cycle i : Nat) : List Env := (fileRecs S epoch cycle i).filter (admitted S)

theorem Rem_start (S : Src) (e y : Nat) (o : List Nat) (hn : o.Nodup) (i : Nat) (hi : i ∈ o) :
    Rem (o.map fun i => (i, (fileRecs S e y i).filter (admitted S))) i = delivered S e y i := by
  induction o with
  | nil => simp at hi
  | cons a o ih =>
    rw [List.nodup_cons] at hn
    rw [List.map_cons]
    by_cases h : i = a
    · subst h
      rw [Rem_cons_self]; · rfl
      simpa using hn.1
    · rw [Rem_cons_ne _ _ _ _ h]
      exact ih hn.2 (by simpa [h] using hi)

/-- **C20 (at any time).** At every point of an epoch, what was delivered from a file is a prefix of that file's
admitted records in file order, and nothing comes from a file outside the rank's order. -/
theorem C20_prefix (H : Digest) (S : Src) (hv : S.Valid) (epoch cycle : Nat) (c c' : Cursor) (out : List Env)
    (hc : startCycle H S epoch cycle S.rank = some c) (hrun : Run S c out c') :
    (∀ e ∈ out, e.source ∈ c.order) ∧
      ∀ i ∈ c.order, out.filter (·.source == i) <+: delivered S epoch cycle i := by
  have hok := start_ok hv hc
  obtain ⟨_, hw, ho, he⟩ := startCycle_eq hc
  obtain ⟨_, _, g3, g4⟩ := run_spec (H := H) hv hrun hok
  have htodo : todo S c = c.order.map fun i => (i, (fileRecs S epoch cycle i).filter (admitted S)) := by
    conv_lhs => rw [he, start_todo]
  rw [htodo] at g3 g4
  refine ⟨?_, ?_⟩
  · intro e hx
    have := g3 e hx
    simpa using this
  · intro i hi
    have := g4 i
    rw [Rem_start S epoch cycle c.order hok.nodup i hi] at this
    exact ⟨_, this.symm⟩

/-- **C20 (a finished epoch).** When the source reports the end of the epoch, every file of the rank's order has
delivered exactly its admitted records, each once and in file order, and nothing else was delivered. -/
theorem C20_complete (H : Digest) (S : Src) (hv : S.Valid) (epoch cycle : Nat) (c c' c'' : Cursor) (out : List Env)
    (hc : startCycle H S epoch cycle S.rank = some c) (hrun : Run S c out c')
    (hend : nextEnvelope S c' = some (none, c'')) :
    (∀ e ∈ out, e.source ∈ c.order) ∧ ∀ i ∈ c.order, out.filter (·.source == i) = delivered S epoch cycle i := by
  have hok := start_ok hv hc
  obtain ⟨_, hw, ho, he⟩ := startCycle_eq hc
  obtain ⟨g1, g2, g3, g4⟩ := run_spec (H := H) hv hrun hok
  refine ⟨(C20_prefix H S hv epoch cycle c c' out hc hrun).1, ?_⟩
  have htodo : todo S c = c.order.map fun i => (i, (fileRecs S epoch cycle i).filter (admitted S)) := by
    conv_lhs => rw [he, start_todo]
  obtain ⟨s1, s2, s3, s4, s5, s6⟩ := nextLoop_spec hv.1 _ c' c'' none g1.inv g1.inv2 g1.nodup g1.keys hend
  simp only at s6
  have hnil : todo S c'' = [] := by
    have := s2.term s6.1
    simp [todo, s6.1, this.2.2]
  intro i hi
  have := g4 i
  rw [htodo, Rem_start S epoch cycle c.order hok.nodup i hi, ← s6.2 i, hnil] at this
  simpa [Rem] using this.symm

/-- **C20 (no spurious failure).** If every file consists of complete entries with declared shapes, no call fails at
any point of the epoch. -/
theorem C20_no_failure (H : Digest) (S : Src) (hv : S.Valid)
    (hwf : ∀ i, i < S.files.length → wellFormed S (S.file i).content.length (S.file i).content)
    (epoch cycle : Nat) (c c' : Cursor) (out : List Env)
    (hc : startCycle H S epoch cycle S.rank = some c) (hrun : Run S c out c') :
    ∃ o c'', nextEnvelope S c' = some (o, c'') := by
  have hok := start_ok hv hc
  obtain ⟨_, hw, ho, he⟩ := startCycle_eq hc
  obtain ⟨_, hlt⟩ := order_nodup hw ho
  have hg : Good S c := by
    rw [he]
    refine ⟨?_, ?_⟩
    · intro r hr
      simp only [List.mem_map] at hr
      obtain ⟨i, hi, rfl⟩ := hr
      have := hwf i (hlt i (List.mem_of_mem_take hi))
      simpa [openReader, rest] using this
    · intro i hi
      exact hwf i (hlt i (List.mem_of_mem_drop hi))
  have key : ∀ {c c' : Cursor} {out : List Env}, Run S c out c' → Ok H S c → Good S c → Ok H S c' ∧ Good S c' := by
    have step : ∀ (fuel : Nat) (c c' : Cursor) (o : Option Env), Inv S c → Good S c →
        nextLoop S fuel c = some (o, c') → Good S c' := by
      intro fuel
      induction fuel with
      | zero => intro c c' o _ _ h; simp [nextLoop] at h
      | succ fuel ih =>
        intro c c' o hi hg h
        unfold nextLoop at h
        by_cases ha : c.active = []
        · rw [if_pos ha] at h
          simp only [Option.some.injEq, Prod.mk.injEq] at h
          rw [← h.2]; exact hg
        · rw [if_neg ha] at h
          cases hit : iter S c with
          | none => rw [hit] at h; simp at h
          | some p =>
            obtain ⟨o1, c1⟩ := p
            rw [hit] at h
            have hg1 := iter_good hi hg ha hit
            obtain ⟨_, _, _, _, _, hi1, _⟩ := iter_spec S c c1 o1 hi hv.1 ha hit
            cases o1 with
            | some e =>
              simp only [Option.some.injEq, Prod.mk.injEq] at h
              rw [← h.2]; exact hg1
            | none => exact ih c1 c' o hi1 hg1 h
    intro c c' out hrun
    induction hrun with
    | nil c => intro h1 h2; exact ⟨h1, h2⟩
    | @cons c c1 c2 e out h _ ih =>
      intro h1 h2
      exact ih (next_ok hv h1 h).1 (step _ c c1 (some e) h1.inv h2 h)
  obtain ⟨h1, h2⟩ := key hrun hok hg
  exact nextLoop_fuelOk hv.1 _ c' h1.inv (le_refl _) h2

/-- **C20 (the epoch ends).** A run delivers at most as many records as the files of the order hold. -/
theorem C20_bounded (H : Digest) (S : Src) (hv : S.Valid) (epoch cycle : Nat) (c c' : Cursor) (out : List Env)
    (hc : startCycle H S epoch cycle S.rank = some c) (hrun : Run S c out c') :
    out.length ≤ (c.order.map fun i => (delivered S epoch cycle i).length).sum := by
  obtain ⟨h1, h2⟩ := C20_prefix H S hv epoch cycle c c' out hc hrun
  have hnd := (start_ok hv hc).nodup
  clear hc hrun
  generalize c.order = o at *
  have : ∀ (o : List Nat) (out : List Env), o.Nodup → (∀ e ∈ out, e.source ∈ o) →
      out.length = (o.map fun i => (out.filter (·.source == i)).length).sum := by
    intro o
    induction o with
    | nil => intro out _ h; cases out with
      | nil => rfl
      | cons e out => have := h e (by simp); simp at this
    | cons a o ih =>
      intro out hn h
      rw [List.nodup_cons] at hn
      have h3 := ih (out.filter (fun e => !(e.source == a))) hn.2 (by
        intro e he
        simp only [List.mem_filter, Bool.not_eq_true', beq_eq_false_iff_ne] at he
        have := h e he.1
        simpa [he.2] using this)
      have h4 := List.length_eq_length_filter_add (l := out) (fun e => e.source == a)
      simp only [List.map_cons, List.sum_cons]
      rw [h4, h3]
      congr 2
      apply List.map_congr_left
      intro i hi
      rw [List.filter_filter]
      congr 1
      apply List.filter_congr
      intro e _
      by_cases hei : e.source = i
      · have : i ≠ a := fun h' => hn.1 (h' ▸ hi)
        simp [hei, this]
      · simp [hei]
  rw [this o out hnd h1]
  clear this h1 hnd
  induction o with
  | nil => simp
  | cons a o ih =>
    simp only [List.map_cons, List.sum_cons]
    exact Nat.add_le_add (h2 a (by simp)).length_le (ih fun i hi => h2 i (by simp [hi]))

/-- **C20 (bounded number of open files).** At every point at most `active_streams` files are open. -/
theorem C20_open_files (H : Digest) (S : Src) (hv : S.Valid) (epoch cycle : Nat) (c c' : Cursor) (out : List Env)
    (hc : startCycle H S epoch cycle S.rank = some c) (hrun : Run S c out c') :
    c'.active.length ≤ S.activeStreams :=
  (run_spec (H := H) hv hrun (start_ok hv hc)).1.inv.bound

theorem recs_keys (S : Src) (e y i : Nat) : ∀ (f : Nat) (b : Bytes) (k : Nat),
    ((recs S e y i f b k).map fun x => x.key.2).Nodup ∧
      ∀ x ∈ recs S e y i f b k, ∃ n s, k ≤ n ∧
        x.key.2 = (if y = 0 then (if S.count.isNone then [n] else [n, s])
          else y :: (if S.count.isNone then [n] else [n, s]))
  | 0, b, k => by simp [recs]
  | f + 1, b, k => by
    unfold recs
    by_cases hb : b = []
    · rw [if_pos hb]; simp
    rw [if_neg hb]
    cases hl : S.entryLen b with
    | none => simp
    | some n =>
      simp only
      by_cases hn : n = 0 ∨ b.length < n
      · rw [if_pos hn]; simp
      rw [if_neg hn]
      obtain ⟨ih1, ih2⟩ := recs_keys S e y i f (b.drop n) (k + 1)
      have ih2' : ∀ x ∈ recs S e y i f (b.drop n) (k + 1), ∃ n s, k ≤ n ∧
          x.key.2 = (if y = 0 then (if S.count.isNone then [n] else [n, s])
            else y :: (if S.count.isNone then [n] else [n, s])) := by
        intro x hx
        obtain ⟨n', s', h1, h2⟩ := ih2 x hx
        exact ⟨n', s', by omega, h2⟩
      cases hc : classify S (b.take n) with
      | none => simp
      | some o =>
        cases o with
        | none => simp only; exact ⟨ih1, ih2'⟩
        | some cm =>
          obtain ⟨code, m⟩ := cm
          simp only
          have hm := (classify_spec hc).2.2
          refine ⟨?_, ?_⟩
          · rw [List.map_append, List.nodup_append]
            refine ⟨?_, ih1, ?_⟩
            · rw [List.map_map]
              by_cases hcn : S.count = none
              · rw [hm hcn]; simp
              · apply List.Nodup.map _ List.nodup_range
                intro a c hac
                have hcn' : S.count.isNone = false := by simpa [Option.isSome_iff_ne_none] using hcn
                simp only [Function.comp_def, mkEnv, hcn', Bool.false_eq_true, if_false] at hac
                by_cases hy : y = 0
                · simpa [hy] using hac
                · simpa [hy] using hac
            · intro a ha c hc' hac
              subst hac
              simp only [List.map_map, List.mem_map, Function.comp_apply] at ha hc'
              obtain ⟨s, _, rfl⟩ := ha
              obtain ⟨x, hx, hx2⟩ := hc'
              obtain ⟨n', s', hn', hk⟩ := ih2 x hx
              rw [hk] at hx2
              simp only [mkEnv] at hx2
              by_cases hy : y = 0 <;> by_cases hcn : S.count.isNone = true <;> simp [hy, hcn] at hx2 <;> omega
          · intro x hx
            rcases List.mem_append.mp hx with hx | hx
            · simp only [List.mem_map] at hx
              obtain ⟨s, _, rfl⟩ := hx
              exact ⟨k, s, Nat.le_refl _, rfl⟩
            · exact ih2' x hx

/-- **C20 (no record twice).** In one epoch no record - file and address - is delivered twice. -/
theorem C20_each_once (H : Digest) (S : Src) (hv : S.Valid) (epoch cycle : Nat) (c c' : Cursor) (out : List Env)
    (hc : startCycle H S epoch cycle S.rank = some c) (hrun : Run S c out c') :
    (out.map fun e => (e.source, e.key.2)).Nodup := by
  obtain ⟨h1, h2⟩ := C20_prefix H S hv epoch cycle c c' out hc hrun
  have h3 : ∀ i ∈ c.order, ((out.filter (·.source == i)).map fun e => e.key.2).Nodup := by
    intro i hi
    have hs : (out.filter (·.source == i)).Sublist (fileRecs S epoch cycle i) :=
      (h2 i hi).sublist.trans List.filter_sublist
    exact (recs_keys S epoch cycle i _ _ 0).1.sublist (hs.map _)
  clear h2 hrun hc
  generalize c.order = o at h1 h3
  induction out with
  | nil => simp
  | cons e out ih =>
    simp only [List.map_cons, List.nodup_cons]
    refine ⟨?_, ih (fun x hx => h1 x (by simp [hx])) ?_⟩
    · intro hm
      simp only [List.mem_map, Prod.mk.injEq] at hm
      obtain ⟨x, hx, hx1, hx2⟩ := hm
      have := h3 e.source (h1 e (by simp))
      simp only [List.filter_cons, beq_self_eq_true, if_true, List.map_cons, List.nodup_cons] at this
      apply this.1
      simp only [List.mem_map, List.mem_filter, beq_iff_eq]
      exact ⟨x, ⟨hx, hx1⟩, hx2⟩
    · intro i hi
      have := h3 i hi
      exact this.sublist ((((List.sublist_cons_self e out).filter _)).map _)

/-! ### C18 (sequential source) -/

/-- A cursor a consumer can hold: a fresh one, or one left by a successful `next_envelope` call (including the calls
that report the end of the cycle). -/
inductive Held (H : Digest) (S : Src) : Cursor → Prop
  | start {c : Cursor} {epoch cycle : Nat} : startCycle H S epoch cycle S.rank = some c → Held H S c
  | next {c c' : Cursor} {o : Option Env} : Held H S c → nextEnvelope S c = some (o, c') → Held H S c'

theorem Held.ok {H : Digest} {S : Src} (hv : S.Valid) {c : Cursor} (h : Held H S c) : Ok H S c := by
  induction h with
  | start h => exact start_ok hv h
  | next _ h ih => exact (next_ok hv ih h).1

/-- The format's reader decides where an entry ends by looking at that entry only: reading the bytes of an entry on
their own consumes exactly these bytes. -/
def Src.Local (S : Src) : Prop :=
  ∀ b n, S.entryLen b = some n → n ≤ b.length → S.entryLen (b.take n) = some n

theorem restorePending_saved {S : Src} (hl : S.Local) {r : Reader} {p : Pending}
    (h1 : p.next < p.total ∧ 0 < p.next)
    (h2 : S.count ≠ none ∧ p.raw ≠ [] ∧ p.entry + 1 = r.entry ∧
      classify S p.raw = some (some (p.code, p.total)) ∧
      ∃ b, S.entryLen b = some p.raw.length ∧ p.raw = b.take p.raw.length ∧ p.raw.length ≤ b.length) :
    restorePending S (r.entry : Int)
      { raw := p.raw, entry := p.entry, code := p.code, next := p.next, total := p.total } = some p := by
  obtain ⟨hc, hr, he, hk, b, hb1, hb2, hb3⟩ := h2
  have hcode := (classify_spec hk).1
  have hlen : S.entryLen p.raw = some p.raw.length := by
    have := hl b _ hb1 hb3
    rwa [← hb2] at this
  unfold restorePending
  simp only
  rw [if_neg ?_, if_neg (by simp [hlen]), hk]
  · simp
  · rintro (h | h | h | h | h)
    · simp only [Option.isNone_iff_eq_none] at h; exact hc h
    · exact hr h
    · omega
    · omega
    · omega

theorem mapM_map_id {α β : Type} (f : α → Option β) (g : β → α) : ∀ l : List β,
    (∀ x ∈ l, f (g x) = some x) → (l.map g).mapM f = some l
  | [], _ => by simp
  | x :: l, h => by
    have h1 := h x (by simp)
    have h2 := mapM_map_id f g l fun y hy => h y (by simp [hy])
    simp [h1, h2]

/-- **C18 (restoring a saved cursor).** If no file is compressed, every cursor a consumer can hold can be saved, and
a source configured alike restores it unchanged: same files open at the same byte offsets, same pending subrecords,
same turn and quantum. -/
theorem C18_seq_save_restore (H : Digest) (S : Src) (hv : S.Valid) (hl : S.Local) (hr : S.resumable = true)
    (c : Cursor) (hc : Held H S c) : ∃ s, saveCursor S c = some s ∧ restoreCursor H S s = some c := by
  have ok := hc.ok hv
  refine ⟨_, by unfold saveCursor; rw [if_neg (by simp [hr])], ?_⟩
  have hstart : startCycle H S c.epoch c.cycle c.rank = some ⟨c.epoch, c.cycle, c.rank, c.order,
      min S.activeStreams c.order.length, (c.order.take (min S.activeStreams c.order.length)).map openReader, 0, 0⟩ := by
    unfold startCycle
    rw [if_neg (by rw [ok.rank.1]; simp [ok.rank.2]), ok.order]; rfl
  have hlt := (order_nodup (by rw [ok.rank.1]; exact ok.rank.2) ok.order).2
  unfold restoreCursor
  simp only [List.map_map]
  rw [if_neg (by simp [hr]), if_neg (by simp), if_neg (by omega)]
  simp only [Int.toNat_natCast, hstart, Option.bind_eq_bind, Option.bind_some]
  rw [if_neg (by simp)]
  have hnx := ok.inv.next
  rw [if_neg (by omega)]
  by_cases ha : c.active = []
  · obtain ⟨t1, t2, t3⟩ := ok.inv.term ha
    rw [if_pos (by simp [ha]), if_neg (by rw [t1, t2, t3]; simp)]
    simp only [Option.some.injEq]
    cases c
    simp_all
  · have ht := ok.inv.turn ha
    have hu := ok.inv.used
    have hb := ok.inv.bound
    rw [if_neg (by simpa using ha), if_neg (by simp only [List.length_map]; omega), if_neg (by omega),
      if_neg (by simp only [List.length_map]; omega), if_neg ?_]
    · have : (c.active.map saveReader).mapM (restoreReader S) = some c.active := by
        apply mapM_map_id
        intro r hrm
        have hf : r.file < S.files.length := hlt _ (List.mem_of_mem_take (ok.inv2.sched r hrm))
        unfold restoreReader saveReader
        simp only
        rw [if_neg (by omega), if_neg (by omega)]
        cases hp : r.pending with
        | none => simp only [Option.map_none, Int.toNat_natCast]; cases r; simp_all
        | some p =>
          simp only [Option.map_some, Int.toNat_natCast]
          rw [restorePending_saved hl (ok.inv.pend r hrm p hp) (ok.inv2.pend r hrm p hp)]
          cases r; simp_all
      rw [this]
      simp
    · rintro (h | h)
      · apply h
        have := ok.inv2.files
        have h2 := this.map (f := fun i : Nat => (i : Int)) (fun a b hab => by simpa using hab)
        rw [List.map_map] at h2
        exact h2
      · simp only [List.any_eq_true, List.mem_map, decide_eq_true_eq] at h
        obtain ⟨x, ⟨r, hrm, rfl⟩, hx⟩ := h
        apply hx
        have := ok.inv2.sched r hrm
        rw [← List.map_take]
        exact List.mem_map.mpr ⟨r.file, this, rfl⟩

/-- `n` calls of `next_envelope`, with everything they returned. -/
def calls (S : Src) : Nat → Cursor → Option (List (Option Env) × Cursor)
  | 0, c => some ([], c)
  | n + 1, c => do
    let (o, c) ← nextEnvelope S c
    let (out, c) ← calls S n c
    some (o :: out, c)

theorem Held.calls {H : Digest} {S : Src} : ∀ (n : Nat) (c c' : Cursor) (out : List (Option Env)), Held H S c →
    calls S n c = some (out, c') → Held H S c'
  | 0, c, c', out, hc, h => by simp [Seq.calls] at h; rw [← h.2]; exact hc
  | n + 1, c, c', out, hc, h => by
    simp only [Seq.calls, Option.bind_eq_bind, Option.bind_eq_some_iff] at h
    obtain ⟨⟨x, cx⟩, hx, ⟨y, cy⟩, hy, he⟩ := h
    simp only [Option.some.injEq, Prod.mk.injEq] at he
    rw [← he.2]
    exact Held.calls n cx cy y (hc.next hx) hy

/-- **C18 (resuming delivers exactly the remaining records).** Interrupt an epoch after any number of calls, save,
restore and go on: the results are those of the uninterrupted run. -/
theorem C18_seq_resume (H : Digest) (S : Src) (hv : S.Valid) (hl : S.Local) (epoch cycle : Nat) (c c1 c2 : Cursor)
    (s : Saved) (out : List (Option Env)) (n m : Nat) (hc : startCycle H S epoch cycle S.rank = some c)
    (h1 : calls S n c = some (out, c1)) (hs : saveCursor S c1 = some s) (h2 : restoreCursor H S s = some c2) :
    calls S (n + m) c = (calls S m c2).map fun r => (out ++ r.1, r.2) := by
  have hr : S.resumable = true := by
    cases hr : S.resumable with
    | true => rfl
    | false => unfold saveCursor at hs; rw [if_pos hr] at hs; simp at hs
  obtain ⟨s', e1, e2⟩ := C18_seq_save_restore H S hv hl hr c1 (Held.calls n c c1 out (.start hc) h1)
  rw [hs, Option.some.injEq] at e1
  subst e1
  rw [h2, Option.some.injEq] at e2
  subst e2
  clear hs h2 hc hr
  induction n generalizing c out with
  | zero => simp [calls] at h1; obtain ⟨rfl, rfl⟩ := h1; simp
  | succ n ih =>
    simp only [calls, Option.bind_eq_bind, Option.bind_eq_some_iff] at h1
    obtain ⟨⟨x, cx⟩, hx, ⟨y, cy⟩, hy, he⟩ := h1
    simp only [Option.some.injEq, Prod.mk.injEq] at he
    obtain ⟨rfl, rfl⟩ := he
    rw [Nat.succ_add]
    simp only [calls, hx, Option.bind_eq_bind, Option.bind_some]
    rw [ih cx y hy]
    cases calls S m cy with
    | none => rfl
    | some p => simp

theorem mapM_mem {α β : Type} {f : α → Option β} : ∀ {l : List α} {m : List β}, l.mapM f = some m →
    l.length = m.length ∧ ∀ y ∈ m, ∃ x ∈ l, f x = some y
  | [], m, h => by simp at h; subst h; simp
  | a :: l, m, h => by
    simp only [List.mapM_cons, Option.bind_eq_bind, Option.bind_eq_some_iff, Option.pure_def, Option.some.injEq] at h
    obtain ⟨y, hy, ys, hys, rfl⟩ := h
    obtain ⟨h1, h2⟩ := mapM_mem hys
    refine ⟨by simp [h1], ?_⟩
    intro z hz
    rcases List.mem_cons.mp hz with rfl | hz
    · exact ⟨a, by simp, hy⟩
    · obtain ⟨x, hx, hx2⟩ := h2 z hz
      exact ⟨x, by simp [hx], hx2⟩

theorem mapM_getElem {α β : Type} {f : α → Option β} : ∀ {l : List α} {m : List β}, l.mapM f = some m →
    ∀ g : β → Int, ∀ k : α → Int, (∀ x y, f x = some y → g y = k x) → m.map g = l.map k
  | [], m, h, g, k, _ => by simp at h; subst h; simp
  | a :: l, m, h, g, k, hgk => by
    simp only [List.mapM_cons, Option.bind_eq_bind, Option.bind_eq_some_iff, Option.pure_def, Option.some.injEq] at h
    obtain ⟨y, hy, ys, hys, rfl⟩ := h
    simp [mapM_getElem hys g k hgk, hgk a y hy]

theorem restoreReader_some {S : Src} {s : SavedReader} {r : Reader} (h : restoreReader S s = some r) :
    r.file < S.files.length ∧ (r.file : Int) = s.file ∧ (r.offset : Int) = s.offset ∧ (r.entry : Int) = s.entry ∧
    (s.pending = none → r.pending = none) ∧
    ∀ p, r.pending = some p → S.count ≠ none ∧ (p.entry + 1 = r.entry ∨ (p.entry = 0 ∧ r.entry = 0)) ∧ 0 < p.next ∧ p.next < p.total ∧
      S.entryLen p.raw = some p.raw.length ∧ classify S p.raw = some (some (p.code, p.total)) := by
  unfold restoreReader at h
  by_cases h1 : ¬ (0 ≤ s.file ∧ s.file < S.files.length)
  · rw [if_pos h1] at h; simp at h
  rw [if_neg h1] at h
  by_cases h2 : s.entry < 0 ∨ s.offset < 0
  · rw [if_pos h2] at h; simp at h
  rw [if_neg h2] at h
  cases hp : s.pending with
  | none =>
    rw [hp] at h
    simp only [Option.some.injEq] at h
    subst h
    refine ⟨by simp only; omega, by simp only; omega, by simp only; omega, by simp only; omega, fun _ => rfl, ?_⟩
    intro p hp'; simp at hp'
  | some p =>
    rw [hp] at h
    simp only [Option.map_eq_some_iff] at h
    obtain ⟨q, hq, rfl⟩ := h
    refine ⟨by simp only; omega, by simp only; omega, by simp only; omega, by simp only; omega, by simp, ?_⟩
    intro p' hp'
    simp only [Option.some.injEq] at hp'
    subst hp'
    unfold restorePending at hq
    by_cases h3 : S.count.isNone ∨ p.raw = [] ∨ p.entry ≠ s.entry - 1 ∨ ¬ (0 ≤ p.code ∧ p.code < S.shapes.length)
      ∨ ¬ (0 < p.next ∧ p.next < p.total)
    · rw [if_pos h3] at hq; simp at hq
    rw [if_neg h3] at hq
    by_cases h4 : S.entryLen p.raw ≠ some p.raw.length
    · rw [if_pos h4] at hq; simp at hq
    rw [if_neg h4] at hq
    simp only [not_or, not_not] at h3 h4
    cases hk : classify S p.raw with
    | none => rw [hk] at hq; simp at hq
    | some x =>
      cases x with
      | none => rw [hk] at hq; simp at hq
      | some x =>
        obtain ⟨code, n⟩ := x
        rw [hk] at hq
        simp only at hq
        by_cases h5 : (code : Int) = p.code ∧ (n : Int) = p.total
        · rw [if_pos h5, Option.some.injEq] at hq
          subst hq
          have hx := (classify_spec hk).2.1
          refine ⟨by simpa using h3.1, ?_, ?_, ?_, h4, hk⟩ <;> simp only <;> omega
        · rw [if_neg h5] at hq; simp at hq

/-- **C18 (invalid cursors are rejected).** Whatever is offered to a source with a compressed file is rejected.
An accepted cursor carries this format version, the source's rank and the file order the source computes for its
epoch and cycle; its open files are distinct, scheduled before `next_file_position`, at most `active_streams`; turn
and quantum are in range; and a pending entry is complete, of the declared shape, with the right number of subrecords
and at least one delivered and one outstanding. -/
theorem C18_seq_restore_validates (H : Digest) (S : Src) (s : Saved) (c : Cursor)
    (h : restoreCursor H S s = some c) :
    S.resumable = true ∧ s.schema = "sequential-record-source-v3" ∧ s.rank = S.rank ∧ 0 ≤ s.epoch ∧ 0 ≤ s.cycle ∧
    fileOrder H S s.epoch.toNat s.cycle.toNat S.rank = some c.order ∧
    s.order = c.order.map (fun i : Nat => (i : Int)) ∧ c.nextFile ≤ c.order.length ∧
    (c.nextFile : Int) = s.nextFile ∧ (c.turn : Int) = s.turn ∧ (c.used : Int) = s.used ∧
    c.active.map (fun r => (r.file : Int)) = s.active.map (·.file) ∧
    c.active.map (fun r => (r.offset : Int)) = s.active.map (·.offset) ∧
    (c.active = [] → c.turn = 0 ∧ c.used = 0 ∧ c.nextFile = c.order.length) ∧
    (c.active ≠ [] → c.turn < c.active.length ∧ c.used < S.quantum ∧ c.active.length ≤ S.activeStreams) ∧
    (c.active.map (·.file)).Nodup ∧
    ∀ r ∈ c.active, r.file ∈ c.order.take c.nextFile ∧ ∀ p, r.pending = some p → S.count ≠ none ∧
      (p.entry + 1 = r.entry ∨ (p.entry = 0 ∧ r.entry = 0)) ∧ 0 < p.next ∧ p.next < p.total ∧ S.entryLen p.raw = some p.raw.length ∧
      classify S p.raw = some (some (p.code, p.total)) := by
  unfold restoreCursor at h
  by_cases h1 : S.resumable = false
  · rw [if_pos h1] at h; simp at h
  rw [if_neg h1] at h
  by_cases h2 : s.schema ≠ schema
  · rw [if_pos h2] at h; simp at h
  rw [if_neg h2] at h
  by_cases h3 : s.epoch < 0 ∨ s.cycle < 0 ∨ s.rank < 0
  · rw [if_pos h3] at h; simp at h
  rw [if_neg h3] at h
  simp only [Option.bind_eq_bind, Option.bind_eq_some_iff] at h
  obtain ⟨init, hi, h⟩ := h
  have hrk : s.rank.toNat = S.rank := by
    unfold startCycle at hi
    split at hi
    · simp at hi
    · rename_i hh; simp only [not_or, not_not] at hh; exact hh.1
  rw [hrk] at hi
  obtain ⟨_, hw, ho, _⟩ := startCycle_eq hi
  by_cases h4 : s.order ≠ init.order.map (fun i : Nat => (i : Int))
  · rw [if_pos h4] at h; simp at h
  rw [if_neg h4] at h
  by_cases h5 : ¬ (0 ≤ s.nextFile ∧ s.nextFile ≤ init.order.length)
  · rw [if_pos h5] at h; simp at h
  rw [if_neg h5] at h
  simp only [not_not] at h2 h4 h5
  have hres : S.resumable = true := by simpa using h1
  by_cases h6 : s.active.isEmpty = true
  · rw [if_pos h6] at h
    by_cases h7 : s.turn ≠ 0 ∨ s.used ≠ 0 ∨ s.nextFile ≠ init.order.length
    · rw [if_pos h7] at h; simp at h
    rw [if_neg h7, Option.some.injEq] at h
    subst h
    have h8 : s.active = [] := by simpa using h6
    refine ⟨hres, h2, by omega, by omega, by omega, ho, h4, ?_, ?_, ?_, ?_, ?_, ?_, ?_, ?_, ?_, ?_⟩ <;>
      simp only [h8, List.map_nil, List.nodup_nil] <;> first | omega | simp
    omega
  · rw [if_neg h6] at h
    have h8 : s.active ≠ [] := by simpa using h6
    by_cases h9 : ¬ (0 ≤ s.turn ∧ s.turn < s.active.length)
    · rw [if_pos h9] at h; simp at h
    rw [if_neg h9] at h
    by_cases h10 : ¬ (0 ≤ s.used ∧ s.used < S.quantum)
    · rw [if_pos h10] at h; simp at h
    rw [if_neg h10] at h
    by_cases h11 : S.activeStreams < s.active.length
    · rw [if_pos h11] at h; simp at h
    rw [if_neg h11] at h
    by_cases h12 : ¬ (s.active.map (·.file)).Nodup ∨
        (s.active.map (·.file)).any (fun i => decide (i ∉ s.order.take s.nextFile.toNat)) = true
    · rw [if_pos h12] at h; simp at h
    rw [if_neg h12] at h
    simp only [Option.bind_eq_some_iff, Option.some.injEq] at h
    obtain ⟨active, hact, rfl⟩ := h
    obtain ⟨hlen, hmem⟩ := mapM_mem hact
    have hfile := mapM_getElem hact (fun r => (r.file : Int)) (·.file) fun x y hxy => (restoreReader_some hxy).2.1
    have hoff := mapM_getElem hact (fun r => (r.offset : Int)) (·.offset) fun x y hxy => (restoreReader_some hxy).2.2.1
    simp only [not_or, not_not] at h12
    obtain ⟨hnd, hsch⟩ := h12
    refine ⟨hres, h2, by omega, by omega, by omega, ho, h4, ?_, ?_, ?_, ?_, hfile, hoff, ?_, ?_, ?_, ?_⟩
    · simp only; omega
    · simp only; omega
    · simp only; omega
    · simp only; omega
    · intro ha
      simp only at ha
      rw [ha] at hlen
      exact absurd (List.length_eq_zero_iff.mp hlen) h8
    · intro _; simp only; omega
    · simp only
      rw [← hfile] at hnd
      have : (active.map fun r => (r.file : Int)) = (active.map (·.file)).map (fun i : Nat => (i : Int)) := by
        rw [List.map_map]; rfl
      rw [this] at hnd
      exact hnd.of_map _
    · intro r hr
      simp only at hr ⊢
      obtain ⟨x, hx, hxr⟩ := hmem r hr
      have hrr := restoreReader_some hxr
      refine ⟨?_, hrr.2.2.2.2.2⟩
      simp only [List.any_eq_true, List.mem_map, decide_eq_true_eq, not_exists, not_and, not_not] at hsch
      have := hsch x.file ⟨x, hx, rfl⟩
      rw [← hrr.2.1, h4, ← List.map_take, List.mem_map] at this
      obtain ⟨i, hi1, hi2⟩ := this
      have : i = r.file := by simpa using hi2
      rw [← this]; exact hi1

/-! ### Non-vacuity -/

/-- Three small files of entries: a length byte, then that many bytes; an entry has as many subrecords as it has
payload bytes; entries starting with 9 have no shape and are skipped. -/
def demo : Src where
  files := [⟨[1], [2, 7, 8, 1, 5], false⟩, ⟨[2], [1, 9, 3, 1, 2, 3], false⟩, ⟨[3], [1, 4], false⟩]
  format := "demo"
  seed := 3
  shuffle := false
  identity := [0]
  activeStreams := 2
  quantum := 1
  shapes := [[15], [19]]
  entryLen := fun b => match b with
    | [] => none
    | n :: t => if n.toNat ≤ t.length then some (n.toNat + 1) else none
  shapeOf := fun b => if b.getD 1 0 = 9 then none else if b.length = 2 then some [15] else some [19]
  count := some fun b => b.length - 1
  aug := fun e _ => e
  admit := fun _ k => k.2 != [1, 1]
  world := 1
  rank := 0
  sharded := false

def noDigest : Digest := fun _ => 0

theorem demo_valid : demo.Valid := by constructor <;> simp [demo]

theorem demo_local : demo.Local := by
  intro b n h hn
  cases b with
  | nil => simp [demo] at h
  | cons x t =>
    simp only [demo] at h ⊢
    split at h
    · rename_i hx
      simp only [Option.some.injEq] at h
      subst h
      simp [hx]
    · simp at h

def demoStart : Cursor := ((startCycle noDigest demo 4 0 0).getD ⟨0, 0, 0, [], 0, [], 0, 0⟩)

example : startCycle noDigest demo 4 0 0 = some demoStart := by decide +kernel
example : ((calls demo 7 demoStart).map fun r => r.1.map fun o => o.map fun e => (e.source, e.key.2)) =
    some [some (0, [0, 0]), some (0, [0, 1]), some (0, [1, 0]), some (1, [1, 0]), some (2, [0, 0]), some (1, [1, 2]),
      none] := by decide +kernel
example : (demo.configure 2 1 true).map (fun S => assignments S) = some [[1], [0, 2]] := by
  simp [Src.configure, demo, assignments, bySize, List.range, List.range.loop, List.mergeSort, Src.file, File.size,
    assignLoop, argmin, List.MergeSort.Internal.splitInTwo, List.merge]
/-- A cursor saved in the middle of an entry is restored. -/
example : ((calls demo 4 demoStart).bind fun r => (saveCursor demo r.2).bind (restoreCursor noDigest demo)) =
    (calls demo 4 demoStart).map (·.2) := by decide +kernel
example : (calls demo 4 demoStart).map (fun r => r.2.active.map fun x => x.pending.isSome) = some [false, true] := by
  decide +kernel

end Verif.Seq
