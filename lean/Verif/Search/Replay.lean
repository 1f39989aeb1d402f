import Verif.Search.Props81c

/-! The ordered replay compares the two best shortlisted codes (32 dimensions), whatever the two ways of summation give. -/

namespace Verif.Search

/-- order by score, then code -/
def Lex (a b : Score × Nat) : Prop := a.1 < b.1 ∨ (a.1 = b.1 ∧ a.2 ≤ b.2)

theorem Lex.refl (a : Score × Nat) : Lex a a := Or.inr ⟨rfl, le_refl _⟩

theorem Lex.antisymm {a b : Score × Nat} (h1 : Lex a b) (h2 : Lex b a) : a = b := by
  rcases h1 with h1 | ⟨h1, h1'⟩
  · rcases h2 with h2 | ⟨h2, -⟩
    · exact absurd (lt_trans h1 h2) (lt_irrefl _)
    · rw [h2] at h1; exact absurd h1 (lt_irrefl _)
  · rcases h2 with h2 | ⟨-, h2'⟩
    · rw [h1] at h2; exact absurd h2 (lt_irrefl _)
    · exact Prod.ext h1 (by omega)

theorem better_lex {a b : Score × Nat} (h : better a b = true) : Lex a b := by
  rw [better_iff] at h
  rcases h with h | ⟨h, h'⟩
  · exact Or.inl h
  · exact Or.inr ⟨h, h'.le⟩

/-- `a` and `b` are the best and second best of `S` -/
def Top2 (S : List (Score × Nat)) (a b : Score × Nat) : Prop :=
  a ∈ S ∧ b ∈ S ∧ a ≠ b ∧ (∀ p ∈ S, Lex a p) ∧ ∀ p ∈ S, p ≠ a → Lex b p

/-- the two kept so far -/
def Two (S : List (Score × Nat)) (s : (Score × Nat) × (Score × Nat)) : Prop :=
  (S = [] ∧ s = ((⊤, 0), (⊤, 0))) ∨ (∃ a, S = [a] ∧ s = (a, (⊤, 0))) ∨ Top2 S s.1 s.2

theorem two_add (S : List (Score × Nat)) (s : (Score × Nat) × (Score × Nat)) (p : Score × Nat) (h : Two S s) (hp : p ∉ S)
    (hf : p.1 ≠ ⊤) (hS : ∀ q ∈ S, q.1 ≠ ⊤) : Two (S ++ [p]) (updateTwo s p) := by
  have htop : better p (⊤, 0) = true := by
    rw [better_iff]; left; exact lt_top_iff_ne_top.2 hf
  unfold updateTwo
  rcases h with ⟨rfl, rfl⟩ | ⟨a, rfl, rfl⟩ | ⟨h1, h2, h3, h4, h5⟩
  · rw [if_pos htop]
    exact Or.inr (Or.inl ⟨p, rfl, rfl⟩)
  · have hap : a ≠ p := by rintro rfl; exact hp (List.mem_cons_self ..)
    right; right
    by_cases hb : better p a = true
    · simp only [if_pos hb]
      refine ⟨by simp, by simp, hap.symm, ?_, ?_⟩
      · intro q hq
        simp only [List.cons_append, List.nil_append, List.mem_cons, List.not_mem_nil, or_false] at hq
        rcases hq with rfl | rfl
        · exact better_lex hb
        · exact Lex.refl _
      · intro q hq hqp
        simp only [List.cons_append, List.nil_append, List.mem_cons, List.not_mem_nil, or_false] at hq
        rcases hq with rfl | rfl
        · exact Lex.refl _
        · exact absurd rfl hqp
    · simp only [if_neg hb, if_pos htop]
      refine ⟨by simp, by simp, hap, ?_, ?_⟩
      · intro q hq
        simp only [List.cons_append, List.nil_append, List.mem_cons, List.not_mem_nil, or_false] at hq
        rcases hq with rfl | rfl
        · exact Lex.refl _
        · exact not_better _ _ hb
      · intro q hq hqp
        simp only [List.cons_append, List.nil_append, List.mem_cons, List.not_mem_nil, or_false] at hq
        rcases hq with rfl | rfl
        · exact absurd rfl hqp
        · exact Lex.refl _
  · right; right
    have hp1 : s.1 ≠ p := fun e => hp (e ▸ h1)
    have hp2 : s.2 ≠ p := fun e => hp (e ▸ h2)
    by_cases hb : better p s.1 = true
    · simp only [if_pos hb]
      refine ⟨by simp, List.mem_append.2 (Or.inl h1), hp1.symm, ?_, ?_⟩
      · intro q hq
        rcases List.mem_append.1 hq with hq | hq
        · exact lex_trans (better_lex hb) (h4 q hq)
        · rw [List.mem_singleton.1 hq]; exact Lex.refl _
      · intro q hq hqp
        rcases List.mem_append.1 hq with hq | hq
        · exact h4 q hq
        · exact absurd (List.mem_singleton.1 hq) hqp
    · by_cases hb2 : better p s.2 = true
      · simp only [if_neg hb, if_pos hb2]
        refine ⟨List.mem_append.2 (Or.inl h1), by simp, hp1, ?_, ?_⟩
        · intro q hq
          rcases List.mem_append.1 hq with hq | hq
          · exact h4 q hq
          · rw [List.mem_singleton.1 hq]; exact not_better _ _ hb
        · intro q hq hqp
          rcases List.mem_append.1 hq with hq | hq
          · exact lex_trans (better_lex hb2) (h5 q hq hqp)
          · rw [List.mem_singleton.1 hq]; exact Lex.refl _
      · simp only [if_neg hb, if_neg hb2]
        refine ⟨List.mem_append.2 (Or.inl h1), List.mem_append.2 (Or.inl h2), h3, ?_, ?_⟩
        · intro q hq
          rcases List.mem_append.1 hq with hq | hq
          · exact h4 q hq
          · rw [List.mem_singleton.1 hq]; exact not_better _ _ hb
        · intro q hq hqp
          rcases List.mem_append.1 hq with hq | hq
          · exact h5 q hq hqp
          · rw [List.mem_singleton.1 hq]; exact not_better _ _ hb2

/-- one block with at least two codes -/
theorem two_block (exact : Nat → ℚ) (seen l : List Nat) (hl : 2 ≤ l.length) (hnd : (seen ++ l).Nodup) (hc : ∀ c ∈ l, c ≤ intMax)
    (s : (Score × Nat) × (Score × Nat)) (h : Two (scored exact seen) s) :
    Two (scored exact (seen ++ l)) (blockTwo s (scored exact l)) := by
  have hne : l ≠ [] := by rintro rfl; simp at hl
  obtain ⟨hb, hbt⟩ := scored_local exact l hne hc
  obtain ⟨f, hfd⟩ : ∃ f, f = localBest (scored exact l) := ⟨_, rfl⟩
  rw [← hfd] at hb hbt
  obtain ⟨m, hm⟩ : ∃ m, m = (scored exact l).map (fun p => if p.2 = f.2 then ((⊤ : Score), p.2) else p) := ⟨_, rfl⟩
  have hmem : ∀ p ∈ scored exact l, p.2 ∈ l ∧ p = ((exact p.2 : Score), p.2) := by
    intro p hp
    obtain ⟨c, hcl, rfl⟩ := List.mem_map.1 hp
    exact ⟨hcl, rfl⟩
  have hg := localBest_isBest m (by rw [hm]; simpa [scored] using hne) (by
    intro p hp
    rw [hm] at hp
    obtain ⟨q, hq, rfl⟩ := List.mem_map.1 hp
    by_cases hqf : q.2 = f.2
    · rw [if_pos hqf]; exact hc _ (hmem q hq).1
    · rw [if_neg hqf]; exact hc _ (hmem q hq).1)
  obtain ⟨g, hgd⟩ : ∃ g, g = localBest m := ⟨_, rfl⟩
  rw [← hgd] at hg
  have hndl : l.Nodup := (List.nodup_append.1 hnd).2.1
  -- another code of the block
  obtain ⟨c, hcl, hcf⟩ : ∃ c ∈ l, c ≠ f.2 := by
    obtain ⟨a, b, rest, rfl⟩ : ∃ a b rest, l = a :: b :: rest := by
      match l, hl with
      | a :: b :: rest, _ => exact ⟨a, b, rest, rfl⟩
    have hab : a ≠ b := by
      intro e
      rw [e] at hndl
      exact (List.nodup_cons.1 hndl).1 (List.mem_cons_self ..)
    by_cases ha : a = f.2
    · exact ⟨b, by simp, fun e => hab (ha.trans e.symm)⟩
    · exact ⟨a, by simp, ha⟩
  have hcm : (((exact c : ℚ) : Score), c) ∈ m := by
    rw [hm]
    exact List.mem_map.2 ⟨((exact c : Score), c), List.mem_map.2 ⟨c, hcl, rfl⟩, by rw [if_neg hcf]⟩
  have hgf : g.1 ≠ ⊤ := by
    intro ht
    rcases hg.2 _ hcm with h | ⟨h, -⟩
    · rw [ht] at h; exact not_top_lt h
    · rw [ht] at h; exact WithTop.coe_ne_top h.symm
  have hgm : g ∈ scored exact l ∧ g.2 ≠ f.2 := by
    have := hg.1
    rw [hm] at this
    obtain ⟨q, hq, he⟩ := List.mem_map.1 this
    by_cases hqf : q.2 = f.2
    · rw [if_pos hqf] at he
      rw [← he] at hgf
      exact absurd rfl hgf
    · rw [if_neg hqf] at he
      rw [← he]
      exact ⟨hq, hqf⟩
  have hgle : ∀ p ∈ scored exact l, p ≠ f → Lex g p := by
    intro p hp hpf
    have hp2 : p.2 ≠ f.2 := by
      intro e
      apply hpf
      rw [(hmem p hp).2, (hmem f hb.1).2, e]
    exact hg.2 p (by rw [hm]; exact List.mem_map.2 ⟨p, hp, by rw [if_neg hp2]⟩)
  have hfin : ∀ l' : List Nat, ∀ q ∈ scored exact l', q.1 ≠ ⊤ := by
    intro l' q hq
    obtain ⟨c, -, rfl⟩ := List.mem_map.1 hq
    exact WithTop.coe_ne_top
  have hout : ∀ p ∈ scored exact l, p ∉ scored exact seen := by
    intro p hp hps
    obtain ⟨c', hc', he⟩ := List.mem_map.1 hps
    have h2 := (hmem p hp).1
    rw [← he] at h2
    exact (List.nodup_append.1 hnd).2.2 _ hc' _ h2 rfl
  have hfg : f ≠ g := fun e => hgm.2 (by rw [e])
  have t1 := two_add _ s f h (hout f hb.1) hbt (hfin seen)
  have t2 := two_add _ _ g t1 (by
    intro hmm
    rcases List.mem_append.1 hmm with h' | h'
    · exact hout g hgm.1 h'
    · exact hfg (List.mem_singleton.1 h').symm) hgf (by
    intro q hq
    rcases List.mem_append.1 hq with h' | h'
    · exact hfin seen q h'
    · rw [List.mem_singleton.1 h']; exact hbt)
  have heq : blockTwo s (scored exact l) = updateTwo (updateTwo s f) g := by
    unfold blockTwo
    dsimp only
    rw [← hfd, ← hm, ← hgd]
  rw [heq]
  obtain ⟨s', hs'⟩ : ∃ s', s' = updateTwo (updateTwo s f) g := ⟨_, rfl⟩
  rw [← hs'] at t2 ⊢
  right; right
  have hsc : scored exact (seen ++ l) = scored exact seen ++ scored exact l := List.map_append ..
  rw [hsc]
  rcases t2 with ⟨h', -⟩ | ⟨a, h', -⟩ | ⟨k1, k2, k3, k4, k5⟩
  · simp at h'
  · have := congrArg List.length h'
    simp at this
  · have hin : ∀ p, p ∈ scored exact seen ++ [f] ++ [g] → p ∈ scored exact seen ++ scored exact l := by
      intro p hp
      simp only [List.append_assoc, List.mem_append, List.mem_cons, List.not_mem_nil, or_false] at hp
      rcases hp with h' | rfl | rfl
      · exact List.mem_append.2 (Or.inl h')
      · exact List.mem_append.2 (Or.inr hb.1)
      · exact List.mem_append.2 (Or.inr hgm.1)
    have hf' : f ∈ scored exact seen ++ [f] ++ [g] := by simp
    have hg' : g ∈ scored exact seen ++ [f] ++ [g] := by simp
    refine ⟨hin _ k1, hin _ k2, k3, ?_, ?_⟩
    · intro p hp
      rcases List.mem_append.1 hp with h' | h'
      · exact k4 p (by simp [h'])
      · exact lex_trans (k4 f hf') (hb.2 p h')
    · intro p hp hpa
      rcases List.mem_append.1 hp with h' | h'
      · exact k5 p (by simp [h']) hpa
      · by_cases hpf : p = f
        · rw [hpf] at hpa ⊢; exact k5 f hf' hpa
        · have hgp := hgle p h' hpf
          by_cases hga : g = s'.1
          · exfalso
            have h1 : Lex g f := by rw [hga]; exact k4 f hf'
            have h2 : Lex f g := hb.2 g hgm.1
            exact hfg (Lex.antisymm h2 h1)
          · exact lex_trans (k5 g hg' hga) hgp

theorem two_fold (exact : Nat → ℚ) (bs : List (List Nat)) : ∀ (seen : List Nat) (s : (Score × Nat) × (Score × Nat)),
    (∀ l ∈ bs, 2 ≤ l.length) → (seen ++ bs.flatten).Nodup → (∀ l ∈ bs, ∀ c ∈ l, c ≤ intMax) → Two (scored exact seen) s →
    Two (scored exact (seen ++ bs.flatten)) (bs.foldl (fun s b => blockTwo s (b.map (fun c => ((exact c : Score), c)))) s) := by
  induction bs with
  | nil => intro seen s _ _ _ h; simpa using h
  | cons l bs ih =>
    intro seen s h2 hnd hc h
    rw [List.flatten_cons, ← List.append_assoc] at hnd ⊢
    rw [List.foldl_cons]
    refine ih _ _ (fun m hm => h2 m (List.mem_cons_of_mem _ hm)) hnd (fun m hm => hc m (List.mem_cons_of_mem _ hm)) ?_
    exact two_block exact seen l (h2 l (List.mem_cons_self ..)) (List.nodup_append.1 hnd).1 (hc l (List.mem_cons_self ..)) s h

/-! ### the shortlist has no repetitions -/

theorem pick_nodup (k : Nat) : ∀ (l : List Score) (F : Finset Nat), (∀ i ∈ F, i < l.length ∧ ∃ s, l[i]? = some s ∧ s ≠ ⊤) → k ≤ F.card →
    (pick k l).Nodup ∧ ∀ i ∈ pick k l, ∃ s, l[i]? = some s ∧ s ≠ ⊤ := by
  induction k with
  | zero => intro l F _ _; exact ⟨List.nodup_nil, by intro i hi; cases hi⟩
  | succ k ih =>
    intro l F hF hk
    obtain ⟨i0, hi0⟩ := Finset.card_pos.1 (lt_of_lt_of_le (Nat.succ_pos k) hk)
    have hl : l ≠ [] := by rintro rfl; have := (hF i0 hi0).1; simp at this
    obtain ⟨m, hm, hmin⟩ := argmin_spec l hl
    obtain ⟨a, ha⟩ : ∃ a, a = argmin l := ⟨_, rfl⟩
    rw [pick, ← ha]
    rw [← ha] at hm hmin
    have hal : a < l.length := by rw [ha]; exact argmin_lt l hl
    have hmf : m ≠ ⊤ := by
      obtain ⟨-, s, hs, hst⟩ := hF i0 hi0
      intro e
      have := (hmin i0 s hs).1
      rw [e] at this
      exact hst (top_le_iff.1 this)
    obtain ⟨h1, h2⟩ := ih (l.set a ⊤) (F.erase a) (by
      intro i hi
      rw [Finset.mem_erase] at hi
      obtain ⟨g1, s, g2, g3⟩ := hF i hi.2
      exact ⟨by rw [List.length_set]; exact g1, s, by rw [List.getElem?_set_ne (fun e => hi.1 e.symm)]; exact g2, g3⟩) (by
      have := Finset.pred_card_le_card_erase (s := F) (a := a)
      omega)
    refine ⟨List.nodup_cons.2 ⟨?_, h1⟩, ?_⟩
    · intro hmem
      obtain ⟨s, hs, hst⟩ := h2 a hmem
      rw [List.getElem?_set_self hal] at hs
      cases hs
      exact hst rfl
    · intro i hi
      rcases List.mem_cons.1 hi with rfl | hi
      · exact ⟨m, hm, hmf⟩
      · obtain ⟨s, hs, hst⟩ := h2 i hi
        by_cases hia : i = a
        · rw [hia]; exact ⟨m, hm, hmf⟩
        · rw [List.getElem?_set_ne (fun e => hia e.symm)] at hs
          exact ⟨s, hs, hst⟩

theorem shortlist_nodup (coarse : Nat → ℚ) (blockN topK t : Nat) (h : topK ≤ blockN) : (shortlist coarse blockN topK t).Nodup := by
  have := (pick_nodup topK (tile coarse blockN t) (Finset.range blockN) (by
    intro i hi
    rw [Finset.mem_range] at hi
    exact ⟨by rw [tile_length]; exact hi, _, tile_get coarse blockN t i hi, WithTop.coe_ne_top⟩) (by simpa using h)).1
  unfold shortlist
  exact this.map (fun a b hab => by omega)

theorem candidates_nodup (coarse : Nat → ℚ) (blockN topK tiles : Nat) (hN : 0 < blockN) (h : topK ≤ blockN) :
    (candidates coarse blockN topK tiles).Nodup := by
  unfold candidates
  induction tiles with
  | zero => simp
  | succ n ih =>
    rw [List.range_succ, List.flatMap_append]
    rw [List.nodup_append]
    refine ⟨ih, by simpa using shortlist_nodup coarse blockN topK n h, ?_⟩
    intro a ha b hb hab
    subst hab
    have h1 := candidates_lt coarse blockN topK n hN a ha
    have h2 := (shortlist_mem coarse blockN topK n hN a (by simpa using hb)).1
    omega

theorem blocks_full (n : Nat) (hn : 0 < n) (l : List Nat) (h : n ∣ l.length) : ∀ b ∈ blocks n l, b.length = n := by
  intro b hb
  obtain ⟨k, hk, rfl⟩ := List.mem_map.1 hb
  rw [List.mem_range] at hk
  obtain ⟨q, hq⟩ := h
  have : cdiv l.length n = q := by
    unfold cdiv
    rw [hq]
    have h1 : n * q + n - 1 = n * q + (n - 1) := by omega
    rw [h1, Nat.mul_add_div hn, Nat.div_eq_of_lt (by omega), Nat.add_zero]
  rw [this] at hk
  rw [List.length_take, List.length_drop, hq]
  have h2 : (k + 1) * n ≤ q * n := Nat.mul_le_mul_right _ hk
  rw [Nat.succ_mul, Nat.mul_comm q n] at h2
  omega

/-- In 32 dimensions the fast search replays, in ordered summation, exactly the two shortlisted codes that are best by the
first summation (smaller code on ties), and takes the better of them by the replay. This holds whatever values the two
summations have (they differ by rounding). -/
theorem C81_replay (coarse exact ordered : Nat → ℚ) (blockN keep tiles block : Nat) (hN : 0 < blockN) (hk2 : 2 ≤ keep) (hkN : keep ≤ blockN)
    (ht : 0 < tiles) (hmax : tiles * blockN ≤ intMax) (hb : 2 ≤ block) (hdvd : block ∣ tiles * keep) :
    ∃ a b, a ∈ candidates coarse blockN keep tiles ∧ b ∈ candidates coarse blockN keep tiles ∧ a ≠ b ∧
      (∀ c ∈ candidates coarse blockN keep tiles, exact a < exact c ∨ (exact a = exact c ∧ a ≤ c)) ∧
      (∀ c ∈ candidates coarse blockN keep tiles, c ≠ a → exact b < exact c ∨ (exact b = exact c ∧ b ≤ c)) ∧
      exactSearchOrdered exact ordered block (candidates coarse blockN keep tiles) =
        if ordered b < ordered a ∨ (ordered b = ordered a ∧ b < a) then b else a := by
  obtain ⟨cands, hcd⟩ : ∃ c, c = candidates coarse blockN keep tiles := ⟨_, rfl⟩
  rw [← hcd]
  have hlen : cands.length = tiles * keep := by rw [hcd]; exact candidates_length ..
  have hcl : ∀ c ∈ cands, c ≤ intMax := fun c hc => le_trans (candidates_lt coarse blockN keep tiles hN c (hcd ▸ hc)).le hmax
  have h := two_fold exact (blocks block cands) [] ((⊤, 0), (⊤, 0))
    (fun l hl => by rw [blocks_full block (by omega) cands (by rw [hlen]; exact hdvd) l hl]; exact hb)
    (by rw [List.nil_append, blocks_flatten block (by omega), hcd]; exact candidates_nodup coarse blockN keep tiles hN hkN)
    (fun l hl c hc => hcl c (blocks_mem block cands l hl c hc)) (Or.inl ⟨rfl, rfl⟩)
  rw [List.nil_append, blocks_flatten block (by omega)] at h
  unfold exactSearchOrdered
  dsimp only
  obtain ⟨s, hs⟩ : ∃ s, s = (blocks block cands).foldl (fun s b => blockTwo s (b.map (fun c => ((exact c : Score), c)))) ((⊤, 0), (⊤, 0)) :=
    ⟨_, rfl⟩
  rw [← hs] at h ⊢
  have h4 : 2 ≤ cands.length := by
    rw [hlen]
    calc 2 ≤ keep := hk2
      _ = 1 * keep := (Nat.one_mul _).symm
      _ ≤ tiles * keep := Nat.mul_le_mul_right _ ht
  have hsl : (scored exact cands).length = cands.length := by simp [scored]
  rcases h with ⟨h, -⟩ | ⟨a, h, -⟩ | ⟨k1, k2, k3, k4, k5⟩
  · rw [h] at hsl; simp at hsl; omega
  · rw [h] at hsl; simp at hsl; omega
  · obtain ⟨a, ha, hae⟩ := List.mem_map.1 k1
    obtain ⟨b, hbm, hbe⟩ := List.mem_map.1 k2
    rw [← hae] at k3 k4 k5
    rw [← hbe] at k3 k5
    refine ⟨a, b, ha, hbm, ?_, ?_, ?_, ?_⟩
    · intro e; exact k3 (by rw [e])
    · intro c hc
      rcases k4 ((exact c : Score), c) (List.mem_map.2 ⟨c, hc, rfl⟩) with g | ⟨g, g'⟩
      · exact Or.inl (WithTop.coe_lt_coe.1 g)
      · exact Or.inr ⟨WithTop.coe_inj.1 g, g'⟩
    · intro c hc hca
      rcases k5 ((exact c : Score), c) (List.mem_map.2 ⟨c, hc, rfl⟩) (by
        intro e; exact hca (Prod.mk.inj e).2) with g | ⟨g, g'⟩
      · exact Or.inl (WithTop.coe_lt_coe.1 g)
      · exact Or.inr ⟨WithTop.coe_inj.1 g, g'⟩
    · rw [← hae, ← hbe]

end Verif.Search
