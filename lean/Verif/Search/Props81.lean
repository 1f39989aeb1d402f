import Verif.Search.Lemmas
import Mathlib.Tactic.Ring
import Mathlib.Tactic.IntervalCases
import Mathlib.Algebra.BigOperators.Ring.List
import Mathlib.Algebra.Order.BigOperators.Group.List

/-!
Specification for C81. The nearest code is the one with the smallest score, on ties the first. `Near n d k` says `k` is
the nearest of the codes `0 … n-1` for scores `d`.
-/

namespace Verif.Search

def Near (n : Nat) (d : Nat → ℚ) (k : Nat) : Prop := k < n ∧ ∀ j, j < n → d k < d j ∨ (d k = d j ∧ k ≤ j)

theorem Near.unique {n : Nat} {d : Nat → ℚ} {a b : Nat} (ha : Near n d a) (hb : Near n d b) : a = b := by
  rcases ha.2 b hb.1 with h | ⟨h, h'⟩
  · rcases hb.2 a ha.1 with g | ⟨g, -⟩
    · exact absurd (lt_trans h g) (lt_irrefl _)
    · rw [g] at h; exact absurd h (lt_irrefl _)
  · rcases hb.2 a ha.1 with g | ⟨-, g'⟩
    · rw [h] at g; exact absurd g (lt_irrefl _)
    · omega

/-! ### the tiles -/

theorem tile_length (coarse : Nat → ℚ) (blockN t : Nat) : (tile coarse blockN t).length = blockN := by simp [tile]

theorem tile_get (coarse : Nat → ℚ) (blockN t j : Nat) (h : j < blockN) :
    (tile coarse blockN t)[j]? = some ((coarse (t * blockN + j) : ℚ) : Score) := by
  simp [tile, h]

theorem tile_ne (coarse : Nat → ℚ) (blockN t : Nat) (h : 0 < blockN) : tile coarse blockN t ≠ [] := by
  intro hn
  have := tile_length coarse blockN t
  rw [hn] at this
  simp at this
  omega

theorem shortlist_mem (coarse : Nat → ℚ) (blockN topK t : Nat) (h : 0 < blockN) (c : Nat)
    (hc : c ∈ shortlist coarse blockN topK t) : t * blockN ≤ c ∧ c < (t + 1) * blockN := by
  obtain ⟨j, hj, rfl⟩ := List.mem_map.1 hc
  have := pick_lt topK _ (tile_ne coarse blockN t h) j hj
  rw [tile_length] at this
  rw [Nat.succ_mul]
  omega

theorem candidates_lt (coarse : Nat → ℚ) (blockN topK tiles : Nat) (h : 0 < blockN) (c : Nat)
    (hc : c ∈ candidates coarse blockN topK tiles) : c < tiles * blockN := by
  obtain ⟨t, ht, hc⟩ := List.mem_flatMap.1 hc
  rw [List.mem_range] at ht
  have h1 := (shortlist_mem coarse blockN topK t h c hc).2
  exact lt_of_lt_of_le h1 (Nat.mul_le_mul_right _ ht)

theorem candidates_length (coarse : Nat → ℚ) (blockN topK tiles : Nat) :
    (candidates coarse blockN topK tiles).length = tiles * topK := by
  unfold candidates
  rw [List.length_flatMap]
  have : (List.range tiles).map (fun t => (shortlist coarse blockN topK t).length) = List.replicate tiles topK := by
    rw [List.eq_replicate_iff]
    refine ⟨by simp, ?_⟩
    intro n hn
    obtain ⟨t, -, rfl⟩ := List.mem_map.1 hn
    simp [shortlist, pick_length]
  rw [this, List.sum_replicate_nat]

/-- how many codes of its tile come before code `k` in the coarse order -/
noncomputable def ahead (coarse : Nat → ℚ) (blockN k : Nat) : Nat :=
  ((Finset.range blockN).filter (fun j => coarse (k / blockN * blockN + j) < coarse k ∨
    (coarse (k / blockN * blockN + j) = coarse k ∧ k / blockN * blockN + j < k))).card

theorem mem_shortlist (coarse : Nat → ℚ) (blockN topK k : Nat) (h : 0 < blockN) (hk : ahead coarse blockN k < topK) :
    k ∈ shortlist coarse blockN topK (k / blockN) := by
  have hmod := Nat.mod_lt k h
  have hdiv : k / blockN * blockN + k % blockN = k := by rw [Nat.mul_comm]; exact Nat.div_add_mod k blockN
  have hget := tile_get coarse blockN (k / blockN) (k % blockN) hmod
  rw [hdiv] at hget
  refine List.mem_map.2 ⟨k % blockN, ?_, hdiv⟩
  classical
  refine mem_pick topK _ _ _ hget WithTop.coe_ne_top (lt_of_le_of_lt (Finset.card_le_card ?_) hk)
  intro j hj
  rw [Finset.mem_filter, Finset.mem_range, tile_length] at hj
  obtain ⟨hj, a, b, ha, hb, hab⟩ := hj
  rw [tile_get _ _ _ _ hj] at ha
  rw [hget] at hb
  cases ha
  cases hb
  rw [Finset.mem_filter, Finset.mem_range]
  refine ⟨hj, ?_⟩
  rcases hab with h | ⟨h, h'⟩
  · exact Or.inl (WithTop.coe_lt_coe.1 h)
  · exact Or.inr ⟨WithTop.coe_inj.1 h, by omega⟩

theorem mem_candidates (coarse : Nat → ℚ) (blockN topK tiles k : Nat) (h : 0 < blockN) (hk : k < tiles * blockN)
    (ha : ahead coarse blockN k < topK) : k ∈ candidates coarse blockN topK tiles := by
  refine List.mem_flatMap.2 ⟨k / blockN, ?_, mem_shortlist coarse blockN topK k h ha⟩
  rw [List.mem_range]
  exact (Nat.div_lt_iff_lt_mul h).2 hk

/-- the first entry of a tile's shortlist is at least as good as any code of the tile, coarsely -/
theorem shortlist_first (coarse : Nat → ℚ) (blockN topK k : Nat) (h : 0 < blockN) (hk : 0 < topK) :
    ∃ c, c ∈ shortlist coarse blockN topK (k / blockN) ∧ (shortlist coarse blockN topK (k / blockN)).getD 0 0 = c ∧
      coarse c ≤ coarse k := by
  have hmod := Nat.mod_lt k h
  have hdiv : k / blockN * blockN + k % blockN = k := by rw [Nat.mul_comm]; exact Nat.div_add_mod k blockN
  obtain ⟨n, rfl⟩ : ∃ n, topK = n + 1 := ⟨topK - 1, by omega⟩
  obtain ⟨m, hm, hmin⟩ := argmin_spec _ (tile_ne coarse blockN (k / blockN) h)
  have hlt := argmin_lt _ (tile_ne coarse blockN (k / blockN) h)
  rw [tile_length] at hlt
  refine ⟨k / blockN * blockN + argmin (tile coarse blockN (k / blockN)), ?_, ?_, ?_⟩
  · unfold shortlist; rw [pick]; simp
  · unfold shortlist; rw [pick]; simp
  · rw [tile_get _ _ _ _ hlt] at hm
    cases hm
    have hget := tile_get coarse blockN (k / blockN) (k % blockN) hmod
    rw [hdiv] at hget
    exact WithTop.coe_le_coe.1 (hmin _ _ hget).1

/-- the outcome of a search over shortlists: the code is one of the table, is at least as near as every shortlisted code -/
def Outcome (coarse exact : Nat → ℚ) (blockN topK tiles r : Nat) : Prop :=
  r < tiles * blockN ∧ ∀ c ∈ candidates coarse blockN topK tiles, exact r < exact c ∨ (exact r = exact c ∧ r ≤ c)

theorem outcome_exact {coarse exact : Nat → ℚ} {blockN topK tiles r k : Nat} (h : 0 < blockN)
    (ho : Outcome coarse exact blockN topK tiles r) (hk : Near (tiles * blockN) exact k) (ha : ahead coarse blockN k < topK) :
    r = k := by
  have h1 := ho.2 k (mem_candidates coarse blockN topK tiles k h hk.1 ha)
  have h2 := hk.2 r ho.1
  rcases h1 with h1 | ⟨h1, h1'⟩
  · rcases h2 with h2 | ⟨h2, -⟩
    · exact absurd (lt_trans h1 h2) (lt_irrefl _)
    · rw [h2] at h1; exact absurd h1 (lt_irrefl _)
  · rcases h2 with h2 | ⟨-, h2'⟩
    · rw [h1] at h2; exact absurd h2 (lt_irrefl _)
    · omega

theorem outcome_near {coarse exact : Nat → ℚ} {blockN topK tiles r : Nat} (h : 0 < blockN) (ht : 0 < topK)
    (ho : Outcome coarse exact blockN topK tiles r) (off : ℚ) (e : Nat → ℚ)
    (he : ∀ j, j < tiles * blockN → |coarse j + off - exact j| ≤ e j) (k : Nat) (hk : k < tiles * blockN) :
    ∃ c, c < tiles * blockN ∧ exact r ≤ exact k + e k + e c := by
  obtain ⟨c, hc, -, hle⟩ := shortlist_first coarse blockN topK k h ht
  have hc' : c ∈ candidates coarse blockN topK tiles :=
    List.mem_flatMap.2 ⟨k / blockN, List.mem_range.2 ((Nat.div_lt_iff_lt_mul h).2 hk), hc⟩
  have hlt := candidates_lt _ _ _ _ h _ hc'
  refine ⟨c, hlt, ?_⟩
  have h1 : exact r ≤ exact c := by
    rcases ho.2 c hc' with h | ⟨h, -⟩
    · exact h.le
    · exact h.le
  have h2 := abs_le.1 (he c hlt)
  have h3 := abs_le.1 (he k hk)
  linarith [h2.1, h2.2, h3.1, h3.2]

theorem candidates_ne (coarse : Nat → ℚ) (blockN topK tiles : Nat) (h : 0 < tiles) (hk : 0 < topK) :
    candidates coarse blockN topK tiles ≠ [] := by
  intro hn
  have := candidates_length coarse blockN topK tiles
  rw [hn, List.length_nil] at this
  have := Nat.mul_pos h hk
  omega

/-! ### the three kernels have this outcome -/

theorem exactSearch_outcome (coarse exact : Nat → ℚ) (blockN topK tiles block : Nat) (hN : 0 < blockN) (ht : 0 < tiles)
    (hk : 0 < topK) (hb : 0 < block) (hmax : tiles * blockN ≤ intMax) :
    Outcome coarse exact blockN topK tiles (exactSearch exact block (candidates coarse blockN topK tiles)) := by
  obtain ⟨h1, h2⟩ := exactSearch_best exact block hb (candidates coarse blockN topK tiles)
    (candidates_ne coarse blockN topK tiles ht hk)
    (fun c hc => le_trans (candidates_lt _ _ _ _ hN c hc).le hmax)
  exact ⟨candidates_lt _ _ _ _ hN _ h1, h2⟩

theorem updateTwo_fst (s : (Score × Nat) × (Score × Nat)) (new : Score × Nat) : (updateTwo s new).1 = updateBest s.1 new := by
  unfold updateTwo updateBest
  split_ifs <;> rfl

theorem updateTwo_snd (s : (Score × Nat) × (Score × Nat)) (new : Score × Nat) (P : Nat → Prop) (h1 : P s.1.2) (h2 : P s.2.2)
    (h3 : P new.2) : P (updateTwo s new).2.2 ∧ P (updateTwo s new).1.2 := by
  unfold updateTwo
  split_ifs <;> exact ⟨by assumption, by assumption⟩

theorem updateBest_absorb (b c : Score × Nat) (h : b.1 < c.1 ∨ (b.1 = c.1 ∧ b.2 ≤ c.2)) : updateBest b c = b := by
  unfold updateBest
  rw [if_neg]
  rw [better_iff]
  rintro (g | ⟨g, g'⟩)
  · rcases h with h | ⟨h, -⟩
    · exact lt_irrefl _ (lt_trans h g)
    · rw [h] at g; exact lt_irrefl _ g
  · rcases h with h | ⟨-, h'⟩
    · rw [g] at h; exact lt_irrefl _ h
    · omega

theorem masked_local (l : List (Score × Nat)) (hne : l ≠ []) (hc : ∀ p ∈ l, p.2 ≤ intMax) (f : Nat) :
    ∃ p ∈ l, (localBest (l.map (fun p => if p.2 = f then (⊤, p.2) else p))).2 = p.2 ∧
      p.1 ≤ (localBest (l.map (fun p => if p.2 = f then (⊤, p.2) else p))).1 := by
  have h := localBest_isBest (l.map (fun p => if p.2 = f then (⊤, p.2) else p)) (by simpa using hne) (by
    intro p hp
    obtain ⟨q, hq, rfl⟩ := List.mem_map.1 hp
    by_cases hf : q.2 = f
    · rw [if_pos hf]; exact hc q hq
    · rw [if_neg hf]; exact hc q hq)
  obtain ⟨q, hq, he⟩ := List.mem_map.1 h.1
  refine ⟨q, hq, ?_⟩
  rw [← he]
  by_cases hf : q.2 = f
  · rw [if_pos hf]; exact ⟨rfl, le_top⟩
  · rw [if_neg hf]; exact ⟨rfl, le_refl _⟩

/-- one block: the best of the two is the best so far, the other is some code -/
theorem blockTwo_spec (exact : Nat → ℚ) (l : List Nat) (hne : l ≠ []) (hc : ∀ c ∈ l, c ≤ intMax)
    (s : (Score × Nat) × (Score × Nat)) (seen : List Nat) (hs : SoFar (scored exact seen) s.1) (P : Nat → Prop) (hP : ∀ c ∈ l, P c)
    (h1 : P s.1.2) (h2 : P s.2.2) :
    SoFar (scored exact (seen ++ l)) (blockTwo s (l.map (fun c => ((exact c : Score), c)))).1 ∧
      P (blockTwo s (l.map (fun c => ((exact c : Score), c)))).1.2 ∧
      P (blockTwo s (l.map (fun c => ((exact c : Score), c)))).2.2 := by
  obtain ⟨hb, ht⟩ := scored_local exact l hne hc
  have hmem : ∀ p ∈ scored exact l, P p.2 ∧ p.2 ≤ intMax := by
    intro p hp
    obtain ⟨c, hcl, rfl⟩ := List.mem_map.1 hp
    exact ⟨hP c hcl, hc c hcl⟩
  obtain ⟨p, hp, hp1, hp2⟩ := masked_local (scored exact l) (by simpa [scored] using hne) (fun p hp => (hmem p hp).2)
    (localBest (scored exact l)).2
  have hs1 := updateBest_soFar _ _ _ _ hs hb ht
  show SoFar (scored exact (seen ++ l)) (blockTwo s (scored exact l)).1 ∧ P (blockTwo s (scored exact l)).1.2 ∧
    P (blockTwo s (scored exact l)).2.2
  unfold blockTwo
  dsimp only
  have hu := updateTwo_snd s (localBest (scored exact l)) P h1 h2 (hmem _ hb.1).1
  have hv := updateTwo_snd (updateTwo s (localBest (scored exact l))) _ P hu.2 hu.1
    (show P (localBest ((scored exact l).map (fun p => if p.2 = (localBest (scored exact l)).2 then (⊤, p.2) else p))).2 by
      rw [hp1]; exact (hmem p hp).1)
  refine ⟨?_, hv.2, hv.1⟩
  rw [updateTwo_fst, updateTwo_fst]
  have hsc : scored exact (seen ++ l) = scored exact seen ++ scored exact l := List.map_append ..
  rw [hsc]
  rw [updateBest_absorb]
  · exact hs1
  · rcases hs1 with ⟨h, -⟩ | h
    · exfalso
      have := (List.append_eq_nil_iff.1 h).2
      exact hne (by simpa [scored] using this)
    · have hpm : p ∈ scored exact seen ++ scored exact l := List.mem_append.2 (Or.inr hp)
      refine lex_trans (h.2 p hpm) ?_
      rcases lt_or_eq_of_le hp2 with h' | h'
      · exact Or.inl h'
      · exact Or.inr ⟨h', hp1.symm.le⟩

theorem foldl_two (exact : Nat → ℚ) (P : Nat → Prop) (bs : List (List Nat)) : ∀ (seen : List Nat) (s : (Score × Nat) × (Score × Nat)),
    (∀ l ∈ bs, l ≠ []) → (∀ l ∈ bs, ∀ c ∈ l, c ≤ intMax ∧ P c) → SoFar (scored exact seen) s.1 → P s.1.2 → P s.2.2 →
    SoFar (scored exact (seen ++ bs.flatten)) (bs.foldl (fun s b => blockTwo s (b.map (fun c => ((exact c : Score), c)))) s).1 ∧
      P (bs.foldl (fun s b => blockTwo s (b.map (fun c => ((exact c : Score), c)))) s).2.2 := by
  induction bs with
  | nil => intro seen s _ _ h _ h2; exact ⟨by simpa using h, h2⟩
  | cons l bs ih =>
    intro seen s hne hc h h1 h2
    rw [List.foldl_cons, List.flatten_cons, ← List.append_assoc]
    obtain ⟨k1, k2, k3⟩ := blockTwo_spec exact l (hne l (List.mem_cons_self ..)) (fun c hcl => (hc l (List.mem_cons_self ..) c hcl).1)
      s seen h P (fun c hcl => (hc l (List.mem_cons_self ..) c hcl).2) h1 h2
    exact ih _ _ (fun m hm => hne m (List.mem_cons_of_mem _ hm)) (fun m hm => hc m (List.mem_cons_of_mem _ hm)) k1 k2 k3

theorem exactSearchOrdered_outcome (coarse exact : Nat → ℚ) (blockN topK tiles block : Nat) (hN : 0 < blockN) (ht : 0 < tiles)
    (hk : 0 < topK) (hb : 0 < block) (hmax : tiles * blockN ≤ intMax) :
    Outcome coarse exact blockN topK tiles (exactSearchOrdered exact exact block (candidates coarse blockN topK tiles)) := by
  obtain ⟨cands, hcd⟩ : ∃ c, c = candidates coarse blockN topK tiles := ⟨_, rfl⟩
  have hlt : ∀ c ∈ cands, c < tiles * blockN := fun c hc => candidates_lt coarse blockN topK tiles hN c (hcd ▸ hc)
  have hpos : 0 < tiles * blockN := Nat.mul_pos ht hN
  obtain ⟨h1, h2⟩ := foldl_two exact (fun c => c < tiles * blockN) (blocks block cands) [] ((⊤, 0), (⊤, 0))
    (blocks_ne_nil block hb cands)
    (fun l hl c hcl => ⟨le_trans (hlt c (blocks_mem block cands l hl c hcl)).le hmax, hlt c (blocks_mem block cands l hl c hcl)⟩)
    (Or.inl ⟨rfl, rfl⟩) hpos hpos
  rw [List.nil_append, blocks_flatten block hb] at h1
  rw [← hcd]
  unfold Outcome
  rw [← hcd]
  unfold exactSearchOrdered
  dsimp only
  obtain ⟨s, hs⟩ : ∃ s, s = (blocks block cands).foldl (fun s b => blockTwo s (b.map (fun c => ((exact c : Score), c)))) ((⊤, 0), (⊤, 0)) :=
    ⟨_, rfl⟩
  rw [← hs] at h1 h2 ⊢
  rcases h1 with ⟨h1, -⟩ | h1
  · exfalso
    have : cands = [] := by simpa [scored] using h1
    rw [hcd] at this
    exact candidates_ne coarse blockN topK tiles ht hk this
  obtain ⟨c0, hc0, he⟩ := List.mem_map.1 h1.1
  have hbest : ∀ c ∈ cands, exact s.1.2 < exact c ∨ (exact s.1.2 = exact c ∧ s.1.2 ≤ c) := by
    intro c hc
    have := h1.2 ((exact c : Score), c) (List.mem_map.2 ⟨c, hc, rfl⟩)
    rw [← he] at this ⊢
    dsimp only at this ⊢
    rcases this with h | ⟨h, h'⟩
    · exact Or.inl (WithTop.coe_lt_coe.1 h)
    · exact Or.inr ⟨WithTop.coe_inj.1 h, h'⟩
  by_cases hcnd : exact s.2.2 < exact s.1.2 ∨ (exact s.2.2 = exact s.1.2 ∧ s.2.2 < s.1.2)
  · rw [if_pos hcnd]
    refine ⟨h2, fun c hc => ?_⟩
    rcases hcnd with h | ⟨h, h'⟩
    · left
      rcases hbest c hc with g | ⟨g, -⟩
      · exact lt_trans h g
      · rw [← g]; exact h
    · rcases hbest c hc with g | ⟨g, g'⟩
      · left; rw [h]; exact g
      · right; exact ⟨h.trans g, by omega⟩
  · rw [if_neg hcnd]
    refine ⟨?_, hbest⟩
    rw [← he]
    exact hlt c0 hc0

theorem tileWinner_spec (coarse exact : Nat → ℚ) (blockN t : Nat) (hN : 0 < blockN) :
    (∃ c ∈ shortlist coarse blockN 2 t, tileWinner coarse exact blockN t = ((exact c : Score), c)) ∧
    ∀ c ∈ shortlist coarse blockN 2 t, (tileWinner coarse exact blockN t).1 < (exact c : Score) ∨
      ((tileWinner coarse exact blockN t).1 = (exact c : Score) ∧ (tileWinner coarse exact blockN t).2 ≤ c) := by
  have hlen : (shortlist coarse blockN 2 t).length = 2 := by simp [shortlist, pick_length]
  obtain ⟨a, b, hab⟩ := List.length_eq_two.1 hlen
  unfold tileWinner
  rw [hab]
  simp only [List.getD_cons_zero, List.getD_cons_succ]
  by_cases h : exact b < exact a ∨ (exact b = exact a ∧ b < a)
  · rw [if_pos h]
    refine ⟨⟨b, by simp, rfl⟩, ?_⟩
    intro c hc
    simp only [List.mem_cons, List.not_mem_nil, or_false] at hc
    rcases hc with rfl | rfl
    · rcases h with h | ⟨h, h'⟩
      · exact Or.inl (WithTop.coe_lt_coe.2 h)
      · exact Or.inr ⟨by dsimp only; rw [h], h'.le⟩
    · exact Or.inr ⟨rfl, le_refl _⟩
  · rw [if_neg h]
    refine ⟨⟨a, by simp, rfl⟩, ?_⟩
    intro c hc
    simp only [List.mem_cons, List.not_mem_nil, or_false] at hc
    rcases hc with rfl | rfl
    · exact Or.inr ⟨rfl, le_refl _⟩
    · rcases lt_trichotomy (exact a) (exact c) with g | g | g
      · exact Or.inl (WithTop.coe_lt_coe.2 g)
      · right
        refine ⟨by dsimp only; rw [g], ?_⟩
        by_contra hcon
        exact h (Or.inr ⟨g.symm, by dsimp only at hcon; omega⟩)
      · exact absurd (Or.inl g) h

theorem tileSearch_outcome (coarse exact : Nat → ℚ) (blockN tiles : Nat) (hN : 0 < blockN) (ht : 0 < tiles)
    (hmax : tiles * blockN ≤ intMax) :
    Outcome coarse exact blockN 2 tiles (tileSearch coarse exact blockN tiles) := by
  have hmem : ∀ p ∈ (List.range tiles).map (tileWinner coarse exact blockN), ∃ c ∈ candidates coarse blockN 2 tiles, p = ((exact c : Score), c) := by
    intro p hp
    obtain ⟨t, ht', rfl⟩ := List.mem_map.1 hp
    obtain ⟨⟨c, hc, he⟩, -⟩ := tileWinner_spec coarse exact blockN t hN
    exact ⟨c, List.mem_flatMap.2 ⟨t, ht', hc⟩, he⟩
  have hb := localBest_isBest ((List.range tiles).map (tileWinner coarse exact blockN))
    (by intro h; have := congrArg List.length h; simp at this; omega) (by
      intro p hp
      obtain ⟨c, hc, rfl⟩ := hmem p hp
      exact le_trans (candidates_lt _ _ _ _ hN c hc).le hmax)
  unfold tileSearch
  obtain ⟨c0, hc0, he⟩ := hmem _ hb.1
  refine ⟨?_, ?_⟩
  · rw [he]; exact candidates_lt _ _ _ _ hN c0 hc0
  · intro c hc
    obtain ⟨t, ht', hct⟩ := List.mem_flatMap.1 hc
    have h1 := hb.2 (tileWinner coarse exact blockN t) (List.mem_map.2 ⟨t, ht', rfl⟩)
    have h2 := (tileWinner_spec coarse exact blockN t hN).2 c hct
    have h3 := lex_trans (c := ((exact c : Score), c)) h1 h2
    rw [he] at h3 ⊢
    dsimp only at h3 ⊢
    rcases h3 with h | ⟨h, h'⟩
    · exact Or.inl (WithTop.coe_lt_coe.1 h)
    · exact Or.inr ⟨WithTop.coe_inj.1 h, h'⟩

end Verif.Search
