import Verif.Search.Props81

namespace Verif.Search

/-- masking a code keeps the codes of the lanes -/
theorem mask_codes (l : List (Score × Nat)) (f : Nat) : (l.map (fun p => if p.2 = f then ((⊤ : Score), p.2) else p)).map Prod.snd =
    l.map Prod.snd := by
  rw [List.map_map]
  apply List.map_congr_left
  intro p _
  by_cases h : p.2 = f
  · simp [h]
  · simp [h]

/-- padding lanes never win: the code of the best lane is that of a candidate -/
theorem best_is_candidate (cands : List Nat) (hne : cands ≠ []) (hc : ∀ c ∈ cands, c < intMax) (pad : Nat) (l : List (Score × Nat))
    (hl : l.map Prod.snd = cands ++ List.replicate pad intMax) (ht : ∀ p ∈ l, p.2 = intMax → p.1 = ⊤) : (localBest l).2 ∈ cands := by
  have hcode : ∀ p ∈ l, p.2 ∈ cands ∨ p.2 = intMax := by
    intro p hp
    have : p.2 ∈ l.map Prod.snd := List.mem_map.2 ⟨p, hp, rfl⟩
    rw [hl] at this
    rcases List.mem_append.1 this with h | h
    · exact Or.inl h
    · exact Or.inr (List.mem_replicate.1 h).2
  have hlne : l ≠ [] := by
    rintro rfl
    have := congrArg List.length hl
    simp at this
    exact hne (List.length_eq_zero_iff.1 (by omega))
  have hb := localBest_isBest l hlne (by
    intro p hp
    rcases hcode p hp with h | h
    · exact (hc _ h).le
    · exact h.le)
  rcases hcode _ hb.1 with h | h
  · exact h
  · exfalso
    have htop := ht _ hb.1 h
    obtain ⟨c, rest, hcons⟩ := List.exists_cons_of_ne_nil hne
    have hcm : c ∈ l.map Prod.snd := by rw [hl, hcons]; simp
    obtain ⟨p, hp, hpc⟩ := List.mem_map.1 hcm
    have := hb.2 p hp
    rw [htop, h] at this
    have hclt := hc c (by rw [hcons]; exact List.mem_cons_self ..)
    rcases this with g | ⟨-, g⟩
    · exact not_top_lt g
    · omega

theorem cosineReduce_outcome (coarse exact ordered : Nat → ℚ) (hord : ∀ c, ordered c = - exact c) (blockN topK tiles pad : Nat)
    (hN : 0 < blockN) (ht : 0 < tiles) (hk : 0 < topK) (hmax : tiles * blockN ≤ intMax) :
    Outcome coarse exact blockN topK tiles (cosineReduce exact ordered pad (candidates coarse blockN topK tiles)) := by
  obtain ⟨cands, hcd⟩ : ∃ c, c = candidates coarse blockN topK tiles := ⟨_, rfl⟩
  have hlt : ∀ c ∈ cands, c < tiles * blockN := fun c hc => candidates_lt coarse blockN topK tiles hN c (hcd ▸ hc)
  have hne : cands ≠ [] := by rw [hcd]; exact candidates_ne coarse blockN topK tiles ht hk
  have hc : ∀ c ∈ cands, c < intMax := fun c h => lt_of_lt_of_le (hlt c h) hmax
  unfold Outcome
  rw [← hcd]
  unfold cosineReduce
  dsimp only
  obtain ⟨l0, hl0⟩ : ∃ l : List (Score × Nat), l = cands.map (fun c => ((exact c : Score), c)) ++ List.replicate pad (⊤, intMax) := ⟨_, rfl⟩
  rw [← hl0]
  obtain ⟨b0, hb0⟩ : ∃ b, b = (localBest l0).2 := ⟨_, rfl⟩
  rw [← hb0]
  obtain ⟨l1, hl1⟩ : ∃ l, l = l0.map (fun p => if p.2 = b0 then ((⊤ : Score), p.2) else p) := ⟨_, rfl⟩
  rw [← hl1]
  obtain ⟨b1, hb1⟩ : ∃ b, b = (localBest l1).2 := ⟨_, rfl⟩
  rw [← hb1]
  obtain ⟨l2, hl2⟩ : ∃ l, l = l1.map (fun p => if p.2 = b1 then ((⊤ : Score), p.2) else p) := ⟨_, rfl⟩
  rw [← hl2]
  obtain ⟨b2, hb2⟩ : ∃ b, b = (localBest l2).2 := ⟨_, rfl⟩
  rw [← hb2]
  have e0 : l0.map Prod.snd = cands ++ List.replicate pad intMax := by
    rw [hl0]; simp [Function.comp_def]
  have t0 : ∀ p ∈ l0, p.2 = intMax → p.1 = ⊤ := by
    intro p hp h
    rw [hl0] at hp
    rcases List.mem_append.1 hp with g | g
    · obtain ⟨c, hcm, rfl⟩ := List.mem_map.1 g
      have := hc c hcm
      dsimp only at h
      omega
    · rw [(List.mem_replicate.1 g).2]
  have tmask : ∀ (l : List (Score × Nat)) (f : Nat), (∀ p ∈ l, p.2 = intMax → p.1 = ⊤) →
      ∀ p ∈ l.map (fun p => if p.2 = f then ((⊤ : Score), p.2) else p), p.2 = intMax → p.1 = ⊤ := by
    intro l f h p hp hi
    obtain ⟨q, hq, rfl⟩ := List.mem_map.1 hp
    by_cases hf : q.2 = f
    · rw [if_pos hf]
    · rw [if_neg hf] at hi ⊢
      exact h q hq hi
  have e1 : l1.map Prod.snd = cands ++ List.replicate pad intMax := by rw [hl1, mask_codes, e0]
  have e2 : l2.map Prod.snd = cands ++ List.replicate pad intMax := by rw [hl2, mask_codes, e1]
  have t1 : ∀ p ∈ l1, p.2 = intMax → p.1 = ⊤ := by rw [hl1]; exact tmask l0 b0 t0
  have t2 : ∀ p ∈ l2, p.2 = intMax → p.1 = ⊤ := by rw [hl2]; exact tmask l1 b1 t1
  have m0 : b0 ∈ cands := hb0 ▸ best_is_candidate cands hne hc pad l0 e0 t0
  have m1 : b1 ∈ cands := hb1 ▸ best_is_candidate cands hne hc pad l1 e1 t1
  have m2 : b2 ∈ cands := hb2 ▸ best_is_candidate cands hne hc pad l2 e2 t2
  have hbest : IsBest l0 (localBest l0) := localBest_isBest l0 (by
      rw [hl0]; intro h; have := (List.append_eq_nil_iff.1 h).1; exact hne (by simpa using this)) (by
    intro p hp
    rw [hl0] at hp
    rcases List.mem_append.1 hp with g | g
    · obtain ⟨c, hcm, rfl⟩ := List.mem_map.1 g
      exact (hc c hcm).le
    · rw [(List.mem_replicate.1 g).2])
  have hscore : (localBest l0).1 = (exact b0 : Score) := by
    have h1 := hbest.1
    have h2 : ∀ p ∈ l0, p.2 ∈ cands → p.1 = (exact p.2 : Score) := by
      intro p hp hpc
      rw [hl0] at hp
      rcases List.mem_append.1 hp with g | g
      · obtain ⟨c, hcm, rfl⟩ := List.mem_map.1 g
        rfl
      · rw [(List.mem_replicate.1 g).2] at hpc
        exact absurd (hc _ hpc) (lt_irrefl _)
    have := h2 _ h1 (hb0 ▸ m0)
    rw [this, ← hb0]
  have hb : ∀ c ∈ cands, exact b0 < exact c ∨ (exact b0 = exact c ∧ b0 ≤ c) := by
    intro c hcm
    have := hbest.2 ((exact c : Score), c) (by rw [hl0]; exact List.mem_append.2 (Or.inl (List.mem_map.2 ⟨c, hcm, rfl⟩)))
    rw [hscore, ← hb0] at this
    dsimp only at this
    rcases this with h | ⟨h, h'⟩
    · exact Or.inl (WithTop.coe_lt_coe.1 h)
    · exact Or.inr ⟨WithTop.coe_inj.1 h, h'⟩
  have step : ∀ a b : Nat, a ∈ cands → b ∈ cands → (∀ c ∈ cands, exact a < exact c ∨ (exact a = exact c ∧ a ≤ c)) →
      (if ordered b > ordered a ∨ (ordered b = ordered a ∧ b < a) then b else a) = a := by
    intro a b _ hbm hbest
    rw [if_neg]
    rw [hord, hord]
    rintro (h | ⟨h, h'⟩)
    · rcases hbest b hbm with g | ⟨g, -⟩ <;> linarith
    · rcases hbest b hbm with g | ⟨-, g⟩
      · linarith
      · omega
  rw [step b0 b1 m0 m1 hb, step b0 b2 m0 m2 hb]
  exact ⟨hlt b0 m0, hb⟩

/-! ### ordered accumulation -/

theorem foldl_add (l : List Nat) (f : Nat → ℚ) : ∀ s : ℚ, l.foldl (fun s i => f i + s) s = (l.map f).sum + s := by
  induction l with
  | nil => intro s; simp
  | cons a l ih =>
    intro s
    rw [List.foldl_cons, ih, List.map_cons, List.sum_cons]
    ring

theorem orderedL2_eq (dim : Nat) (x c : Vec) : orderedL2 dim x c = exactL2 dim x c := by
  unfold orderedL2 exactL2
  rw [foldl_add (List.range dim) (fun i => (at' c i - at' x i) * (at' c i - at' x i)) 0, add_zero]
  congr 1
  apply List.map_congr_left
  intro i _
  ring

theorem orderedCosine_eq (dim : Nat) (x c : Vec) : orderedCosine dim x c = - exactCosine dim x c := by
  unfold orderedCosine exactCosine
  rw [foldl_add (List.range dim) (fun i => at' c i * at' x i) 0, add_zero, neg_neg]

/-! ### the supported shapes -/

/-- facts about a supported L2 search -/
structure Shape (codes blockN tiles : Nat) : Prop where
  posN : 0 < blockN
  posT : 0 < tiles
  cover : tiles * blockN = codes
  le_max : codes ≤ intMax

theorem shapeL2 {device : Bool} {queries dim codes codeDim : Nat} (h : supportsL2 device queries dim codes codeDim = true) :
    ∃ cfg, l2Config dim = some cfg ∧ Shape codes cfg.blockN (cdiv codes cfg.blockN) ∧ 0 < cfg.exactBlock ∧
      (dim ≠ 64 → (cdiv codes cfg.blockN * topK dim) % cfg.exactBlock = 0) := by
  unfold supportsL2 at h
  simp only [Bool.and_eq_true, Bool.or_eq_true, decide_eq_true_eq] at h
  obtain ⟨⟨⟨-, -⟩, hs⟩, hcodes⟩ := h
  unfold l2Config at hs ⊢
  split at hs
  all_goals first
    | (rcases hcodes with rfl | rfl <;> exact ⟨_, rfl, ⟨by decide, by decide, by decide, by decide⟩, by decide, by decide⟩)
    | (simp at hs)

theorem shapeCosine {device : Bool} {queries dim codes codeDim : Nat} (h : supportsCosine device queries dim codes codeDim = true) :
    ∃ cfg, cosineConfig dim = some cfg ∧ Shape codes cfg.blockN (cdiv codes cfg.blockN) := by
  unfold supportsCosine at h
  simp only [Bool.and_eq_true, Bool.or_eq_true, decide_eq_true_eq] at h
  obtain ⟨⟨⟨-, -⟩, hs⟩, hcodes⟩ := h
  unfold cosineConfig at hs ⊢
  split at hs
  all_goals first
    | (rcases hcodes with rfl | rfl <;> exact ⟨_, rfl, ⟨by decide, by decide, by decide, by decide⟩⟩)
    | (simp at hs)

theorem l2_outcome {round : ℚ → ℚ} {device : Bool} {queries dim codeDim : Nat} {codebook : List Vec} {x : Vec} {r : Nat}
    (h : acceleratedL2 round device queries dim codeDim codebook x = some r) :
    ∃ blockN tiles, Shape codebook.length blockN tiles ∧
      (∃ cfg, l2Config dim = some cfg ∧ cfg.blockN = blockN) ∧
      Outcome (fun k => coarseL2 round dim x (codebook.getD k [])) (fun k => exactL2 dim x (codebook.getD k [])) blockN (topK dim) tiles r := by
  unfold acceleratedL2 at h
  by_cases hs : supportsL2 device queries dim codebook.length codeDim = true
  · rw [if_pos hs] at h
    obtain ⟨cfg, hcfg, hsh, hb, -⟩ := shapeL2 hs
    rw [hcfg] at h
    dsimp only at h
    have hmax : cdiv codebook.length cfg.blockN * cfg.blockN ≤ intMax := by rw [hsh.cover]; exact hsh.le_max
    have htk : 0 < topK dim := by unfold topK; split_ifs <;> omega
    refine ⟨cfg.blockN, _, hsh, ⟨cfg, hcfg, rfl⟩, ?_⟩
    by_cases h64 : dim = 64
    · rw [if_pos h64] at h
      cases h
      have htk2 : topK dim = 2 := by rw [h64]; rfl
      rw [htk2]
      exact tileSearch_outcome _ _ _ _ hsh.posN hsh.posT hmax
    · rw [if_neg h64] at h
      by_cases h32 : dim = 32
      · rw [if_pos h32] at h
        cases h
        have : (fun k => orderedL2 dim x (codebook.getD k [])) = (fun k => exactL2 dim x (codebook.getD k [])) := by
          funext k; exact orderedL2_eq _ _ _
        rw [this]
        exact exactSearchOrdered_outcome _ _ _ _ _ _ hsh.posN hsh.posT htk hb hmax
      · rw [if_neg h32] at h
        cases h
        exact exactSearch_outcome _ _ _ _ _ _ hsh.posN hsh.posT htk hb hmax
  · rw [if_neg hs] at h
    cases h

theorem cosine_outcome {round : ℚ → ℚ} {device : Bool} {queries dim codeDim : Nat} {codebook : List Vec} {x : Vec} {r : Nat}
    (h : acceleratedCosine round device queries dim codeDim codebook x = some r) :
    ∃ blockN tiles, Shape codebook.length blockN tiles ∧ (∃ cfg, cosineConfig dim = some cfg ∧ cfg.blockN = blockN) ∧
      Outcome (fun k => coarseCosine round dim x (codebook.getD k [])) (fun k => exactCosine dim x (codebook.getD k [])) blockN 3 tiles r := by
  unfold acceleratedCosine at h
  by_cases hs : supportsCosine device queries dim codebook.length codeDim = true
  · rw [if_pos hs] at h
    obtain ⟨cfg, hcfg, hsh⟩ := shapeCosine hs
    rw [hcfg] at h
    dsimp only at h
    cases h
    refine ⟨cfg.blockN, _, hsh, ⟨cfg, hcfg, rfl⟩, ?_⟩
    exact cosineReduce_outcome _ _ _ (fun c => orderedCosine_eq _ _ _) _ _ _ _ hsh.posN hsh.posT (by decide)
      (by rw [hsh.cover]; exact hsh.le_max)
  · rw [if_neg hs] at h
    cases h

theorem fullArgmin_near (score : Nat → ℚ) (n : Nat) (hn : 0 < n) : Near n score (fullArgmin score n) := by
  obtain ⟨l, hl⟩ : ∃ l, l = (List.range n).map (fun k => (score k : Score)) := ⟨_, rfl⟩
  have hlen : l.length = n := by rw [hl]; simp
  have hne : l ≠ [] := by intro h; rw [h] at hlen; simp at hlen; omega
  have hget : ∀ j, j < n → l[j]? = some ((score j : ℚ) : Score) := by intro j hj; rw [hl]; simp [hj]
  obtain ⟨m, hm, hmin⟩ := argmin_spec l hne
  have hlt := argmin_lt l hne
  rw [hlen] at hlt
  unfold fullArgmin
  rw [← hl]
  rw [hget _ hlt] at hm
  cases hm
  refine ⟨hlt, fun j hj => ?_⟩
  obtain ⟨h1, h2⟩ := hmin j _ (hget j hj)
  rcases lt_or_eq_of_le h1 with h | h
  · exact Or.inl (WithTop.coe_lt_coe.1 h)
  · refine Or.inr ⟨WithTop.coe_inj.1 h, ?_⟩
    by_contra hc
    have := h2 (by omega)
    rw [h] at this
    exact lt_irrefl _ this

end Verif.Search
