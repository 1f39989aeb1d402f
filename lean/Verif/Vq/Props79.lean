import Verif.Vq.Kmeans

/-!
C79: initialisation of a codebook from its first inputs, with restarts at any time.
-/

namespace Verif.Vq

variable {G : Type}

theorem accumulate_ok (p : Pending) (s x : List Vec) (h1 : p.batches.flatten = s.take p.target)
    (h2 : p.count = p.batches.flatten.length) :
    (accumulate p x).target = p.target ∧ (accumulate p x).batches.flatten = (s ++ x).take p.target ∧
      (accumulate p x).count = (accumulate p x).batches.flatten.length ∧
      enough (accumulate p x) = decide (p.target ≤ (s ++ x).length) := by
  have hc : p.count = min p.target s.length := by rw [h2, h1, List.length_take]
  have key : (accumulate p x).target = p.target ∧ (accumulate p x).batches.flatten = (s ++ x).take p.target ∧
      (accumulate p x).count = (accumulate p x).batches.flatten.length := by
    unfold accumulate
    by_cases hlt : p.count < p.target
    · rw [if_pos hlt]
      dsimp only
      have hs : s.length < p.target := by omega
      have hx : (if x.length > p.target - p.count then x.take (p.target - p.count) else x) = x.take (p.target - s.length) := by
        have hcs : p.count = s.length := by omega
        rw [hcs]
        by_cases hl : x.length > p.target - s.length
        · rw [if_pos hl]
        · rw [if_neg hl, List.take_of_length_le (by omega)]
      rw [hx]
      have hf : (p.batches ++ [x.take (p.target - s.length)]).flatten = (s ++ x).take p.target := by
        rw [List.flatten_append, h1, List.flatten_cons, List.flatten_nil, List.append_nil, List.take_append]
      refine ⟨rfl, hf, ?_⟩
      rw [List.flatten_append, List.length_append, h2]
      simp
    · rw [if_neg hlt]
      refine ⟨rfl, ?_, h2⟩
      rw [h1, List.take_append_of_le_length (by omega)]
  refine ⟨key.1, key.2.1, key.2.2, ?_⟩
  unfold enough
  rw [key.1, key.2.2, key.2.1, List.length_take]
  congr 1
  rw [eq_iff_iff]
  omega

/-- what is kept true -/
def LifeInv (c : InitCfg G) (world : Nat) (ranks : List (InitRank G)) (st : Ideal G) : Prop :=
  Matches c world ranks st ∧ ranks.length = world ∧
  match st with
  | .collecting seen _ => ∀ s ∈ seen, ∀ v ∈ s, v.length = c.base.dim
  | .trained d _ => GoodSizes c.base.size d.1 ∧ (world = 1 → ∀ r ∈ ranks, ∀ p, r.book.cache = some p →
      (∀ s ∈ r.book.sizes, p.1 ≤ s) ∧ r.book.sizes.sum ≤ p.2)

theorem target_pos (c : InitCfg G) (hc : c.Valid) (world : Nat) (hw : 0 < world) : 0 < target c world := by
  unfold target
  apply Nat.div_pos _ hw
  have := Nat.mul_pos hc.size hc.multiplier
  omega

theorem target_covers (c : InitCfg G) (hc : c.Valid) (world : Nat) (hw : 0 < world) :
    c.base.size ≤ target c world * world := by
  have h := ceil_mul (c.base.size * c.multiplier) world hw
  have h2 : c.base.size ≤ c.base.size * c.multiplier := Nat.le_mul_of_pos_right _ hc.multiplier
  unfold target
  omega

theorem restart_collecting {D : Type} [DecidableEq D] (c : InitCfg G) (world : Nat) (desc : D) (r : InitRank G)
    (s : List Vec) (p : Pending) (h0 : r.inited = false) (hp : r.pending = some p) (_ht : p.target = target c world)
    (hf : p.batches.flatten = s.take (target c world)) (hcnt : p.count = p.batches.flatten.length)
    (hd : ∀ v ∈ s, v.length = c.base.dim) :
    ∃ r', restart c world desc r = .ok r' ∧ r'.rng = r.rng ∧ r'.inited = false ∧ ∃ p', r'.pending = some p' ∧
      p'.target = target c world ∧ p'.batches.flatten = s.take (target c world) ∧ p'.count = p'.batches.flatten.length := by
  have hle : p.count ≤ target c world := by rw [hcnt, hf, List.length_take]; omega
  have hsum : (p.batches.map List.length).sum = p.count := by rw [hcnt, List.length_flatten]
  have hdim : p.batches.flatten.any (fun v => decide (v.length ≠ c.base.dim)) = false := by
    rw [List.any_eq_false]
    intro v hv
    rw [hf] at hv
    have := hd v (List.mem_of_mem_take hv)
    simpa using this
  have hsave : savePending c world desc r = .ok ⟨1, desc, false, p.count, p.count, c.base.dim, p.batches.flatten⟩ := by
    unfold savePending
    simp only [h0, hp, Bool.false_eq_true, if_false, Option.map_some, Option.getD_some]
    rw [if_neg (by simpa using hle), if_neg (by simpa using hsum), if_neg (by rw [hdim]; simp)]
  unfold restart
  rw [hsave]
  dsimp only
  unfold loadPending freshRank
  simp only [h0]
  rw [if_neg (by simp), if_neg (by simp), if_neg (by simp), if_neg (by
    intro h; apply h; exact ⟨by positivity, by exact_mod_cast hle⟩), if_neg (by simp), if_neg (by simp), if_neg (by simp)]
  refine ⟨_, rfl, rfl, rfl, _, rfl, rfl, ?_, ?_⟩
  · dsimp only
    by_cases hz : p.count = 0
    · rw [if_neg (by simpa using hz)]
      rw [hz] at hcnt
      rw [← hf, List.length_eq_zero_iff.1 hcnt.symm]
      rfl
    · rw [if_pos (by exact_mod_cast hz)]
      simpa using hf
  · dsimp only
    by_cases hz : p.count = 0
    · rw [if_neg (by simpa using hz), hz]
      rfl
    · rw [if_pos (by exact_mod_cast hz)]
      simpa using hcnt

theorem restart_trained {D : Type} [DecidableEq D] (c : InitCfg G) (world : Nat) (desc : D) (r : InitRank G)
    (h0 : r.inited = true) :
    ∃ r', restart c world desc r = .ok r' ∧ r'.rng = r.rng ∧ r'.inited = true ∧ r'.book.data = r.book.data ∧
      r'.book.cache = none := by
  have hsave : savePending c world desc r = .ok ⟨1, desc, true, 0, 0, c.base.dim, []⟩ := by
    unfold savePending
    simp [h0]
  unfold restart
  rw [hsave]
  dsimp only
  unfold loadPending freshRank
  simp only [h0]
  rw [if_neg (by simp), if_neg (by simp), if_neg (by simp), if_neg (by simp), if_neg (by simp), if_neg (by simp),
    if_pos trivial]
  exact ⟨_, rfl, rfl, rfl, rfl, rfl⟩

/-- a restart changes nothing that matters -/
theorem restart_all {D : Type} [DecidableEq D] (c : InitCfg G) (world : Nat) (desc : D) (ranks : List (InitRank G))
    (st : Ideal G) (h : LifeInv c world ranks st) :
    ∃ rs, traverse (restart c ranks.length desc) ranks = .ok rs ∧ LifeInv c world rs st := by
  obtain ⟨hm, hl, hi⟩ := h
  have aux : ∀ (P : InitRank G → InitRank G → Prop) (l : List (InitRank G)),
      (∀ r ∈ l, ∃ r', restart c ranks.length desc r = .ok r' ∧ P r r') →
      ∃ rs, traverse (restart c ranks.length desc) l = .ok rs ∧ List.Forall₂ P l rs := by
    intro P l
    induction l with
    | nil => intro _; exact ⟨[], rfl, List.Forall₂.nil⟩
    | cons r l ih =>
      intro hall
      obtain ⟨r', h1, h2⟩ := hall r (List.mem_cons_self ..)
      obtain ⟨rs, h3, h4⟩ := ih (fun q hq => hall q (List.mem_cons_of_mem _ hq))
      refine ⟨r' :: rs, ?_, List.Forall₂.cons h2 h4⟩
      rw [traverse, h1, h3]
  cases st with
  | collecting seen rngs =>
    obtain ⟨hrng, hsl, hz⟩ := hm
    dsimp only at hi
    have gen : ∀ (l : List (InitRank G)) (seen : List (List Vec)), seen.length = l.length →
        (∀ x ∈ l.zip seen, x.1.inited = false ∧ ∃ p, x.1.pending = some p ∧
          p.target = target c world ∧ p.batches.flatten = x.2.take (target c world) ∧ p.count = p.batches.flatten.length) →
        (∀ s ∈ seen, ∀ v ∈ s, v.length = c.base.dim) →
        ∃ rs, traverse (restart c world desc) l = .ok rs ∧ rs.map (fun r => r.rng) = l.map (fun r => r.rng) ∧
        rs.length = l.length ∧ ∀ x ∈ rs.zip seen, x.1.inited = false ∧ ∃ p, x.1.pending = some p ∧
          p.target = target c world ∧ p.batches.flatten = x.2.take (target c world) ∧ p.count = p.batches.flatten.length := by
      intro l
      induction l with
      | nil => intro seen _ _ _; exact ⟨[], rfl, rfl, rfl, by simp⟩
      | cons r ranks ih =>
        intro seen hsl hz hi
        cases seen with
        | nil => simp at hsl
        | cons s seen =>
          obtain ⟨h0, p, h1, h2, h3, h4⟩ := hz (r, s) (by simp)
          obtain ⟨r', k1, k2, k3, k4⟩ := restart_collecting c world desc r s p h0 h1 h2 h3 h4
            (hi s (List.mem_cons_self ..))
          obtain ⟨rs, m1, m2, m3, m4⟩ := ih seen (by simpa using hsl) (fun x hx => hz x (by
            rw [List.zip_cons_cons]; exact List.mem_cons_of_mem _ hx)) (fun s hs => hi s (List.mem_cons_of_mem _ hs))
          refine ⟨r' :: rs, ?_, ?_, by simp [m3], ?_⟩
          · rw [traverse, k1, m1]
          · rw [List.map_cons, List.map_cons, m2, k2]
          · intro x hx
            rw [List.zip_cons_cons] at hx
            rcases List.mem_cons.1 hx with rfl | hx
            · exact ⟨k3, k4⟩
            · exact m4 x hx
    have this := gen ranks seen hsl hz hi
    rw [← hl] at this
    obtain ⟨rs, h1, h2, h3, h4⟩ := this
    rw [hl] at h4
    exact ⟨rs, h1, ⟨by rw [h2]; exact hrng, by omega, h4⟩, by omega, hi⟩
  | trained d rngs =>
    obtain ⟨hrng, hall⟩ := hm
    obtain ⟨rs, h1, h2⟩ := aux (fun r r' => r'.rng = r.rng ∧ r'.inited = true ∧ r'.book.data = d ∧ r'.book.cache = none)
      ranks (by
        intro r hr
        obtain ⟨ha, hb⟩ := hall r hr
        obtain ⟨r', k1, k2, k3, k4, k5⟩ := restart_trained c ranks.length desc r ha
        exact ⟨r', k1, k2, k3, by rw [k4, hb], k5⟩)
    have h3 : rs.map (fun r => r.rng) = ranks.map (fun r => r.rng) ∧ rs.length = ranks.length ∧
        ∀ r ∈ rs, r.inited = true ∧ r.book.data = d ∧ r.book.cache = none := by
      clear h1 hall hrng hl aux hi
      induction h2 with
      | nil => simp
      | cons ha _ ih =>
        obtain ⟨i1, i2, i3⟩ := ih
        refine ⟨by rw [List.map_cons, List.map_cons, i1, ha.1], by simp [i2], ?_⟩
        intro r hr
        rcases List.mem_cons.1 hr with rfl | hr
        · exact ha.2
        · exact i3 r hr
    obtain ⟨i1, i2, i3⟩ := h3
    refine ⟨rs, h1, ⟨by rw [i1]; exact hrng, fun r hr => ⟨(i3 r hr).1, (i3 r hr).2.1⟩⟩, by omega, hi.1, ?_⟩
    intro _ r hr p hp
    rw [(i3 r hr).2.2] at hp
    cases hp

end Verif.Vq
