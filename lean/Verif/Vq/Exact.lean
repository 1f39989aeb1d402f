import Verif.Vq.Props80

/-! The training step of all ranks as a function of the common codebook, the generators and the batches. -/

namespace Verif.Vq

variable {G : Type}

/-- what one rank draws when `m` codes are replaced -/
def drawOf (c : Cfg G) (world m : Nat) (p : G × List Vec) : List Vec × G :=
  match sampleLocal c.gen world p.1 p.2 m with
  | .error _ => ([], p.1)
  | .ok v => v

/-- one training step of the common codebook `d` on ranks with generators and batches `gx`: the new codebook, the
generators, the number of replaced codes -/
def stepSpec (c : Cfg G) (d : List ℚ × List Vec × List Vec) (gx : List (G × List Vec)) :
    (List ℚ × List Vec × List Vec) × List G × Option Nat :=
  let m := (dead c.threshold d.1).count true
  let draws := gx.map (drawOf c gx.length m)
  let d1 := if m = 0 then d else replaced c d ((draws.flatMap Prod.fst).take m)
  let rngs1 := if m = 0 then gx.map Prod.fst else draws.map Prod.snd
  let found := List.zipWith (fun g p => c.search g d1.2.1 p.2) rngs1 gx
  (move c d1.1 d1.2.1 d1.2.2 (found.flatMap Prod.fst) (gx.flatMap Prod.snd), found.map Prod.snd,
    if m = 0 then none else some m)

theorem drawOf_ok (c : Cfg G) (hc : c.Valid) (world m : Nat) (p : G × List Vec) (hx : p.2 ≠ []) :
    sampleLocal c.gen world p.1 p.2 m = .ok (drawOf c world m p) ∧
      (drawOf c world m p).1.length = (m + world - 1) / world ∧ ∀ q ∈ (drawOf c world m p).1, q ∈ p.2 := by
  obtain ⟨v, rng', h1, h2, h3⟩ := sampleLocal_ok c hc world p.1 p.2 hx m
  unfold drawOf
  rw [h1]
  exact ⟨rfl, h2, h3⟩

theorem gather_ok (c : Cfg G) (hc : c.Valid) (m : Nat) (gx : List (G × List Vec)) (hne : gx ≠ []) (hx : ∀ p ∈ gx, p.2 ≠ []) :
    sampleGather m (gx.map (fun p => (drawOf c gx.length m p).1)) =
      .ok (((gx.map (drawOf c gx.length m)).flatMap Prod.fst).take m) ∧
    (((gx.map (drawOf c gx.length m)).flatMap Prod.fst).take m).length = m ∧
    ∀ v ∈ ((gx.map (drawOf c gx.length m)).flatMap Prod.fst).take m, v ∈ gx.flatMap Prod.snd := by
  have hf : (gx.map (fun p => (drawOf c gx.length m p).1)).flatten = (gx.map (drawOf c gx.length m)).flatMap Prod.fst := by
    rw [List.flatMap_map]; rfl
  have hlen : m ≤ (gx.map (fun p => (drawOf c gx.length m p).1)).flatten.length := by
    rw [List.length_flatten, List.map_map]
    have : gx.map (List.length ∘ fun p => (drawOf c gx.length m p).1) =
        List.replicate gx.length ((m + gx.length - 1) / gx.length) := by
      rw [List.eq_replicate_iff]
      refine ⟨by simp, ?_⟩
      intro n hn
      obtain ⟨r, hrm, rfl⟩ := List.mem_map.1 hn
      exact (drawOf_ok c hc _ _ r (hx r hrm)).2.1
    rw [this, List.sum_replicate_nat, Nat.mul_comm]
    exact ceil_mul _ _ (List.length_pos_iff.2 hne)
  refine ⟨?_, ?_, ?_⟩
  · unfold sampleGather
    rw [if_neg (by omega), hf]
  · rw [hf] at hlen
    rw [List.length_take]
    omega
  · intro v hv
    have := List.mem_of_mem_take hv
    obtain ⟨l, hl, hvl⟩ := List.mem_flatMap.1 this
    obtain ⟨r, hrm, rfl⟩ := List.mem_map.1 hl
    exact List.mem_flatMap.2 ⟨r, hrm, (drawOf_ok c hc _ _ r (hx r hrm)).2.2 v hvl⟩

theorem expirePhase_exact (c : Cfg G) (hc : c.Valid) (d : List ℚ × List Vec × List Vec) (hd : GoodSizes c.size d.1)
    (ranks : List (Rank G × List Vec)) (hne : ranks ≠ []) (hr : ∀ r ∈ ranks, r.1.book.data = d) (hx : ∀ r ∈ ranks, r.2 ≠ [])
    (hb : BoundsOk c ranks) :
    ∃ nb : Rank G × List Vec → Book,
      expirePhase c ranks = .ok (ranks.map (fun r => (⟨nb r,
        if (dead c.threshold d.1).count true = 0 then r.1.rng
        else (drawOf c ranks.length ((dead c.threshold d.1).count true) (r.1.rng, r.2)).2⟩,
        if (dead c.threshold d.1).count true = 0 then none else some ((dead c.threshold d.1).count true)))) ∧
      ∀ r ∈ ranks, (nb r).data = if (dead c.threshold d.1).count true = 0 then d else
        replaced c d ((((ranks.map (fun r => (r.1.rng, r.2))).map
          (drawOf c ranks.length ((dead c.threshold d.1).count true))).flatMap Prod.fst).take ((dead c.threshold d.1).count true)) := by
  have hdec : ∀ r : Rank G × List Vec, ∃ b', r ∈ ranks →
      (expireDecision c ranks.length r.1.book =
        .ok (if (dead c.threshold d.1).any id then some (dead c.threshold d.1) else none, b') ∧ b'.data = d) := by
    intro r
    by_cases hrm : r ∈ ranks
    · have hs : r.1.book.sizes = d.1 := by rw [← hr r hrm]; rfl
      obtain ⟨b', h1, h2⟩ := decision_data c hc ranks.length r.1.book (by rw [hs]; exact hd)
        (fun hw => hb hw r hrm)
      refine ⟨b', fun _ => ?_⟩
      rw [h1, hs, h2, hr r hrm]
      exact ⟨rfl, rfl⟩
    · exact ⟨r.1.book, fun h => absurd h hrm⟩
  obtain ⟨nb, hnb⟩ : ∃ nb : Rank G × List Vec → Book, ∀ r ∈ ranks,
      (expireDecision c ranks.length r.1.book =
        .ok (if (dead c.threshold d.1).any id then some (dead c.threshold d.1) else none, nb r) ∧ (nb r).data = d) :=
    ⟨fun r => (hdec r).choose, fun r hrm => (hdec r).choose_spec hrm⟩
  unfold expirePhase
  rw [traverse_all _ (fun r => (if (dead c.threshold d.1).any id then some (dead c.threshold d.1) else none, nb r)) ranks
    (fun r hrm => (hnb r hrm).1)]
  have hanyc : (dead c.threshold d.1).any id = true ↔ (dead c.threshold d.1).count true ≠ 0 := by
    rw [Ne, List.count_eq_zero, not_not, List.any_eq_true]
    constructor
    · rintro ⟨x, hx, h⟩; simp only [id_eq] at h; rw [h] at hx; exact hx
    · intro h; exact ⟨true, h, rfl⟩
  by_cases hany : (dead c.threshold d.1).any id = true
  · obtain ⟨m, hm⟩ : ∃ m, m = dead c.threshold d.1 := ⟨_, rfl⟩
    have hmc : m.count true ≠ 0 := by rw [hm]; exact hanyc.1 hany
    simp only [if_pos hany]
    rw [← hm]
    simp only [if_neg hmc]
    obtain ⟨r0, rest, hcons⟩ := List.exists_cons_of_ne_nil hne
    have hall : (ranks.map (fun r => (some m, nb r))).all (fun x => x.1.isNone) = false := by
      rw [hcons]; simp
    have hsome : (ranks.map (fun r => (some m, nb r))).any (fun x => x.1.isNone) = false := by
      simp
    simp only [hall, hsome, Bool.false_eq_true, if_false]
    have hz : ranks.zip (ranks.map (fun r => (some m, nb r))) = ranks.map (fun r => (r, (some m, nb r))) := by
      have := List.zip_map' (f := fun r : Rank G × List Vec => r) (g := fun r => (some m, nb r)) (l := ranks)
      simpa using this
    rw [hz]
    rw [traverse_all _ (fun x => drawOf c ranks.length (maskCount m) (x.1.1.rng, x.1.2)) _ (by
      intro x hxm
      obtain ⟨r, hrm, rfl⟩ := List.mem_map.1 hxm
      exact (drawOf_ok c hc ranks.length (maskCount m) (r.1.rng, r.2) (hx r hrm)).1)]
    rw [List.map_map]
    dsimp only
    obtain ⟨hg1, hg2, hg3⟩ := gather_ok c hc (maskCount m) (ranks.map (fun r => (r.1.rng, r.2)))
      (by simpa using hne) (by
        intro p hp
        obtain ⟨r, hrm, rfl⟩ := List.mem_map.1 hp
        exact hx r hrm)
    rw [List.length_map] at hg1 hg2 hg3
    have hfl : ((ranks.map ((fun x : (Rank G × List Vec) × (Option (List Bool) × Book) =>
        drawOf c ranks.length (maskCount m) (x.1.1.rng, x.1.2)) ∘
        fun r => (r, (some m, nb r)))).map Prod.fst) =
        (ranks.map (fun r => (r.1.rng, r.2))).map (fun p => (drawOf c ranks.length (maskCount m) p).1) := by
      rw [List.map_map, List.map_map]; rfl
    rw [hfl]
    have hz2 : (ranks.map (fun r => (some m, nb r))).zip (ranks.map ((fun x : (Rank G × List Vec) × (Option (List Bool) × Book) =>
        drawOf c ranks.length (maskCount m) (x.1.1.rng, x.1.2)) ∘
        fun r => (r, (some m, nb r)))) =
        ranks.map (fun r => ((some m, nb r), drawOf c ranks.length (maskCount m) (r.1.rng, r.2))) := by
      rw [List.zip_map']; rfl
    rw [hz2]
    rw [traverse_all _ (fun x => (⟨replaceCodes c x.1.2 m ((((ranks.map (fun r => (r.1.rng, r.2))).map
          (drawOf c ranks.length (maskCount m))).flatMap Prod.fst).take (maskCount m)), x.2.2⟩,
      some (maskCount m))) _ (by
      intro x hxm
      obtain ⟨r, hrm, rfl⟩ := List.mem_map.1 hxm
      simp only [Option.getD_some]
      rw [hg1])]
    refine ⟨fun r => replaceCodes c (nb r) m ((((ranks.map (fun r => (r.1.rng, r.2))).map
          (drawOf c ranks.length (maskCount m))).flatMap Prod.fst).take (maskCount m)), ?_, ?_⟩
    · rw [List.map_map]
      rfl
    · intro r hrm
      have hqd := (hnb r hrm).2
      unfold replaceCodes replaced Book.data
      dsimp only
      unfold Book.data at hqd
      have h1 : (nb r).sizes = d.1 := by rw [← hqd]
      have h2 : (nb r).embed = d.2.1 := by rw [← hqd]
      have h3 : (nb r).avg = d.2.2 := by rw [← hqd]
      rw [h1, h2, h3, ← hm]
      rfl
  · have hc0 : (dead c.threshold d.1).count true = 0 := by
      by_contra h
      exact hany (hanyc.2 h)
    simp only [if_neg hany, hc0, if_true]
    have hall : (ranks.map (fun r => ((none : Option (List Bool)), nb r))).all (fun x => x.1.isNone) = true := by
      simp
    rw [if_pos hall, List.zipWith_map_right, List.zipWith_self]
    exact ⟨nb, rfl, fun r hrm => (hnb r hrm).2⟩

/-- the training step on ranks with a common codebook -/
theorem trainStep_exact (c : Cfg G) (hc : c.Valid) (d : List ℚ × List Vec × List Vec) (hd : GoodSizes c.size d.1)
    (ranks : List (Rank G × List Vec)) (hne : ranks ≠ []) (hr : ∀ r ∈ ranks, r.1.book.data = d) (hx : ∀ r ∈ ranks, r.2 ≠ [])
    (hb : BoundsOk c ranks) :
    ∃ rs, trainStep c ranks = .ok (rs, List.replicate ranks.length (stepSpec c d (ranks.map (fun r => (r.1.rng, r.2)))).2.2) ∧
      rs.map (fun r => (r.book.data, r.rng)) =
        (stepSpec c d (ranks.map (fun r => (r.1.rng, r.2)))).2.1.map
          (fun g => ((stepSpec c d (ranks.map (fun r => (r.1.rng, r.2)))).1, g)) ∧
      rs.length = ranks.length ∧ GoodSizes c.size (stepSpec c d (ranks.map (fun r => (r.1.rng, r.2)))).1.1 ∧
      (rs.length = 1 → ∀ r ∈ rs, ∀ p, r.book.cache = some p → (∀ s ∈ r.book.sizes, p.1 ≤ s) ∧ r.book.sizes.sum ≤ p.2) := by
  obtain ⟨nb, h1, h2⟩ := expirePhase_exact c hc d hd ranks hne hr hx hb
  obtain ⟨n, hn⟩ : ∃ n, n = (dead c.threshold d.1).count true := ⟨_, rfl⟩
  rw [← hn] at h1 h2
  obtain ⟨d1, hd1⟩ : ∃ d1, d1 = if n = 0 then d else replaced c d ((((ranks.map (fun r => (r.1.rng, r.2))).map
          (drawOf c ranks.length n)).flatMap Prod.fst).take n) := ⟨_, rfl⟩
  rw [← hd1] at h2
  obtain ⟨R, hR⟩ : ∃ R : Rank G × List Vec → G, R = fun r => if n = 0 then r.1.rng else (drawOf c ranks.length n (r.1.rng, r.2)).2 := ⟨_, rfl⟩
  have hg1 : GoodSizes c.size d1.1 := by
    rw [hd1]
    by_cases h0 : n = 0
    · rw [if_pos h0]; exact hd
    · rw [if_neg h0]; exact replaced_good c hc d hd (by rw [← hn]; exact h0) _
  have hz : List.zipWith (fun (r : Rank G × Option Nat) (x : Rank G × List Vec) => (r.1, x.2))
      (ranks.map (fun r => ((⟨nb r, R r⟩ : Rank G), if n = 0 then (none : Option Nat) else some n))) ranks =
      ranks.map (fun r => (⟨nb r, R r⟩, r.2)) := by
    rw [List.zipWith_map_left, List.zipWith_self]
  have hup := updatePhase_data c hc d1 hg1.1 (ranks.map (fun r => ((⟨nb r, R r⟩ : Rank G), r.2))) (by
    intro q hq
    obtain ⟨r, hrm, rfl⟩ := List.mem_map.1 hq
    exact h2 r hrm)
  obtain ⟨hu1, hu2⟩ := hup
  have hspec : stepSpec c d (ranks.map (fun r => (r.1.rng, r.2))) =
      (move c d1.1 d1.2.1 d1.2.2 (ranks.flatMap (fun r => (c.search (R r) d1.2.1 r.2).1)) (ranks.flatMap (fun r => r.2)),
        ranks.map (fun r => (c.search (R r) d1.2.1 r.2).2), if n = 0 then none else some n) := by
    unfold stepSpec
    rw [← hn, List.length_map]
    dsimp only
    rw [← hd1]
    have hr1 : (if n = 0 then (ranks.map (fun r => (r.1.rng, r.2))).map Prod.fst
        else ((ranks.map (fun r => (r.1.rng, r.2))).map (drawOf c ranks.length n)).map Prod.snd) = ranks.map R := by
      rw [hR]
      by_cases h0 : n = 0
      · simp only [if_pos h0, List.map_map]; rfl
      · simp only [if_neg h0, List.map_map]; rfl
    rw [hr1, List.zipWith_map, List.zipWith_self]
    simp only [List.flatMap_map, List.map_map]
    rfl
  rw [hspec]
  have htr : trainStep c ranks = .ok (updatePhase c (ranks.map (fun r => ((⟨nb r, R r⟩ : Rank G), r.2))),
      List.replicate ranks.length (if n = 0 then none else some n)) := by
    unfold trainStep
    rw [h1]
    have : (ranks.map (fun r => ((⟨nb r, if n = 0 then r.1.rng else (drawOf c ranks.length n (r.1.rng, r.2)).2⟩ : Rank G),
        if n = 0 then (none : Option Nat) else some n))) =
        ranks.map (fun r => ((⟨nb r, R r⟩ : Rank G), if n = 0 then (none : Option Nat) else some n)) := by rw [hR]
    rw [this]
    dsimp only
    rw [hz, List.map_map]
    congr 2
    rw [List.eq_replicate_iff]
    refine ⟨by simp, ?_⟩
    intro o ho
    obtain ⟨r, -, rfl⟩ := List.mem_map.1 ho
    rfl
  have hlen : (updatePhase c (ranks.map (fun r => ((⟨nb r, R r⟩ : Rank G), r.2)))).length = ranks.length := by
    rw [hu1, List.length_map]
  have hgs : GoodSizes c.size (move c d1.1 d1.2.1 d1.2.2 (ranks.flatMap (fun r => (c.search (R r) d1.2.1 r.2).1))
      (ranks.flatMap (fun r => r.2))).1 := by
    apply move_good c hc _ _ _ hg1
    · intro i him
      obtain ⟨x, -, hx'⟩ := List.mem_flatMap.1 him
      exact hc.search_range _ _ _ _ hx'
    · obtain ⟨r0, rest, hcons⟩ := List.exists_cons_of_ne_nil hne
      rw [hcons]
      intro hnil
      rw [List.flatMap_cons, List.append_eq_nil_iff] at hnil
      have hl := hc.search_length (R r0) d1.2.1 r0.2
      rw [hnil.1] at hl
      exact hx r0 (by rw [hcons]; exact List.mem_cons_self ..) (List.length_eq_zero_iff.1 hl.symm)
  refine ⟨_, htr, ?_, hlen, hgs, ?_⟩
  · have hrng : (updatePhase c (ranks.map (fun r => ((⟨nb r, R r⟩ : Rank G), r.2)))).map (fun r => r.rng) =
        ranks.map (fun r => (c.search (R r) d1.2.1 r.2).2) := by
      unfold updatePhase
      dsimp only
      rw [List.map_zipWith, List.zipWith_map_left, List.zipWith_self, List.map_map]
      apply List.map_congr_left
      intro r hrm
      have := h2 r hrm
      unfold Book.data at this
      simp only [Function.comp_apply]
      rw [← this]
    have hdat : ∀ r ∈ updatePhase c (ranks.map (fun r => ((⟨nb r, R r⟩ : Rank G), r.2))), r.book.data =
        move c d1.1 d1.2.1 d1.2.2 (ranks.flatMap (fun r => (c.search (R r) d1.2.1 r.2).1)) (ranks.flatMap (fun r => r.2)) := by
      intro r hrm
      have := hu2 r hrm
      simpa only [List.flatMap_map] using this
    dsimp only
    rw [← hrng, List.map_map]
    apply List.map_congr_left
    intro r hrm
    simp only [Function.comp_apply]
    rw [hdat r hrm]
  · intro hw r hrm
    rw [hlen] at hw
    obtain ⟨r0, rfl⟩ := List.length_eq_one_iff.1 hw
    have hr0 := hr r0 (List.mem_singleton.2 rfl)
    have hs0 : r0.1.book.sizes = d.1 := by rw [← hr0]; rfl
    have hi : Inv c r0.1.book := ⟨by rw [hs0]; exact hd, hb rfl r0 (List.mem_singleton.2 rfl)⟩
    have hx0 := hx r0 (List.mem_singleton.2 rfl)
    obtain ⟨r1, out, g1, -, g3⟩ := expire_ok c hc r0.1 hi r0.2 hx0
    obtain ⟨r2, g4, -, g6⟩ := update_ok c hc r1 g3 r0.2 hx0
    have heq : trainStep c [r0] = .ok ([r2], [out]) := by
      unfold trainStep
      rw [show expirePhase c [r0] = _ from g1]
      simp only [List.zipWith_cons_cons, List.zipWith_nil_left, g4, List.map_cons, List.map_nil]
    rw [heq] at htr
    simp only [Except.ok.injEq, Prod.mk.injEq] at htr
    rw [← htr.1, List.mem_singleton] at hrm
    subst hrm
    exact g6.bound

end Verif.Vq
