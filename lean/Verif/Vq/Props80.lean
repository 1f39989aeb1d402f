import Verif.Vq.Props78b

/-!
C80: training a codebook on several ranks is training it on the concatenation of their batches; all replicas stay equal.
-/

namespace Verif.Vq

variable {G : Type}

theorem traverse_all {α β : Type} (f : α → Except String β) (g : α → β) (l : List α) (h : ∀ x ∈ l, f x = .ok (g x)) :
    traverse f l = .ok (l.map g) := by
  induction l with
  | nil => rfl
  | cons x l ih =>
    rw [traverse, h x (List.mem_cons_self ..), ih (fun y hy => h y (List.mem_cons_of_mem _ hy))]
    rfl

/-! ### Sums over the ranks -/

theorem counts_flatten (n : Nat) (parts : List (List Nat × List Vec)) :
    (List.range n).map (fun k => (parts.map (fun p => (codeCounts n p.1).getD k 0)).sum) =
      codeCounts n (parts.flatMap Prod.fst) := by
  unfold codeCounts
  apply List.map_congr_left
  intro k hk
  rw [List.mem_range] at hk
  induction parts with
  | nil => simp
  | cons p parts ih =>
    rw [List.map_cons, List.sum_cons, ih, List.flatMap_cons, List.count_append,
      List.getD_eq_getElem _ _ (by simpa using hk)]
    simp

theorem scatter_flatten (parts : List (List Nat × List Vec)) (h : ∀ p ∈ parts, p.1.length = p.2.length) (k i : Nat) :
    (parts.map (fun p => scatterSum p.1 p.2 k i)).sum =
      (((parts.flatMap Prod.fst).zip (parts.flatMap Prod.snd)).map (fun p => if p.1 = k then p.2.getD i 0 else 0)).sum := by
  induction parts with
  | nil => simp
  | cons p parts ih =>
    rw [List.map_cons, List.sum_cons, ih (fun q hq => h q (List.mem_cons_of_mem _ hq)), List.flatMap_cons,
      List.flatMap_cons, List.zip_append (h p (List.mem_cons_self ..)), List.map_append, List.sum_append]
    rfl

theorem avgReduced_eq (c : Cfg G) (avg : List Vec) (parts : List (List Nat × List Vec))
    (h : ∀ p ∈ parts, p.1.length = p.2.length) :
    avgReduced c avg parts = matrix c.size c.dim (fun k i => c.decay * entry avg k i + (1 - c.decay) *
      (((parts.flatMap Prod.fst).zip (parts.flatMap Prod.snd)).map
        (fun p => if p.1 = k then p.2.getD i 0 else 0)).sum) := by
  unfold avgReduced
  congr 1
  funext k i
  rw [lerp_eq, scatter_flatten parts h]

theorem avgSingle_eq (c : Cfg G) (avg : List Vec) (idx : List Nat) (xs : List Vec) :
    avgSingle c avg idx xs = matrix c.size c.dim (fun k i => c.decay * entry avg k i +
        (1 - c.decay) * ((idx.zip xs).map (fun p => if p.1 = k then p.2.getD i 0 else 0)).sum) := by
  unfold avgSingle
  congr 1
  funext k i
  rw [mul_comm (entry _ _ _), ← List.sum_map_mul_left]
  congr 3
  funext p
  by_cases hp : p.1 = k <;> simp [hp]

/-- what a rank holds, without its bounds and generator -/
def Book.data (b : Book) : List ℚ × List Vec × List Vec := (b.sizes, b.embed, b.avg)

theorem updateEma_data (c : Cfg G) (world : Nat) (b : Book) (hb : b.sizes.length = c.size) (own : List Nat × List Vec)
    (parts : List (List Nat × List Vec)) (h : ∀ p ∈ parts, p.1.length = p.2.length) (hw : world = 1 → parts = [own]) :
    (updateEma c world b (codeCounts c.size (parts.flatMap Prod.fst)) own parts).data =
      move c b.sizes b.embed b.avg (parts.flatMap Prod.fst) (parts.flatMap Prod.snd) := by
  have hs : List.zipWith (lerp c.decay) b.sizes (codeCounts c.size (parts.flatMap Prod.fst)) =
      b.sizes.zipIdx.map (fun p => c.decay * p.1 + (1 - c.decay) * ((parts.flatMap Prod.fst).count p.2 : ℚ)) := by
    unfold codeCounts
    rw [← hb, List.range_eq_range']
    exact zipWith_counts c.decay _ b.sizes 0
  have ha : (if world = 1 then avgSingle c b.avg own.1 own.2 else avgReduced c b.avg parts) =
      matrix c.size c.dim (fun k i => c.decay * entry b.avg k i + (1 - c.decay) *
      (((parts.flatMap Prod.fst).zip (parts.flatMap Prod.snd)).map
        (fun p => if p.1 = k then p.2.getD i 0 else 0)).sum) := by
    by_cases hw1 : world = 1
    · rw [if_pos hw1, avgSingle_eq, hw hw1]
      simp
    · rw [if_neg hw1, avgReduced_eq c _ _ h]
  unfold Book.data updateEma move
  simp only [hs, ha, rebuild_eq]
  cases c.emaUpdate <;> rfl

theorem updatePhase_data (c : Cfg G) (hc : c.Valid) (d : List ℚ × List Vec × List Vec) (hd : d.1.length = c.size)
    (ranks : List (Rank G × List Vec)) (hr : ∀ r ∈ ranks, r.1.book.data = d) :
    (updatePhase c ranks).length = ranks.length ∧ ∀ r ∈ updatePhase c ranks,
      r.book.data = move c d.1 d.2.1 d.2.2 (ranks.flatMap (fun r => (c.search r.1.rng d.2.1 r.2).1))
        (ranks.flatMap (fun r => r.2)) := by
  unfold updatePhase
  dsimp only
  have hp : List.zipWith (fun (f : List Nat × G) (r : Rank G × List Vec) => (f.1, r.2))
      (ranks.map (fun r => c.search r.1.rng r.1.book.embed r.2)) ranks =
      ranks.map (fun r => ((c.search r.1.rng d.2.1 r.2).1, r.2)) := by
    rw [List.zipWith_map_left, List.zipWith_self]
    apply List.map_congr_left
    intro r hrm
    have := hr r hrm
    unfold Book.data at this
    rw [← this]
  rw [hp, counts_flatten]
  constructor
  · simp
  · intro r hrm
    rw [List.zipWith_map_left, List.zipWith_self] at hrm
    obtain ⟨q, hq, rfl⟩ := List.mem_map.1 hrm
    have hqd := hr q hq
    have hb : q.1.book.sizes.length = c.size := by
      rw [← hd, ← hqd]; rfl
    have he : q.1.book.embed = d.2.1 := by rw [← hqd]; rfl
    have hs : q.1.book.sizes = d.1 := by rw [← hqd]; rfl
    have ha : q.1.book.avg = d.2.2 := by rw [← hqd]; rfl
    dsimp only
    rw [updateEma_data c _ q.1.book hb _ _ ?_ ?_, he, hs, ha]
    · simp only [List.flatMap_map]
    · intro p hp
      obtain ⟨r, -, rfl⟩ := List.mem_map.1 hp
      exact hc.search_length _ _ _
    · intro hw
      obtain ⟨z, rfl⟩ := List.length_eq_one_iff.1 hw
      rw [List.mem_singleton] at hq
      subst hq
      simp [he]

/-! ### Expiry on several ranks -/

/-- the ranks' bounds: on a single process they are valid, on several processes they are never set -/
def BoundsOk (_c : Cfg G) (ranks : List (Rank G × List Vec)) : Prop :=
  ranks.length = 1 → ∀ r ∈ ranks, ∀ p, r.1.book.cache = some p →
    (∀ s ∈ r.1.book.sizes, p.1 ≤ s) ∧ r.1.book.sizes.sum ≤ p.2

theorem decision_data (c : Cfg G) (hc : c.Valid) (world : Nat) (b : Book) (h : GoodSizes c.size b.sizes)
    (hb : world = 1 → ∀ p, b.cache = some p → (∀ s ∈ b.sizes, p.1 ≤ s) ∧ b.sizes.sum ≤ p.2) :
    ∃ b', expireDecision c world b =
      .ok (if (dead c.threshold b.sizes).any id then some (dead c.threshold b.sizes) else none, b') ∧
      b'.data = b.data := by
  by_cases hw : world = 1
  · subst hw
    obtain ⟨b', h1, h2, h3, h4, -⟩ := decision_ok c hc b ⟨h, hb rfl⟩
    exact ⟨b', h1, by unfold Book.data; rw [h2, h3, h4]⟩
  · refine ⟨b, ?_, rfl⟩
    unfold expireDecision
    by_cases ht : c.threshold = 0
    · rw [if_pos ht, ht, no_dead_zero _ h.2.1]
      rfl
    · rw [if_neg ht, if_neg hw]
      unfold exactCheck
      rw [expiredMask_eq c b h]

theorem ceil_mul (m p : Nat) (hp : 0 < p) : m ≤ (m + p - 1) / p * p := by
  have h1 := Nat.div_add_mod (m + p - 1) p
  have h2 := Nat.mod_lt (m + p - 1) hp
  rw [Nat.mul_comm] at h1
  omega

/-- the state of all ranks after the dead codes were replaced by `sampled` -/
def replaced (c : Cfg G) (d : List ℚ × List Vec × List Vec) (sampled : List Vec) : List ℚ × List Vec × List Vec :=
  (maskedSet (dead c.threshold d.1) d.1 (List.replicate ((dead c.threshold d.1).count true) c.reset),
    maskedSet (dead c.threshold d.1) d.2.1 sampled,
    maskedSet (dead c.threshold d.1) d.2.2 (sampled.map (fun v => v.map (fun q => q * c.reset))))

theorem expirePhase_data (c : Cfg G) (hc : c.Valid) (d : List ℚ × List Vec × List Vec) (hd : GoodSizes c.size d.1)
    (ranks : List (Rank G × List Vec)) (hne : ranks ≠ []) (hr : ∀ r ∈ ranks, r.1.book.data = d) (hx : ∀ r ∈ ranks, r.2 ≠ [])
    (hb : BoundsOk c ranks) :
    ∃ rs : List (Rank G × Option Nat), expirePhase c ranks = .ok rs ∧ rs.length = ranks.length ∧
      if (dead c.threshold d.1).count true = 0 then
        (∀ r ∈ rs, r.1.book.data = d ∧ r.2 = none) ∧ rs.map (fun r => r.1.rng) = ranks.map (fun r => r.1.rng)
      else ∃ sampled, sampled.length = (dead c.threshold d.1).count true ∧
        (∀ v ∈ sampled, v ∈ ranks.flatMap (fun r => r.2)) ∧
        ∀ r ∈ rs, r.1.book.data = replaced c d sampled ∧ r.2 = some ((dead c.threshold d.1).count true) := by
  have hdec : ∀ r : Rank G × List Vec, ∃ b', r ∈ ranks →
      (expireDecision c ranks.length r.1.book =
        .ok (if (dead c.threshold d.1).any id then some (dead c.threshold d.1) else none, b') ∧ b'.data = d) := by
    intro r
    by_cases hrm : r ∈ ranks
    · have hs : r.1.book.sizes = d.1 := by rw [← hr r hrm]; rfl
      obtain ⟨b', h1, h2⟩ := decision_data c hc ranks.length r.1.book (by rw [hs]; exact hd)
        (fun hw => hb hw r hrm)
      refine ⟨b', fun _ => ?_⟩
      rw [h1, hs, h2, hr r hrm]
      exact ⟨rfl, rfl⟩
    · exact ⟨r.1.book, fun h => absurd h hrm⟩
  obtain ⟨nb, hnb⟩ : ∃ nb : Rank G × List Vec → Book, ∀ r ∈ ranks,
      (expireDecision c ranks.length r.1.book =
        .ok (if (dead c.threshold d.1).any id then some (dead c.threshold d.1) else none, nb r) ∧ (nb r).data = d) :=
    ⟨fun r => (hdec r).choose, fun r hrm => (hdec r).choose_spec hrm⟩
  unfold expirePhase
  rw [traverse_all _ (fun r => (if (dead c.threshold d.1).any id then some (dead c.threshold d.1) else none, nb r)) ranks
    (fun r hrm => (hnb r hrm).1)]
  have hanyc : (dead c.threshold d.1).any id = true ↔ (dead c.threshold d.1).count true ≠ 0 := by
    rw [Ne, List.count_eq_zero, not_not, List.any_eq_true]
    constructor
    · rintro ⟨x, hx, h⟩; simp only [id_eq] at h; rw [h] at hx; exact hx
    · intro h; exact ⟨true, h, rfl⟩
  by_cases hany : (dead c.threshold d.1).any id = true
  · obtain ⟨m, hm⟩ : ∃ m, m = dead c.threshold d.1 := ⟨_, rfl⟩
    have hmc : m.count true ≠ 0 := by rw [hm]; exact hanyc.1 hany
    simp only [if_pos hany]
    rw [← hm]
    simp only [if_neg hmc]
    obtain ⟨r0, rest, hcons⟩ := List.exists_cons_of_ne_nil hne
    have hall : (ranks.map (fun r => (some m, nb r))).all (fun x => x.1.isNone) = false := by
      rw [hcons]; simp
    have hsome : (ranks.map (fun r => (some m, nb r))).any (fun x => x.1.isNone) = false := by
      simp
    simp only [hall, hsome, Bool.false_eq_true, if_false]
    have hdraw : ∀ r : Rank G × List Vec, ∃ v : List Vec × G, r ∈ ranks →
        (sampleLocal c.gen ranks.length r.1.rng r.2 (maskCount m) = .ok v ∧
          v.1.length = (maskCount m + ranks.length - 1) / ranks.length ∧ ∀ q ∈ v.1, q ∈ r.2) := by
      intro r
      by_cases hrm : r ∈ ranks
      · obtain ⟨v, rng', h1, h2, h3⟩ := sampleLocal_ok c hc ranks.length r.1.rng r.2 (hx r hrm) (maskCount m)
        exact ⟨(v, rng'), fun _ => ⟨h1, h2, h3⟩⟩
      · exact ⟨([], r.1.rng), fun h => absurd h hrm⟩
    obtain ⟨dr, hdr⟩ : ∃ dr : Rank G × List Vec → List Vec × G, ∀ r ∈ ranks,
        (sampleLocal c.gen ranks.length r.1.rng r.2 (maskCount m) = .ok (dr r) ∧
          (dr r).1.length = (maskCount m + ranks.length - 1) / ranks.length ∧ ∀ q ∈ (dr r).1, q ∈ r.2) :=
      ⟨fun r => (hdraw r).choose, fun r hrm => (hdraw r).choose_spec hrm⟩
    have hz : ranks.zip (ranks.map (fun r => (some m, nb r))) = ranks.map (fun r => (r, (some m, nb r))) := by
      have := List.zip_map' (f := fun r : Rank G × List Vec => r) (g := fun r => (some m, nb r)) (l := ranks)
      simpa using this
    rw [hz]
    rw [traverse_all _ (fun x => dr x.1) _ (by
      intro x hxm
      obtain ⟨r, hrm, rfl⟩ := List.mem_map.1 hxm
      exact (hdr r hrm).1)]
    rw [List.map_map]
    dsimp only
    have hfl : ((ranks.map ((fun x : (Rank G × List Vec) × (Option (List Bool) × Book) => dr x.1) ∘
        fun r => (r, (some m, nb r)))).map Prod.fst) = ranks.map (fun r => (dr r).1) := by
      rw [List.map_map]; rfl
    rw [hfl]
    have hlen : maskCount m ≤ (ranks.map (fun r => (dr r).1)).flatten.length := by
      rw [List.length_flatten, List.map_map]
      have : ranks.map (List.length ∘ fun r => (dr r).1) =
          List.replicate ranks.length ((maskCount m + ranks.length - 1) / ranks.length) := by
        rw [List.eq_replicate_iff]
        refine ⟨by simp, ?_⟩
        intro n hn
        obtain ⟨r, hrm, rfl⟩ := List.mem_map.1 hn
        exact (hdr r hrm).2.1
      rw [this, List.sum_replicate_nat, Nat.mul_comm]
      exact ceil_mul _ _ (List.length_pos_iff.2 hne)
    have hga : sampleGather (maskCount m) (ranks.map (fun r => (dr r).1)) =
        .ok ((ranks.map (fun r => (dr r).1)).flatten.take (maskCount m)) := by
      unfold sampleGather
      rw [if_neg (by omega)]
    have hz2 : (ranks.map (fun r => (some m, nb r))).zip (ranks.map ((fun x : (Rank G × List Vec) × (Option (List Bool) × Book) => dr x.1) ∘
        fun r => (r, (some m, nb r)))) = ranks.map (fun r => ((some m, nb r), dr r)) := by
      rw [List.zip_map']; rfl
    rw [hz2]
    rw [traverse_all _ (fun x => (⟨replaceCodes c x.1.2 m ((ranks.map (fun r => (dr r).1)).flatten.take (maskCount m)), x.2.2⟩,
      some (maskCount m))) _ (by
      intro x hxm
      obtain ⟨r, hrm, rfl⟩ := List.mem_map.1 hxm
      simp only [Option.getD_some]
      rw [hga])]
    refine ⟨_, rfl, by simp, (ranks.map (fun r => (dr r).1)).flatten.take (maskCount m), ?_, ?_, ?_⟩
    · rw [List.length_take]
      unfold maskCount at *
      omega
    · intro v hv
      have := List.mem_of_mem_take hv
      rw [List.mem_flatten] at this
      obtain ⟨l, hl, hvl⟩ := this
      obtain ⟨r, hrm, rfl⟩ := List.mem_map.1 hl
      exact List.mem_flatMap.2 ⟨r, hrm, (hdr r hrm).2.2 v hvl⟩
    · intro r hrm
      rw [List.map_map] at hrm
      obtain ⟨q, hq, rfl⟩ := List.mem_map.1 hrm
      have hqd := (hnb q hq).2
      refine ⟨?_, rfl⟩
      simp only [Function.comp_apply]
      unfold replaceCodes replaced Book.data
      dsimp only
      unfold Book.data at hqd
      have h1 : (nb q).sizes = d.1 := by rw [← hqd]
      have h2 : (nb q).embed = d.2.1 := by rw [← hqd]
      have h3 : (nb q).avg = d.2.2 := by rw [← hqd]
      rw [h1, h2, h3, ← hm]
      rfl
  · have hc0 : (dead c.threshold d.1).count true = 0 := by
      by_contra h
      exact hany (hanyc.2 h)
    simp only [if_neg hany, hc0, if_true]
    have hall : (ranks.map (fun r => ((none : Option (List Bool)), nb r))).all (fun x => x.1.isNone) = true := by
      simp
    rw [if_pos hall, List.zipWith_map_right, List.zipWith_self]
    refine ⟨_, rfl, by simp, ?_, ?_⟩
    · intro r hrm
      obtain ⟨q, hq, rfl⟩ := List.mem_map.1 hrm
      exact ⟨(hnb q hq).2, rfl⟩
    · rw [List.map_map]
      rfl

theorem replaced_good (c : Cfg G) (hc : c.Valid) (d : List ℚ × List Vec × List Vec) (hd : GoodSizes c.size d.1)
    (h : (dead c.threshold d.1).count true ≠ 0) (v : List Vec) : GoodSizes c.size (replaced c d v).1 := by
  have hany : (dead c.threshold d.1).any id = true := by
    rw [List.any_eq_true]
    rw [Ne, List.count_eq_zero, not_not] at h
    exact ⟨true, h, rfl⟩
  exact (replace_inv c hc ⟨d.1, d.2.1, d.2.2, none⟩ hd (dead c.threshold d.1) hany (dead_length _ _) v).good

theorem move_good (c : Cfg G) (hc : c.Valid) (sizes : List ℚ) (embed avg : List Vec) (hd : GoodSizes c.size sizes)
    (idx : List Nat) (xs : List Vec) (hi : ∀ i ∈ idx, i < c.size) (hne : idx ≠ []) :
    GoodSizes c.size (move c sizes embed avg idx xs).1 := by
  have hs : (move c sizes embed avg idx xs).1 = List.zipWith (lerp c.decay) sizes (codeCounts c.size idx) := by
    unfold move codeCounts
    dsimp only
    rw [← hd.1, List.range_eq_range']
    exact (zipWith_counts c.decay idx sizes 0).symm
  rw [hs]
  have hcl : (codeCounts c.size idx).length = c.size := by simp [codeCounts]
  have hd1 := hc.decay1
  have hd0 := hc.decay0
  refine ⟨by rw [List.length_zipWith, hd.1, hcl, Nat.min_self], ?_, ?_⟩
  · intro z hz
    obtain ⟨x, hx', y, hy, rfl⟩ := mem_lerp _ _ _ _ hz
    have h1 := hd.2.1 x hx'
    have h2 : 0 ≤ y := by
      obtain ⟨k, -, rfl⟩ := List.mem_map.1 hy
      positivity
    rw [lerp_eq]
    have : 0 ≤ 1 - c.decay := by linarith
    positivity
  · rw [sum_lerp _ _ _ (by rw [hd.1, hcl])]
    have hcs : (codeCounts c.size idx).sum = idx.length := sum_counts c.size idx hi
    rw [hcs]
    have hs0 := hd.2.2
    have hnd : (0 : ℚ) < idx.length := by
      have : 0 < idx.length := List.length_pos_iff.2 hne
      exact_mod_cast this
    rcases lt_or_eq_of_le hd1 with hlt | heq
    · have h1 : 0 < (1 - c.decay) * (idx.length : ℚ) := mul_pos (by linarith) hnd
      have h2 : 0 ≤ c.decay * sizes.sum := by positivity
      linarith
    · rw [heq]; linarith

/-- One training step on any number of ranks that hold the same codebook `d`. It succeeds; every rank reports the
number of dead codes; all ranks hold the same codebook again, namely the one that a single update with the
concatenation of all ranks' entries (assigned by the ranks' searches in the common codebook) gives, after the dead
codes, if any, were replaced by entries of the ranks' batches. -/
theorem C80_step (c : Cfg G) (hc : c.Valid) (d : List ℚ × List Vec × List Vec) (hd : GoodSizes c.size d.1)
    (ranks : List (Rank G × List Vec)) (hne : ranks ≠ []) (hr : ∀ r ∈ ranks, r.1.book.data = d)
    (hx : ∀ r ∈ ranks, r.2 ≠ []) (hb : BoundsOk c ranks) :
    ∃ rs outs d1 rngs, trainStep c ranks = .ok (rs, outs) ∧ rs.length = ranks.length ∧ rngs.length = ranks.length ∧
      outs = List.replicate ranks.length (if (dead c.threshold d.1).count true = 0 then none
        else some ((dead c.threshold d.1).count true)) ∧
      (if (dead c.threshold d.1).count true = 0 then d1 = d ∧ rngs = ranks.map (fun r => r.1.rng)
       else ∃ sampled, sampled.length = (dead c.threshold d.1).count true ∧
        (∀ v ∈ sampled, v ∈ ranks.flatMap (fun r => r.2)) ∧ d1 = replaced c d sampled) ∧
      (∀ r ∈ rs, r.book.data = move c d1.1 d1.2.1 d1.2.2
        ((rngs.zip ranks).flatMap (fun x => (c.search x.1 d1.2.1 x.2.2).1)) (ranks.flatMap (fun r => r.2))) ∧
      ∀ r ∈ rs, GoodSizes c.size r.book.sizes := by
  obtain ⟨es, h1, h2, h3⟩ := expirePhase_data c hc d hd ranks hne hr hx hb
  obtain ⟨d1, hd1⟩ : ∃ d1 : List ℚ × List Vec × List Vec, (∀ r ∈ es, r.1.book.data = d1) ∧ GoodSizes c.size d1.1 ∧
      (if (dead c.threshold d.1).count true = 0 then d1 = d ∧ es.map (fun r => r.1.rng) = ranks.map (fun r => r.1.rng)
       else ∃ sampled, sampled.length = (dead c.threshold d.1).count true ∧
        (∀ v ∈ sampled, v ∈ ranks.flatMap (fun r => r.2)) ∧ d1 = replaced c d sampled) ∧
      ∀ r ∈ es, r.2 = if (dead c.threshold d.1).count true = 0 then none else some ((dead c.threshold d.1).count true) := by
    by_cases h0 : (dead c.threshold d.1).count true = 0
    · simp only [if_pos h0] at h3 ⊢
      exact ⟨d, fun r hrm => (h3.1 r hrm).1, hd, ⟨rfl, h3.2⟩, fun r hrm => (h3.1 r hrm).2⟩
    · simp only [if_neg h0] at h3 ⊢
      obtain ⟨v, hv1, hv2, hv3⟩ := h3
      exact ⟨replaced c d v, fun r hrm => (hv3 r hrm).1, replaced_good c hc d hd h0 v, ⟨v, hv1, hv2, rfl⟩,
        fun r hrm => (hv3 r hrm).2⟩
  obtain ⟨ha, hg, hb', ho⟩ := hd1
  have hzip : ∀ q ∈ List.zipWith (fun (r : Rank G × Option Nat) (x : Rank G × List Vec) => (r.1, x.2)) es ranks,
      ∃ r ∈ es, ∃ x ∈ ranks, q = (r.1, x.2) := by
    intro q hq
    rw [← List.map_uncurry_zip_eq_zipWith] at hq
    obtain ⟨y, hy, rfl⟩ := List.mem_map.1 hq
    exact ⟨y.1, (List.of_mem_zip hy).1, y.2, (List.of_mem_zip hy).2, rfl⟩
  have hup := updatePhase_data c hc d1 hg.1
    (List.zipWith (fun (r : Rank G × Option Nat) (x : Rank G × List Vec) => (r.1, x.2)) es ranks) (by
      intro q hq
      obtain ⟨r, hrm, x, -, rfl⟩ := hzip q hq
      exact ha r hrm)
  obtain ⟨hu1, hu2⟩ := hup
  have hi : (List.zipWith (fun (r : Rank G × Option Nat) (x : Rank G × List Vec) => (r.1, x.2)) es ranks).flatMap
      (fun r => (c.search r.1.rng d1.2.1 r.2).1) =
      ((es.map (fun r => r.1.rng)).zip ranks).flatMap (fun x => (c.search x.1 d1.2.1 x.2.2).1) := by
    rw [← List.map_uncurry_zip_eq_zipWith, List.flatMap_map, List.zip_map_left, List.flatMap_map]
    rfl
  have hxs : (List.zipWith (fun (r : Rank G × Option Nat) (x : Rank G × List Vec) => (r.1, x.2)) es ranks).flatMap
      (fun r => r.2) = ranks.flatMap (fun r => r.2) := by
    have hm : ranks = (es.zip ranks).map Prod.snd := (List.map_snd_zip (by omega)).symm
    conv_rhs => rw [hm]
    rw [← List.map_uncurry_zip_eq_zipWith, List.flatMap_map, List.flatMap_map]
    rfl
  rw [hi, hxs] at hu2
  refine ⟨updatePhase c (List.zipWith (fun r x => (r.1, x.2)) es ranks), es.map Prod.snd, d1, es.map (fun r => r.1.rng),
    ?_, ?_, ?_, ?_, hb', hu2, ?_⟩
  · unfold trainStep
    rw [h1]
  · rw [hu1, List.length_zipWith, h2, Nat.min_self]
  · rw [List.length_map, h2]
  · rw [List.eq_replicate_iff]
    refine ⟨by rw [List.length_map, h2], ?_⟩
    intro o hom
    obtain ⟨r, hrm, rfl⟩ := List.mem_map.1 hom
    exact ho r hrm
  · intro r hrm
    have h := hu2 r hrm
    have hsz : r.book.sizes = r.book.data.1 := rfl
    rw [hsz, h]
    apply move_good c hc _ _ _ hg
    · intro i him
      obtain ⟨x, -, hx'⟩ := List.mem_flatMap.1 him
      exact hc.search_range _ _ _ _ hx'
    · obtain ⟨r0, rest, hcons⟩ := List.exists_cons_of_ne_nil hne
      obtain ⟨e0, erest, hecons⟩ := List.exists_cons_of_ne_nil (show es ≠ [] by
        intro h0; rw [h0, hcons] at h2; simp at h2)
      rw [hcons, hecons]
      intro hnil
      rw [List.map_cons, List.zip_cons_cons, List.flatMap_cons, List.append_eq_nil_iff] at hnil
      have hlen := hc.search_length e0.1.rng d1.2.1 r0.2
      rw [hnil.1] at hlen
      have := hx r0 (by rw [hcons]; exact List.mem_cons_self ..)
      exact this (List.length_eq_zero_iff.1 hlen.symm)

/-- A step with no dead code on several ranks leaves on every rank the same codebook as the step of one process whose
batch is the concatenation, for a search that looks at the entries one by one. -/
theorem C80_single_process (c : Cfg G) (hc : c.Valid) (near : List Vec → Vec → Nat)
    (hs : ∀ g e xs, (c.search g e xs).1 = xs.map (near e))
    (d : List ℚ × List Vec × List Vec) (hd : GoodSizes c.size d.1)
    (hlive : ∀ s ∈ d.1, c.threshold * d.1.sum ≤ s * d.1.length)
    (ranks : List (Rank G × List Vec)) (hne : ranks ≠ []) (hr : ∀ r ∈ ranks, r.1.book.data = d)
    (hx : ∀ r ∈ ranks, r.2 ≠ []) (hb : BoundsOk c ranks) (one : Rank G) (hone : one.book.data = d)
    (hb1 : BoundsOk c [(one, ranks.flatMap (fun r => r.2))]) :
    ∃ rs outs one' , trainStep c ranks = .ok (rs, outs) ∧ (∀ o ∈ outs, o = none) ∧
      trainStep c [(one, ranks.flatMap (fun r => r.2))] = .ok ([one'], [none]) ∧
      rs.length = ranks.length ∧ ∀ r ∈ rs, r.book.data = one'.book.data := by
  have h0 : (dead c.threshold d.1).count true = 0 := by
    rw [List.count_eq_zero]
    intro hm
    unfold dead at hm
    obtain ⟨s, hsm, h⟩ := List.mem_map.1 hm
    have h1 := hlive s hsm
    simp only [decide_eq_true_eq] at h
    linarith
  obtain ⟨rs, outs, d1, rngs, h1, h2, hl, h3, h4, h5, -⟩ := C80_step c hc d hd ranks hne hr hx hb
  have hxs : ranks.flatMap (fun r => r.2) ≠ [] := by
    obtain ⟨r0, rest, hcons⟩ := List.exists_cons_of_ne_nil hne
    intro h
    rw [hcons, List.flatMap_cons, List.append_eq_nil_iff] at h
    exact hx r0 (by rw [hcons]; exact List.mem_cons_self ..) h.1
  obtain ⟨ss, outs', e1, rngs', g1, g2, gl, g3, g4, g5, -⟩ := C80_step c hc d hd [(one, ranks.flatMap (fun r => r.2))]
    (by simp) (by intro r hr'; rw [List.mem_singleton] at hr'; subst hr'; exact hone)
    (by intro r hr'; rw [List.mem_singleton] at hr'; subst hr'; exact hxs) hb1
  rw [if_pos h0] at h3 h4 g3 g4
  obtain ⟨one', rfl⟩ := List.length_eq_one_iff.1 g2
  refine ⟨rs, outs, one', h1, ?_, ?_, h2, ?_⟩
  · intro o ho
    rw [h3] at ho
    exact (List.mem_replicate.1 ho).2
  · rw [g1, g3]; rfl
  · intro r hrm
    rw [h5 r hrm, g5 one' (List.mem_singleton.2 rfl), h4.1, g4.1]
    have hi : ∀ (gs : List G) (rk : List (Rank G × List Vec)), gs.length = rk.length →
        (gs.zip rk).flatMap (fun x => (c.search x.1 d.2.1 x.2.2).1) = (rk.flatMap (fun r => r.2)).map (near d.2.1) := by
      intro gs rk hlen
      have hm : rk = (gs.zip rk).map Prod.snd := (List.map_snd_zip (by omega)).symm
      conv_rhs => rw [hm]
      rw [List.flatMap_map, List.map_flatMap]
      congr 1
      funext x
      exact hs _ _ _
    rw [hi _ _ hl, hi _ _ gl]
    simp

/-- several steps on several ranks -/
def trainSteps (c : Cfg G) (ranks : List (Rank G)) : List (List (List Vec)) → Except String (List (Rank G) × List (List (Option Nat)))
  | [] => .ok (ranks, [])
  | xs :: rest =>
    match trainStep c (ranks.zip xs) with
    | .error e => .error e
    | .ok (rs, out) =>
      match trainSteps c rs rest with
      | .error e => .error e
      | .ok (rs', outs) => .ok (rs', out :: outs)

/-- Replicas that start equal are equal after every number of steps, and report the same numbers. -/
theorem C80_replicas (c : Cfg G) (hc : c.Valid) (batches : List (List (List Vec))) :
    ∀ (d : List ℚ × List Vec × List Vec), GoodSizes c.size d.1 →
    ∀ ranks : List (Rank G), 2 ≤ ranks.length → (∀ r ∈ ranks, r.book.data = d) →
      (∀ xs ∈ batches, xs.length = ranks.length ∧ ∀ x ∈ xs, x ≠ []) →
    ∃ rs outs d', trainSteps c ranks batches = .ok (rs, outs) ∧ rs.length = ranks.length ∧
      (∀ r ∈ rs, r.book.data = d') ∧ ∀ o ∈ outs, ∃ n, o = List.replicate ranks.length n := by
  induction batches with
  | nil => intro d _ ranks _ hr _; exact ⟨ranks, [], d, rfl, rfl, hr, by simp⟩
  | cons xs rest ih =>
    intro d hd ranks h2 hr hv
    obtain ⟨hl, hx⟩ := hv xs (List.mem_cons_self ..)
    have hlz : (ranks.zip xs).length = ranks.length := by rw [List.length_zip, hl, Nat.min_self]
    obtain ⟨rs, outs, d1, rngs, h1, h3, -, ho, -, h5, h6⟩ := C80_step c hc d hd (ranks.zip xs)
      (by intro h; rw [h] at hlz; simp at hlz; omega)
      (fun r hrm => hr _ (List.of_mem_zip hrm).1) (fun r hrm => hx _ (List.of_mem_zip hrm).2)
      (by intro h; omega)
    rw [hlz] at h3 ho
    obtain ⟨d2, hd2⟩ : ∃ d2, ∀ r ∈ rs, r.book.data = d2 := ⟨_, h5⟩
    have hg2 : GoodSizes c.size d2.1 := by
      obtain ⟨r0, rrest, hcons⟩ := List.exists_cons_of_ne_nil (show rs ≠ [] by intro h; rw [h] at h3; simp at h3; omega)
      have hm : r0 ∈ rs := by rw [hcons]; exact List.mem_cons_self ..
      rw [← hd2 r0 hm]
      exact h6 r0 hm
    obtain ⟨rs', outs', d', k1, k2, k3, k4⟩ := ih d2 hg2 rs (by omega) hd2
      (fun ys hys => by rw [h3]; exact hv ys (List.mem_cons_of_mem _ hys))
    refine ⟨rs', outs :: outs', d', ?_, by omega, k3, ?_⟩
    · rw [trainSteps, h1]
      dsimp only
      rw [k1]
    · intro o hom
      rcases List.mem_cons.1 hom with rfl | hom
      · exact ⟨_, ho⟩
      · rw [← h3]; exact k4 o hom

end Verif.Vq
