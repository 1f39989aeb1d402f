import Verif.Vq.Props79

namespace Verif.Vq

variable {G : Type}

/-- the pending inputs of all ranks after one more batch -/
theorem accumulate_all (c : InitCfg G) (world : Nat) : ∀ (ranks : List (InitRank G)) (seen xs : List (List Vec)),
    seen.length = ranks.length → xs.length = ranks.length →
    (∀ x ∈ ranks.zip seen, x.1.inited = false ∧ ∃ p, x.1.pending = some p ∧ p.target = target c world ∧
        p.batches.flatten = x.2.take (target c world) ∧ p.count = p.batches.flatten.length) →
    ∃ ps : List (Pending × InitRank G),
      traverse accumulateRank (ranks.zip xs) = .ok ps ∧
      ps.map Prod.snd = ranks ∧ ps.length = ranks.length ∧
      (∀ x ∈ ps.zip (List.zipWith (fun s x => s ++ x) seen xs), x.1.1.target = target c world ∧
        x.1.1.batches.flatten = x.2.take (target c world) ∧ x.1.1.count = x.1.1.batches.flatten.length ∧
        enough x.1.1 = decide (target c world ≤ x.2.length)) := by
  intro ranks
  induction ranks with
  | nil => intro seen xs _ _ _; exact ⟨[], by simp [traverse], rfl, rfl, by simp⟩
  | cons r ranks ih =>
    intro seen xs hs hx hz
    cases seen with
    | nil => simp at hs
    | cons s seen =>
      cases xs with
      | nil => simp at hx
      | cons x xs =>
        obtain ⟨h0, p, h1, h2, h3, h4⟩ := hz (r, s) (by simp)
        dsimp only at h1 h3
        obtain ⟨ps, k1, k2, k3, k4⟩ := ih seen xs (by simpa using hs) (by simpa using hx) (fun y hy => hz y (by
          rw [List.zip_cons_cons]; exact List.mem_cons_of_mem _ hy))
        rw [← h2] at h3
        obtain ⟨a1, a2, a3, a4⟩ := accumulate_ok p s x h3 h4
        refine ⟨(accumulate p x, r) :: ps, ?_, by rw [List.map_cons, k2], by simp [k3], ?_⟩
        · rw [List.zip_cons_cons, traverse]
          have ha : accumulateRank (r, x) = .ok (accumulate p x, r) := by
            unfold accumulateRank
            dsimp only
            rw [h1]
          rw [ha]
          dsimp only
          rw [k1]
        · intro y hy
          rw [List.zipWith_cons_cons, List.zip_cons_cons] at hy
          rcases List.mem_cons.1 hy with rfl | hy
          · dsimp only
            rw [← h2]
            exact ⟨a1, a2, a3, a4⟩
          · exact k4 y hy

theorem all_zip {α β : Type} (l : List α) (m : List β) (p : α → Bool) (q : β → Bool) (hl : l.length = m.length)
    (h : ∀ x ∈ l.zip m, p x.1 = q x.2) : l.all p = m.all q := by
  induction l generalizing m with
  | nil => cases m with
    | nil => rfl
    | cons _ _ => simp at hl
  | cons a l ih =>
    cases m with
    | nil => simp at hl
    | cons b m =>
      rw [List.all_cons, List.all_cons, ih m (by simpa using hl) (fun x hx => h x (by
        rw [List.zip_cons_cons]; exact List.mem_cons_of_mem _ hx)), h (a, b) (by simp)]

theorem map_zip {α β γ : Type} (l : List α) (m : List β) (f : α → γ) (g : β → γ) (hl : l.length = m.length)
    (h : ∀ x ∈ l.zip m, f x.1 = g x.2) : l.map f = m.map g := by
  induction l generalizing m with
  | nil => cases m with
    | nil => rfl
    | cons _ _ => simp at hl
  | cons a l ih =>
    cases m with
    | nil => simp at hl
    | cons b m =>
      rw [List.map_cons, List.map_cons, ih m (by simpa using hl) (fun x hx => h x (by
        rw [List.zip_cons_cons]; exact List.mem_cons_of_mem _ hx)), h (a, b) (by simp)]

/-- one training forward on all ranks -/
theorem forward_ok (c : InitCfg G) (hc : c.Valid) (world : Nat) (hw : 0 < world) (ranks : List (InitRank G)) (st : Ideal G)
    (h : LifeInv c world ranks st) (xs : List (List Vec)) (hv : (LifeEvent.forward xs).Valid c world) :
    ∃ rs, forwardStep c (ranks.zip xs) = .ok (rs, (idealForward c world st xs).2) ∧
      LifeInv c world rs (idealForward c world st xs).1 := by
  obtain ⟨hm, hl, hi⟩ := h
  obtain ⟨hv1, hv2, hv3⟩ := hv
  have hzl : (ranks.zip xs).length = world := by rw [List.length_zip]; omega
  have hne : ranks.zip xs ≠ [] := by intro h; rw [h] at hzl; simp at hzl; omega
  cases st with
  | collecting seen rngs =>
    obtain ⟨hrng, hsl, hz⟩ := hm
    dsimp only at hi
    unfold forwardStep
    have hall : (ranks.zip xs).all (fun r => !r.1.inited) = true := by
      rw [List.all_eq_true]
      intro x hx
      have hx1 := (List.of_mem_zip hx).1
      have : ∃ s, (x.1, s) ∈ ranks.zip seen := by
        obtain ⟨i, hi', he⟩ := List.mem_iff_getElem.1 hx1
        have hi2 : i < seen.length := by omega
        refine ⟨seen[i], List.mem_iff_getElem.2 ⟨i, by rw [List.length_zip]; omega, ?_⟩⟩
        rw [List.getElem_zip, he]
      obtain ⟨s, hs⟩ := this
      have := (hz _ hs).1
      dsimp only at this
      rw [this]
      rfl
    rw [if_pos hall]
    unfold accumulateStep
    obtain ⟨ps, k1, k2, k3, k4⟩ := accumulate_all c world ranks seen xs hsl (by omega) hz
    rw [k1]
    dsimp only
    have hsl' : ps.length = (List.zipWith (fun s x => s ++ x) seen xs).length := by
      rw [List.length_zipWith]; omega
    have hen : ps.all (fun p => enough p.1) =
        (List.zipWith (fun s x => s ++ x) seen xs).all (fun s => decide (target c world ≤ s.length)) :=
      all_zip _ _ _ _ hsl' (fun x hx => (k4 x hx).2.2.2)
    rw [hen]
    unfold idealForward
    dsimp only
    by_cases he : (List.zipWith (fun s x => s ++ x) seen xs).all (fun s => decide (target c world ≤ s.length)) = true
    · rw [if_pos he, if_pos he]
      have hgx : ps.map (fun p => (p.2.rng, p.1.batches.flatten)) =
          rngs.zip ((List.zipWith (fun s x => s ++ x) seen xs).map (fun s => s.take (target c world))) := by
        have h1 : ps.map (fun p => (p.2.rng, p.1.batches.flatten)) =
            (ps.map (fun p => p.2.rng)).zip (ps.map (fun p => p.1.batches.flatten)) := by rw [List.zip_map']
        rw [h1]
        congr 1
        · rw [← hrng, ← k2, List.map_map]; rfl
        · exact map_zip _ _ _ _ hsl' (fun x hx => (k4 x hx).2.1)
      rw [hgx]
      obtain ⟨gx, hgxe⟩ : ∃ gx, gx = rngs.zip ((List.zipWith (fun s x => s ++ x) seen xs).map (fun s => s.take (target c world))) :=
        ⟨_, rfl⟩
      rw [← hgxe]
      have hglen : gx.length = world := by
        rw [hgxe, List.length_zip, List.length_map, ← hsl', k3, ← hrng, List.length_map, hl, Nat.min_self]
      have htl : ∀ p ∈ gx, p.2.length = target c world := by
        intro p hp
        rw [hgxe] at hp
        have := (List.of_mem_zip hp).2
        obtain ⟨s, hs, hse⟩ := List.mem_map.1 this
        rw [List.all_eq_true] at he
        have h2 := he s hs
        simp only [decide_eq_true_eq] at h2
        rw [← hse, List.length_take]
        omega
      obtain ⟨rs, h1, h2, h3, h4, h5⟩ := initEmbed_eq c hc (target c world) gx
        (by intro h; rw [h] at hglen; simp at hglen; omega) htl (target_pos c hc world hw)
        (by rw [hglen]; exact target_covers c hc world hw)
      rw [h1]
      refine ⟨rs, rfl, ⟨?_, ?_⟩, by omega, h5, ?_⟩
      · have := congrArg (List.map Prod.snd) h2
        rw [List.map_map, List.map_map] at this
        simpa [Function.comp_def] using this
      · intro r hr
        refine ⟨(h4 r hr).1, ?_⟩
        have hmem : (r.book.data, r.rng) ∈ rs.map (fun r => (r.book.data, r.rng)) := List.mem_map.2 ⟨r, hr, rfl⟩
        rw [h2] at hmem
        obtain ⟨g, -, hg⟩ := List.mem_map.1 hmem
        exact (Prod.mk.inj hg).1.symm
      · intro _ r hr p hp
        rw [(h4 r hr).2] at hp
        cases hp
    · rw [if_neg he, if_neg he]
      refine ⟨_, rfl, ⟨?_, ?_, ?_⟩, ?_, ?_⟩
      · rw [List.map_map, ← hrng, ← k2, List.map_map]
        rfl
      · rw [← hsl', List.length_map]
      · intro x hx
        rw [List.zip_map_left] at hx
        obtain ⟨y, hy, rfl⟩ := List.mem_map.1 hx
        obtain ⟨b1, b2, b3, -⟩ := k4 y hy
        refine ⟨?_, y.1.1, rfl, b1, b2, b3⟩
        have hy1 : y.1.2 ∈ ranks := by
          rw [← k2]; exact List.mem_map.2 ⟨y.1, (List.of_mem_zip hy).1, rfl⟩
        rw [List.all_eq_true] at hall
        obtain ⟨i, hi', hie⟩ := List.mem_iff_getElem.1 hy1
        have := hall (ranks[i], xs[i]'(by omega)) (List.mem_iff_getElem.2 ⟨i, by rw [hzl]; omega, by
          rw [List.getElem_zip]⟩)
        simp only [Bool.not_eq_true'] at this
        show y.1.2.inited = false
        rw [← hie]
        exact this
      · rw [List.length_map]; omega
      · intro s hs v hvm
        rw [← List.map_uncurry_zip_eq_zipWith] at hs
        obtain ⟨y, hy, rfl⟩ := List.mem_map.1 hs
        have hy2 := List.of_mem_zip hy
        rcases List.mem_append.1 hvm with h | h
        · exact hi _ hy2.1 v h
        · exact hv3 _ hy2.2 v h
  | trained d rngs =>
    obtain ⟨hrng, hall⟩ := hm
    obtain ⟨hg, hbd⟩ := hi
    unfold forwardStep
    obtain ⟨r0, rest, hcons⟩ := List.exists_cons_of_ne_nil hne
    have hno : ¬ (ranks.zip xs).all (fun r => !r.1.inited) = true := by
      rw [List.all_eq_true]
      intro hcontra
      have hm0 : r0 ∈ ranks.zip xs := by rw [hcons]; exact List.mem_cons_self ..
      have h1 := hcontra r0 hm0
      have h2 := (hall r0.1 (List.of_mem_zip hm0).1).1
      rw [h2] at h1
      cases h1
    have hyes : (ranks.zip xs).all (fun r => r.1.inited) = true := by
      rw [List.all_eq_true]
      intro x hx
      exact (hall x.1 (List.of_mem_zip hx).1).1
    rw [if_neg hno, if_pos hyes]
    obtain ⟨tr, htr⟩ : ∃ tr, tr = (ranks.zip xs).map (fun r => ((⟨r.1.book, r.1.rng⟩ : Rank G), r.2)) := ⟨_, rfl⟩
    rw [← htr]
    have hmem : ∀ q ∈ tr, ∃ r ∈ ranks, ∃ x ∈ xs, q = (⟨r.book, r.rng⟩, x) := by
      intro q hq
      rw [htr] at hq
      obtain ⟨y, hy, rfl⟩ := List.mem_map.1 hq
      exact ⟨y.1, (List.of_mem_zip hy).1, y.2, (List.of_mem_zip hy).2, rfl⟩
    have htl : tr.length = world := by rw [htr, List.length_map, hzl]
    obtain ⟨rs, g1, g2, g3, g4, g5⟩ := trainStep_exact c.base hc.base d hg tr
      (by intro h; rw [h] at htl; simp at htl; omega)
      (by
        intro q hq
        obtain ⟨r, hr, x, -, rfl⟩ := hmem q hq
        exact (hall r hr).2)
      (by
        intro q hq
        obtain ⟨r, -, x, hx, rfl⟩ := hmem q hq
        exact hv2 x hx)
      (by
        intro hone q hq p hp
        obtain ⟨r, hr, x, -, rfl⟩ := hmem q hq
        exact hbd (by omega) r hr p hp)
    have hgx : tr.map (fun r => (r.1.rng, r.2)) = rngs.zip xs := by
      rw [htr, List.map_map, ← hrng, List.zip_map_left]
      rfl
    rw [hgx] at g1 g2 g4
    rw [g1]
    dsimp only
    unfold idealForward
    dsimp only
    rw [htl]
    refine ⟨_, rfl, ⟨?_, ?_⟩, ?_, g4, ?_⟩
    · have h1 : (List.zipWith (fun (r : InitRank G × List Vec) (q : Rank G) => ({ r.1 with book := q.book, rng := q.rng } : InitRank G))
          (ranks.zip xs) rs).map (fun r => r.rng) = rs.map (fun r => r.rng) := by
        rw [← List.map_uncurry_zip_eq_zipWith, List.map_map]
        have h2 : rs = ((ranks.zip xs).zip rs).map Prod.snd := (List.map_snd_zip (by omega)).symm
        conv_rhs => rw [h2, List.map_map]
        rfl
      rw [h1]
      have := congrArg (List.map Prod.snd) g2
      rw [List.map_map, List.map_map] at this
      simpa [Function.comp_def] using this
    · intro r hr
      rw [← List.map_uncurry_zip_eq_zipWith] at hr
      obtain ⟨y, hy, rfl⟩ := List.mem_map.1 hr
      obtain ⟨hy1, hy2⟩ := List.of_mem_zip hy
      refine ⟨(hall _ (List.of_mem_zip hy1).1).1, ?_⟩
      have hmem : (y.2.book.data, y.2.rng) ∈ rs.map (fun r => (r.book.data, r.rng)) := List.mem_map.2 ⟨y.2, hy2, rfl⟩
      rw [g2] at hmem
      obtain ⟨g, -, hge⟩ := List.mem_map.1 hmem
      exact (Prod.mk.inj hge).1.symm
    · rw [List.length_zipWith]; omega
    · intro hone r hr
      rw [← List.map_uncurry_zip_eq_zipWith] at hr
      obtain ⟨y, hy, rfl⟩ := List.mem_map.1 hr
      obtain ⟨-, hy2⟩ := List.of_mem_zip hy
      exact g5 (by omega) y.2 hy2

theorem life_ok {D : Type} [DecidableEq D] (c : InitCfg G) (hc : c.Valid) (world : Nat) (hw : 0 < world) (desc : D)
    (events : List LifeEvent) : ∀ (ranks : List (InitRank G)) (st : Ideal G), LifeInv c world ranks st →
    (∀ e ∈ events, e.Valid c world) →
    ∃ rs, life c desc ranks events = .ok (rs, (idealLife c world st events).2) ∧
      LifeInv c world rs (idealLife c world st events).1 := by
  induction events with
  | nil => intro ranks st h _; exact ⟨ranks, rfl, h⟩
  | cons e events ih =>
    intro ranks st h hv
    have hv' : ∀ e ∈ events, e.Valid c world := fun x hx => hv x (List.mem_cons_of_mem _ hx)
    cases e with
    | restart =>
      obtain ⟨rs, h1, h2⟩ := restart_all c world desc ranks st h
      obtain ⟨rs', h3, h4⟩ := ih rs st h2 hv'
      refine ⟨rs', ?_, h4⟩
      rw [life, h1]
      exact h3
    | forward xs =>
      obtain ⟨rs, h1, h2⟩ := forward_ok c hc world hw ranks st h xs (hv _ (List.mem_cons_self ..))
      obtain ⟨rs', h3, h4⟩ := ih rs _ h2 hv'
      refine ⟨rs', ?_, h4⟩
      rw [life, h1]
      dsimp only
      rw [h3]
      rfl

/-- From new codebooks on all ranks, every history of training forwards and restarts (save everything, start new
processes, restore) goes like the ideal one, in which restarts do nothing: nothing is quantised until every rank has
seen `target` entries; in the forward in which the last rank reaches it, all ranks make the codebook from the first
`target` entries of every rank; afterwards it is trained. In particular nothing is ever refused. -/
theorem C79_life {D : Type} [DecidableEq D] (c : InitCfg G) (hc : c.Valid) (world : Nat) (hw : 0 < world) (desc : D)
    (rngs : List G) (hr : rngs.length = world) (events : List LifeEvent) (hv : ∀ e ∈ events, e.Valid c world) :
    ∃ ranks, life c desc (rngs.map (freshRank c world)) events =
        .ok (ranks, (idealLife c world (.collecting (List.replicate world []) rngs) events).2) ∧
      Matches c world ranks (idealLife c world (.collecting (List.replicate world []) rngs) events).1 := by
  obtain ⟨rs, h1, h2, -⟩ := life_ok c hc world hw desc events (rngs.map (freshRank c world))
    (.collecting (List.replicate world []) rngs) (by
      refine ⟨⟨?_, ?_, ?_⟩, by simpa using hr, ?_⟩
      · rw [List.map_map]
        exact List.map_id rngs
      · simp [hr]
      · intro x hx
        obtain ⟨h1, h2⟩ := List.of_mem_zip hx
        obtain ⟨g, -, hg⟩ := List.mem_map.1 h1
        rw [← hg, (List.mem_replicate.1 h2).2]
        exact ⟨rfl, _, rfl, rfl, by simp, rfl⟩
      · intro s hs v hvm
        rw [(List.mem_replicate.1 hs).2] at hvm
        cases hvm) hv
  exact ⟨rs, h1, h2⟩

/-- Every rank collects the least number of entries with which all ranks together have `multiplier` entries per code. -/
theorem C79_target (c : InitCfg G) (world : Nat) (hw : 0 < world) (n : Nat) :
    c.base.size * c.multiplier ≤ n * world ↔ target c world ≤ n := by
  unfold target
  rw [Nat.div_le_iff_le_mul_add_pred hw]
  rw [Nat.mul_comm n world]
  omega

/-- A payload is accepted only if it is of this version and these settings, agrees with the loaded model about
initialisation, and holds as many samples of the right dimension as it says, within the target, none if initialised.
Then exactly its samples are pending. -/
theorem C79_payload {D : Type} [DecidableEq D] (c : InitCfg G) (world : Nat) (desc : D) (r r' : InitRank G) (s : Payload D)
    (h : loadPending c world desc r s = .ok r') :
    s.version = 1 ∧ s.descriptor = desc ∧ s.inited = r.inited ∧ (s.rows : Int) = s.count ∧ s.dim = c.base.dim ∧
      s.rows ≤ target c world ∧ (s.inited = true → s.rows = 0 ∧ r' = r) ∧
      (s.inited = false → s.samples.length = s.rows → ∀ p, r.pending = some p → ∃ p', r'.pending = some p' ∧
        p'.batches.flatten = s.samples ∧ p'.count = s.samples.length ∧ p'.target = p.target) := by
  unfold loadPending at h
  by_cases h1 : s.version ≠ 1
  · rw [if_pos h1] at h; cases h
  rw [if_neg h1] at h
  by_cases h2 : s.descriptor ≠ desc
  · rw [if_pos h2] at h; cases h
  rw [if_neg h2] at h
  by_cases h3 : r.inited ≠ s.inited
  · rw [if_pos h3] at h; cases h
  rw [if_neg h3] at h
  by_cases h4 : ¬ (0 ≤ s.count ∧ s.count ≤ target c world)
  · rw [if_pos h4] at h; cases h
  rw [if_neg h4] at h
  by_cases h5 : ¬ ((s.rows : Int) = s.count ∧ s.dim = c.base.dim)
  · rw [if_pos h5] at h; cases h
  rw [if_neg h5] at h
  by_cases h6 : (s.inited && decide (s.count ≠ 0)) = true
  · rw [if_pos h6] at h; cases h
  rw [if_neg h6] at h
  rw [not_not] at h1 h2 h3 h4 h5
  obtain ⟨h5a, h5b⟩ := h5
  refine ⟨h1, h2, h3.symm, h5a, h5b, by omega, ?_, ?_⟩
  · intro hi
    rw [if_pos hi] at h
    rw [hi] at h6
    simp only [Bool.true_and, decide_eq_true_eq, not_not] at h6
    exact ⟨by omega, (Except.ok.inj h).symm⟩
  · intro hi hlen p hp
    rw [if_neg (by rw [hi]; simp)] at h
    have h' := Except.ok.inj h
    rw [← h', hp]
    refine ⟨_, rfl, ?_, ?_, rfl⟩
    · dsimp only
      by_cases hz : s.count = 0
      · rw [if_neg (by simpa using hz)]
        have : s.samples.length = 0 := by omega
        rw [List.length_eq_zero_iff.1 this]
        rfl
      · rw [if_pos hz]
        simp
    · dsimp only
      omega

end Verif.Vq
