/-
The launch touches every element of every fast parameter exactly once.
-/
import Verif.Adam.Apply

set_option linter.unusedSectionVars false

namespace Verif.Adam

variable {K : Type} [Field K] [LinearOrder K]

theorem block_pos : 0 < block := by unfold block; omega

theorem mem_chunkMap (numels : List Nat) (e : Nat × Nat) :
    e ∈ chunkMap numels ↔ ∃ n, numels[e.1]? = some n ∧ ∃ c, c < (n + block - 1) / block ∧ e.2 = c * block := by
  unfold chunkMap
  simp only [List.mem_flatMap, List.mem_map, List.mem_range]
  constructor
  · rintro ⟨x, hx, c, hc, rfl⟩
    refine ⟨x.1, ?_, c, hc, rfl⟩
    exact List.mem_zipIdx_iff_getElem?.mp hx
  · rintro ⟨n, hn, c, hc, he⟩
    exact ⟨(n, e.1), List.mem_zipIdx_iff_getElem?.mpr hn, c, hc, Prod.ext rfl he.symm⟩

theorem nodup_chunkMap (numels : List Nat) : (chunkMap numels).Nodup := by
  unfold chunkMap
  rw [List.nodup_flatMap]
  constructor
  · intro x _
    refine List.Nodup.map ?_ List.nodup_range
    intro a b h
    exact Nat.eq_of_mul_eq_mul_right block_pos (Prod.mk.inj h).2
  · have h : numels.zipIdx.Pairwise (fun a b => a.2 ≠ b.2) := by
      have := List.nodup_range (n := numels.length)
      have e : numels.zipIdx.map (·.2) = List.range numels.length := by
        rw [List.zipIdx_map_snd, List.range_eq_range']
      rw [← e] at this
      exact List.pairwise_map.mp this
    refine h.imp ?_
    intro a b hab
    rw [Function.onFun, List.disjoint_left]
    intro x hx hy
    simp only [List.mem_map] at hx hy
    obtain ⟨_, _, rfl⟩ := hx
    obtain ⟨_, _, h⟩ := hy
    exact hab (Prod.mk.inj h).1.symm

/-- The element a lane works on. -/
def laneKey (plan : Plan) (e : Nat × Nat) : Option (Nat × Nat) :=
  match plan.chunks[e.1]? with
  | none => none
  | some (pos, start) =>
    match plan.tn[pos]? with
    | none => none
    | some n => if start + e.2 < n then some (pos, start + e.2) else none

theorem laneKey_eq {plan : Plan} {e k : Nat × Nat} : laneKey plan e = some k ↔
    ∃ start n, plan.chunks[e.1]? = some (k.1, start) ∧ plan.tn[k.1]? = some n ∧ k.2 = start + e.2 ∧ k.2 < n := by
  unfold laneKey
  constructor
  · intro h
    cases hc : plan.chunks[e.1]? with
    | none => rw [hc] at h; cases h
    | some c =>
      rw [hc] at h
      simp only at h
      cases hn : plan.tn[c.1]? with
      | none => rw [hn] at h; cases h
      | some n =>
        rw [hn] at h
        simp only at h
        by_cases hlt : c.2 + e.2 < n
        · rw [if_pos hlt] at h
          cases h
          exact ⟨c.2, n, rfl, hn, rfl, hlt⟩
        · rw [if_neg hlt] at h; cases h
  · rintro ⟨start, n, h1, h2, h3, h4⟩
    rw [h1]
    simp only
    rw [h2]
    simp only
    rw [if_pos (by omega), ← h3]

theorem mem_allLanes {plan : Plan} {e : Nat × Nat} :
    e ∈ allLanes plan ↔ e.1 < plan.chunks.length ∧ e.2 < block := by
  unfold allLanes
  simp only [List.mem_flatMap, List.mem_map, List.mem_range]
  constructor
  · rintro ⟨c, hc, l, hl, rfl⟩; exact ⟨hc, hl⟩
  · rintro ⟨h1, h2⟩; exact ⟨e.1, h1, e.2, h2, rfl⟩

theorem nodup_allLanes (plan : Plan) : (allLanes plan).Nodup := by
  unfold allLanes
  rw [List.nodup_flatMap]
  refine ⟨fun c _ => List.nodup_range.map fun a b h => (Prod.mk.inj h).2, ?_⟩
  refine (List.nodup_range).imp ?_
  intro a b hab
  rw [Function.onFun, List.disjoint_left]
  intro x hx hy
  simp only [List.mem_map] at hx hy
  obtain ⟨_, _, rfl⟩ := hx
  obtain ⟨_, _, h⟩ := hy
  exact hab (Prod.mk.inj h).1.symm

/-- The lanes that are not masked work on every element exactly once. -/
theorem keys_spec (plan : Plan) (hc : plan.chunks = chunkMap plan.tn) :
    ((allLanes plan).filterMap (laneKey plan)).Nodup
    ∧ ∀ k, k ∈ (allLanes plan).filterMap (laneKey plan) ↔ ∃ n, plan.tn[k.1]? = some n ∧ k.2 < n := by
  have hb := block_pos
  constructor
  · unfold List.Nodup
    rw [List.pairwise_filterMap]
    refine (nodup_allLanes plan).imp_of_mem ?_
    intro a b ha hb' hab k hk k' hk' he
    subst he
    obtain ⟨s1, n1, h1, _, h3, _⟩ := laneKey_eq.mp hk
    obtain ⟨s2, n2, g1, _, g3, _⟩ := laneKey_eq.mp hk'
    have m1 := (mem_chunkMap plan.tn (k.1, s1)).mp (hc ▸ List.mem_of_getElem? h1)
    have m2 := (mem_chunkMap plan.tn (k.1, s2)).mp (hc ▸ List.mem_of_getElem? g1)
    obtain ⟨_, _, c1, _, e1⟩ := m1
    obtain ⟨_, _, c2, _, e2⟩ := m2
    simp only at e1 e2
    have l1 := (mem_allLanes.mp ha).2
    have l2 := (mem_allLanes.mp hb').2
    have hcc : c1 = c2 := by
      have : (c1 * block + a.2) / block = (c2 * block + b.2) / block := by
        rw [← e1, ← e2, ← h3, ← g3]
      rw [Nat.mul_comm c1, Nat.mul_comm c2, Nat.mul_add_div hb, Nat.mul_add_div hb,
        Nat.div_eq_of_lt l1, Nat.div_eq_of_lt l2] at this
      simpa using this
    subst hcc
    have hs : s1 = s2 := by rw [e1, e2]
    subst hs
    have hi : a.1 = b.1 := by
      have hn : plan.chunks.Nodup := hc ▸ nodup_chunkMap _
      obtain ⟨q1, r1⟩ := List.getElem?_eq_some_iff.mp h1
      obtain ⟨q2, r2⟩ := List.getElem?_eq_some_iff.mp g1
      exact (List.Nodup.getElem_inj_iff hn).mp (r1.trans r2.symm)
    exact hab (Prod.ext hi (by omega))
  · intro k
    rw [List.mem_filterMap]
    constructor
    · rintro ⟨e, _, he⟩
      obtain ⟨_, n, _, h2, _, h4⟩ := laneKey_eq.mp he
      exact ⟨n, h2, h4⟩
    · rintro ⟨n, hn, hlt⟩
      have hm : (k.1, k.2 / block * block) ∈ plan.chunks := by
        rw [hc, mem_chunkMap]
        refine ⟨n, hn, k.2 / block, ?_, rfl⟩
        show k.2 / block < (n + block - 1) / block
        unfold block
        omega
      obtain ⟨c, hc1, hc2⟩ := List.mem_iff_getElem.mp hm
      refine ⟨(c, k.2 % block), mem_allLanes.mpr ⟨hc1, Nat.mod_lt _ hb⟩, ?_⟩
      refine laneKey_eq.mpr ⟨k.2 / block * block, n, ?_, hn, ?_, hlt⟩
      · rw [← hc2]; exact List.getElem?_eq_getElem hc1
      · rw [Nat.mul_comm]; exact (Nat.div_add_mod _ _).symm

/-- The work on one element. -/
def keyAct (P : Platform K) (s : Scalars K) (plan : Plan) (k : Nat × Nat) (mem : Mem K) : Mem K :=
  match plan.tp[k.1]?, plan.tg[k.1]?, plan.tm[k.1]?, plan.tv[k.1]? with
  | some p, some g, some m, some v => laneAct P s ⟨(p, k.2), (g, k.2), (m, k.2), (v, k.2)⟩ mem
  | _, _, _, _ => mem

theorem runLane_eq (P : Platform K) (s : Scalars K) (plan : Plan) (mem : Mem K) (e : Nat × Nat) :
    runLane P s plan mem e = match laneKey plan e with
      | none => mem
      | some k => keyAct P s plan k mem := by
  unfold runLane laneKey keyAct
  cases plan.chunks[e.1]? with
  | none => rfl
  | some c =>
    simp only
    cases plan.tn[c.1]? with
    | none => cases plan.tp[c.1]? <;> cases plan.tg[c.1]? <;> cases plan.tm[c.1]? <;> cases plan.tv[c.1]? <;> rfl
    | some n =>
      simp only
      by_cases h : c.2 + e.2 < n
      · rw [if_pos h]
        simp only
        cases plan.tp[c.1]? <;> cases plan.tg[c.1]? <;> cases plan.tm[c.1]? <;> cases plan.tv[c.1]? <;>
          simp only [if_pos h]
      · rw [if_neg h]
        cases plan.tp[c.1]? <;> cases plan.tg[c.1]? <;> cases plan.tm[c.1]? <;> cases plan.tv[c.1]? <;>
          simp only [if_neg h]

theorem foldl_runLane (P : Platform K) (s : Scalars K) (plan : Plan) : ∀ (l : List (Nat × Nat)) (mem : Mem K),
    l.foldl (runLane P s plan) mem
      = (l.filterMap (laneKey plan)).foldl (fun mem k => keyAct P s plan k mem) mem
  | [], _ => rfl
  | e :: l, mem => by
    rw [List.foldl_cons, foldl_runLane P s plan l, runLane_eq]
    cases h : laneKey plan e with
    | none => rw [List.filterMap_cons_none h]
    | some k => rw [List.filterMap_cons_some h, List.foldl_cons]

/-- The tensors of a fast parameter that are written. -/
def fastBufs (o : Opt K) (i : Nat) : List Nat := [(o.param i).addr, avgAddr o i, sqAddr o i]

theorem launch_spec {own : Nat → Option (Nat × Role)} (P : Platform K) (hP : ∀ l, (P.sched l).Perm l)
    (h : Hyper K) (ps : List Nat) (plan : Plan) (o : Opt K) (hl : LiveBy own o) (hps : ∀ i ∈ ps, i ∈ o.all)
    (hp : PlanOK o h ps plan) (hne : plan.fast ≠ []) (t : Nat) (mem : Mem K) :
    (∀ c, (∀ i ∈ plan.fast, ∀ r, own c.1 ≠ some (i, r)) → launch P (scalars P h t) plan mem c = mem c)
    ∧ (∀ i ∈ plan.fast, ∀ c, own c.1 = some (i, .mx) → launch P (scalars P h t) plan mem c = mem c)
    ∧ ∀ i ∈ plan.fast, ∀ g s, o.grad i = some g → o.state i = some s → ∀ off, off < (o.param i).numel →
      cellWeight ⟨((o.param i).addr, off), (g.addr, off), (s.avg.addr, off), (s.sq.addr, off)⟩ none
          (launch P (scalars P h t) plan mem)
        = adamw P.sqrt h t (mem (g.addr, off))
          (cellWeight ⟨((o.param i).addr, off), (g.addr, off), (s.avg.addr, off), (s.sq.addr, off)⟩ none mem) := by
  obtain ⟨hams, hmax⟩ := hp.flags hne
  obtain ⟨hkn, hkm⟩ := keys_spec plan hp.chunks
  have hpm := (hP (allLanes plan)).filterMap (laneKey plan)
  obtain ⟨L, hL⟩ : ∃ L, L = (P.sched (allLanes plan)).filterMap (laneKey plan) := ⟨_, rfl⟩
  rw [← hL] at hpm
  have hLn : L.Nodup := hpm.nodup_iff.mpr hkn
  have hLm : ∀ k, k ∈ L ↔ ∃ i, plan.fast[k.1]? = some i ∧ k.2 < (o.param i).numel := by
    intro k
    rw [hpm.mem_iff, hkm, hp.tn]
    simp only [List.getElem?_map, Option.map_eq_some_iff]
    constructor
    · rintro ⟨n, ⟨i, h1, rfl⟩, h2⟩; exact ⟨i, h1, h2⟩
    · rintro ⟨i, h1, h2⟩; exact ⟨_, ⟨i, h1, rfl⟩, h2⟩
  have hfn : plan.fast.Nodup := (List.nodup_append.mp hp.nodup).1
  have hlaunch : launch P (scalars P h t) plan mem
      = L.foldl (fun mem k => keyAct P (scalars P h t) plan k mem) mem := by
    unfold launch
    rw [foldl_runLane, hL]
  have hall : ∀ i ∈ plan.fast, i ∈ o.all := fun i hi => hps i ((hp.memb i).mp (Or.inl hi)).1
  have hact : ∀ k i g s, plan.fast[k.1]? = some i → o.grad i = some g → o.state i = some s →
      keyAct P (scalars P h t) plan k
        = laneAct P (scalars P h t) ⟨((o.param i).addr, k.2), (g.addr, k.2), (s.avg.addr, k.2), (s.sq.addr, k.2)⟩ := by
    intro k i g s hk hg hs
    funext m
    unfold keyAct
    rw [hp.tp, hp.tg, hp.tm, hp.tv]
    simp only [List.getElem?_map, hk, Option.map_some, gradAddr, avgAddr, sqAddr, hg, hs, Option.getD_some]
  have hdist : ∀ i ∈ plan.fast, ∀ g s, o.grad i = some g → o.state i = some s → ∀ x,
      Cells.Distinct ⟨((o.param i).addr, x), (g.addr, x), (s.avg.addr, x), (s.sq.addr, x)⟩ none := by
    intro i hi g s hg hs x
    have a := (hl.param i (hall i hi)).1
    have b := (hl.avg i (hall i hi) s hs).1
    have c := (hl.sq i (hall i hi) s hs).1
    have d := (hl.grad i (hall i hi) g hg).1
    have key : ∀ u v : Nat, own u ≠ own v → ((u, x) : Cell) ≠ (v, x) := by
      intro u v huv he
      exact huv (by rw [(Prod.mk.inj he).1])
    refine ⟨key _ _ ?_, key _ _ ?_, key _ _ ?_, key _ _ ?_, key _ _ ?_, key _ _ ?_, ?_, ?_, ?_, ?_⟩ <;>
      first
      | (rw [a, d]; simp; done)
      | (rw [a, b]; simp; done)
      | (rw [a, c]; simp; done)
      | (rw [d, b]; simp; done)
      | (rw [d, c]; simp; done)
      | (rw [b, c]; simp; done)
      | (intro y hy; cases hy)
  have hloc : ∀ k, Local (keyAct P (scalars P h t) plan k)
      (fun d => ∃ i, plan.fast[k.1]? = some i ∧ d.2 = k.2 ∧ d.1 ∈ fastBufs o i)
      (fun d => ∃ i, plan.fast[k.1]? = some i ∧ d.2 = k.2 ∧ (d.1 ∈ fastBufs o i ∨ ∃ g, o.grad i = some g ∧ d.1 = g.addr)) := by
    intro k
    cases hk : plan.fast[k.1]? with
    | none =>
      have e : keyAct P (scalars P h t) plan k = fun m => m := by
        funext m
        unfold keyAct
        rw [hp.tp]
        simp only [List.getElem?_map, hk, Option.map_none]
      rw [e]
      refine ⟨fun _ _ _ => rfl, ?_⟩
      rintro m m' _ c ⟨i, hi, _⟩
      cases hi
    | some i =>
      have hi := List.mem_of_getElem? hk
      obtain ⟨g, s, hg, hs, _⟩ := hp.fast i hi
      rw [hact k i g s hk hg hs]
      have hbuf : fastBufs o i = [(o.param i).addr, s.avg.addr, s.sq.addr] := by
        unfold fastBufs avgAddr sqAddr; rw [hs]; rfl
      refine (laneAct_local P h hams hmax t _ (hdist i hi g s hg hs k.2)).congr ?_ ?_
      · intro d
        constructor
        · rintro (rfl | rfl | rfl)
          all_goals
            refine ⟨i, rfl, rfl, ?_⟩
            rw [hbuf]
            simp
        · rintro ⟨j, hj, h2, h3⟩
          cases hj
          rw [hbuf] at h3
          simp only [List.mem_cons, List.not_mem_nil, or_false] at h3
          rcases h3 with h3 | h3 | h3
          · exact Or.inl (Prod.ext h3 h2)
          · exact Or.inr (Or.inl (Prod.ext h3 h2))
          · exact Or.inr (Or.inr (Prod.ext h3 h2))
      · intro d
        constructor
        · rintro (rfl | rfl | rfl | rfl)
          · exact ⟨i, rfl, rfl, Or.inl (by rw [hbuf]; simp)⟩
          · exact ⟨i, rfl, rfl, Or.inl (by rw [hbuf]; simp)⟩
          · exact ⟨i, rfl, rfl, Or.inl (by rw [hbuf]; simp)⟩
          · exact ⟨i, rfl, rfl, Or.inr ⟨g, hg, rfl⟩⟩
        · rintro ⟨j, hj, h2, h3⟩
          cases hj
          rcases h3 with h3 | ⟨g', hg', h3⟩
          · rw [hbuf] at h3
            simp only [List.mem_cons, List.not_mem_nil, or_false] at h3
            rcases h3 with h3 | h3 | h3
            · exact Or.inl (Prod.ext h3 h2)
            · exact Or.inr (Or.inl (Prod.ext h3 h2))
            · exact Or.inr (Or.inr (Or.inl (Prod.ext h3 h2)))
          · rw [hg] at hg'; cases hg'
            exact Or.inr (Or.inr (Or.inr (Prod.ext h3 h2)))
  have hown : ∀ i ∈ plan.fast, ∀ a ∈ fastBufs o i, ∃ r, own a = some (i, r) ∧ r ≠ .mx := by
    intro i hi a ha
    obtain ⟨g, s, hg, hs, _⟩ := hp.fast i hi
    have hbuf : fastBufs o i = [(o.param i).addr, s.avg.addr, s.sq.addr] := by
      unfold fastBufs avgAddr sqAddr; rw [hs]; rfl
    rw [hbuf] at ha
    simp only [List.mem_cons, List.not_mem_nil, or_false] at ha
    rcases ha with rfl | rfl | rfl
    · exact ⟨_, (hl.param i (hall i hi)).1, by decide⟩
    · exact ⟨_, (hl.avg i (hall i hi) s hs).1, by decide⟩
    · exact ⟨_, (hl.sq i (hall i hi) s hs).1, by decide⟩
  have hdis : ∀ k ∈ L, ∀ k' ∈ L, k ≠ k' → ∀ c : Cell,
      (∃ i, plan.fast[k.1]? = some i ∧ c.2 = k.2 ∧ c.1 ∈ fastBufs o i) →
      ¬ (∃ i, plan.fast[k'.1]? = some i ∧ c.2 = k'.2 ∧ (c.1 ∈ fastBufs o i ∨ ∃ g, o.grad i = some g ∧ c.1 = g.addr))
      ∧ ¬ (∃ i, plan.fast[k'.1]? = some i ∧ c.2 = k'.2 ∧ c.1 ∈ fastBufs o i) := by
    rintro k _ k' _ hne c ⟨i, hi, h2, h3⟩
    have him := List.mem_of_getElem? hi
    obtain ⟨r, hr, _⟩ := hown i him _ h3
    have key : ¬ (∃ i, plan.fast[k'.1]? = some i ∧ c.2 = k'.2 ∧ c.1 ∈ fastBufs o i) := by
      rintro ⟨j, hj, g2, g3⟩
      obtain ⟨r', hr', _⟩ := hown j (List.mem_of_getElem? hj) _ g3
      rw [hr] at hr'
      have : i = j := (Prod.mk.inj (Option.some.inj hr')).1
      subst this
      have : k.1 = k'.1 := by
        obtain ⟨q1, r1⟩ := List.getElem?_eq_some_iff.mp hi
        obtain ⟨q2, r2⟩ := List.getElem?_eq_some_iff.mp hj
        exact (List.Nodup.getElem_inj_iff hfn).mp (r1.trans r2.symm)
      exact hne (Prod.ext this (h2.symm.trans g2))
    refine ⟨?_, key⟩
    rintro ⟨j, hj, g2, g3 | ⟨g, hg, g3⟩⟩
    · exact key ⟨j, hj, g2, g3⟩
    · have := (hl.grad j (hall j (List.mem_of_getElem? hj)) g hg).1
      rw [← g3, hr] at this
      cases this
  obtain ⟨f1, f2⟩ := foldl_local' _ _ _ hloc L hLn hdis mem
  rw [hlaunch]
  refine ⟨?_, ?_, ?_⟩
  · intro c hc
    refine f1 c fun k _ => ?_
    rintro ⟨i, hi, _, h3⟩
    obtain ⟨r, hr, _⟩ := hown i (List.mem_of_getElem? hi) _ h3
    exact hc i (List.mem_of_getElem? hi) r hr
  · intro i _ c hc
    refine f1 c fun k _ => ?_
    rintro ⟨j, hj, _, h3⟩
    obtain ⟨r, hr, hne⟩ := hown j (List.mem_of_getElem? hj) _ h3
    rw [hc] at hr
    exact hne (Prod.mk.inj (Option.some.inj hr)).2.symm
  · intro i hi g s hg hs off hoff
    obtain ⟨pos, hpos⟩ := List.mem_iff_getElem?.mp hi
    have hk : (pos, off) ∈ L := (hLm _).mpr ⟨i, hpos, hoff⟩
    have hbuf : fastBufs o i = [(o.param i).addr, s.avg.addr, s.sq.addr] := by
      unfold fastBufs avgAddr sqAddr; rw [hs]; rfl
    have ev := laneAct_eval P h hams hmax t _ (hdist i hi g s hg hs off) mem
    rw [← ev, ← hact (pos, off) i g s hpos hg hs]
    have e : ∀ a ∈ fastBufs o i, L.foldl (fun mem k => keyAct P (scalars P h t) plan k mem) mem (a, off)
        = keyAct P (scalars P h t) plan (pos, off) mem (a, off) := fun a ha =>
      f2 (pos, off) hk (a, off) ⟨i, hpos, rfl, ha⟩
    unfold cellWeight
    simp only
    rw [e _ (by rw [hbuf]; simp), e _ (by rw [hbuf]; simp), e _ (by rw [hbuf]; simp)]

end Verif.Adam
