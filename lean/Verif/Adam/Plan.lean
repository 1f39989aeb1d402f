/-
The launch plan: what a usable plan satisfies, and that `_launch_plan` always returns one.
-/
import Verif.Adam.Inv

set_option linter.unusedSectionVars false

namespace Verif.Adam

variable {K : Type} [Field K] [LinearOrder K]

/-- The plan fits the optimizer as it is now. -/
structure PlanOK (o : Opt K) (h : Hyper K) (ps : List Nat) (plan : Plan) : Prop where
  pa : plan.paramAddrs = paramAddrs o ps
  ga : plan.gradAddrs = gradAddrs o ps
  gz : ∀ i ∈ ps, ∀ g, o.grad i = some g → g.addr ≠ 0
  memb : ∀ i, (i ∈ plan.fast ∨ i ∈ plan.slow) ↔ (i ∈ ps ∧ (o.grad i).isSome)
  nodup : (plan.fast ++ plan.slow).Nodup
  st : ∀ i ∈ ps, (o.grad i).isSome → (o.state i).isSome
  lay : plan.layouts = plan.fast.map fun i => flatLayout (o.param i)
  tp : plan.tp = plan.fast.map fun i => (o.param i).addr
  tg : plan.tg = plan.fast.map (gradAddr o)
  tm : plan.tm = plan.fast.map (avgAddr o)
  tv : plan.tv = plan.fast.map (sqAddr o)
  tn : plan.tn = plan.fast.map fun i => (o.param i).numel
  chunks : plan.chunks = chunkMap plan.tn
  fast : ∀ i ∈ plan.fast, ∃ g s, o.grad i = some g ∧ o.state i = some s
    ∧ (flatLayout (o.param i)).isSome ∧ flatLayout g = flatLayout (o.param i)
    ∧ flatLayout s.avg = flatLayout (o.param i) ∧ flatLayout s.sq = flatLayout (o.param i)
  steps : ∀ i ∈ plan.fast, ∀ j ∈ plan.fast, stepOf o i = stepOf o j
  flags : plan.fast ≠ [] → h.amsgrad = false ∧ h.maximize = false

/-- Between two steps: either no parameter of the group moved, or both some parameter address and
some gradient address changed. -/
def Honest (o o1 : Opt K) (ps : List Nat) : Prop :=
  (∀ i ∈ ps, o1.param i = o.param i) ∨
    (paramAddrs o1 ps ≠ paramAddrs o ps ∧ gradAddrs o1 ps ≠ gradAddrs o ps)

/-- The plan fitted an earlier state with the same optimizer state tensors and step counts. -/
def Stale (o1 : Opt K) (h : Hyper K) (ps : List Nat) (plan : Plan) : Prop :=
  ∃ o, PlanOK o h ps plan ∧ (∀ i ∈ ps, o1.state i = o.state i) ∧ Honest o o1 ps

theorem gradAddrs_get {o o1 : Opt K} {ps : List Nat} (h : gradAddrs o ps = gradAddrs o1 ps) :
    ∀ i ∈ ps, gradAddr o i = gradAddr o1 i := by
  intro i hi
  have := List.map_inj_left.mp h i hi
  unfold gradAddr
  cases h1 : o.grad i <;> cases h2 : o1.grad i <;> simp only [h1, h2, Option.map_none, Option.map_some,
    Option.getD_none, Option.getD_some] at this ⊢ <;> exact this

theorem gradAddrs_pattern {o o1 : Opt K} {ps : List Nat}
    (hz : ∀ i ∈ ps, ∀ g, o.grad i = some g → g.addr ≠ 0)
    (hz1 : ∀ i ∈ ps, ∀ g, o1.grad i = some g → g.addr ≠ 0)
    (h : ((gradAddrs o ps).zip (gradAddrs o1 ps)).all (fun e => decide ((e.1 = 0) ↔ (e.2 = 0))) = true) :
    ∀ i ∈ ps, (o.grad i).isSome = (o1.grad i).isSome := by
  intro i hi
  rw [List.all_eq_true] at h
  unfold gradAddrs at h
  rw [List.zip_map', ] at h
  have := h _ (List.mem_map_of_mem hi)
  rw [decide_eq_true_iff] at this
  cases h1 : o.grad i <;> cases h2 : o1.grad i <;> simp only [h1, h2] at this ⊢
  · exact absurd (this.mp trivial) (hz1 i hi _ h2)
  · exact absurd (this.mpr trivial) (hz i hi _ h1)
  · rfl

theorem gradAddrs_pattern_eq {o o1 : Opt K} {ps : List Nat}
    (hz : ∀ i ∈ ps, ∀ g, o.grad i = some g → g.addr ≠ 0)
    (hz1 : ∀ i ∈ ps, ∀ g, o1.grad i = some g → g.addr ≠ 0)
    (h : gradAddrs o ps = gradAddrs o1 ps) :
    ∀ i ∈ ps, (o.grad i).isSome = (o1.grad i).isSome := by
  intro i hi
  have := List.map_inj_left.mp h i hi
  cases h1 : o.grad i <;> cases h2 : o1.grad i <;> simp only [h1, h2] at this ⊢
  · exact absurd this.symm (hz1 i hi _ h2)
  · exact absurd this (hz i hi _ h1)
  · rfl

theorem layouts_get {o o1 : Opt K} {h : Hyper K} {ps : List Nat} {plan : Plan} (hp : PlanOK o h ps plan)
    (hl : layoutsUnchanged o1 plan = true) :
    ∀ i ∈ plan.fast, ∃ g, o1.grad i = some g ∧ flatLayout g = flatLayout (o.param i) := by
  intro i hi
  unfold layoutsUnchanged at hl
  rw [hp.lay, List.all_eq_true, List.zip_map_right] at hl
  have hz : (i, i) ∈ plan.fast.zip plan.fast := by
    rw [← List.map_id plan.fast, List.zip_map']
    exact List.mem_map.mpr ⟨i, by simpa using hi, rfl⟩
  have := hl (i, flatLayout (o.param i)) (List.mem_map.mpr ⟨(i, i), hz, rfl⟩)
  unfold gradUnchanged at this
  cases hg : o1.grad i with
  | none => rw [hg] at this; exact absurd this (by simp)
  | some g =>
    rw [hg] at this
    simp only [Bool.and_eq_true, decide_eq_true_iff] at this
    exact ⟨g, rfl, this.2⟩

/-- A stale plan whose gradients kept their layouts, with the parameters in place, fits with the
current gradient table. -/
theorem PlanOK.refresh {o o1 : Opt K} {h : Hyper K} {ps : List Nat} {plan : Plan} (hp : PlanOK o h ps plan)
    (hs : ∀ i ∈ ps, o1.state i = o.state i) (hpar : ∀ i ∈ ps, o1.param i = o.param i)
    (hz1 : ∀ i ∈ ps, ∀ g, o1.grad i = some g → g.addr ≠ 0)
    (hpat : ∀ i ∈ ps, (o.grad i).isSome = (o1.grad i).isSome) (hl : layoutsUnchanged o1 plan = true) :
    PlanOK o1 h ps { plan with gradAddrs := gradAddrs o1 ps, tg := plan.fast.map (gradAddr o1) } := by
  have hfp : ∀ i ∈ plan.fast, i ∈ ps := fun i hi => ((hp.memb i).mp (Or.inl hi)).1
  refine ⟨?_, rfl, hz1, ?_, hp.nodup, ?_, ?_, ?_, rfl, ?_, ?_, ?_, hp.chunks, ?_, ?_, hp.flags⟩
  · rw [show plan.paramAddrs = _ from hp.pa]
    exact List.map_congr_left fun i hi => by rw [hpar i hi]
  · intro i
    rw [hp.memb i]
    constructor
    · rintro ⟨h1, h2⟩; exact ⟨h1, by rw [← hpat i h1]; exact h2⟩
    · rintro ⟨h1, h2⟩; exact ⟨h1, by rw [hpat i h1]; exact h2⟩
  · intro i hi hg
    rw [hs i hi]
    exact hp.st i hi (by rw [hpat i hi]; exact hg)
  · show plan.layouts = _
    rw [hp.lay]
    exact List.map_congr_left fun i hi => by rw [hpar i (hfp i hi)]
  · show plan.tp = _
    rw [hp.tp]
    exact List.map_congr_left fun i hi => by rw [hpar i (hfp i hi)]
  · show plan.tm = _
    rw [hp.tm]
    exact List.map_congr_left fun i hi => by unfold avgAddr; rw [hs i (hfp i hi)]
  · show plan.tv = _
    rw [hp.tv]
    exact List.map_congr_left fun i hi => by unfold sqAddr; rw [hs i (hfp i hi)]
  · show plan.tn = _
    rw [hp.tn]
    exact List.map_congr_left fun i hi => by rw [hpar i (hfp i hi)]
  · intro i hi
    obtain ⟨_, s, _, h2, h3, _, h5, h6⟩ := hp.fast i hi
    obtain ⟨g, hg, hgl⟩ := layouts_get hp hl i hi
    rw [hpar i (hfp i hi), hs i (hfp i hi)]
    exact ⟨g, s, hg, h2, h3, hgl, h5, h6⟩
  · intro i hi j hj
    have := hp.steps i hi j hj
    unfold stepOf at this ⊢
    rw [hs i (hfp i hi), hs j (hfp j hj)]
    exact this

theorem PlanOK.congr {o o' : Opt K} {h : Hyper K} {ps : List Nat} {plan : Plan} (hp : PlanOK o h ps plan)
    (h1 : o'.param = o.param) (h2 : o'.grad = o.grad) (h3 : o'.state = o.state) : PlanOK o' h ps plan := by
  have e1 : ∀ l, paramAddrs o' l = paramAddrs o l := fun l => by unfold paramAddrs; rw [h1]
  have e2 : ∀ l, gradAddrs o' l = gradAddrs o l := fun l => by unfold gradAddrs; rw [h2]
  have e3 : gradAddr o' = gradAddr o := by funext i; unfold gradAddr; rw [h2]
  have e4 : avgAddr o' = avgAddr o := by funext i; unfold avgAddr; rw [h3]
  have e5 : sqAddr o' = sqAddr o := by funext i; unfold sqAddr; rw [h3]
  have e6 : stepOf o' = stepOf o := by funext i; unfold stepOf; rw [h3]
  constructor
  · rw [e1]; exact hp.pa
  · rw [e2]; exact hp.ga
  · rw [h2]; exact hp.gz
  · rw [h2]; exact hp.memb
  · exact hp.nodup
  · rw [h2, h3]; exact hp.st
  · rw [h1]; exact hp.lay
  · rw [h1]; exact hp.tp
  · rw [e3]; exact hp.tg
  · rw [e4]; exact hp.tm
  · rw [e5]; exact hp.tv
  · rw [h1]; exact hp.tn
  · exact hp.chunks
  · rw [h1, h2, h3]; exact hp.fast
  · rw [e6]; exact hp.steps
  · exact hp.flags

theorem usable_spec {P : Platform K} {h : Hyper K} {o : Opt K} {i : Nat} (hu : usable P h o i = true) :
    ∃ g s, o.grad i = some g ∧ o.state i = some s ∧ h.amsgrad = false ∧ h.maximize = false
      ∧ (flatLayout (o.param i)).isSome ∧ flatLayout g = flatLayout (o.param i)
      ∧ flatLayout s.avg = flatLayout (o.param i) ∧ flatLayout s.sq = flatLayout (o.param i) := by
  unfold usable at hu
  cases hg : o.grad i with
  | none => rw [hg] at hu; simp at hu
  | some g =>
    cases hs : o.state i with
    | none => rw [hg, hs] at hu; simp at hu
    | some s =>
      rw [hg, hs] at hu
      simp only [supportsFast, Bool.and_eq_true, Bool.not_eq_true', List.all_cons, List.all_nil,
        Bool.and_true, decide_eq_true_iff] at hu
      obtain ⟨⟨⟨_, h1⟩, h2⟩, h3, ⟨_, h4⟩, ⟨_, h5⟩, _, h6⟩ := hu
      exact ⟨g, s, rfl, rfl, h1, h2, h3, h4, h5, h6⟩

/-- Facts about `_partition`. -/
theorem partition_spec (P : Platform K) (h : Hyper K) (ps : List Nat) (o : Opt K) (hnd : ps.Nodup) :
    let r := partition P h ps o
    r.2.2 = ps.foldl (initState h.amsgrad) o
    ∧ (∀ i, (i ∈ r.1 ∨ i ∈ r.2.1) ↔ (i ∈ ps ∧ (r.2.2.grad i).isSome))
    ∧ (r.1 ++ r.2.1).Nodup
    ∧ (∀ i ∈ r.1, usable P h r.2.2 i = true)
    ∧ (∀ i ∈ r.1, ∀ j ∈ r.1, stepOf r.2.2 i = stepOf r.2.2 j) := by
  intro r
  obtain ⟨o', ho⟩ : ∃ o', o' = ps.foldl (initState h.amsgrad) o := ⟨_, rfl⟩
  obtain ⟨F, hF⟩ : ∃ F, F = ps.filter fun i => (o'.grad i).isSome && usable P h o' i := ⟨_, rfl⟩
  obtain ⟨S, hS⟩ : ∃ S, S = ps.filter fun i => (o'.grad i).isSome && !usable P h o' i := ⟨_, rfl⟩
  have hFm : ∀ i, i ∈ F ↔ i ∈ ps ∧ (o'.grad i).isSome = true ∧ usable P h o' i = true := by
    intro i; rw [hF, List.mem_filter, Bool.and_eq_true]
  have hSm : ∀ i, i ∈ S ↔ i ∈ ps ∧ (o'.grad i).isSome = true ∧ usable P h o' i = false := by
    intro i; rw [hS, List.mem_filter, Bool.and_eq_true, Bool.not_eq_true']
  have hFn : F.Nodup := by rw [hF]; exact hnd.filter _
  have hSn : S.Nodup := by rw [hS]; exact hnd.filter _
  have hd : ∀ i, i ∈ F → i ∉ S := by
    intro i h1 h2
    have a := ((hFm i).mp h1).2.2
    rw [((hSm i).mp h2).2.2] at a
    cases a
  have hr : r = if (F.map (stepOf o')).all fun s => decide (some s = (F.map (stepOf o')).head?) then (F, S, o')
      else (F.filter fun i => decide (stepOf o' i = P.major (F.map (stepOf o'))),
        S ++ F.filter fun i => decide (stepOf o' i ≠ P.major (F.map (stepOf o'))), o') := by
    rw [hF, hS, ho]; rfl
  by_cases hc : ((F.map (stepOf o')).all fun s => decide (some s = (F.map (stepOf o')).head?)) = true
  · rw [if_pos hc] at hr
    rw [hr]
    refine ⟨ho, ?_, ?_, ?_, ?_⟩
    · intro i
      simp only [hFm, hSm]
      cases usable P h o' i <;> simp
    · rw [List.nodup_append]
      exact ⟨hFn, hSn, fun a ha b hb e => hd a ha (e ▸ hb)⟩
    · intro i hi; exact ((hFm i).mp hi).2.2
    · intro i hi j hj
      rw [List.all_eq_true] at hc
      have a := hc _ (List.mem_map_of_mem hi)
      have b := hc _ (List.mem_map_of_mem hj)
      rw [decide_eq_true_iff] at a b
      exact Option.some.inj (a.trans b.symm)
  · rw [if_neg hc] at hr
    rw [hr]
    refine ⟨ho, ?_, ?_, ?_, ?_⟩
    · intro i
      simp only [List.mem_append, List.mem_filter, decide_eq_true_iff, hFm, hSm]
      cases usable P h o' i <;> by_cases hm : stepOf o' i = P.major (F.map (stepOf o')) <;> simp [hm]
    · rw [List.nodup_append]
      refine ⟨hFn.filter _, ?_, ?_⟩
      · rw [List.nodup_append]
        refine ⟨hSn, hFn.filter _, ?_⟩
        intro a ha b hb e
        exact hd b (List.mem_filter.mp hb).1 (e ▸ ha)
      · intro a ha b hb e
        subst e
        rw [List.mem_filter, decide_eq_true_iff] at ha
        rcases List.mem_append.mp hb with hb | hb
        · exact hd a ha.1 hb
        · rw [List.mem_filter, decide_eq_true_iff] at hb
          exact hb.2 ha.2
    · intro i hi
      exact ((hFm i).mp (List.mem_filter.mp hi).1).2.2
    · intro i hi j hj
      rw [List.mem_filter, decide_eq_true_iff] at hi hj
      rw [hi.2, hj.2]

/-- The same optimizer with another cache. -/
def withCache (o : Opt K) (c : Nat → Option Plan) : Opt K := { o with cache := c }

theorem buildPlan_spec (P : Platform K) (h : Hyper K) (ps : List Nat) (o : Opt K) (hl : Live o)
    (he : (h, ps) ∈ o.groups) (hu : ∀ e ∈ o.groups, ∀ i ∈ ps, i ∈ e.2 → e = (h, ps)) (hnd : ps.Nodup) :
    PlanOK (buildPlan P h ps o).2 h ps (buildPlan P h ps o).1 ∧ Grown o (buildPlan P h ps o).2
      ∧ ∀ j, j ∉ ps → (buildPlan P h ps o).2.state j = o.state j := by
  obtain ⟨a1, a2, a3, a4, a5⟩ := partition_spec P h ps o hnd
  obtain ⟨g1, g2, g3⟩ := initAll_grown h.amsgrad ps o hl (fun i hi => mem_all he hi)
    (fun i hi e hee hie => by rw [hu e hee i hi hie])
  rw [← a1] at g1 g2 g3
  obtain ⟨own, hlv⟩ := g1.live
  refine ⟨?_, g1, g3⟩
  have e1 : paramAddrs o ps = paramAddrs (buildPlan P h ps o).2 ps := by
    unfold paramAddrs
    exact List.map_congr_left fun i _ => by rw [show (buildPlan P h ps o).2.param = o.param from g1.param]
  have e2 : gradAddrs o ps = gradAddrs (buildPlan P h ps o).2 ps := by
    unfold gradAddrs
    rw [show (buildPlan P h ps o).2.grad = o.grad from g1.grad]
  refine ⟨e1, e2, ?_, a2, a3, ?_, rfl, rfl, rfl, rfl, rfl, rfl, rfl, ?_, a5, ?_⟩
  · intro i hi g hg
    refine (hlv.grad i ?_ g hg).2.2.1
    refine mem_all (e := (h, ps)) ?_ hi
    rw [g1.groups]; exact he
  · intro i hi hg
    refine g2 i hi ?_
    rw [← g1.grad]; exact hg
  · intro i hi
    obtain ⟨g, s, h1, h2, _, _, h3⟩ := usable_spec (a4 i hi)
    exact ⟨g, s, h1, h2, h3⟩
  · intro hne
    obtain ⟨i, hi⟩ := List.exists_mem_of_ne_nil _ hne
    obtain ⟨_, _, _, _, h1, h2, _⟩ := usable_spec (a4 i hi)
    exact ⟨h1, h2⟩

theorem grown_withCache {o o' : Opt K} (h : Grown o (withCache o' o.cache)) (c : Nat → Option Plan) :
    Live (withCache o' c) := by
  obtain ⟨own, hl⟩ := h.live
  exact ⟨own, ⟨hl.nodup, hl.param, hl.avg, hl.sq, hl.mx, hl.grad, hl.ams⟩⟩

/-- **The plan returned fits**, whatever was cached, as long as it fitted before and parameters did not
move silently. -/
theorem launchPlan_spec (P : Platform K) (index : Nat) (h : Hyper K) (ps : List Nat) (o : Opt K) (hl : Live o)
    (he : (h, ps) ∈ o.groups) (hu : ∀ e ∈ o.groups, ∀ i ∈ ps, i ∈ e.2 → e = (h, ps)) (hnd : ps.Nodup)
    (hc : ∀ plan, o.cache index = some plan → Stale o h ps plan) :
    PlanOK (launchPlan P index h ps o).2 h ps (launchPlan P index h ps o).1
      ∧ Grown o (withCache (launchPlan P index h ps o).2 o.cache)
      ∧ (∀ j, j ∉ ps → (launchPlan P index h ps o).2.state j = o.state j)
      ∧ (launchPlan P index h ps o).2.cache index = some (launchPlan P index h ps o).1
      ∧ ∀ k, k ≠ index → (launchPlan P index h ps o).2.cache k = o.cache k := by
  obtain ⟨b1, b2, b3⟩ := buildPlan_spec P h ps o hl he hu hnd
  obtain ⟨own, hlv⟩ := hl
  have hz1 : ∀ i ∈ ps, ∀ g, o.grad i = some g → g.addr ≠ 0 := fun i hi g hg =>
    (hlv.grad i (mem_all he hi) g hg).2.2.1
  have fresh : ∀ r : Plan × Opt K, r = ((buildPlan P h ps o).1, { (buildPlan P h ps o).2 with
      cache := Function.update (buildPlan P h ps o).2.cache index (some (buildPlan P h ps o).1) }) →
      PlanOK r.2 h ps r.1 ∧ Grown o (withCache r.2 o.cache) ∧ (∀ j, j ∉ ps → r.2.state j = o.state j)
      ∧ r.2.cache index = some r.1 ∧ ∀ k, k ≠ index → r.2.cache k = o.cache k := by
    rintro r rfl
    refine ⟨b1.congr rfl rfl rfl, ?_, b3, Function.update_self .., ?_⟩
    · have : withCache (withCache (buildPlan P h ps o).2 (Function.update (buildPlan P h ps o).2.cache index
          (some (buildPlan P h ps o).1))) o.cache = (buildPlan P h ps o).2 := by
        unfold withCache
        rw [← b2.cache]
      exact this ▸ b2
    · intro k hk
      show Function.update _ index _ k = _
      rw [Function.update_of_ne hk, b2.cache]
  cases hca : o.cache index with
  | none =>
    refine fresh _ ?_
    unfold launchPlan
    rw [hca]
  | some plan =>
    obtain ⟨o0, hp, hs, hh⟩ := hc plan hca
    by_cases c1 : (decide (plan.gradAddrs = gradAddrs o ps) && layoutsUnchanged o plan) = true
    · have e : launchPlan P index h ps o = (plan, o) := by
        unfold launchPlan; rw [hca]; simp only; rw [if_pos c1]
      rw [e]
      rw [Bool.and_eq_true, decide_eq_true_iff] at c1
      have hpar : ∀ i ∈ ps, o.param i = o0.param i := by
        rcases hh with hh | ⟨_, hh⟩
        · exact hh
        · exact absurd (c1.1.symm.trans hp.ga) hh
      have hga := hp.ga.symm.trans c1.1
      have hpat := gradAddrs_pattern_eq hp.gz hz1 hga
      have r := hp.refresh hs hpar hz1 hpat c1.2
      have e2 : plan.fast.map (gradAddr o) = plan.tg := by
        rw [hp.tg]
        exact List.map_congr_left fun i hi =>
          (gradAddrs_get hga i ((hp.memb i).mp (Or.inl hi)).1).symm
      rw [e2, ← c1.1] at r
      exact ⟨r, Grown.refl ⟨own, hlv⟩, fun _ _ => rfl, hca, fun _ _ => rfl⟩
    · by_cases c2 : (decide (plan.paramAddrs = paramAddrs o ps)
          && (plan.gradAddrs.zip (gradAddrs o ps)).all (fun e => decide ((e.1 = 0) ↔ (e.2 = 0)))
          && layoutsUnchanged o plan) = true
      · have e : launchPlan P index h ps o = ({ plan with gradAddrs := gradAddrs o ps, tg := plan.fast.map (gradAddr o) },
            withCache o (Function.update o.cache index
              (some { plan with gradAddrs := gradAddrs o ps, tg := plan.fast.map (gradAddr o) }))) := by
          unfold launchPlan; rw [hca]; simp only; rw [if_neg c1, if_pos c2]; rfl
        rw [e]
        rw [Bool.and_eq_true, Bool.and_eq_true, decide_eq_true_iff] at c2
        obtain ⟨⟨c2, c3⟩, c4⟩ := c2
        have hpar : ∀ i ∈ ps, o.param i = o0.param i := by
          rcases hh with hh | ⟨hh, _⟩
          · exact hh
          · exact absurd (c2.symm.trans hp.pa) hh
        rw [hp.ga] at c3
        have hpat := gradAddrs_pattern hp.gz hz1 c3
        have r := hp.refresh hs hpar hz1 hpat c4
        refine ⟨r.congr rfl rfl rfl, Grown.refl ⟨own, hlv⟩, fun _ _ => rfl, Function.update_self .., ?_⟩
        intro k hk
        exact Function.update_of_ne hk ..
      · refine fresh _ ?_
        unfold launchPlan
        rw [hca]
        simp only
        rw [if_neg c1, if_neg c2]

end Verif.Adam
