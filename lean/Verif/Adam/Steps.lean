/-
All groups of a step, and histories of steps.
-/
import Verif.Adam.Group

set_option linter.unusedSectionVars false

namespace Verif.Adam

variable {K : Type} [Field K] [LinearOrder K]

theorem Stale.same {o o' : Opt K} {h : Hyper K} {ps : List Nat} {plan : Plan} (hst : Stale o h ps plan)
    (hp : o'.param = o.param) (hg : o'.grad = o.grad) (hs : ∀ i ∈ ps, o'.state i = o.state i) :
    Stale o' h ps plan := by
  obtain ⟨o0, h1, h2, h3⟩ := hst
  refine ⟨o0, h1, fun i hi => (hs i hi).trans (h2 i hi), ?_⟩
  unfold Honest at h3 ⊢
  unfold paramAddrs gradAddrs at h3 ⊢
  rw [hp, hg]
  exact h3

/-- The groups share no parameter. -/
theorem groups_unique {o : Opt K} (hn : o.all.Nodup) :
    (∀ e ∈ o.groups, e.2.Nodup) ∧ o.groups.Pairwise (fun a b => List.Disjoint a.2 b.2)
    ∧ ∀ e ∈ o.groups, ∀ e' ∈ o.groups, ∀ i, i ∈ e.2 → i ∈ e'.2 → e' = e := by
  unfold Opt.all at hn
  rw [List.nodup_flatMap] at hn
  refine ⟨hn.1, hn.2, ?_⟩
  have : ∀ x ∈ o.groups, ∀ y ∈ o.groups, (∀ i, i ∈ x.2 → i ∈ y.2 → y = x) := by
    intro x hx y hy
    haveI : Std.Symm (fun x y : Hyper K × List Nat => ∀ i, i ∈ x.2 → i ∈ y.2 → y = x) :=
      ⟨fun a b hab i h1 h2 => (hab i h2 h1).symm⟩
    refine List.Pairwise.forall_of_forall (R := fun x y : Hyper K × List Nat => ∀ i, i ∈ x.2 → i ∈ y.2 → y = x)
      ?_ ?_ hx hy
    · intro a _ i _ _; rfl
    · refine hn.2.imp ?_
      intro a b hab i h1 h2
      exact absurd h2 (List.disjoint_left.mp hab h1)
  exact this

/-- What one `step` must do to the parameters of group `e`, seen between `o` and `o'`. -/
structure GroupDone (P : Platform K) (o o' : Opt K) (e : Hyper K × List Nat) : Prop where
  idle : ∀ i ∈ e.2, o.grad i = none → updates o' i = updates o i ∧ ∀ idx, weightAt o' i idx = weightAt o i idx
  upd : ∀ i ∈ e.2, ∀ g, o.grad i = some g → updates o' i = updates o i + 1
    ∧ ∀ idx, InShape (o.param i).shape idx →
      weightAt o' i idx = adamw P.sqrt e.1 (updates o i + 1) (elem o.mem g idx) (weightAt o i idx)

theorem stepGroup_spec (P : Platform K) (hP : ∀ l, (P.sched l).Perm l) (index : Nat) (h : Hyper K)
    (ps : List Nat) (o : Opt K) (hl : Live o) (he : (h, ps) ∈ o.groups)
    (hc : ∀ plan, o.cache index = some plan → Stale o h ps plan) :
    Live (stepGroup P index h ps o) ∧ (stepGroup P index h ps o).param = o.param
    ∧ (stepGroup P index h ps o).grad = o.grad ∧ (stepGroup P index h ps o).groups = o.groups
    ∧ (∀ i, i ∉ ps → (stepGroup P index h ps o).state i = o.state i)
    ∧ (∀ i ∈ o.all, i ∉ ps → ∀ idx, weightAt (stepGroup P index h ps o) i idx = weightAt o i idx)
    ∧ (∀ i ∈ o.all, ∀ g, o.grad i = some g → ∀ idx, elem (stepGroup P index h ps o).mem g idx = elem o.mem g idx)
    ∧ GroupDone P o (stepGroup P index h ps o) (h, ps)
    ∧ (∃ plan, (stepGroup P index h ps o).cache index = some plan ∧ PlanOK (stepGroup P index h ps o) h ps plan)
    ∧ ∀ k, k ≠ index → (stepGroup P index h ps o).cache k = o.cache k := by
  have hn : o.all.Nodup := by obtain ⟨_, hl⟩ := hl; exact hl.nodup
  obtain ⟨u1, _, u3⟩ := groups_unique hn
  obtain ⟨a1, a2, a3, a4, a5⟩ := launchPlan_spec P index h ps o hl he
    (fun e hee i hi hie => u3 (h, ps) he e hee i hi hie) (u1 _ he) hc
  obtain ⟨plan, hplan⟩ : ∃ plan, plan = (launchPlan P index h ps o).1 := ⟨_, rfl⟩
  obtain ⟨o1, ho1⟩ : ∃ o1, o1 = (launchPlan P index h ps o).2 := ⟨_, rfl⟩
  rw [stepGroup_eq]
  rw [← hplan, ← ho1] at a1 a4
  rw [← ho1] at a2 a3 a5
  rw [← hplan, ← ho1]
  have hp1 : o1.param = o.param := a2.param
  have hg1 : o1.grad = o.grad := a2.grad
  have hgs1 : o1.groups = o.groups := a2.groups
  have hw1 : ∀ i ∈ o.all, ∀ idx, weightAt o1 i idx = weightAt o i idx := a2.weight
  have hu1 : ∀ i, updates o1 i = updates o i := a2.updates
  obtain ⟨own, hl1⟩ : Live o1 := by
    obtain ⟨own, hl⟩ := a2.live
    exact ⟨own, ⟨hl.nodup, hl.param, hl.avg, hl.sq, hl.mx, hl.grad, hl.ams⟩⟩
  obtain ⟨b1, b2, b3, b4, b5, b6⟩ := applyPlan_spec (own := own) P hP h ps plan o1 hl1 (by rw [hgs1]; exact he) a1
  obtain ⟨o2, ho2⟩ : ∃ o2, o2 = applyPlan P h plan o1 := ⟨_, rfl⟩
  rw [← ho2] at b1 b2 b3 b4 b5 b6 ⊢
  have hall1 : o1.all = o.all := by unfold Opt.all; rw [hgs1]
  have hfr : ∀ i ∈ o.all, ¬ (i ∈ ps ∧ (o1.grad i).isSome) → ∀ idx, weightAt o2 i idx = weightAt o i idx := by
    intro i hi hnot idx
    rw [← hw1 i hi]
    refine weight_frame hl1 (by rw [hall1]; exact hi) b1.param (b2 i) ?_ idx
    rintro c ⟨r, hr⟩
    refine b4 c fun j hj hjg r' hr' => ?_
    rw [hr] at hr'
    have := (Prod.mk.inj (Option.some.inj hr')).1
    subst this
    exact hnot ⟨hj, hjg⟩
  have hge1 : ∀ i ∈ o.all, ∀ g, o.grad i = some g → ∀ idx, elem o1.mem g idx = elem o.mem g idx := by
    intro i hi g hg idx
    obtain ⟨own0, hl0⟩ := hl
    exact a2.mem (g.at idx) (hl0.grad i hi g hg).2.1
  refine ⟨⟨own, hl1.same b1 b2⟩, b1.param.trans hp1, b1.grad.trans hg1, b1.groups.trans hgs1, ?_, ?_, ?_, ?_, ?_, ?_⟩
  · intro i hi
    rw [b3 i fun hh => hi hh.1, a3 i hi]
  · intro i hi hnp idx
    exact hfr i hi (fun hh => hnp hh.1) idx
  · intro i hi g hg idx
    rw [← hge1 i hi g hg idx]
    refine b4 _ fun j _ _ r hr => ?_
    have := (hl1.grad i (by rw [hall1]; exact hi) g (by rw [hg1]; exact hg)).1
    rw [show own (g.at idx).1 = none from this] at hr
    cases hr
  · constructor
    · intro i hi hg
      have hno : ¬ (i ∈ ps ∧ (o1.grad i).isSome) := by
        rintro ⟨_, hh⟩
        rw [hg1, hg] at hh
        cases hh
      refine ⟨?_, hfr i (mem_all he hi) hno⟩
      rw [← hu1 i]
      unfold updates
      rw [b3 i hno]
    · intro i hi g hg
      obtain ⟨c1, c2⟩ := b5 i hi g (by rw [hg1]; exact hg)
      refine ⟨by rw [c1, hu1], ?_⟩
      intro idx hidx
      rw [c2 idx (by rw [hp1]; exact hidx), hu1, hw1 i (mem_all he hi), hge1 i (mem_all he hi) g hg]
  · exact ⟨plan, by rw [b1.cache]; exact a4, b6⟩
  · intro k hk
    rw [b1.cache, a5 k hk]

theorem fold_spec (P : Platform K) (hP : ∀ l, (P.sched l).Perm l) :
    ∀ (l : List (Hyper K × List Nat)) (k : Nat) (o : Opt K), Live o → (∀ e ∈ l, e ∈ o.groups) →
      l.Pairwise (fun a b => List.Disjoint a.2 b.2) →
      (∀ x ∈ l.zipIdx k, ∀ plan, o.cache x.2 = some plan → Stale o x.1.1 x.1.2 plan) →
      let o' := (l.zipIdx k).foldl (fun o e => stepGroup P e.2 e.1.1 e.1.2 o) o
      Live o' ∧ o'.param = o.param ∧ o'.grad = o.grad ∧ o'.groups = o.groups
      ∧ (∀ i, (∀ e ∈ l, i ∉ e.2) → o'.state i = o.state i)
      ∧ (∀ i ∈ o.all, (∀ e ∈ l, i ∉ e.2) → ∀ idx, weightAt o' i idx = weightAt o i idx)
      ∧ (∀ i ∈ o.all, ∀ g, o.grad i = some g → ∀ idx, elem o'.mem g idx = elem o.mem g idx)
      ∧ (∀ e ∈ l, GroupDone P o o' e)
      ∧ (∀ x ∈ l.zipIdx k, ∃ plan, o'.cache x.2 = some plan ∧ PlanOK o' x.1.1 x.1.2 plan)
      ∧ ∀ j, j < k → o'.cache j = o.cache j
  | [], k, o, hl, _, _, _ => ⟨hl, rfl, rfl, rfl, fun _ _ => rfl, fun _ _ _ _ => rfl, fun _ _ _ _ _ => rfl,
      fun e he => absurd he (by simp), fun x hx => absurd hx (by simp), fun _ _ => rfl⟩
  | e :: l, k, o, hl, hg, hd, hc => by
    intro o'
    rw [List.pairwise_cons] at hd
    obtain ⟨a1, a2, a3, a4, a5, a6, a7, a8, a9, a10⟩ := stepGroup_spec P hP k e.1 e.2 o hl
      (hg e List.mem_cons_self) (hc (e, k) (by simp))
    obtain ⟨oa, hoa⟩ : ∃ oa, oa = stepGroup P k e.1 e.2 o := ⟨_, rfl⟩
    rw [← hoa] at a1 a2 a3 a4 a5 a6 a7 a8 a9 a10
    have halla : oa.all = o.all := by unfold Opt.all; rw [a4]
    have hout : ∀ e' ∈ l, ∀ i ∈ e'.2, i ∉ e.2 := fun e' he' i hi hie =>
      List.disjoint_left.mp (hd.1 e' he') hie hi
    have hmem : ∀ x ∈ l.zipIdx (k + 1), x.1 ∈ l ∧ k + 1 ≤ x.2 := by
      intro x hx
      obtain ⟨h1, _, h3⟩ := List.mem_zipIdx (x := x.1) (i := x.2) hx
      exact ⟨h3 ▸ List.getElem_mem _, h1⟩
    obtain ⟨b1, b2, b3, b4, b5, b6, b7, b8, b9, b10⟩ := fold_spec P hP l (k + 1) oa a1
      (fun e' he' => by rw [a4]; exact hg e' (List.mem_cons_of_mem _ he')) hd.2
      (by
        intro x hx plan hp
        obtain ⟨hx1, hx2⟩ := hmem x hx
        rw [a10 x.2 (by omega)] at hp
        refine (hc x ?_ plan hp).same a2 a3 fun i hi => a5 i (hout x.1 hx1 i hi)
        rw [List.zipIdx_cons]
        exact List.mem_cons_of_mem _ hx)
    have ho' : o' = (l.zipIdx (k + 1)).foldl (fun o e => stepGroup P e.2 e.1.1 e.1.2 o) oa := by
      show ((e :: l).zipIdx k).foldl (fun o e => stepGroup P e.2 e.1.1 e.1.2 o) o = _
      rw [List.zipIdx_cons, List.foldl_cons, hoa]
    rw [← ho'] at b1 b2 b3 b4 b5 b6 b7 b8 b9 b10
    have hel : ∀ i ∈ e.2, ∀ e' ∈ l, i ∉ e'.2 := fun i hi e' he' hie => hout e' he' i hie hi
    have heo := hg e List.mem_cons_self
    refine ⟨b1, b2.trans a2, b3.trans a3, b4.trans a4, ?_, ?_, ?_, ?_, ?_, ?_⟩
    · intro i hi
      rw [b5 i fun e' he' => hi e' (List.mem_cons_of_mem _ he'), a5 i (hi e List.mem_cons_self)]
    · intro i hi hne idx
      rw [b6 i (by rw [halla]; exact hi) (fun e' he' => hne e' (List.mem_cons_of_mem _ he')) idx,
        a6 i hi (hne e List.mem_cons_self) idx]
    · intro i hi g hgi idx
      rw [b7 i (by rw [halla]; exact hi) g (by rw [a3]; exact hgi) idx, a7 i hi g hgi idx]
    · intro e' he'
      rcases List.mem_cons.mp he' with rfl | he'
      · have hs : ∀ i ∈ e'.2, updates o' i = updates oa i := by
          intro i hi; unfold updates; rw [b5 i (hel i hi)]
        have hw : ∀ i ∈ e'.2, ∀ idx, weightAt o' i idx = weightAt oa i idx := by
          intro i hi idx
          exact b6 i (by rw [halla]; exact mem_all heo hi) (hel i hi) idx
        constructor
        · intro i hi hgi
          obtain ⟨c1, c2⟩ := a8.idle i hi hgi
          exact ⟨(hs i hi).trans c1, fun idx => (hw i hi idx).trans (c2 idx)⟩
        · intro i hi g hgi
          obtain ⟨c1, c2⟩ := a8.upd i hi g hgi
          exact ⟨(hs i hi).trans c1, fun idx hidx => (hw i hi idx).trans (c2 idx hidx)⟩
      · have hin := hout e' he'
        have heo' := hg e' (List.mem_cons_of_mem _ he')
        have hs : ∀ i ∈ e'.2, updates oa i = updates o i := by
          intro i hi; unfold updates; rw [a5 i (hin i hi)]
        have hw : ∀ i ∈ e'.2, ∀ idx, weightAt oa i idx = weightAt o i idx := by
          intro i hi idx
          exact a6 i (mem_all heo' hi) (hin i hi) idx
        constructor
        · intro i hi hgi
          obtain ⟨c1, c2⟩ := (b8 e' he').idle i hi (by rw [a3]; exact hgi)
          exact ⟨c1.trans (hs i hi), fun idx => (c2 idx).trans (hw i hi idx)⟩
        · intro i hi g hgi
          obtain ⟨c1, c2⟩ := (b8 e' he').upd i hi g (by rw [a3]; exact hgi)
          refine ⟨by rw [c1, hs i hi], fun idx hidx => ?_⟩
          rw [c2 idx (by rw [a2]; exact hidx), hs i hi, hw i hi, a7 i (mem_all heo' hi) g hgi]
    · intro x hx
      rw [List.zipIdx_cons] at hx
      rcases List.mem_cons.mp hx with rfl | hx
      · obtain ⟨plan, c1, c2⟩ := a9
        refine ⟨plan, by rw [b10 k (by omega)]; exact c1, ?_⟩
        refine c2.same b2 b3 (fun i hi => by rw [b5 i (hel i hi)]; exact SameState.refl _) ?_
        intro i hi j hj
        have hii := ((c2.memb i).mp (Or.inl hi)).1
        have hjj := ((c2.memb j).mp (Or.inl hj)).1
        have := c2.steps i hi j hj
        unfold stepOf at this ⊢
        rw [b5 i (hel i hii), b5 j (hel j hjj)]
        exact this
      · exact b9 x hx
    · intro j hj
      rw [b10 j (by omega), a10 j (by omega)]

end Verif.Adam
