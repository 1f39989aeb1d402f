/-
One group, then all groups.
-/
import Verif.Adam.Launch

set_option linter.unusedSectionVars false

namespace Verif.Adam

variable {K : Type} [Field K] [LinearOrder K]

theorem updates_eq (o : Opt K) (i : Nat) : updates o i = stepOf o i := by
  unfold updates stepOf
  cases o.state i <;> rfl

/-- A weight is determined by its tensors and the memory of its parameter. -/
theorem weight_frame {own : Nat → Option (Nat × Role)} {o o' : Opt K} (hl : LiveBy own o) {j : Nat}
    (hj : j ∈ o.all) (hp : o'.param = o.param) (hs : SameState (o.state j) (o'.state j))
    (hm : ∀ c : Cell, (∃ r, own c.1 = some (j, r)) → o'.mem c = o.mem c) (idx : List Nat) :
    weightAt o' j idx = weightAt o j idx := by
  unfold weightAt elem
  rw [hp]
  have h0 := hm ((o.param j).at idx) ⟨_, (hl.param j hj).1⟩
  cases h1 : o.state j with
  | none =>
    cases h2 : o'.state j with
    | none => simp only [h0]
    | some s' => rw [h1, h2] at hs; exact hs.elim
  | some s =>
    cases h2 : o'.state j with
    | none => rw [h1, h2] at hs; exact hs.elim
    | some s' =>
      rw [h1, h2] at hs
      obtain ⟨e1, e2, e3⟩ := hs
      simp only
      rw [e1, e2, e3, h0, hm (s.avg.at idx) ⟨_, (hl.avg j hj s h1).1⟩, hm (s.sq.at idx) ⟨_, (hl.sq j hj s h1).1⟩]
      cases hx : s.mx with
      | none => rfl
      | some b => simp only [hm (b.at idx) ⟨_, (hl.mx j hj s h1 b hx).1⟩]

theorem slow_spec {own : Nat → Option (Nat × Role)} (P : Platform K) (h : Hyper K) :
    ∀ (l : List Nat) (o : Opt K), LiveBy own o → l.Nodup → (∀ i ∈ l, i ∈ o.all) →
      (∀ i ∈ l, (o.grad i).isSome ∧ (o.state i).isSome) →
      (∀ i ∈ l, h.amsgrad = true → ∀ s, o.state i = some s → s.mx.isSome) →
      SameWorld o (l.foldl (refUpdate P h) o)
      ∧ (∀ i, SameState (o.state i) ((l.foldl (refUpdate P h) o).state i))
      ∧ (∀ i, i ∉ l → (l.foldl (refUpdate P h) o).state i = o.state i)
      ∧ (∀ i ∈ l, updates (l.foldl (refUpdate P h) o) i = updates o i + 1)
      ∧ (∀ c : Cell, (∀ i ∈ l, ∀ r, own c.1 ≠ some (i, r)) → (l.foldl (refUpdate P h) o).mem c = o.mem c)
      ∧ ∀ i ∈ l, ∀ g, o.grad i = some g → ∀ idx, InShape (o.param i).shape idx →
          weightAt (l.foldl (refUpdate P h) o) i idx
            = adamw P.sqrt h (updates o i + 1) (elem o.mem g idx) (weightAt o i idx)
  | [], o, _, _, _, _, _ => ⟨SameWorld.refl o, fun _ => SameState.refl _, fun _ _ => rfl,
      fun i hi => absurd hi (by simp), fun _ _ => rfl, fun i hi => absurd hi (by simp)⟩
  | i :: l, o, hl, hn, hall, hgs, hams => by
    obtain ⟨hil, hn'⟩ := List.nodup_cons.mp hn
    have hi := hall i List.mem_cons_self
    obtain ⟨g, hg⟩ := Option.isSome_iff_exists.mp (hgs i List.mem_cons_self).1
    obtain ⟨s, hs⟩ := Option.isSome_iff_exists.mp (hgs i List.mem_cons_self).2
    obtain ⟨a1, a2, a3, a4⟩ := refUpdate_spec P h o hl i hi g hg s hs
      fun ha => hams i List.mem_cons_self ha s hs
    obtain ⟨oa, hoa⟩ : ∃ oa, oa = refUpdate P h o i := ⟨_, rfl⟩
    rw [← hoa] at a1 a2 a3 a4
    have hsi : oa.state i = some { s with step := s.step + 1 } := by rw [a2]; exact Function.update_self ..
    have hsj : ∀ j, j ≠ i → oa.state j = o.state j := by
      intro j hj; rw [a2]; exact Function.update_of_ne hj ..
    have hss : ∀ j, SameState (o.state j) (oa.state j) := by
      intro j
      by_cases hj : j = i
      · subst hj; rw [hsi, hs]; exact ⟨rfl, rfl, rfl⟩
      · rw [hsj j hj]; exact SameState.refl _
    have hla := hl.same a1 hss
    have halla : oa.all = o.all := by unfold Opt.all; rw [a1.groups]
    have hne : ∀ j ∈ l, j ≠ i := fun j hj e => hil (e ▸ hj)
    obtain ⟨b1, b2, b3, b4, b5, b6⟩ := slow_spec (own := own) P h l oa hla hn'
      (fun j hj => by rw [halla]; exact hall j (List.mem_cons_of_mem _ hj))
      (fun j hj => by
        rw [a1.grad, hsj j (hne j hj)]
        exact hgs j (List.mem_cons_of_mem _ hj))
      (fun j hj => by rw [hsj j (hne j hj)]; exact hams j (List.mem_cons_of_mem _ hj))
    rw [List.foldl_cons, ← hoa]
    obtain ⟨o', ho'⟩ : ∃ o', o' = l.foldl (refUpdate P h) oa := ⟨_, rfl⟩
    rw [← ho'] at b1 b2 b3 b4 b5 b6 ⊢
    have hfi : ∀ idx, weightAt o' i idx = weightAt oa i idx := by
      refine weight_frame hla (by rw [halla]; exact hi) b1.param (b2 i) ?_
      rintro c ⟨r, hr⟩
      refine b5 c fun j hj r' hr' => ?_
      rw [hr] at hr'
      exact hne j hj (Prod.mk.inj (Option.some.inj hr')).1.symm
    refine ⟨a1.trans b1, fun j => (hss j).trans (b2 j), ?_, ?_, ?_, ?_⟩
    · intro j hj
      rw [b3 j fun h => hj (List.mem_cons_of_mem _ h), hsj j fun h => hj (h ▸ List.mem_cons_self)]
    · intro j hj
      rcases List.mem_cons.mp hj with rfl | hj
      · unfold updates
        rw [b3 j hil, hsi, hs]
      · rw [b4 j hj]
        unfold updates
        rw [hsj j (hne j hj)]
    · intro c hc
      rw [b5 c fun j hj => hc j (List.mem_cons_of_mem _ hj), a3 c (hc i List.mem_cons_self)]
    · intro j hj g' hg' idx hidx
      rcases List.mem_cons.mp hj with rfl | hj
      · rw [hg] at hg'; cases hg'
        rw [hfi, a4 idx hidx]
        unfold updates
        rw [hs]
      · have hjall := hall j (List.mem_cons_of_mem _ hj)
        rw [b6 j hj g' (by rw [a1.grad]; exact hg') idx (by rw [a1.param]; exact hidx)]
        have e1 : updates oa j = updates o j := by unfold updates; rw [hsj j (hne j hj)]
        have e2 : elem oa.mem g' idx = elem o.mem g' idx := by
          refine a3 _ fun r hr => ?_
          have := (hl.grad j hjall g' hg').1
          rw [show own (g'.at idx).1 = none from this] at hr
          cases hr
        have e3 : weightAt oa j idx = weightAt o j idx := by
          refine weight_frame hl hjall a1.param (hss j) ?_ idx
          rintro c ⟨r, hr⟩
          refine a3 c fun r' hr' => ?_
          rw [hr] at hr'
          exact hne j hj (Prod.mk.inj (Option.some.inj hr')).1
        rw [e1, e2, e3]

theorem setStep_spec (t : Nat) : ∀ (l : List Nat) (o : Opt K),
    SameWorld o (l.foldl (setStep t) o)
    ∧ (l.foldl (setStep t) o).mem = o.mem
    ∧ (∀ i, SameState (o.state i) ((l.foldl (setStep t) o).state i))
    ∧ (∀ i, i ∉ l → (l.foldl (setStep t) o).state i = o.state i)
    ∧ ∀ i ∈ l, (o.state i).isSome → updates (l.foldl (setStep t) o) i = t
  | [], o => ⟨SameWorld.refl o, rfl, fun _ => SameState.refl _, fun _ _ => rfl, fun i hi => absurd hi (by simp)⟩
  | i :: l, o => by
    obtain ⟨oa, hoa⟩ : ∃ oa, oa = setStep t o i := ⟨_, rfl⟩
    have a1 : SameWorld o oa := by
      rw [hoa]; unfold setStep; cases o.state i <;> exact ⟨rfl, rfl, rfl, rfl, rfl⟩
    have a2 : oa.mem = o.mem := by rw [hoa]; unfold setStep; cases o.state i <;> rfl
    have a3 : ∀ j, j ≠ i → oa.state j = o.state j := by
      intro j hj
      rw [hoa]; unfold setStep
      cases o.state i with
      | none => rfl
      | some s => exact Function.update_of_ne hj ..
    have a4 : ∀ s, o.state i = some s → oa.state i = some { s with step := t } := by
      intro s hs
      rw [hoa]; unfold setStep; rw [hs]; exact Function.update_self ..
    have a5 : o.state i = none → oa.state i = none := by
      intro hs
      rw [hoa]; unfold setStep; rw [hs]; exact hs
    have hss : ∀ j, SameState (o.state j) (oa.state j) := by
      intro j
      by_cases hj : j = i
      · subst hj
        cases hs : o.state j with
        | none => rw [a5 hs]; trivial
        | some s => rw [a4 s hs]; exact ⟨rfl, rfl, rfl⟩
      · rw [a3 j hj]; exact SameState.refl _
    obtain ⟨b1, b2, b3, b4, b5⟩ := setStep_spec t l oa
    rw [List.foldl_cons, ← hoa]
    refine ⟨a1.trans b1, b2.trans a2, fun j => (hss j).trans (b3 j), ?_, ?_⟩
    · intro j hj
      rw [b4 j fun h => hj (List.mem_cons_of_mem _ h), a3 j fun h => hj (h ▸ List.mem_cons_self)]
    · intro j hj hs
      by_cases hjl : j ∈ l
      · refine b5 j hjl ?_
        by_cases hji : j = i
        · subst hji
          obtain ⟨s, hs⟩ := Option.isSome_iff_exists.mp hs
          rw [a4 s hs]; rfl
        · rw [a3 j hji]; exact hs
      · rcases List.mem_cons.mp hj with rfl | hj
        · obtain ⟨s, hs⟩ := Option.isSome_iff_exists.mp hs
          unfold updates
          rw [b4 j hjl, a4 s hs]
        · exact absurd hj hjl

theorem PlanOK.same {o o' : Opt K} {h : Hyper K} {ps : List Nat} {plan : Plan} (hp : PlanOK o h ps plan)
    (hpar : o'.param = o.param) (hgr : o'.grad = o.grad) (hs : ∀ i ∈ ps, SameState (o.state i) (o'.state i))
    (hst : ∀ i ∈ plan.fast, ∀ j ∈ plan.fast, stepOf o' i = stepOf o' j) : PlanOK o' h ps plan := by
  have hfp : ∀ i ∈ plan.fast, i ∈ ps := fun i hi => ((hp.memb i).mp (Or.inl hi)).1
  have key : ∀ i ∈ ps, avgAddr o' i = avgAddr o i ∧ sqAddr o' i = sqAddr o i ∧ (o'.state i).isSome = (o.state i).isSome := by
    intro i hi
    have := hs i hi
    unfold avgAddr sqAddr
    cases h1 : o.state i <;> cases h2 : o'.state i <;> rw [h1, h2] at this
    · exact ⟨rfl, rfl, rfl⟩
    · exact this.elim
    · exact this.elim
    · obtain ⟨e1, e2, _⟩ := this
      simp [e1, e2]
  constructor
  · unfold paramAddrs; rw [hpar]; exact hp.pa
  · unfold gradAddrs; rw [hgr]; exact hp.ga
  · rw [hgr]; exact hp.gz
  · rw [hgr]; exact hp.memb
  · exact hp.nodup
  · intro i hi hg
    rw [(key i hi).2.2]
    exact hp.st i hi (by rw [← hgr]; exact hg)
  · rw [hpar]; exact hp.lay
  · rw [hpar]; exact hp.tp
  · rw [hp.tg]
    exact List.map_congr_left fun i _ => by unfold gradAddr; rw [hgr]
  · rw [hp.tm]
    exact List.map_congr_left fun i hi => ((key i (hfp i hi)).1).symm
  · rw [hp.tv]
    exact List.map_congr_left fun i hi => ((key i (hfp i hi)).2.1).symm
  · rw [hpar]; exact hp.tn
  · exact hp.chunks
  · intro i hi
    obtain ⟨g, s, h1, h2, h3, h4, h5, h6⟩ := hp.fast i hi
    have := hs i (hfp i hi)
    rw [h2] at this
    cases h7 : o'.state i with
    | none => rw [h7] at this; exact this.elim
    | some s' =>
      rw [h7] at this
      obtain ⟨e1, e2, _⟩ := this
      rw [hgr, hpar]
      exact ⟨g, s', h1, rfl, h3, h4, by rw [e1]; exact h5, by rw [e2]; exact h6⟩
  · exact hst
  · exact hp.flags

/-- The part of `stepGroup` after the plan is known. -/
def applyPlan (P : Platform K) (h : Hyper K) (plan : Plan) (o : Opt K) : Opt K :=
  match plan.fast with
  | [] => plan.slow.foldl (refUpdate P h) o
  | i0 :: _ =>
    { plan.fast.foldl (setStep (stepOf (plan.slow.foldl (refUpdate P h) o) i0 + 1))
        (plan.slow.foldl (refUpdate P h) o) with
      mem := launch P (scalars P h (stepOf (plan.slow.foldl (refUpdate P h) o) i0 + 1)) plan
        (plan.fast.foldl (setStep (stepOf (plan.slow.foldl (refUpdate P h) o) i0 + 1))
        (plan.slow.foldl (refUpdate P h) o)).mem }

theorem stepGroup_eq (P : Platform K) (index : Nat) (h : Hyper K) (ps : List Nat) (o : Opt K) :
    stepGroup P index h ps o = applyPlan P h (launchPlan P index h ps o).1 (launchPlan P index h ps o).2 := by
  unfold stepGroup applyPlan
  cases hf : (launchPlan P index h ps o).1.fast <;> simp only [hf]

theorem applyPlan_spec {own : Nat → Option (Nat × Role)} (P : Platform K) (hP : ∀ l, (P.sched l).Perm l)
    (h : Hyper K) (ps : List Nat) (plan : Plan) (o : Opt K) (hl : LiveBy own o) (he : (h, ps) ∈ o.groups)
    (hp : PlanOK o h ps plan) :
    SameWorld o (applyPlan P h plan o)
    ∧ (∀ i, SameState (o.state i) ((applyPlan P h plan o).state i))
    ∧ (∀ i, ¬ (i ∈ ps ∧ (o.grad i).isSome) → (applyPlan P h plan o).state i = o.state i)
    ∧ (∀ c : Cell, (∀ i ∈ ps, (o.grad i).isSome → ∀ r, own c.1 ≠ some (i, r)) → (applyPlan P h plan o).mem c = o.mem c)
    ∧ (∀ i ∈ ps, ∀ g, o.grad i = some g → updates (applyPlan P h plan o) i = updates o i + 1
        ∧ ∀ idx, InShape (o.param i).shape idx → weightAt (applyPlan P h plan o) i idx
          = adamw P.sqrt h (updates o i + 1) (elem o.mem g idx) (weightAt o i idx))
    ∧ PlanOK (applyPlan P h plan o) h ps plan := by
  have hps : ∀ i ∈ ps, i ∈ o.all := fun i hi => mem_all he hi
  obtain ⟨n1, n2, n3⟩ := List.nodup_append.mp hp.nodup
  have hsm : ∀ i ∈ plan.slow, i ∈ ps ∧ (o.grad i).isSome := fun i hi => (hp.memb i).mp (Or.inr hi)
  have hfm : ∀ i ∈ plan.fast, i ∈ ps ∧ (o.grad i).isSome := fun i hi => (hp.memb i).mp (Or.inl hi)
  obtain ⟨a1, a2, a3, a4, a5, a6⟩ := slow_spec (own := own) P h plan.slow o hl n2
    (fun i hi => hps i (hsm i hi).1) (fun i hi => ⟨(hsm i hi).2, hp.st i (hsm i hi).1 (hsm i hi).2⟩)
    (fun i hi ha s hs => hl.ams (h, ps) he ha i (hsm i hi).1 s hs)
  have hdisj : ∀ i ∈ plan.fast, i ∉ plan.slow := fun i h1 h2 => n3 i h1 i h2 rfl
  cases hf : plan.fast with
  | nil =>
    have e : applyPlan P h plan o = plan.slow.foldl (refUpdate P h) o := by
      unfold applyPlan; rw [hf]
    rw [e]
    have hmm : ∀ i, i ∈ plan.slow ↔ i ∈ ps ∧ (o.grad i).isSome := by
      intro i; rw [← hp.memb i, hf]; simp
    refine ⟨a1, a2, fun i hi => a3 i fun hs => hi (hsm i hs), ?_, ?_, ?_⟩
    · intro c hc
      exact a5 c fun i hi => hc i (hsm i hi).1 (hsm i hi).2
    · intro i hi g hg
      have hs := (hmm i).mpr ⟨hi, by rw [hg]; rfl⟩
      exact ⟨a4 i hs, a6 i hs g hg⟩
    · refine hp.same a1.param a1.grad (fun i _ => a2 i) ?_
      intro i hi
      rw [hf] at hi
      exact absurd hi (by simp)
  | cons i0 rest =>
    obtain ⟨o1, ho1⟩ : ∃ o1, o1 = plan.slow.foldl (refUpdate P h) o := ⟨_, rfl⟩
    obtain ⟨t, ht⟩ : ∃ t, t = stepOf o1 i0 + 1 := ⟨_, rfl⟩
    obtain ⟨o2, ho2⟩ : ∃ o2, o2 = plan.fast.foldl (setStep t) o1 := ⟨_, rfl⟩
    obtain ⟨o3, ho3⟩ : ∃ o3, o3 = { o2 with mem := launch P (scalars P h t) plan o2.mem } := ⟨_, rfl⟩
    have e : applyPlan P h plan o = o3 := by
      rw [ho3, ho2, ht, ho1]
      unfold applyPlan
      rw [hf]
    rw [e]
    rw [← ho1] at a1 a2 a3 a4 a5 a6
    obtain ⟨b1, b2, b3, b4, b5⟩ := setStep_spec t plan.fast o1
    rw [← ho2] at b1 b2 b3 b4 b5
    have hne : plan.fast ≠ [] := by rw [hf]; simp
    have hi0 : i0 ∈ plan.fast := by rw [hf]; simp
    have hst : ∀ i ∈ plan.fast, stepOf o1 i = stepOf o i := by
      intro i hi; unfold stepOf; rw [a3 i (hdisj i hi)]
    have htt : ∀ i ∈ plan.fast, t = updates o i + 1 := by
      intro i hi
      rw [ht, updates_eq, hst i0 hi0, hp.steps i0 hi0 i hi]
    obtain ⟨c1, c2, c3⟩ := launch_spec (own := own) P hP h ps plan o hl hps hp hne t o2.mem
    have m3 : o3.mem = launch P (scalars P h t) plan o2.mem := by rw [ho3]
    rw [← m3] at c1 c2 c3
    have s3 : o3.state = o2.state := by rw [ho3]
    have w3 : SameWorld o o3 := by
      refine (a1.trans b1).trans ?_
      rw [ho3]; exact ⟨rfl, rfl, rfl, rfl, rfl⟩
    have ss3 : ∀ i, SameState (o.state i) (o3.state i) := by
      intro i; rw [s3]; exact (a2 i).trans (b3 i)
    have hupd : ∀ i ∈ plan.fast, updates o3 i = t := by
      intro i hi
      have : (o1.state i).isSome := by
        rw [a3 i (hdisj i hi)]
        exact hp.st i (hfm i hi).1 (hfm i hi).2
      have := b5 i hi this
      unfold updates at this ⊢
      rw [s3]; exact this
    refine ⟨w3, ss3, ?_, ?_, ?_, ?_⟩
    · intro i hi
      rw [s3, b4 i fun hh => hi (hfm i hh), a3 i fun hh => hi (hsm i hh)]
    · intro c hc
      rw [c1 c fun i hi => hc i (hfm i hi).1 (hfm i hi).2, b2, a5 c fun i hi => hc i (hsm i hi).1 (hsm i hi).2]
    · intro i hi g hg
      rcases (hp.memb i).mpr ⟨hi, by rw [hg]; rfl⟩ with hif | his
      · refine ⟨by rw [hupd i hif]; exact htt i hif, ?_⟩
        intro idx hidx
        obtain ⟨g', s, hg', hs, l1, l2, l3, l4⟩ := hp.fast i hif
        rw [hg] at hg'; cases hg'
        have iall := hps i hi
        have hpo := hl.param i iall
        have hao := hl.avg i iall s hs
        have hqo := hl.sq i iall s hs
        have hgo := hl.grad i iall g hg
        have og : offset g.stride idx = offset (o.param i).stride idx :=
          offset_of_layout (o.param i) g hgo.2.2.2.1.symm hpo.2.2.len hgo.2.2.2.2 l1 l2 idx hidx
        have oa : offset s.avg.stride idx = offset (o.param i).stride idx :=
          offset_of_layout (o.param i) s.avg hao.2.2.shape.symm hpo.2.2.len hao.2.2.len l1 l3 idx hidx
        have oq : offset s.sq.stride idx = offset (o.param i).stride idx :=
          offset_of_layout (o.param i) s.sq hqo.2.2.shape.symm hpo.2.2.len hqo.2.2.len l1 l4 idx hidx
        have hoff := (flat_pair (o.param i) hpo.2.2.len l1 idx idx hidx hidx).1
        have ev := c3 i hif g s hg hs _ hoff
        have m2 : ∀ c : Cell, (∃ r, own c.1 = some (i, r)) ∨ own c.1 = none → o2.mem c = o.mem c := by
          intro c hc
          rw [b2]
          refine a5 c fun j hj r hr => ?_
          rcases hc with ⟨r', hr'⟩ | hc
          · rw [hr] at hr'
            exact hdisj i hif ((Prod.mk.inj (Option.some.inj hr')).1 ▸ hj)
          · rw [hc] at hr; cases hr
        have hs3 := ss3 i
        rw [hs] at hs3
        cases hs' : o3.state i with
        | none => rw [hs'] at hs3; exact hs3.elim
        | some s' =>
          rw [hs'] at hs3
          obtain ⟨q1, q2, q3⟩ := hs3
          have hmx : ∀ b, s.mx = some b → o3.mem (b.at idx) = o.mem (b.at idx) := by
            intro b hb
            have hbo := (hl.mx i iall s hs b hb).1
            rw [c2 i hif _ hbo]
            exact m2 _ (Or.inl ⟨_, hbo⟩)
          obtain ⟨ha, hmx0⟩ := hp.flags hne
          rw [← htt i hif]
          unfold cellWeight at ev
          simp only at ev
          unfold weightAt elem
          rw [hs', hs, w3.param]
          simp only
          rw [q1, q2, q3]
          unfold Buf.at at hmx ⊢
          rw [og, oa, oq]
          rw [m2 (g.addr, _) (Or.inr hgo.1), m2 ((o.param i).addr, _) (Or.inl ⟨_, hpo.1⟩),
            m2 (s.avg.addr, _) (Or.inl ⟨_, hao.1⟩), m2 (s.sq.addr, _) (Or.inl ⟨_, hqo.1⟩)] at ev
          rw [Weight.ext_iff] at ev ⊢
          obtain ⟨v1, v2, v3, _⟩ := ev
          refine ⟨?_, ?_, ?_, ?_⟩
          · simpa only [adamw, ha, Bool.false_eq_true, if_false] using v1
          · simpa only [adamw, ha, Bool.false_eq_true, if_false] using v2
          · simpa only [adamw, ha, Bool.false_eq_true, if_false] using v3
          · cases hx : s.mx with
            | none => simp [adamw, ha]
            | some b => simp [adamw, ha, hmx b hx]
      · have hnf : i ∉ plan.fast := fun hh => hdisj i hh his
        have hfr : ∀ idx, weightAt o3 i idx = weightAt o1 i idx := by
          refine weight_frame (hl.same a1 a2) (by unfold Opt.all; rw [a1.groups]; exact hps i hi)
            (w3.param.trans a1.param.symm) ?_ ?_
          · rw [s3]; exact b3 i
          · rintro c ⟨r, hr⟩
            rw [c1 c ?_, b2]
            intro j hj r' hr'
            rw [hr] at hr'
            exact hnf ((Prod.mk.inj (Option.some.inj hr')).1 ▸ hj)
        refine ⟨?_, ?_⟩
        · rw [← a4 i his]
          unfold updates
          rw [s3, b4 i hnf]
        · intro idx hidx
          rw [hfr]
          exact a6 i his g hg idx hidx
    · refine hp.same w3.param w3.grad (fun i _ => ss3 i) ?_
      intro i hi j hj
      rw [← updates_eq, ← updates_eq, hupd i hi, hupd j hj]

end Verif.Adam
