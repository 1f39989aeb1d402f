/-
The effect of a fitting plan: the reference path and the launch.
-/
import Verif.Adam.Plan
import Mathlib.Data.List.Perm.Basic

set_option linter.unusedSectionVars false

namespace Verif.Adam

variable {K : Type} [Field K] [LinearOrder K]

theorem Local.congr {act : Mem K → Mem K} {W R W' R' : Cell → Prop} (h : Local act W R)
    (hW : ∀ c, W c ↔ W' c) (hR : ∀ c, R c ↔ R' c) : Local act W' R' :=
  ⟨fun mem c hc => h.frame mem c fun w => hc ((hW c).mp w),
   fun mem mem' he c hc => h.dep mem mem' (fun d hd => he d ((hR d).mp hd)) c ((hW c).mpr hc)⟩

theorem at_inj {b b' : Buf} {r r' : List Nat} (h : b.at r = b'.at r') :
    b.addr = b'.addr ∧ offset b.stride r = offset b'.stride r' := Prod.mk.inj h

/-- What the optimizer keeps apart from memory, state and cache. -/
structure SameWorld (o o' : Opt K) : Prop where
  param : o'.param = o.param
  grad : o'.grad = o.grad
  groups : o'.groups = o.groups
  cache : o'.cache = o.cache
  next : o'.next = o.next

theorem SameWorld.refl (o : Opt K) : SameWorld o o := ⟨rfl, rfl, rfl, rfl, rfl⟩

theorem SameWorld.trans {a b c : Opt K} (h1 : SameWorld a b) (h2 : SameWorld b c) : SameWorld a c :=
  ⟨h2.param.trans h1.param, h2.grad.trans h1.grad, h2.groups.trans h1.groups, h2.cache.trans h1.cache,
    h2.next.trans h1.next⟩

/-- The same tensors, possibly another step count. -/
def SameState (a b : Option PState) : Prop :=
  match a, b with
  | none, none => True
  | some s, some s' => s'.avg = s.avg ∧ s'.sq = s.sq ∧ s'.mx = s.mx
  | _, _ => False

theorem SameState.refl (a : Option PState) : SameState a a := by cases a <;> simp [SameState]

theorem SameState.trans {a b c : Option PState} (h1 : SameState a b) (h2 : SameState b c) : SameState a c := by
  cases a <;> cases b <;> cases c <;> simp only [SameState] at *
  exact ⟨h2.1.trans h1.1, h2.2.1.trans h1.2.1, h2.2.2.trans h1.2.2⟩

theorem SameState.some {a b : Option PState} (h : SameState a b) {s' : PState} (hb : b = some s') :
    ∃ s, a = some s ∧ s'.avg = s.avg ∧ s'.sq = s.sq ∧ s'.mx = s.mx := by
  subst hb
  cases a with
  | none => exact h.elim
  | some s => exact ⟨s, rfl, h⟩

theorem LiveBy.same {own : Nat → Option (Nat × Role)} {o o' : Opt K} (h : LiveBy own o) (hw : SameWorld o o')
    (hs : ∀ i, SameState (o.state i) (o'.state i)) : LiveBy own o' := by
  have hall : o'.all = o.all := by unfold Opt.all; rw [hw.groups]
  constructor
  · rw [hall]; exact h.nodup
  · rw [hall, hw.param, hw.next]; exact h.param
  · intro i hi s hsi
    obtain ⟨s0, h0, h1, _, _⟩ := (hs i).some hsi
    rw [hw.param, hw.next, h1]
    exact h.avg i (hall ▸ hi) s0 h0
  · intro i hi s hsi
    obtain ⟨s0, h0, _, h1, _⟩ := (hs i).some hsi
    rw [hw.param, hw.next, h1]
    exact h.sq i (hall ▸ hi) s0 h0
  · intro i hi s hsi b hb
    obtain ⟨s0, h0, _, _, h1⟩ := (hs i).some hsi
    rw [hw.param, hw.next]
    exact h.mx i (hall ▸ hi) s0 h0 b (h1 ▸ hb)
  · rw [hall, hw.param, hw.next, hw.grad]; exact h.grad
  · intro e he ha i hi s hsi
    obtain ⟨s0, h0, _, _, h1⟩ := (hs i).some hsi
    rw [h1]
    exact h.ams e (hw.groups ▸ he) ha i hi s0 h0

/-! ### The reference path -/

/-- The tensors written by the reference update of a parameter. -/
def written (h : Hyper K) (p : Buf) (s : PState) : List Buf := [p, s.avg, s.sq] ++ (maxBuf h s).toList

theorem written_facts {own : Nat → Option (Nat × Role)} {o : Opt K} (hl : LiveBy own o) (h : Hyper K)
    {i : Nat} (hi : i ∈ o.all) {s : PState} (hs : o.state i = some s) :
    (∀ b ∈ written h (o.param i) s, Solid b (o.param i).shape ∧ ∃ r, own b.addr = some (i, r))
    ∧ (∀ b ∈ written h (o.param i) s, ∀ b' ∈ written h (o.param i) s, b.addr = b'.addr → b = b') := by
  have hp := hl.param i hi
  have ha := hl.avg i hi s hs
  have hq := hl.sq i hi s hs
  have hx := hl.mx i hi s hs
  have hm : ∀ b, maxBuf h s = some b → s.mx = some b := by
    intro b hb
    unfold maxBuf at hb
    split at hb
    · exact hb
    · cases hb
  have hown : ∀ b ∈ written h (o.param i) s, (b = o.param i ∧ own b.addr = some (i, .param))
      ∨ (b = s.avg ∧ own b.addr = some (i, .avg)) ∨ (b = s.sq ∧ own b.addr = some (i, .sq))
      ∨ (maxBuf h s = some b ∧ own b.addr = some (i, .mx)) := by
    intro b hb
    simp only [written, List.cons_append, List.nil_append, List.mem_cons, Option.mem_toList] at hb
    rcases hb with rfl | rfl | rfl | hb
    · exact Or.inl ⟨rfl, hp.1⟩
    · exact Or.inr (Or.inl ⟨rfl, ha.1⟩)
    · exact Or.inr (Or.inr (Or.inl ⟨rfl, hq.1⟩))
    · exact Or.inr (Or.inr (Or.inr ⟨hb, (hx b (hm b hb)).1⟩))
  constructor
  · intro b hb
    rcases hown b hb with ⟨rfl, e⟩ | ⟨rfl, e⟩ | ⟨rfl, e⟩ | ⟨hb', e⟩
    · exact ⟨hp.2.2, _, e⟩
    · exact ⟨ha.2.2, _, e⟩
    · exact ⟨hq.2.2, _, e⟩
    · exact ⟨(hx b (hm b hb')).2.2, _, e⟩
  · intro b hb b' hb' he
    have r1 := hown b hb
    have r2 := hown b' hb'
    rw [he] at r1
    rcases r1 with ⟨e1, a⟩ | ⟨e1, a⟩ | ⟨e1, a⟩ | ⟨e1, a⟩ <;>
      rcases r2 with ⟨e2, c⟩ | ⟨e2, c⟩ | ⟨e2, c⟩ | ⟨e2, c⟩ <;>
      first
      | exact e1.trans e2.symm
      | exact Option.some.inj (e1.symm.trans e2)
      | exact absurd (a.symm.trans c) (by simp)

theorem refUpdate_spec {own : Nat → Option (Nat × Role)} (P : Platform K) (h : Hyper K) (o : Opt K)
    (hl : LiveBy own o) (i : Nat) (hi : i ∈ o.all) (g : Buf) (hg : o.grad i = some g) (s : PState)
    (hs : o.state i = some s) (ha : h.amsgrad = true → s.mx.isSome) :
    SameWorld o (refUpdate P h o i)
    ∧ (refUpdate P h o i).state = Function.update o.state i (some { s with step := s.step + 1 })
    ∧ (∀ c, (∀ r, own c.1 ≠ some (i, r)) → (refUpdate P h o i).mem c = o.mem c)
    ∧ ∀ idx, InShape (o.param i).shape idx →
      weightAt (refUpdate P h o i) i idx
        = adamw P.sqrt h (s.step + 1) (elem o.mem g idx) (weightAt o i idx) := by
  obtain ⟨o', ho⟩ : ∃ o', o' = refUpdate P h o i := ⟨_, rfl⟩
  obtain ⟨bs, hbs⟩ : ∃ bs, bs = written h (o.param i) s := ⟨_, rfl⟩
  obtain ⟨w1, w2⟩ := written_facts hl h hi hs
  rw [← hbs] at w1 w2
  have hgo := hl.grad i hi g hg
  obtain ⟨act, hact⟩ : ∃ act : List Nat → Mem K → Mem K, act = fun idx =>
      refAct P h (s.step + 1) ⟨(o.param i).at idx, g.at idx, s.avg.at idx, s.sq.at idx⟩
        ((maxBuf h s).map (·.at idx)) := ⟨_, rfl⟩
  have e : o' = { o with
      state := Function.update o.state i (some { s with step := s.step + 1 })
      mem := (indices (o.param i).shape).foldl (fun mem idx => act idx mem) o.mem } := by
    rw [ho, hact]; unfold refUpdate; rw [hg, hs]
  have hxs : ∀ idx, ((maxBuf h s).map (·.at idx)).isSome = h.amsgrad := by
    intro idx
    unfold maxBuf
    cases hh : h.amsgrad with
    | false => simp
    | true => rw [if_pos rfl, Option.isSome_map]; exact ha hh
  have ne_g : ∀ b ∈ bs, ∀ r r', b.at r ≠ g.at r' := by
    intro b hb r r' he
    obtain ⟨_, ρ, hρ⟩ := w1 b hb
    rw [(at_inj he).1, hgo.1] at hρ
    cases hρ
  have mp : o.param i ∈ bs := by rw [hbs]; simp [written]
  have mm : s.avg ∈ bs := by rw [hbs]; simp [written]
  have mv : s.sq ∈ bs := by rw [hbs]; simp [written]
  have mx : ∀ b, maxBuf h s = some b → b ∈ bs := by intro b hb; rw [hbs]; simp [written, hb]
  have hpa := (hl.param i hi).1
  have hav := (hl.avg i hi s hs).1
  have hsv := (hl.sq i hi s hs).1
  have hxv : ∀ b, maxBuf h s = some b → own b.addr = some (i, .mx) := by
    intro b hb
    refine (hl.mx i hi s hs b ?_).1
    unfold maxBuf at hb
    split at hb
    · exact hb
    · cases hb
  have neo : ∀ (b b' : Buf) (r r' : List Nat) (ρ ρ' : Role), own b.addr = some (i, ρ) →
      own b'.addr = some (i, ρ') → ρ ≠ ρ' → b.at r ≠ b'.at r' := by
    intro b b' r r' ρ ρ' h1 h2 hne he
    rw [(at_inj he).1, h2] at h1
    exact hne (Prod.mk.inj (Option.some.inj h1)).2.symm
  have hdist : ∀ idx, Cells.Distinct ⟨(o.param i).at idx, g.at idx, s.avg.at idx, s.sq.at idx⟩
      ((maxBuf h s).map (·.at idx)) := by
    intro idx
    refine ⟨ne_g _ mp _ _, neo _ _ _ _ _ _ hpa hav (by decide), neo _ _ _ _ _ _ hpa hsv (by decide),
      (ne_g _ mm _ _).symm, (ne_g _ mv _ _).symm, neo _ _ _ _ _ _ hav hsv (by decide), ?_, ?_, ?_, ?_⟩ <;>
      · intro y hy
        obtain ⟨b, hb, rfl⟩ := Option.map_eq_some_iff.mp hy
        first
        | exact neo _ _ _ _ _ _ (hxv b hb) hpa (by decide)
        | exact neo _ _ _ _ _ _ (hxv b hb) hav (by decide)
        | exact neo _ _ _ _ _ _ (hxv b hb) hsv (by decide)
        | exact ne_g _ (mx b hb) _ _
  have hloc : ∀ idx, Local (act idx) (fun d => ∃ b ∈ bs, d = b.at idx)
      (fun d => ∃ b ∈ bs ++ [g], d = b.at idx) := by
    intro idx
    rw [hact]
    refine (refAct_local P h (s.step + 1) _ _ (hdist idx) (hxs idx)).congr ?_ ?_
    · intro d
      rw [hbs]
      simp only [written, List.cons_append, List.nil_append, List.mem_cons, Option.mem_toList,
        exists_eq_or_imp]
      refine or_congr Iff.rfl (or_congr Iff.rfl (or_congr Iff.rfl ?_))
      rw [Option.map_eq_some_iff]
      exact ⟨fun ⟨b, h1, h2⟩ => ⟨b, h1, h2.symm⟩, fun ⟨b, h1, h2⟩ => ⟨b, h1, h2.symm⟩⟩
    · intro d
      rw [hbs]
      simp only [written, List.cons_append, List.nil_append, List.mem_cons, Option.mem_toList,
        exists_eq_or_imp, List.mem_append, List.not_mem_nil, or_false]
      refine or_congr Iff.rfl (or_congr Iff.rfl (or_congr Iff.rfl ?_))
      rw [Option.map_eq_some_iff]
      constructor
      · rintro (⟨b, h1, h2⟩ | h1)
        · exact ⟨b, Or.inl h1, h2.symm⟩
        · exact ⟨g, Or.inr rfl, h1⟩
      · rintro ⟨b, h1 | rfl, h2⟩
        · exact Or.inl ⟨b, h1, h2.symm⟩
        · exact Or.inr h2
  have hdis : ∀ k ∈ indices (o.param i).shape, ∀ k' ∈ indices (o.param i).shape, k ≠ k' →
      ∀ c, (∃ b ∈ bs, c = b.at k) → ¬ (∃ b ∈ bs ++ [g], c = b.at k') ∧ ¬ (∃ b ∈ bs, c = b.at k') := by
    intro k hk k' hk' hne c hc
    have key : ¬ (∃ b ∈ bs, c = b.at k') := by
      obtain ⟨b, hb, rfl⟩ := hc
      rintro ⟨b', hb', he⟩
      obtain ⟨h1, h2⟩ := at_inj he
      have := w2 b hb b' hb' h1
      subst this
      exact hne ((w1 b hb).1.inj k k' ((mem_indices _ _).mp hk) ((mem_indices _ _).mp hk') h2)
    refine ⟨?_, key⟩
    rintro ⟨b', hb', he⟩
    rcases List.mem_append.mp hb' with hb' | hb'
    · exact key ⟨b', hb', he⟩
    · obtain ⟨b, hb, rfl⟩ := hc
      rw [List.mem_singleton.mp hb'] at he
      exact ne_g b hb k k' he
  obtain ⟨f1, f2⟩ := foldl_local' act _ _ hloc (indices (o.param i).shape) (nodup_indices _) hdis o.mem
  rw [← ho]
  refine ⟨by rw [e]; exact ⟨rfl, rfl, rfl, rfl, rfl⟩, by rw [e], ?_, ?_⟩
  · intro c hc
    rw [e]
    refine f1 c fun k _ => ?_
    rintro ⟨b, hb, rfl⟩
    obtain ⟨_, r, hr⟩ := w1 b hb
    exact hc r hr
  · intro idx hidx
    have hk := (mem_indices _ _).mpr hidx
    have hst : o'.state i = some { s with step := s.step + 1 } := by
      rw [e]; exact Function.update_self ..
    have hm' : ∀ b ∈ bs, o'.mem (b.at idx) = act idx o.mem (b.at idx) := by
      intro b hb
      rw [e]
      exact f2 idx hk _ ⟨b, hb, rfl⟩
    have ev := refAct_eval P h (s.step + 1) _ _ (hdist idx) (hxs idx) o.mem
    have hcw : ∀ mem : Mem K, cellWeight ⟨(o.param i).at idx, g.at idx, s.avg.at idx, s.sq.at idx⟩
        ((maxBuf h s).map (·.at idx)) mem = ⟨mem ((o.param i).at idx), mem (s.avg.at idx), mem (s.sq.at idx),
          match (maxBuf h s) with
          | none => 0
          | some b => mem (b.at idx)⟩ := by
      intro mem
      unfold cellWeight
      cases maxBuf h s <;> rfl
    have hpar : o'.param = o.param := by rw [e]
    unfold weightAt elem
    rw [hst, hs, hpar]
    simp only
    rw [hcw, hcw] at ev
    have hact' : refAct P h (s.step + 1) ⟨(o.param i).at idx, g.at idx, s.avg.at idx, s.sq.at idx⟩
        ((maxBuf h s).map (·.at idx)) = act idx := by rw [hact]
    rw [hact'] at ev
    rw [hm' _ mp, hm' _ mm, hm' _ mv]
    cases hams : h.amsgrad with
    | true =>
      have hb : maxBuf h s = s.mx := by unfold maxBuf; rw [if_pos hams]
      rw [hb] at ev mx
      cases hx : s.mx with
      | none =>
        rw [hx] at ev
        exact ev
      | some b =>
        rw [hx] at ev
        simp only at ev ⊢
        rw [hm' b (mx b hx)]
        exact ev
    | false =>
      have hb : maxBuf h s = none := by unfold maxBuf; rw [if_neg (by simp [hams])]
      rw [hb] at ev
      simp only at ev
      have hsame : ∀ b, s.mx = some b → o'.mem (b.at idx) = o.mem (b.at idx) := by
        intro b hb'
        rw [e]
        refine f1 _ fun k _ => ?_
        rintro ⟨b', hb1, he⟩
        have ho1 := (hl.mx i hi s hs b hb').1
        rw [hbs] at hb1
        simp only [written, hb, List.cons_append, List.nil_append, Option.toList, List.mem_cons,
          List.not_mem_nil, or_false] at hb1
        rcases hb1 with rfl | rfl | rfl
        · exact neo _ _ _ _ _ _ ho1 hpa (by decide) he
        · exact neo _ _ _ _ _ _ ho1 hav (by decide) he
        · exact neo _ _ _ _ _ _ ho1 hsv (by decide) he
      rw [Weight.ext_iff] at ev
      obtain ⟨a1, a2, a3, _⟩ := ev
      rw [Weight.ext_iff]
      refine ⟨?_, ?_, ?_, ?_⟩
      · simpa only [adamw, hams, Bool.false_eq_true, if_false] using a1
      · simpa only [adamw, hams] using a2
      · simpa only [adamw, hams] using a3
      · cases hx : s.mx with
        | none => simp [adamw, hams]
        | some b => simp [adamw, hams, hsame b hx]

end Verif.Adam
