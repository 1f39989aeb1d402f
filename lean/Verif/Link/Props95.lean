/-
C95: zero links leave no trace in the gradients.
-/
import Verif.Link.Model
import Mathlib.Tactic.Ring
import Mathlib.Tactic.Linarith
import Mathlib.Tactic.SplitIfs
import Mathlib.Algebra.BigOperators.Group.List.Basic

namespace Verif.Link

/-! ### Specification -/

/-- A call contributes to a parameter: initialised, reached by the backward pass, and the parameter is one of its own. -/
def Contributes (e : Env) (p : Nat) (c : Call) : Prop := c.inited = true ∧ c.reach = true ∧ p ∈ c.params ∧ e.requiresGrad p = true

instance (e : Env) (p : Nat) (c : Call) : Decidable (Contributes e p c) := by unfold Contributes; infer_instance

/-- What the gradients of a program without links are: the sum of the contributions, or nothing. -/
noncomputable def expected (e : Env) (micros : List (List Call)) (p : Nat) : Option ℝ :=
  let gs := ((micros.flatten).filter fun c => decide (Contributes e p c)).map fun c => c.g p
  if gs = [] then none else some gs.sum

/-- What the models guarantee. -/
structure Regular (micros : List (List Call)) : Prop where
  /-- A call that is not initialised was not initialised in the earlier micro-steps. -/
  monotone : ∀ a cs b, micros = a ++ cs :: b → ∀ c ∈ cs, c.inited = false → ∀ cs' ∈ a, ∃ c' ∈ cs', c'.inited = false ∧ c'.params = c.params
  /-- The mapping of a quantiser has its own parameters, is called once in a micro-step, and is reached. -/
  own : ∀ a cs b, micros = a ++ cs :: b → ∀ x c y, cs = x ++ c :: y → c.mapping = true → c.reach = true ∧ ∀ c' ∈ x ++ y, ∀ p ∈ c.params, p ∉ c'.params

/-! ### Proof -/

noncomputable def contribs (e : Env) (p : Nat) (cs : List Call) : List ℝ :=
  (cs.filter fun c => decide (Contributes e p c)).map fun c => c.g p

theorem contribs_append (e : Env) (p : Nat) (a b : List Call) : contribs e p (a ++ b) = contribs e p a ++ contribs e p b := by
  simp [contribs]

theorem contribs_reverse_sum (e : Env) (p : Nat) (a : List Call) : (contribs e p a.reverse).sum = (contribs e p a).sum := by
  unfold contribs
  exact (((List.reverse_perm a).filter _).map _).sum_eq

theorem contribs_reverse_nil (e : Env) (p : Nat) (a : List Call) : contribs e p a.reverse = [] ↔ contribs e p a = [] := by
  unfold contribs
  simp

/-- A call without the parameter does nothing to it. -/
theorem forward_other (e : Env) (p : Nat) (s : St) (c : Call) (h : p ∉ c.params ∨ e.requiresGrad p = false ∧ s.flag p = none) :
    (forwardCall e s c).flag p = s.flag p ∧ (forwardCall e s c).grad p = s.grad p := by
  unfold forwardCall preinit mark
  rcases h with h | ⟨h, h'⟩
  · split_ifs <;> simp_all
  · split_ifs <;> simp_all

theorem forward_grad (e : Env) (p : Nat) (s : St) (cs : List Call) : (cs.foldl (forwardCall e) s).grad p = s.grad p := by
  induction cs generalizing s with
  | nil => rfl
  | cons c cs ih =>
    rw [List.foldl_cons, ih]
    unfold forwardCall preinit mark
    split_ifs <;> rfl

theorem backward_other (e : Env) (p : Nat) (s : St) (c : Call) (h : p ∉ c.params ∨ e.requiresGrad p = false ∧ s.flag p = none) :
    (backwardCall e s c).flag p = s.flag p ∧ (backwardCall e s c).grad p = s.grad p := by
  unfold backwardCall addGrad mark
  rcases h with h | ⟨h, h'⟩
  · split_ifs <;> simp_all
  · split_ifs <;> simp_all

theorem forward_fold_other (e : Env) (p : Nat) (cs : List Call) (s : St)
    (h : ∀ c ∈ cs, p ∉ c.params ∨ e.requiresGrad p = false ∧ s.flag p = none) :
    (cs.foldl (forwardCall e) s).flag p = s.flag p := by
  induction cs generalizing s with
  | nil => rfl
  | cons c cs ih =>
    have h1 := (forward_other e p s c (h c (by simp))).1
    rw [List.foldl_cons, ih _ (fun d hd => by rw [h1]; exact h d (by simp [hd])), h1]

theorem backward_fold_other (e : Env) (p : Nat) (cs : List Call) (s : St)
    (h : ∀ c ∈ cs, p ∉ c.params ∨ e.requiresGrad p = false ∧ s.flag p = none) :
    (cs.foldl (backwardCall e) s).flag p = s.flag p ∧ (cs.foldl (backwardCall e) s).grad p = s.grad p := by
  induction cs generalizing s with
  | nil => exact ⟨rfl, rfl⟩
  | cons c cs ih =>
    have h1 := backward_other e p s c (h c (by simp))
    have := ih (backwardCall e s c) (fun d hd => by rw [h1.1]; exact h d (by simp [hd]))
    rw [List.foldl_cons]
    exact ⟨this.1.trans h1.1, this.2.trans h1.2⟩

/-- The forward passes of calls that do not mark. -/
theorem forward_fold (e : Env) (he : e.enabled = true) (p : Nat) (hr : e.requiresGrad p = true) (cs : List Call) (s : St)
    (hm : ∀ c ∈ cs, p ∈ c.params → c.mapping = false) :
    (cs.foldl (forwardCall e) s).flag p =
      if (∃ c ∈ cs, p ∈ c.params ∧ c.inited = false) ∧ (s.flag p).getD true = true then some true else s.flag p := by
  induction cs generalizing s with
  | nil => simp
  | cons c cs ih =>
    rw [List.foldl_cons, ih _ fun d hd => hm d (by simp [hd])]
    by_cases hp : p ∈ c.params
    · by_cases hi : c.inited = false
      · have e1 : (forwardCall e s c).flag p = if (s.flag p).getD true = true then some true else s.flag p := by
          unfold forwardCall preinit
          simp [hi, he, hp, hr]
        rw [e1]
        by_cases hf : (s.flag p).getD true = true
        · have hex : ∃ d ∈ c :: cs, p ∈ d.params ∧ d.inited = false := ⟨c, by simp, hp, hi⟩
          rw [if_pos hf]
          conv_rhs => rw [if_pos ⟨hex, hf⟩]
          split_ifs <;> rfl
        · rw [if_neg hf]
          rw [if_neg (fun h => hf h.2), if_neg (fun h => hf h.2)]
      · have e1 : (forwardCall e s c).flag p = s.flag p := by
          unfold forwardCall
          simp [hi, hm c (by simp) hp]
        rw [e1]
        congr 1
        simp [hi]
    · rw [(forward_other e p s c (Or.inl hp)).1]
      congr 1
      simp [hp]

/-- The backward passes. -/
theorem backward_fold (e : Env) (he : e.enabled = true) (p : Nat) (hr : e.requiresGrad p = true) (cs : List Call) (s : St)
    (hm : ∀ c ∈ cs, p ∈ c.params → c.mapping = false) :
    (cs.foldl (backwardCall e) s).flag p = (if contribs e p cs ≠ [] ∧ (s.flag p).isSome = true then some false else s.flag p) ∧
    ((cs.foldl (backwardCall e) s).grad p =
      if contribs e p cs = [] ∧ ¬ ∃ c ∈ cs, p ∈ c.params ∧ c.inited = false ∧ c.reach = true then s.grad p
      else some ((s.grad p).getD 0 + (contribs e p cs).sum)) := by
  induction cs generalizing s with
  | nil => simp [contribs]
  | cons c cs ih =>
    rw [List.foldl_cons]
    obtain ⟨ih1, ih2⟩ := ih (backwardCall e s c) fun d hd => hm d (by simp [hd])
    rw [ih1, ih2]
    by_cases hp : p ∈ c.params
    · by_cases hrc : c.reach = true
      · by_cases hi : c.inited = true
        · have hc : Contributes e p c := ⟨hi, hrc, hp, hr⟩
          have hcs : contribs e p (c :: cs) = c.g p :: contribs e p cs := by simp [contribs, hc]
          have e1 : (backwardCall e s c).flag p = if (s.flag p).isSome = true then some false else s.flag p := by
            unfold backwardCall addGrad mark
            simp [hrc, hi, hm c (by simp) hp, he, hp]
          have e2 : (backwardCall e s c).grad p = some ((s.grad p).getD 0 + c.g p) := by
            unfold backwardCall addGrad mark
            simp [hrc, hi, hm c (by simp) hp, he, hp, hr]
          rw [hcs, e1, e2]
          constructor
          · by_cases hs : (s.flag p).isSome = true
            · simp [hs]
            · simp [hs]
          · simp only [reduceCtorEq, false_and, if_false, List.sum_cons]
            split_ifs with h
            · rw [h.1]; simp
            · simp [add_assoc]
        · have hi : c.inited = false := by simpa using hi
          have hc : ¬ Contributes e p c := fun h => by have := h.1; rw [hi] at this; cases this
          have hcs : contribs e p (c :: cs) = contribs e p cs := by simp [contribs, hc]
          have e1 : (backwardCall e s c).flag p = s.flag p := by
            unfold backwardCall addGrad
            simp [hrc, hi, he]
          have e2 : (backwardCall e s c).grad p = some ((s.grad p).getD 0) := by
            unfold backwardCall addGrad
            simp [hrc, hi, he, hp, hr]
          rw [hcs, e1, e2]
          refine ⟨rfl, ?_⟩
          rw [if_neg (fun h : _ ∧ ¬ ∃ c' ∈ c :: cs, _ => h.2 ⟨c, by simp, hp, hi, hrc⟩)]
          split_ifs with h
          · rw [h.1]; simp
          · simp
      · have hrc : c.reach = false := by simpa using hrc
        have hcs : contribs e p (c :: cs) = contribs e p cs := by simp [contribs, Contributes, hrc]
        have e1 : backwardCall e s c = s := by unfold backwardCall; simp [hrc]
        rw [hcs, e1]
        simp [hrc]
    · have hcs : contribs e p (c :: cs) = contribs e p cs := by simp [contribs, Contributes, hp]
      obtain ⟨e1, e2⟩ := backward_other e p s c (Or.inl hp)
      rw [hcs, e1, e2]
      simp [hp]

/-- Without links. -/
theorem plain_fold (e : Env) (he : e.enabled = false) (p : Nat) (cs : List Call) (s : St) (hf : s.flag p = none) :
    ((cs.foldl (forwardCall e) s).flag p = none) ∧ (cs.foldl (backwardCall e) s).flag p = none ∧
    (cs.foldl (backwardCall e) s).grad p = (if contribs e p cs = [] then s.grad p else some ((s.grad p).getD 0 + (contribs e p cs).sum)) := by
  induction cs generalizing s with
  | nil => simp [contribs, hf]
  | cons c cs ih =>
    have h1 : (forwardCall e s c).flag p = none := by
      unfold forwardCall preinit mark
      split_ifs <;> simp_all
    have h2 : (backwardCall e s c).flag p = none := by
      unfold backwardCall addGrad mark
      split_ifs <;> simp_all
    have h3 : (backwardCall e s c).grad p = if Contributes e p c then some ((s.grad p).getD 0 + c.g p) else s.grad p := by
      unfold backwardCall addGrad Contributes
      by_cases a : c.reach = true <;> by_cases b : c.inited = true <;> simp [a, b, he]
    rw [List.foldl_cons, List.foldl_cons]
    refine ⟨(ih _ h1).1, (ih _ h2).2.1, ?_⟩
    rw [(ih _ h2).2.2, h3]
    by_cases hc : Contributes e p c
    · have hcs : contribs e p (c :: cs) = c.g p :: contribs e p cs := by simp [contribs, hc]
      rw [hcs, if_pos hc]
      simp only [reduceCtorEq, if_false, List.sum_cons]
      split_ifs with h
      · rw [h]; simp
      · simp [add_assoc]
    · have hcs : contribs e p (c :: cs) = contribs e p cs := by simp [contribs, hc]
      rw [hcs, if_neg hc]

theorem expected_eq (e : Env) (p : Nat) (micros : List (List Call)) :
    expected e micros p = if contribs e p micros.flatten = [] then none else some (contribs e p micros.flatten).sum := rfl

theorem plain_run (e : Env) (he : e.enabled = false) (p : Nat) (done : List (List Call)) (micros : List (List Call)) (s : St)
    (hf : s.flag p = none) (hg : s.grad p = expected e done p) :
    (micros.foldl (microStep e) s).flag p = none ∧ (micros.foldl (microStep e) s).grad p = expected e (done ++ micros) p := by
  induction micros generalizing s done with
  | nil => simpa using ⟨hf, hg⟩
  | cons cs micros ih =>
    obtain ⟨a1, -, -⟩ := plain_fold e he p cs s hf
    obtain ⟨-, b1, b2⟩ := plain_fold e he p cs.reverse _ a1
    rw [List.foldl_cons]
    have := ih (done ++ [cs]) (microStep e s cs) b1 (by
      unfold microStep
      rw [b2, forward_grad, hg, expected_eq, expected_eq, contribs_reverse_sum]
      simp only [contribs_reverse_nil]
      have hfl : (done ++ [cs]).flatten = done.flatten ++ cs := by simp
      rw [hfl, contribs_append]
      by_cases h1 : contribs e p cs = []
      · simp [h1]
      · by_cases h2 : contribs e p done.flatten = []
        · simp [h1, h2]
        · simp [h1, h2])
    simpa using this

theorem no_grad_run (e : Env) (p : Nat) (hr : e.requiresGrad p = false) (micros : List (List Call)) (s : St) (hf : s.flag p = none) :
    (micros.foldl (microStep e) s).flag p = none ∧ (micros.foldl (microStep e) s).grad p = s.grad p := by
  induction micros generalizing s with
  | nil => exact ⟨hf, rfl⟩
  | cons cs micros ih =>
    have a := forward_fold_other e p cs s (fun _ _ => Or.inr ⟨hr, hf⟩)
    have b := backward_fold_other e p cs.reverse (cs.foldl (forwardCall e) s) (fun _ _ => Or.inr ⟨hr, a.trans hf⟩)
    rw [List.foldl_cons]
    have := ih (microStep e s cs) (b.1.trans (a.trans hf))
    refine ⟨this.1, this.2.trans ?_⟩
    exact b.2.trans (forward_grad e p s cs)

/-- Between micro-steps. -/
def Inv (e : Env) (p : Nat) (done : List (List Call)) (s : St) : Prop :=
  (s.flag p = none ∧ s.grad p = expected e done p ∧ ∀ cs ∈ done, ∀ c ∈ cs, p ∈ c.params → c.inited = true) ∨
  (s.flag p = some true ∧ contribs e p done.flatten = [] ∧ (s.grad p = none ∨ s.grad p = some 0)) ∨
  (s.flag p = some false ∧ contribs e p done.flatten ≠ [] ∧ s.grad p = some (contribs e p done.flatten).sum)

/-- The effect of one micro-step that the invariant needs. -/
theorem inv_of_effect (e : Env) (p : Nat) (done : List (List Call)) (cs : List Call) (s t : St) (h : Inv e p done s)
    (hlate : (∃ c ∈ cs, p ∈ c.params ∧ c.inited = false) → s.flag p = none → done = [])
    (hflag : t.flag p = if contribs e p cs ≠ [] ∧ ((∃ c ∈ cs, p ∈ c.params ∧ c.inited = false) ∨ (s.flag p).isSome = true) then some false
      else if (∃ c ∈ cs, p ∈ c.params ∧ c.inited = false) ∧ (s.flag p).getD true = true then some true else s.flag p)
    (hgrad : t.grad p = if contribs e p cs = [] ∧ ¬ ∃ c ∈ cs, p ∈ c.params ∧ c.inited = false ∧ c.reach = true then s.grad p
      else some ((s.grad p).getD 0 + (contribs e p cs).sum)) : Inv e p (done ++ [cs]) t := by
  have hfl : (done ++ [cs]).flatten = done.flatten ++ cs := by simp
  unfold Inv
  rw [expected_eq, hfl, contribs_append]
  have hsub : ¬ (∃ c ∈ cs, p ∈ c.params ∧ c.inited = false) → ¬ ∃ c ∈ cs, p ∈ c.params ∧ c.inited = false ∧ c.reach = true := by
    rintro hn ⟨c, hc, h1, h2, -⟩
    exact hn (⟨c, hc, h1, h2⟩)
  classical
  by_cases hc : contribs e p cs = []
  · rw [if_neg (by simp [hc])] at hflag
    rw [hc] at hgrad
    rw [hc, List.append_nil]
    by_cases hl : ∃ c ∈ cs, p ∈ c.params ∧ c.inited = false
    · -- links only
      rcases h with ⟨h1, h2, -⟩ | ⟨h1, h2, h3⟩ | ⟨h1, h2, h3⟩
      · have hd := hlate hl h1
        subst hd
        right; left
        refine ⟨by rw [hflag, if_pos ⟨hl, by rw [h1]; rfl⟩], by simp [contribs], ?_⟩
        rw [hgrad, h2]
        split_ifs
        · left; simp [expected]
        · right; simp [expected]
      · right; left
        refine ⟨by rw [hflag, h1]; split_ifs <;> simp_all, h2, ?_⟩
        rw [hgrad]
        split_ifs
        · exact h3
        · right
          rcases h3 with h3 | h3 <;> rw [h3] <;> simp
      · right; right
        refine ⟨by rw [hflag, h1]; split_ifs <;> simp_all, h2, ?_⟩
        rw [hgrad, h3]
        split_ifs <;> simp
    · rw [if_neg (fun h => hl h.1)] at hflag
      rw [if_pos ⟨rfl, hsub hl⟩] at hgrad
      rw [hflag, hgrad]
      rcases h with ⟨h1, h2, h3⟩ | h | h
      · left
        refine ⟨h1, by rw [h2, expected_eq], ?_⟩
        intro cs' hcs' c hcc hp
        rcases List.mem_append.mp hcs' with h' | h'
        · exact h3 cs' h' c hcc hp
        · simp only [List.mem_singleton] at h'
          subst h'
          by_contra hi
          exact hl (⟨c, hcc, hp, by simpa using hi⟩)
      · right; left; exact h
      · right; right; exact h
  · rw [if_neg (fun h => hc h.1)] at hgrad
    by_cases hl : (∃ c ∈ cs, p ∈ c.params ∧ c.inited = false) ∨ (s.flag p).isSome = true
    · rw [if_pos ⟨hc, hl⟩] at hflag
      right; right
      refine ⟨hflag, by simp [hc], ?_⟩
      rw [hgrad, List.sum_append]
      rcases h with ⟨h1, h2, -⟩ | ⟨h1, h2, h3⟩ | ⟨h1, h2, h3⟩
      · have hd : done = [] := by
          rcases hl with hl | hl
          · exact hlate hl h1
          · rw [h1] at hl; simp at hl
        subst hd
        rw [h2]
        simp [expected, contribs]
      · rw [h2]
        rcases h3 with h3 | h3 <;> rw [h3] <;> simp
      · rw [h3]; simp
    · rw [if_neg (fun h => hl h.2), if_neg (fun h => hl (Or.inl h.1))] at hflag
      have hn : s.flag p = none := by
        cases hs : s.flag p with
        | none => rfl
        | some b => exact absurd (Or.inr (by rw [hs]; rfl)) hl
      left
      refine ⟨hflag.trans hn, ?_, ?_⟩
      · rcases h with ⟨h1, h2, h3⟩ | ⟨h1, -⟩ | ⟨h1, -⟩
        · rw [hgrad, h2, expected_eq]
          by_cases hd : contribs e p done.flatten = []
          · simp [hd, hc]
          · simp [hd]
        · rw [hn] at h1; cases h1
        · rw [hn] at h1; cases h1
      · rcases h with ⟨h1, h2, h3⟩ | ⟨h1, -⟩ | ⟨h1, -⟩
        · intro cs' hcs' c hcc hp
          rcases List.mem_append.mp hcs' with h' | h'
          · exact h3 cs' h' c hcc hp
          · simp only [List.mem_singleton] at h'
            subst h'
            by_contra hi
            exact hl (Or.inl (⟨c, hcc, hp, by simpa using hi⟩))
        · rw [hn] at h1; cases h1
        · rw [hn] at h1; cases h1

theorem forward_congr (e : Env) (p : Nat) (s t : St) (c : Call) (h : s.flag p = t.flag p) :
    (forwardCall e s c).flag p = (forwardCall e t c).flag p := by
  unfold forwardCall preinit mark
  split_ifs <;> simp [h]

theorem effect (e : Env) (he : e.enabled = true) (p : Nat) (hr : e.requiresGrad p = true) (cs : List Call) (s : St)
    (hown : ∀ x c y, cs = x ++ c :: y → c.mapping = true → c.reach = true ∧ ∀ c' ∈ x ++ y, ∀ p ∈ c.params, p ∉ c'.params) :
    ((microStep e s cs).flag p = if contribs e p cs ≠ [] ∧ ((∃ c ∈ cs, p ∈ c.params ∧ c.inited = false) ∨ (s.flag p).isSome = true) then some false
      else if (∃ c ∈ cs, p ∈ c.params ∧ c.inited = false) ∧ (s.flag p).getD true = true then some true else s.flag p) ∧
    ((microStep e s cs).grad p = if contribs e p cs = [] ∧ ¬ ∃ c ∈ cs, p ∈ c.params ∧ c.inited = false ∧ c.reach = true then s.grad p
      else some ((s.grad p).getD 0 + (contribs e p cs).sum)) := by
  classical
  by_cases hm : ∀ c ∈ cs, p ∈ c.params → c.mapping = false
  · obtain ⟨b1, b2⟩ := backward_fold e he p hr cs.reverse (cs.foldl (forwardCall e) s) (by simpa using hm)
    have f1 := forward_fold e he p hr cs s hm
    unfold microStep
    rw [b1, b2, f1, forward_grad, contribs_reverse_sum]
    simp only [ne_eq, contribs_reverse_nil, List.mem_reverse]
    refine ⟨?_, trivial⟩
    by_cases hl : ∃ c ∈ cs, p ∈ c.params ∧ c.inited = false
    · cases hs : s.flag p with
      | none => simp [hl]
      | some b => cases b <;> simp [hl]
    · simp [hl]
  · push Not at hm
    obtain ⟨c, hc, hp, hmc⟩ := hm
    have hmc : c.mapping = true := by simpa using hmc
    obtain ⟨x, y, rfl⟩ := List.append_of_mem hc
    obtain ⟨hre, hot⟩ := hown x c y rfl hmc
    have hx : ∀ c' ∈ x, p ∉ c'.params := fun c' h' => hot c' (by simp [h']) p hp
    have hy : ∀ c' ∈ y, p ∉ c'.params := fun c' h' => hot c' (by simp [h']) p hp
    have hcx : ∀ l : List Call, (∀ c' ∈ l, p ∉ c'.params) → contribs e p l = [] := by
      intro l hl
      unfold contribs
      rw [List.map_eq_nil_iff, List.filter_eq_nil_iff]
      intro c' h'
      simp [Contributes, hl c' h']
    have hcs : contribs e p (x ++ c :: y) = contribs e p [c] := by
      rw [contribs_append, hcx x hx, List.nil_append, show c :: y = [c] ++ y from rfl, contribs_append, hcx y hy, List.append_nil]
    have hex : (∃ d ∈ x ++ c :: y, p ∈ d.params ∧ d.inited = false) ↔ c.inited = false := by
      constructor
      · rintro ⟨d, hd, h1, h2⟩
        rcases List.mem_append.mp hd with hd | hd
        · exact absurd h1 (hx d hd)
        · rcases List.mem_cons.mp hd with rfl | hd
          · exact h2
          · exact absurd h1 (hy d hd)
      · intro h; exact ⟨c, by simp, hp, h⟩
    have hex2 : (∃ d ∈ x ++ c :: y, p ∈ d.params ∧ d.inited = false ∧ d.reach = true) ↔ c.inited = false := by
      constructor
      · rintro ⟨d, hd, h1, h2, -⟩
        exact hex.mp ⟨d, hd, h1, h2⟩
      · intro h; exact ⟨c, by simp, hp, h, hre⟩
    -- the forward pass
    have f1 : ((x ++ c :: y).foldl (forwardCall e) s).flag p = (forwardCall e s c).flag p := by
      rw [List.foldl_append, List.foldl_cons, forward_fold_other e p y _ (fun d hd => Or.inl (hy d hd))]
      have := forward_fold_other e p x s (fun d hd => Or.inl (hx d hd))
      exact forward_congr e p _ s c this
    obtain ⟨t, ht⟩ : ∃ t, t = (x ++ c :: y).foldl (forwardCall e) s := ⟨_, rfl⟩
    rw [← ht] at f1
    have ftg : t.grad p = s.grad p := by rw [ht]; exact forward_grad e p s _
    have hms : microStep e s (x ++ c :: y) = x.reverse.foldl (backwardCall e) (backwardCall e (y.reverse.foldl (backwardCall e) t) c) := by
      unfold microStep
      rw [← ht]
      simp
    obtain ⟨y1, y2⟩ := backward_fold_other e p y.reverse t (fun d hd => Or.inl (hy d (by simpa using hd)))
    obtain ⟨x1, x2⟩ := backward_fold_other e p x.reverse (backwardCall e (y.reverse.foldl (backwardCall e) t) c) (fun d hd => Or.inl (hx d (by simpa using hd)))
    rw [hms, x1, x2, hcs]
    simp only [hex, hex2]
    obtain ⟨v, hv⟩ : ∃ v, v = y.reverse.foldl (backwardCall e) t := ⟨_, rfl⟩
    rw [← hv] at y1 y2 ⊢
    by_cases hi : c.inited = true
    · have hk : contribs e p [c] = [c.g p] := by simp [contribs, Contributes, hi, hre, hp, hr]
      have e1 : (backwardCall e v c).flag p = v.flag p := by unfold backwardCall addGrad; simp [hre, hi, hmc]
      have e2 : (backwardCall e v c).grad p = some ((v.grad p).getD 0 + c.g p) := by unfold backwardCall addGrad; simp [hre, hi, hmc, hp, hr]
      rw [e1, e2, hk, y1, y2, f1, ftg]
      have e3 : (forwardCall e s c).flag p = if (s.flag p).isSome = true then some false else s.flag p := by
        unfold forwardCall mark; simp [hi, hmc, hp]
      rw [e3]
      simp [hi]
    · have hi : c.inited = false := by simpa using hi
      have hk : contribs e p [c] = [] := by simp [contribs, Contributes, hi]
      have e1 : (backwardCall e v c).flag p = v.flag p := by unfold backwardCall addGrad; simp [hre, hi, he]
      have e2 : (backwardCall e v c).grad p = some ((v.grad p).getD 0) := by unfold backwardCall addGrad; simp [hre, hi, he, hp, hr]
      rw [e1, e2, hk, y1, y2, f1, ftg]
      have e3 : (forwardCall e s c).flag p = if (s.flag p).getD true = true then some true else s.flag p := by
        unfold forwardCall preinit; simp [hi, he, hp, hr]
      rw [e3]
      simp [hi]

/-- **C95.** After the micro-steps of an optimizer step and the clearing, every gradient is what it is without any link: the
sum of the contributions of the initialised quantisers, or absent if there is none; and no attribute remains. -/
theorem C95_window (e : Env) (micros : List (List Call)) (hreg : Regular micros) (s : St)
    (hflag : ∀ p, s.flag p = none) (hgrad : ∀ p, s.grad p = none) (p : Nat) :
    (window e s micros).grad p = expected e micros p ∧ (window e s micros).flag p = none := by
  refine ⟨?_, rfl⟩
  unfold window clear
  simp only
  by_cases hr : e.requiresGrad p = true
  swap
  · have hr : e.requiresGrad p = false := by simpa using hr
    obtain ⟨h1, h2⟩ := no_grad_run e p hr micros s (hflag p)
    rw [h1, if_neg (by simp), h2, hgrad, expected_eq, if_pos (by simp [contribs, Contributes, hr])]
  by_cases he : e.enabled = true
  swap
  · have he : e.enabled = false := by simpa using he
    obtain ⟨h1, h2⟩ := plain_run e he p [] micros s (hflag p) (by simp [expected, hgrad])
    rw [h1, if_neg (by simp), h2]
    rfl
  have key : ∀ rest done s, micros = done ++ rest → Inv e p done s → Inv e p micros (rest.foldl (microStep e) s) := by
    intro rest
    induction rest with
    | nil => intro done s hs h; simpa [hs] using h
    | cons cs rest ih =>
      intro done s hs h
      rw [List.foldl_cons]
      apply ih (done ++ [cs]) _ (by simp [hs])
      obtain ⟨h1, h2⟩ := effect e he p hr cs s (hreg.own done cs rest hs)
      refine inv_of_effect e p done cs s _ h ?_ h1 h2
      rintro ⟨c, hc, hp, hi⟩ hf
      by_contra hd
      obtain ⟨cs', l, rfl⟩ := List.exists_cons_of_ne_nil hd
      obtain ⟨c', hc', hi', hp'⟩ := hreg.monotone _ _ _ hs c hc hi cs' (by simp)
      rcases h with ⟨-, -, h⟩ | ⟨h, -⟩ | ⟨h, -⟩
      · have := h cs' (by simp) c' hc' (hp' ▸ hp)
        rw [hi'] at this
        cases this
      · rw [hf] at h; cases h
      · rw [hf] at h; cases h
  have h := key micros [] s rfl (Or.inl ⟨hflag p, by simp [expected, hgrad], by simp⟩)
  rcases h with ⟨h1, h2, -⟩ | ⟨h1, h2, -⟩ | ⟨h1, h2, h3⟩
  · rw [h1, if_neg (by simp), h2]
  · rw [h1, if_pos rfl, expected_eq, if_pos h2]
  · rw [h1, if_neg (by simp), h3, expected_eq, if_neg h2]

/-- **C95**, hence gradients are the same in one process (no links) and in several. -/
theorem C95_enabled_irrelevant (rg : Nat → Bool) (micros : List (List Call)) (hreg : Regular micros) (s : St)
    (hflag : ∀ p, s.flag p = none) (hgrad : ∀ p, s.grad p = none) (p : Nat) :
    (window ⟨true, rg⟩ s micros).grad p = (window ⟨false, rg⟩ s micros).grad p := by
  rw [(C95_window _ micros hreg s hflag hgrad p).1, (C95_window _ micros hreg s hflag hgrad p).1]
  rfl

/-! ### Finding: the order matters -/

/-- **C95**, without monotonicity a real gradient is lost: used in the first micro-step, linked in the second. -/
theorem C95_order_matters (g : ℝ) (s : St) (hflag : s.flag 0 = none) (hgrad : s.grad 0 = none) :
    (window ⟨true, fun _ => true⟩ s [[⟨[0], false, true, true, fun _ => g⟩], [⟨[0], false, false, true, fun _ => 0⟩]]).grad 0 = none := by
  simp [window, clear, microStep, forwardCall, backwardCall, preinit, mark, addGrad, hflag, hgrad]

/-! ### An instance -/

/-- Two micro-steps; quantiser 0 with a shared transform 9 becomes initialised after the first, quantiser 1 not. -/
noncomputable def exMicros : List (List Call) :=
  [[⟨[0, 9], false, false, true, fun _ => 0⟩, ⟨[1, 9], false, false, true, fun _ => 0⟩, ⟨[5], true, false, true, fun _ => 0⟩],
   [⟨[0, 9], false, true, true, fun _ => 3⟩, ⟨[1, 9], false, false, true, fun _ => 0⟩, ⟨[5], true, true, true, fun _ => 2⟩]]

example : Regular exMicros where
  monotone := by
    intro a cs b h c hc hi cs' hcs'
    unfold exMicros at h
    rcases a with _ | ⟨a0, _ | ⟨a1, a⟩⟩
    · simp at hcs'
    · simp only [List.singleton_append, List.cons.injEq] at h
      obtain ⟨rfl, rfl, rfl⟩ := h
      simp only [List.mem_singleton] at hcs'
      subst hcs'
      simp only [List.mem_cons, List.not_mem_nil, or_false] at hc
      rcases hc with rfl | rfl | rfl
      · simp at hi
      · exact ⟨_, by simp, rfl, rfl⟩
      · simp at hi
    · simp at h
  own := by
    intro a cs b h x c y hcs hm
    have hcs' : cs ∈ exMicros := by rw [h]; simp
    unfold exMicros at hcs'
    simp only [List.mem_cons, List.not_mem_nil, or_false] at hcs'
    rcases hcs' with rfl | rfl
    all_goals
      rcases x with _ | ⟨x0, _ | ⟨x1, _ | ⟨x2, x⟩⟩⟩
      all_goals simp at hcs
      · obtain ⟨rfl, rfl⟩ := hcs; simp at hm
      · obtain ⟨rfl, rfl, rfl⟩ := hcs; simp at hm
      · obtain ⟨rfl, rfl, rfl, rfl⟩ := hcs; simp

end Verif.Link
