/-
C87: the single-pass AdamW is AdamW.
-/
import Verif.Adam.Steps
import Mathlib.Analysis.Real.Sqrt

set_option linter.unusedSectionVars false

namespace Verif.Adam

variable {K : Type} [Field K] [LinearOrder K]

/-! ### Histories -/

/-- What may happen between two steps.  Everything stays live (see `LiveBy`), and either the launch
cache was dropped — as `load_state_dict` and `add_param_group` do — and anything may have changed; or
the optimizer was left alone: memory, learning rate and the other numbers are arbitrary, gradients come,
go, move and change their strides at will, and in every group either no parameter was moved or both a
parameter and a gradient have new addresses. -/
inductive Between (o o1 : Opt K) : Prop where
  | dropped (live : Live o1) (cache : ∀ k, o1.cache k = none)
  | kept (live : Live o1) (cache : o1.cache = o.cache) (state : o1.state = o.state)
      (groups : o1.groups.map (fun e => (e.1.amsgrad, e.1.maximize, e.2))
        = o.groups.map (fun e => (e.1.amsgrad, e.1.maximize, e.2)))
      (moves : ∀ e ∈ o1.groups, Honest o o1 e.2)

/-- The states right after the construction of the optimizer or after a `step`. -/
inductive Reachable (P : Platform K) : Opt K → Prop where
  | init (o : Opt K) (live : Live o) (cache : ∀ k, o.cache k = none) : Reachable P o
  | next (o o1 : Opt K) : Reachable P o → Between o o1 → Reachable P (step P o1)

/-- Plans in the cache fit. -/
def Settled (o : Opt K) : Prop :=
  ∀ x ∈ o.groups.zipIdx, ∀ plan, o.cache x.2 = some plan → PlanOK o x.1.1 x.1.2 plan

theorem step_fold (P : Platform K) (hP : ∀ l, (P.sched l).Perm l) (o : Opt K) (hl : Live o)
    (hc : ∀ x ∈ o.groups.zipIdx, ∀ plan, o.cache x.2 = some plan → Stale o x.1.1 x.1.2 plan) :
    Live (step P o) ∧ (step P o).param = o.param ∧ (step P o).grad = o.grad ∧ (step P o).groups = o.groups
    ∧ (∀ i ∈ o.all, ∀ g, o.grad i = some g → ∀ idx, elem (step P o).mem g idx = elem o.mem g idx)
    ∧ (∀ e ∈ o.groups, GroupDone P o (step P o) e) ∧ Settled (step P o) := by
  have hn : o.all.Nodup := by obtain ⟨_, hl⟩ := hl; exact hl.nodup
  obtain ⟨_, u2, _⟩ := groups_unique hn
  obtain ⟨a1, a2, a3, a4, _, _, a7, a8, a9, _⟩ := fold_spec P hP o.groups 0 o hl (fun _ h => h) u2 hc
  refine ⟨a1, a2, a3, a4, a7, a8, ?_⟩
  intro x hx plan hp
  have hx' : x ∈ o.groups.zipIdx := by
    have e : (step P o).groups = o.groups := a4
    rw [e] at hx; exact hx
  obtain ⟨plan', h1, h2⟩ := a9 x hx'
  have : (step P o).cache x.2 = some plan' := h1
  rw [this] at hp
  cases hp
  exact h2

theorem stale_between {o o1 : Opt K} (hs : Settled o) (hb : Between o o1) :
    Live o1 ∧ ∀ x ∈ o1.groups.zipIdx, ∀ plan, o1.cache x.2 = some plan → Stale o1 x.1.1 x.1.2 plan := by
  cases hb with
  | dropped live cache =>
    refine ⟨live, fun x _ plan hp => ?_⟩
    rw [cache] at hp; cases hp
  | kept live cache state groups moves =>
    refine ⟨live, fun x hx plan hp => ?_⟩
    rw [cache] at hp
    have hx1 := List.mem_zipIdx_iff_getElem?.mp hx
    have hm := congrArg (fun l => l[x.2]?) groups
    simp only [List.getElem?_map, hx1, Option.map_some] at hm
    obtain ⟨e, he, hee⟩ := Option.map_eq_some_iff.mp hm.symm
    have hk := hs (e, x.2) (List.mem_zipIdx_iff_getElem?.mpr he) plan hp
    simp only [Prod.mk.injEq] at hee
    obtain ⟨f1, f2, f3⟩ := hee
    simp only at hk
    rw [f3] at hk
    refine ⟨o, ?_, fun i _ => by rw [state], moves x.1 (List.mem_of_getElem? hx1)⟩
    exact ⟨hk.pa, hk.ga, hk.gz, hk.memb, hk.nodup, hk.st, hk.lay, hk.tp, hk.tg, hk.tm, hk.tv, hk.tn, hk.chunks,
      hk.fast, hk.steps, fun hne => by rw [← f1, ← f2]; exact hk.flags hne⟩

theorem reachable_settled (P : Platform K) (hP : ∀ l, (P.sched l).Perm l) (o : Opt K) (h : Reachable P o) :
    Settled o := by
  induction h with
  | init o live cache => intro x _ plan hp; rw [cache] at hp; cases hp
  | next o o1 _ hb ih =>
    obtain ⟨h1, h2⟩ := stale_between ih hb
    exact (step_fold P hP o1 h1 h2).2.2.2.2.2.2

/-- **C87.** In every history of an optimizer — any number of steps, any gradients present or missing, in
any layout and at any address, any reloads — and for every order in which the kernel's lanes run, a
`step` gives every weight of every parameter with a gradient exactly one AdamW update with the group's
hyperparameters, the parameter's own update count and its own gradient element, and leaves the other
parameters, their moments and their counts alone.  Gradients are not modified. -/
theorem C87_every_step_is_adamw (P : Platform K) (hP : ∀ l, (P.sched l).Perm l) (o o1 : Opt K)
    (hr : Reachable P o) (hb : Between o o1) :
    (∀ e ∈ o1.groups, ∀ i ∈ e.2,
      (o1.grad i = none → updates (step P o1) i = updates o1 i
        ∧ ∀ idx, weightAt (step P o1) i idx = weightAt o1 i idx)
      ∧ ∀ g, o1.grad i = some g → updates (step P o1) i = updates o1 i + 1
        ∧ ∀ idx, InShape (o1.param i).shape idx →
          weightAt (step P o1) i idx
            = adamw P.sqrt e.1 (updates o1 i + 1) (elem o1.mem g idx) (weightAt o1 i idx))
    ∧ (step P o1).param = o1.param
    ∧ ∀ e ∈ o1.groups, ∀ i ∈ e.2, ∀ g, o1.grad i = some g → ∀ idx,
        elem (step P o1).mem g idx = elem o1.mem g idx := by
  obtain ⟨h1, h2⟩ := stale_between (reachable_settled P hP o hr) hb
  obtain ⟨_, a2, _, _, a5, a6, _⟩ := step_fold P hP o1 h1 h2
  refine ⟨fun e he i hi => ⟨fun hg => (a6 e he).idle i hi hg, fun g hg => (a6 e he).upd i hi g hg⟩, a2, ?_⟩
  intro e he i hi g hg idx
  exact a5 i (mem_all he hi) g hg idx

/-! ### The update is the published one -/

/-- **C87**, the update is the published AdamW: with `m̂ = m/(1-β₁ᵗ)` and `v̂ = v/(1-β₂ᵗ)` the weight
becomes `θ - lr·(m̂/(√v̂+ε) + wd·θ)`. -/
theorem C87_textbook (h : Hyper ℝ) (ha : h.amsgrad = false) (hm : h.maximize = false) (hb1 : 0 ≤ h.beta2)
    (hb2 : h.beta2 ≤ 1) (t : Nat) (g : ℝ) (x : Weight ℝ) (hv : 0 ≤ x.v) :
    let y := adamw Real.sqrt h t g x
    y.m = h.beta1 * x.m + (1 - h.beta1) * g ∧ y.v = h.beta2 * x.v + (1 - h.beta2) * g ^ 2 ∧ 0 ≤ y.v
    ∧ y.θ = x.θ - h.lr * (y.m / (1 - h.beta1 ^ t) / (√(y.v / (1 - h.beta2 ^ t)) + h.eps) + h.wd * x.θ) := by
  intro y
  have hvn : 0 ≤ h.beta2 * x.v + (1 - h.beta2) * g ^ 2 :=
    add_nonneg (mul_nonneg hb1 hv) (mul_nonneg (by linarith) (sq_nonneg g))
  have e1 : y.m = h.beta1 * x.m + (1 - h.beta1) * g := by simp [y, adamw, hm]
  have e2 : y.v = h.beta2 * x.v + (1 - h.beta2) * g ^ 2 := by simp [y, adamw, hm]
  refine ⟨e1, e2, by rw [e2]; exact hvn, ?_⟩
  rw [Real.sqrt_div (by rw [e2]; exact hvn), e1, e2]
  simp only [y, adamw, ha, hm, Bool.false_eq_true, if_false]
  ring

/-- **C87**, bias correction: after any number of updates from zero moments with a constant gradient,
`m̂` is the gradient and `v̂` its square. -/
theorem C87_bias_correction (h : Hyper K) (hm : h.maximize = false) (sqrt : K → K) (g : K) (x : Weight K)
    (h1 : x.m = 0) (h2 : x.v = 0) (t : Nat) (hb1 : h.beta1 ^ t ≠ 1) (hb2 : h.beta2 ^ t ≠ 1) :
    let y := (List.range t).foldl (fun w k => adamw sqrt h (k + 1) g w) x
    y.m / (1 - h.beta1 ^ t) = g ∧ y.v / (1 - h.beta2 ^ t) = g ^ 2 := by
  have key : ∀ t : Nat, ((List.range t).foldl (fun w k => adamw sqrt h (k + 1) g w) x).m = (1 - h.beta1 ^ t) * g
      ∧ ((List.range t).foldl (fun w k => adamw sqrt h (k + 1) g w) x).v = (1 - h.beta2 ^ t) * g ^ 2 := by
    intro t
    induction t with
    | zero => simp [h1, h2]
    | succ t ih =>
      rw [List.range_succ, List.foldl_append, List.foldl_cons, List.foldl_nil]
      have q : ∀ (k : Nat) (w : Weight K), (adamw sqrt h k g w).m = h.beta1 * w.m + (1 - h.beta1) * g
          ∧ (adamw sqrt h k g w).v = h.beta2 * w.v + (1 - h.beta2) * g ^ 2 := by
        intro k w; simp [adamw, hm]
      rw [(q _ _).1, (q _ _).2, ih.1, ih.2]
      constructor <;> ring
  intro y
  obtain ⟨k1, k2⟩ := key t
  have n1 : (1 : K) - h.beta1 ^ t ≠ 0 := fun e => hb1 (sub_eq_zero.mp e).symm
  have n2 : (1 : K) - h.beta2 ^ t ≠ 0 := fun e => hb2 (sub_eq_zero.mp e).symm
  show ((List.range t).foldl (fun w k => adamw sqrt h (k + 1) g w) x).m / _ = g
    ∧ ((List.range t).foldl (fun w k => adamw sqrt h (k + 1) g w) x).v / _ = g ^ 2
  rw [k1, k2]
  exact ⟨mul_div_cancel_left₀ _ n1, mul_div_cancel_left₀ _ n2⟩

/-! ### The layout test -/

/-- **C87**, a tensor accepted by the layout test occupies exactly the offsets `0 … numel-1` from its
data pointer, one element each. -/
theorem C87_flat_tensor (b : Buf) (hl : b.shape.length = b.stride.length) (hf : (flatLayout b).isSome) :
    ((indices b.shape).map (offset b.stride)).Perm (List.range b.numel) := flat_perm b hl hf

/-- **C87**, two accepted tensors of the same non-empty shape have equal layout keys exactly when every
element has the same offset in both. -/
theorem C87_layout_key (b c : Buf) (hs : b.shape = c.shape) (hb : b.shape.length = b.stride.length)
    (hc : c.shape.length = c.stride.length) (hpos : ∀ n ∈ b.shape, 0 < n) (hfb : (flatLayout b).isSome)
    (hfc : (flatLayout c).isSome) :
    flatLayout b = flatLayout c ↔ ∀ idx, InShape b.shape idx → offset b.stride idx = offset c.stride idx := by
  constructor
  · intro h idx hi
    exact (offset_of_layout b c hs hb hc hfb h.symm idx hi).symm
  · intro h
    obtain ⟨eb, heb⟩ := Option.isSome_iff_exists.mp hfb
    obtain ⟨ec, hec⟩ := Option.isSome_iff_exists.mp hfc
    rw [heb, hec, flatLayout_some heb, flatLayout_some hec]
    unfold extents
    rw [← hs] at hc ⊢
    rw [extents_of_offset b.shape b.stride c.stride hb hc hpos h]

/-! ### The step counter in the state dictionary -/

/-- **C87**, the step counter survives `state_dict` and `load_state_dict` up to 2²⁴. -/
theorem C87_step_reload (n : Nat) (h : n ≤ 2 ^ 24) : reloadStep n = n := by
  rcases Nat.lt_or_ge n (2 ^ 24) with h | h'
  · have : Nat.log2 n - 23 = 0 := by
      rcases Nat.eq_zero_or_pos n with rfl | hp
      · rfl
      · have := (Nat.log2_lt (by omega)).mpr h
        omega
    unfold reloadStep f32Nat
    rw [this]
    simp
    omega
  · have : n = 2 ^ 24 := by omega
    subst this
    decide +kernel

/-- **C87**, finding: the counter is stored as a float32, so 2²⁴ + 1 comes back as 2²⁴. -/
theorem C87_step_reload_inexact : reloadStep (2 ^ 24 + 1) = 2 ^ 24 := by decide +kernel

end Verif.Adam
