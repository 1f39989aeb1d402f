import Verif.Clip.Model
import Mathlib.Tactic.Linarith
import Mathlib.Tactic.Positivity
import Mathlib.Tactic.Ring
import Mathlib.Tactic.FieldSimp
import Mathlib.Algebra.Order.BigOperators.Group.List

/-!
# C106: gradient clipping
-/
namespace Verif.Clip

/-! ## Specification -/

/-- All gradients are real numbers: `g` lists them, parameter by parameter. -/
def Finite (params : List (Option Tensor)) (g : List (Option (List ℝ))) : Prop := params = g.map fun p => p.map fun t => t.map Num.fin

/-- All entries of all gradients. -/
def entries (g : List (Option (List ℝ))) : List ℝ := (g.filterMap id).flatten

/-- The Euclidean norm of all gradient entries together. -/
noncomputable def l2 (g : List (Option (List ℝ))) : ℝ := Real.sqrt (((entries g).map fun x => x ^ 2).sum)

/-- Apply a function to every entry. -/
def mapEntries (f : ℝ → ℝ) (g : List (Option (List ℝ))) : List (Option (List ℝ)) := g.map fun p => p.map fun t => t.map f

/-! ## Proof -/

theorem norm_fin (l : List ℝ) : norm (l.map Num.fin) = .fin (Real.sqrt ((l.map fun x => x ^ 2).sum)) := by
  unfold norm
  rw [if_neg (by simp [Num.isNan]), if_neg (by simp [Num.isInf]), List.map_map]
  rfl

theorem sum_sq_nonneg (l : List ℝ) : 0 ≤ (l.map fun x => x ^ 2).sum := by
  apply List.sum_nonneg
  intro x hx
  obtain ⟨y, _, rfl⟩ := List.mem_map.mp hx
  positivity

theorem total_fin (ts : List (List ℝ)) : totalNorm (ts.map fun t => t.map Num.fin) = .fin (Real.sqrt ((ts.flatten.map fun x => x ^ 2).sum)) := by
  unfold totalNorm
  rw [List.map_map, show (norm ∘ fun t : List ℝ => t.map Num.fin) = Num.fin ∘ fun t => Real.sqrt ((t.map fun x => x ^ 2).sum) from
    funext fun t => norm_fin t, ← List.map_map, norm_fin, List.map_map]
  congr 2
  induction ts with
  | nil => rfl
  | cons t ts ih =>
    rw [List.map_cons, List.sum_cons, ih, List.flatten_cons, List.map_append, List.sum_append]
    congr 1
    exact Real.sq_sqrt (sum_sq_nonneg t)

theorem gradients_fin (g : List (Option (List ℝ))) :
    gradients (g.map fun p => p.map fun t => t.map Num.fin) = (g.filterMap id).map fun t => t.map Num.fin := by
  unfold gradients
  induction g with
  | nil => rfl
  | cons p g ih =>
    cases p with
    | none => exact ih
    | some t =>
      simp only [List.map_cons, Option.map_some, List.filterMap_cons, id]
      exact congrArg _ ih

theorem l2_nonneg (g : List (Option (List ℝ))) : 0 ≤ l2 g := Real.sqrt_nonneg _

theorem l2_scale (s : ℝ) (hs : 0 ≤ s) (g : List (Option (List ℝ))) : l2 (mapEntries (fun x => x * s) g) = l2 g * s := by
  have e : entries (mapEntries (fun x => x * s) g) = (entries g).map fun x => x * s := by
    unfold entries mapEntries
    induction g with
    | nil => rfl
    | cons p g ih =>
      cases p with
      | none => exact ih
      | some t =>
        simp only [List.map_cons, Option.map_some, List.filterMap_cons, id, List.flatten_cons, List.map_append]
        congr 1
  unfold l2
  rw [e, List.map_map]
  have h : (((entries g).map ((fun x => x ^ 2) ∘ fun x => x * s)).sum) = ((entries g).map fun x => x ^ 2).sum * s ^ 2 := by
    induction entries g with
    | nil => simp
    | cons x l ih => simp only [List.map_cons, List.sum_cons, ih, Function.comp]; ring
  rw [h, Real.sqrt_mul (sum_sq_nonneg _), Real.sqrt_sq hs]

theorem clip_fin (limit : Num) (g : List (Option (List ℝ))) (s : ℝ) (hc : coefficient limit (.fin (l2 g)) = .fin s) :
    clipGradNorm limit (g.map fun p => p.map fun t => t.map Num.fin) = ((mapEntries (fun x => x * s) g).map fun p => p.map fun t => t.map Num.fin,
      .fin (l2 g)) := by
  unfold clipGradNorm
  rw [gradients_fin]
  by_cases h : ((g.filterMap id).map fun t => t.map Num.fin).isEmpty = true
  · rw [if_pos h]
    have hg : g.filterMap id = [] := by simpa using h
    have h0 : l2 g = 0 := by unfold l2 entries; rw [hg]; simp
    rw [h0]
    congr 1
    unfold mapEntries
    rw [List.map_map]
    apply List.map_congr_left
    intro p hp
    cases p with
    | none => rfl
    | some t =>
      exfalso
      have : t ∈ g.filterMap id := List.mem_filterMap.mpr ⟨some t, hp, rfl⟩
      rw [hg] at this
      simp at this
  · rw [if_neg h]
    simp only [total_fin]
    have e : Real.sqrt (((g.filterMap id).flatten.map fun x => x ^ 2).sum) = l2 g := rfl
    rw [e, hc]
    congr 1
    unfold mapEntries
    rw [List.map_map, List.map_map]
    apply List.map_congr_left
    intro p _
    cases p with
    | none => rfl
    | some t => simp [mul, Function.comp]

/-- **C106**: with a limit `m ≥ 0` and real gradients: the norm returned is that of all gradient entries together (however they are split into
tensors); every entry is multiplied by one common factor in [0, 1]; gradients within the limit (by 1e-6) are not changed; the new norm is at
most the limit and loses at most 1e-6 against it. Parameters without gradient keep none. -/
theorem C106_limit (m : ℝ) (hm : 0 ≤ m) (params : List (Option Tensor)) (g : List (Option (List ℝ))) (hg : Finite params g) :
    ∃ s, 0 ≤ s ∧ s ≤ 1 ∧ (clipGradients (some m) none params).2 = .fin (l2 g)
      ∧ Finite (clipGradients (some m) none params).1 (mapEntries (fun x => x * s) g)
      ∧ (l2 g + 1 / 10 ^ 6 ≤ m → s = 1)
      ∧ l2 (mapEntries (fun x => x * s) g) ≤ m
      ∧ min (l2 g) m - 1 / 10 ^ 6 ≤ l2 (mapEntries (fun x => x * s) g) := by
  have hn := l2_nonneg g
  have hp : 0 < l2 g + 1 / 10 ^ 6 := by positivity
  refine ⟨min (m / (l2 g + 1 / 10 ^ 6)) 1, le_min (div_nonneg hm hp.le) zero_le_one, min_le_right _ _, ?_, ?_, ?_, ?_, ?_⟩
  · rw [hg]
    show (clipGradNorm (.fin m) _).2 = _
    rw [clip_fin (.fin m) g _ rfl]
  · rw [hg]
    show Finite (clipGradNorm (.fin m) _).1 _
    rw [clip_fin (.fin m) g _ rfl]
    rfl
  · intro h
    exact min_eq_right ((one_le_div hp).mpr h)
  · rw [l2_scale _ (le_min (div_nonneg hm hp.le) zero_le_one)]
    calc l2 g * min (m / (l2 g + 1 / 10 ^ 6)) 1 ≤ (l2 g + 1 / 10 ^ 6) * (m / (l2 g + 1 / 10 ^ 6)) := by
          apply mul_le_mul (by linarith [show (0 : ℝ) < 1 / 10 ^ 6 by positivity]) (min_le_left _ _) (le_min (div_nonneg hm hp.le) zero_le_one) hp.le
      _ = m := by field_simp
  · rw [l2_scale _ (le_min (div_nonneg hm hp.le) zero_le_one)]
    have h6 : (0 : ℝ) < 1 / 10 ^ 6 := by positivity
    rcases le_total (m / (l2 g + 1 / 10 ^ 6)) 1 with h | h
    · rw [min_eq_left h]
      have e : l2 g * (m / (l2 g + 1 / 10 ^ 6)) = m - 1 / 10 ^ 6 * (m / (l2 g + 1 / 10 ^ 6)) := by field_simp; ring
      rw [e]
      have : 1 / 10 ^ 6 * (m / (l2 g + 1 / 10 ^ 6)) ≤ 1 / 10 ^ 6 * 1 := mul_le_mul_of_nonneg_left h h6.le
      linarith [min_le_right (l2 g) m]
    · rw [min_eq_right h, mul_one]
      linarith [min_le_left (l2 g) m]

/-- **C106**: without a limit, measuring the norm leaves real gradients unchanged. -/
theorem C106_no_limit (params : List (Option Tensor)) (g : List (Option (List ℝ))) (hg : Finite params g) :
    clipGradients none none params = (params, .fin (l2 g)) := by
  show clipGradNorm .pinf params = _
  rw [hg, clip_fin .pinf g 1 rfl]
  congr 2
  unfold mapEntries
  have : (fun p : Option (List ℝ) => p.map fun t => t.map fun x => x * (1 : ℝ)) = id := by
    funext p
    cases p <;> simp
  rw [this, List.map_id]

theorem clamp_bound (v : ℝ) (hv : 0 ≤ v) (r : ℝ) : |max (-v) (min r v)| ≤ v ∧ |max (-v) (min r v)| ≤ |r|
    ∧ (|r| ≤ v → max (-v) (min r v) = r) ∧ 0 ≤ max (-v) (min r v) * r := by
  rcases le_total r v with h1 | h1
  · rw [min_eq_left h1]
    rcases le_total (-v) r with h2 | h2
    · rw [max_eq_right h2]
      exact ⟨abs_le.mpr ⟨h2, h1⟩, le_rfl, fun _ => rfl, mul_self_nonneg r⟩
    · rw [max_eq_left h2, abs_neg, abs_of_nonneg hv]
      refine ⟨le_rfl, ?_, fun h => ?_, ?_⟩
      · rw [abs_of_nonpos (by linarith)]; linarith
      · exact le_antisymm (by linarith [(abs_le.mp h).1]) h2
      · nlinarith
  · rw [min_eq_right h1, max_eq_right (by linarith), abs_of_nonneg hv]
    refine ⟨le_rfl, ?_, fun h => ?_, ?_⟩
    · rw [abs_of_nonneg (by linarith)]; exact h1
    · exact le_antisymm h1 (le_of_abs_le h)
    · nlinarith

theorem l2_le (f : ℝ → ℝ) (hf : ∀ r, |f r| ≤ |r|) (g : List (Option (List ℝ))) : l2 (mapEntries f g) ≤ l2 g := by
  have e : entries (mapEntries f g) = (entries g).map f := by
    unfold entries mapEntries
    induction g with
    | nil => rfl
    | cons p g ih =>
      cases p with
      | none => exact ih
      | some t =>
        simp only [List.map_cons, Option.map_some, List.filterMap_cons, id, List.flatten_cons, List.map_append]
        congr 1
  unfold l2
  rw [e, List.map_map]
  apply Real.sqrt_le_sqrt
  apply List.sum_le_sum
  intro x _
  exact sq_le_sq.mpr (hf x)

/-- **C106**: a value limit `v` on top: every entry ends in [-v, v], never grows and never changes sign, entries within the value limit keep their
(norm-clipped) value, and the norm limit still holds. -/
theorem C106_value (m : Option ℝ) (v : ℝ) (hv : 0 ≤ v) (params : List (Option Tensor)) (g : List (Option (List ℝ)))
    (hg : Finite (clipGradients m none params).1 g) :
    ∃ f : ℝ → ℝ, Finite (clipGradients m (some v) params).1 (mapEntries f g)
      ∧ (∀ r, |f r| ≤ v ∧ |f r| ≤ |r| ∧ (|r| ≤ v → f r = r) ∧ 0 ≤ f r * r)
      ∧ l2 (mapEntries f g) ≤ l2 g ∧ (clipGradients m (some v) params).2 = (clipGradients m none params).2 := by
  refine ⟨fun r => max (-v) (min r v), ?_, fun r => clamp_bound v hv r, l2_le _ (fun r => (clamp_bound v hv r).2.1) g, rfl⟩
  unfold Finite at hg ⊢
  show (clipGradients m none params).1.map (fun p => p.map fun t => t.map (clampEntry v)) = _
  rw [hg]
  unfold mapEntries
  rw [List.map_map, List.map_map]
  apply List.map_congr_left
  intro p _
  cases p with
  | none => rfl
  | some t => simp [clampEntry, Function.comp]

/-- Every gradient entry. -/
def AllEntries (P : Num → Prop) (params : List (Option Tensor)) : Prop := ∀ t, some t ∈ params → ∀ x ∈ t, P x

theorem mul_nan (x : Num) : mul x .nan = .nan := by cases x <;> rfl

theorem norm_nan (l : List Num) (h : Num.nan ∈ l) : norm l = .nan := by
  unfold norm
  rw [if_pos (List.any_eq_true.mpr ⟨_, h, rfl⟩)]

theorem norm_inf (l : List Num) (h : ∃ x ∈ l, x.isInf = true) (hn : Num.nan ∉ l) : norm l = .pinf := by
  unfold norm
  have h1 : ¬ l.any Num.isNan = true := by
    intro h
    obtain ⟨x, hx, hn'⟩ := List.any_eq_true.mp h
    cases x <;> simp [Num.isNan] at hn'
    exact hn hx
  rw [if_neg h1, if_pos (List.any_eq_true.mpr h)]

theorem norm_cases (t : Tensor) : (norm t = .nan ↔ Num.nan ∈ t) ∧ (norm t = .pinf ↔ (∃ x ∈ t, x.isInf = true) ∧ Num.nan ∉ t)
    ∧ norm t ≠ .ninf := by
  by_cases h : Num.nan ∈ t
  · rw [norm_nan t h]
    simp [h]
  · by_cases h2 : ∃ x ∈ t, x.isInf = true
    · rw [norm_inf t h2 h]
      simp only [reduceCtorEq, ne_eq, not_false_eq_true, and_true, true_iff, false_iff]
      exact ⟨h, h2, h⟩
    · have h1 : ¬ t.any Num.isNan = true := by
        intro h'
        obtain ⟨x, hx, hn'⟩ := List.any_eq_true.mp h'
        cases x <;> simp [Num.isNan] at hn'
        exact h hx
      have h3 : ¬ t.any Num.isInf = true := fun h' => h2 (List.any_eq_true.mp h')
      unfold norm
      rw [if_neg h1, if_neg h3]
      simp only [reduceCtorEq, ne_eq, not_false_eq_true, and_true, false_iff]
      exact ⟨h, fun h' => h2 h'.1⟩

theorem mem_gradients (params : List (Option Tensor)) (t : Tensor) : t ∈ gradients params ↔ some t ∈ params := by
  unfold gradients
  simp

theorem after_clip (limit : Num) (params : List (Option Tensor)) (t0 : Tensor) (h0 : some t0 ∈ params) :
    clipGradNorm limit params = (params.map fun p => p.map fun t => t.map fun x => mul x (coefficient limit (totalNorm (gradients params))),
      totalNorm (gradients params)) := by
  unfold clipGradNorm
  rw [if_neg]
  intro h
  have := (mem_gradients params t0).mpr h0
  rw [List.isEmpty_iff.mp h] at this
  simp at this

theorem total_nan (params : List (Option Tensor)) (t : Tensor) (ht : some t ∈ params) (hx : Num.nan ∈ t) : totalNorm (gradients params) = .nan :=
  norm_nan _ (List.mem_map.mpr ⟨t, (mem_gradients params t).mpr ht, ((norm_cases t).1).mpr hx⟩)

theorem total_inf (params : List (Option Tensor)) (hn : AllEntries (fun x => x.isNan = false) params) (t : Tensor) (ht : some t ∈ params)
    (x : Num) (hx : x ∈ t) (hi : x.isInf = true) : totalNorm (gradients params) = .pinf := by
  have hno : ∀ t, some t ∈ params → Num.nan ∉ t := by
    intro t ht h
    have := hn t ht _ h
    simp [Num.isNan] at this
  apply norm_inf
  · exact ⟨.pinf, List.mem_map.mpr ⟨t, (mem_gradients params t).mpr ht, ((norm_cases t).2.1).mpr ⟨⟨x, hx, hi⟩, hno t ht⟩⟩, rfl⟩
  · intro h
    obtain ⟨t', ht', he⟩ := List.mem_map.mp h
    exact hno t' ((mem_gradients params t').mp ht') ((norm_cases t').1.mp he)

theorem all_map (P : Num → Prop) (f : Num → Num) (params : List (Option Tensor)) (h : AllEntries (fun x => P (f x)) params) :
    AllEntries P (params.map fun p => p.map fun t => t.map f) := by
  intro t ht x hx
  obtain ⟨p, hp, he⟩ := List.mem_map.mp ht
  cases p with
  | none => simp at he
  | some t' =>
    simp only [Option.map_some, Option.some.injEq] at he
    subst he
    obtain ⟨y, hy, rfl⟩ := List.mem_map.mp hx
    exact h t' hp y hy

/-- **C106** (special values): a NaN anywhere makes every gradient entry NaN, with or without a limit. -/
theorem C106_nan (m : Option ℝ) (params : List (Option Tensor)) (t : Tensor) (ht : some t ∈ params) (hx : Num.nan ∈ t) :
    AllEntries (fun x => x = .nan) (clipGradients m none params).1 ∧ (clipGradients m none params).2 = .nan := by
  show AllEntries _ (clipGradNorm _ params).1 ∧ (clipGradNorm _ params).2 = _
  rw [after_clip _ params t ht, total_nan params t ht hx]
  refine ⟨all_map _ _ _ fun t' _ x _ => ?_, rfl⟩
  cases m <;> exact mul_nan x

/-- **C106** (special values): with a limit and an infinite entry, the finite entries become zero and the infinite ones NaN. -/
theorem C106_inf_limit (m : ℝ) (params : List (Option Tensor)) (hn : AllEntries (fun x => x.isNan = false) params) (t : Tensor)
    (ht : some t ∈ params) (x : Num) (hx : x ∈ t) (hi : x.isInf = true) :
    clipGradients (some m) none params = (params.map fun p => p.map fun t => t.map fun x => if x.isInf = true then .nan else .fin 0, .pinf) := by
  show clipGradNorm _ params = _
  rw [after_clip _ params t ht, total_inf params hn t ht x hx hi]
  congr 1
  apply List.map_congr_left
  intro p hp
  cases p with
  | none => rfl
  | some t' =>
    simp only [Option.map_some]
    congr 1
    apply List.map_congr_left
    intro y hy
    have hny := hn t' hp y hy
    have e : coefficient (.fin m) .pinf = .fin (min 0 1) := rfl
    rw [e, min_eq_left zero_le_one]
    cases y with
    | fin r => show Num.fin (r * 0) = _; rw [mul_zero]; rfl
    | pinf => exact if_neg (lt_irrefl _)
    | ninf => exact if_neg (lt_irrefl _)
    | nan => simp [Num.isNan] at hny

/-- **C106** (finding): without a limit, one infinite entry makes every entry of every gradient NaN: only measuring the norm is not free of
effects. -/
theorem C106_inf_no_limit (params : List (Option Tensor)) (hn : AllEntries (fun x => x.isNan = false) params) (t : Tensor)
    (ht : some t ∈ params) (x : Num) (hx : x ∈ t) (hi : x.isInf = true) :
    AllEntries (fun x => x = .nan) (clipGradients none none params).1 ∧ (clipGradients none none params).2 = .pinf := by
  show AllEntries _ (clipGradNorm _ params).1 ∧ (clipGradNorm _ params).2 = _
  rw [after_clip _ params t ht, total_inf params hn t ht x hx hi]
  exact ⟨all_map _ _ _ fun t' _ x _ => mul_nan x, rfl⟩

/-! ## Concrete cases -/

/-- A case of `C106_limit` that clips: gradients (3, 4) in two tensors and a parameter without gradient; norm 5, limit 1. -/
example : Finite [some [.fin 3], none, some [.fin 4]] [some [3], none, some [4]] ∧ l2 [some [3], none, some [4]] = 5 := by
  refine ⟨rfl, ?_⟩
  show Real.sqrt _ = 5
  have : ((entries [some [3], none, some [4]]).map fun x : ℝ => x ^ 2).sum = 5 ^ 2 := by
    simp [entries]; norm_num
  rw [this, Real.sqrt_sq (by norm_num)]

example : AllEntries (fun x => x = .nan) (clipGradients none none [some [.fin 3], none, some [.fin 4, .ninf]]).1 :=
  (C106_inf_no_limit _ (by
    intro t ht x hx
    simp only [List.mem_cons, Option.some.injEq, List.not_mem_nil, or_false, reduceCtorEq, false_or] at ht
    rcases ht with rfl | rfl <;> simp at hx
    · subst hx; rfl
    · rcases hx with rfl | rfl <;> rfl) [.fin 4, .ninf] (by simp) .ninf (by simp) rfl).1

end Verif.Clip
