/-
Basic lemmas about the filter model.
-/
import Verif.Filter.Model
import Mathlib.Tactic.SplitIfs
import Mathlib.Tactic.Linarith
import Mathlib.Tactic.ByContra

namespace Verif.Filter

variable {D : Type}

theorem bind_ok {α β : Type} {m : R D α} {f : α → R D β} {b : β} (h : (bind m f).1 = .ok b) :
    ∃ a, m.1 = .ok a ∧ (f a).1 = .ok b ∧ (bind m f).2 = m.2 ++ (f a).2 := by
  unfold bind at *
  cases hm : m.1 with
  | error e => simp [hm] at h
  | ok a =>
    simp only [hm] at h ⊢
    exact ⟨a, rfl, h, rfl⟩

theorem bind_log {α β : Type} (m : R D α) (f : α → R D β) (x : Ev D) (h : x ∈ (bind m f).2) :
    x ∈ m.2 ∨ ∃ a, m.1 = .ok a ∧ x ∈ (f a).2 := by
  unfold bind at h
  cases hm : m.1 with
  | error e =>
    simp only [hm] at h
    exact Or.inl h
  | ok a =>
    simp only [hm, List.mem_append] at h
    rcases h with h | h
    · exact Or.inl h
    · exact Or.inr ⟨a, rfl, h⟩

/-- A log satisfies `p` everywhere if both parts do. -/
theorem bind_all {α β : Type} (p : Ev D → Prop) (m : R D α) (f : α → R D β)
    (h1 : ∀ x ∈ m.2, p x) (h2 : ∀ a, m.1 = .ok a → ∀ x ∈ (f a).2, p x) :
    ∀ x ∈ (bind m f).2, p x := by
  intro x hx
  rcases bind_log m f x hx with h | ⟨a, ha, h⟩
  · exact h1 x h
  · exact h2 a ha x h

theorem ret_ok {α : Type} {a b : α} (h : (ret a : R D α).1 = .ok b) : a = b := by
  simpa [ret] using h

theorem fail_ok {α : Type} {e : Err} {b : α} (h : (fail e : R D α).1 = .ok b) : False := by
  simp [fail] at h

/-- The literal evaluators execute nothing. -/
theorem literal_log (c : Const D) : (literal c).2 = [] := by
  cases c <;> simp only [literal] <;> (try split_ifs) <;> rfl

theorem bind_nil {α β : Type} (m : R D α) (f : α → R D β) (h1 : m.2 = [])
    (h2 : ∀ a, (f a).2 = []) : (bind m f).2 = [] := by
  unfold bind
  cases m.1 with
  | error e => exact h1
  | ok a => simp [h1, h2]

mutual
theorem idx_log : ∀ (e : Node D), (idx e).2 = []
  | .const c => by
    cases c <;> simp only [idx] <;> first
      | rfl
      | exact bind_nil _ _ (literal_log _) (fun a => by cases a <;> rfl)
  | .name _ => by simp [idx, fail]
  | .tuple es => by
    simp only [idx]
    split_ifs
    · rfl
    · exact bind_nil _ _ (idxs_log es) (fun a => by split_ifs <;> rfl)
  | .list es => by
    simp only [idx]
    split_ifs
    · rfl
    · refine bind_nil _ _ (idxs_log es) (fun a => ?_)
      split_ifs
      · rfl
      · cases allInts a <;> rfl
  | .unary op e => by
    cases op <;> simp only [idx] <;> first
      | rfl
      | exact bind_nil _ _ (idx_log e) (fun a => by cases a <;> rfl)
  | .bin _ _ _ => by simp [idx, fail]
  | .cmp _ _ _ => by simp [idx, fail]
  | .subscript _ _ => by simp [idx, fail]
  | .slice a b c => by
    simp only [idx]
    exact bind_nil _ _ (idxOpt_log a) (fun _ => bind_nil _ _ (idxOpt_log b)
      (fun _ => bind_nil _ _ (idxOpt_log c) (fun _ => rfl)))
  | .attr _ _ => by simp [idx, fail]
  | .call _ _ _ => by simp [idx, fail]
  | .other _ => by simp [idx, fail]
theorem idxs_log : ∀ (es : List (Node D)), (idxs es).2 = []
  | [] => by simp [idxs, ret]
  | e :: es => by
    simp only [idxs]
    exact bind_nil _ _ (idx_log e) (fun _ => bind_nil _ _ (idxs_log es) (fun _ => rfl))
theorem idxOpt_log : ∀ (e : Option (Node D)), (idxOpt e).2 = []
  | none => by simp [idxOpt, ret]
  | some e => by
    simp only [idxOpt]
    exact bind_nil _ _ (idx_log e) (fun _ => rfl)
end

end Verif.Filter
