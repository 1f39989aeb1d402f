import Verif.Vq.Model
import Mathlib.Tactic.SplitIfs
import Mathlib.Tactic.ByContra
import Mathlib.Data.List.Nodup

namespace Verif.Vq

/-! ### select -/

theorem select_map_mask {α : Type} (xs : List α) (p : α → Bool) : select xs (xs.map p) = xs.filter p := by
  unfold select
  induction xs with
  | nil => rfl
  | cons x xs ih =>
    simp only [List.map_cons, List.zip_cons_cons, List.filter_cons]
    cases p x <;> simp [ih]

theorem select_map {α β : Type} (f : α → β) (xs : List α) (m : List Bool) :
    select (xs.map f) m = (select xs m).map f := by
  unfold select
  induction xs generalizing m with
  | nil => rfl
  | cons x xs ih =>
    cases m with
    | nil => rfl
    | cons b m =>
      simp only [List.map_cons, List.zip_cons_cons, List.filter_cons]
      cases b <;> simp [ih]

/-! ### torch.unique -/

theorem mem_uniqueIds (xs : List Int) (e : Int) : e ∈ uniqueIds xs ↔ e ∈ xs := by
  unfold uniqueIds
  rw [(List.mergeSort_perm _ _).mem_iff, List.mem_dedup]

theorem nodup_uniqueIds (xs : List Int) : (uniqueIds xs).Nodup := by
  unfold uniqueIds
  rw [(List.mergeSort_perm _ _).nodup_iff]
  exact List.nodup_dedup xs

/-! ### scatter -/

theorem scatter_length {α : Type} (f : α → α → α) (d : α) (ps : List (Nat × α)) : ∀ acc : List α,
    (scatter f d acc ps).length = acc.length := by
  induction ps with
  | nil => intro acc; rfl
  | cons p ps ih => intro acc; rw [scatter, ih, List.length_set]

theorem scatter_getD {α : Type} (f : α → α → α) (d : α) (ps : List (Nat × α)) : ∀ (acc : List α) (i : Nat),
    i < acc.length → (scatter f d acc ps).getD i d =
      (ps.filter (fun p => decide (p.1 = i))).foldl (fun a p => f a p.2) (acc.getD i d) := by
  induction ps with
  | nil => intro acc i _; rfl
  | cons p ps ih =>
    intro acc i hi
    obtain ⟨j, v⟩ := p
    rw [scatter, ih _ _ (by rw [List.length_set]; exact hi), List.filter_cons]
    by_cases h : j = i
    · subst h
      rw [if_pos (by simp), List.foldl_cons]
      congr 1
      simp [List.getD_eq_getElem?_getD, List.getElem?_set_self hi]
    · rw [if_neg (by simpa using h)]
      congr 1
      simp [List.getD_eq_getElem?_getD, List.getElem?_set_ne h]

theorem foldl_max_ne_zero (ps : List (Nat × Nat)) : ∀ a : Nat,
    ps.foldl (fun a p => max a p.2) a ≠ 0 ↔ a ≠ 0 ∨ ∃ p ∈ ps, p.2 ≠ 0 := by
  induction ps with
  | nil => intro a; simp
  | cons p ps ih =>
    intro a
    rw [List.foldl_cons, ih]
    constructor
    · rintro (h | ⟨q, hq, h⟩)
      · by_cases ha : a = 0
        · exact Or.inr ⟨p, List.mem_cons_self .., by omega⟩
        · exact Or.inl ha
      · exact Or.inr ⟨q, List.mem_cons_of_mem _ hq, h⟩
    · rintro (h | ⟨q, hq, h⟩)
      · exact Or.inl (by omega)
      · rcases List.mem_cons.1 hq with rfl | hq
        · exact Or.inl (by omega)
        · exact Or.inr ⟨q, hq, h⟩

theorem foldl_min_mem (ps : List (Nat × Nat)) : ∀ a : Nat,
    ps.foldl (fun a p => min a p.2) a = a ∨ ∃ p ∈ ps, ps.foldl (fun a p => min a p.2) a = p.2 := by
  induction ps with
  | nil => intro a; exact Or.inl rfl
  | cons p ps ih =>
    intro a
    rw [List.foldl_cons]
    rcases ih (min a p.2) with h | ⟨q, hq, h⟩
    · rw [h]
      by_cases hle : a ≤ p.2
      · exact Or.inl (by omega)
      · exact Or.inr ⟨p, List.mem_cons_self .., by omega⟩
    · exact Or.inr ⟨q, List.mem_cons_of_mem _ hq, h⟩

theorem foldl_min_le (ps : List (Nat × Nat)) : ∀ a : Nat,
    ps.foldl (fun a p => min a p.2) a ≤ a ∧ ∀ p ∈ ps, ps.foldl (fun a p => min a p.2) a ≤ p.2 := by
  induction ps with
  | nil => intro a; exact ⟨le_refl _, by simp⟩
  | cons p ps ih =>
    intro a
    rw [List.foldl_cons]
    obtain ⟨h1, h2⟩ := ih (min a p.2)
    refine ⟨by omega, ?_⟩
    intro q hq
    rcases List.mem_cons.1 hq with rfl | hq
    · omega
    · exact h2 q hq

end Verif.Vq
