import Verif.Total.Props75b
import Mathlib.Tactic.NormNum

/-! Concrete cases that meet the hypotheses of C75, with their values. -/

namespace Verif.Total

open Verif.Stats

/-- a part: the sum and the number of some values -/
abbrev ExPart := ℚ × Nat

def exSlotA : Slot ExPart :=
  { id := "a", weight := 2, commitment := 1 / 4, entropy := 0, dd := ("f", "c"),
    embed := fun p => p.1, commit := fun p => 2 * p.1, elements := fun p => 4 * p.2,
    vectors := fun p => p.2, codes := 0, prob := fun _ i => i.elim0 }

def exSlotB : Slot ExPart :=
  { id := "b", weight := 1, commitment := 1, entropy := 3, dd := ("f", "c"),
    embed := fun p => p.1, commit := fun p => p.1, elements := fun p => p.2,
    vectors := fun p => 2 * p.2, codes := 2, prob := fun p i => if i = 0 then p.2 else p.2 }

/-- a value loss, a policy loss against the target, a regularizer and a VQ loss -/
def exTerms : List (Term ExPart) :=
  [⟨.mean ("f", "c") (fun p => p.1) (fun p => p.2), true, 4 / 3⟩,
   ⟨.mean ("f", "c") (fun p => 3 * p.1) (fun p => 2 * p.2), true, 2 / 3⟩,
   ⟨.reg ("f", "c") (fun p => p.1) (fun p => 5 * p.2), false, 1 / 10⟩,
   ⟨.vq [exSlotA, exSlotB], false, 1 / 2⟩]

/-- three ranks; the second repeats rows and does not count -/
def exBatch : List (ExPart × Bool) := [((3, 2), true), ((100, 7), false), ((9, 4), true)]

theorem exTerms_wellNamed : ∀ t ∈ exTerms, t.head.wellNamed := by
  intro t ht
  simp only [exTerms, List.mem_cons, List.not_mem_nil, or_false] at ht
  rcases ht with rfl | rfl | rfl | rfl
  · trivial
  · trivial
  · trivial
  · refine ⟨by simp, by decide, ?_⟩
    intro s hs
    simp only [List.mem_cons, List.not_mem_nil, or_false] at hs
    rcases hs with rfl | rfl
    · exact ⟨by decide, by decide⟩
    · exact ⟨by decide, by decide⟩

theorem exTerms_nonEmpty : ∀ t ∈ exTerms, t.head.nonEmpty (ownParts exBatch) := by
  intro t ht
  simp only [exTerms, List.mem_cons, List.not_mem_nil, or_false] at ht
  rcases ht with rfl | rfl | rfl | rfl
  · show 0 < totalN _ _; decide
  · show 0 < totalN _ _; decide
  · show 0 < totalN _ _; decide
  · intro s hs
    simp only [List.mem_cons, List.not_mem_nil, or_false] at hs
    rcases hs with rfl | rfl <;> exact ⟨by decide, by decide⟩

/-- the weighted sum, with the identity in the place of the logarithm -/
theorem exTerms_value : weighted (fun x => x) exTerms (ownParts exBatch) = 6137 / 750 := by
  decide +kernel

theorem exTerms_parts :
    weighted (fun x => x) (exTerms.filter (fun t => t.dependent)) (ownParts exBatch) = 14 / 3 ∧
    weighted (fun x => x) (exTerms.filter (fun t => !t.dependent)) (ownParts exBatch) = 879 / 250 := by
  decide +kernel

/-- C75_total on this batch -/
example : ∃ stats : List (SufficientStats × Bool), ∃ v,
    List.Forall₂ (fun p s => plainTotal (rawTerms exTerms p.1) = .ok s.1 ∧ s.2 = p.2) exBatch stats ∧
    closeGlobalSuff validSchema (finalize 0 (fun x => x)) stats = .ok v ∧ v.sum.data = [6137 / 750] := by
  obtain ⟨stats, h1, h2, -⟩ := C75_total 0 le_rfl (fun x => x) exTerms (by simp [exTerms])
    exTerms_wellNamed exBatch (by simp [exBatch])
  obtain ⟨v, hv, -, -, hd⟩ := h2 exTerms_nonEmpty
  exact ⟨stats, v, h1, hv, by rw [hd, exTerms_value]⟩

/-- C75_total: a batch in which no rank counts is refused -/
example : ∃ stats : List (SufficientStats × Bool), ∃ e,
    List.Forall₂ (fun p s => plainTotal (rawTerms exTerms p.1) = .ok s.1 ∧ s.2 = p.2) [((3, 2), false)] stats ∧
    closeGlobalSuff validSchema (finalize 0 (fun x => x)) stats = .error e := by
  obtain ⟨stats, h1, -, h2⟩ := C75_total 0 le_rfl (fun x => x) exTerms (by simp [exTerms])
    exTerms_wellNamed [((3, 2), false)] (by simp)
  obtain ⟨e, he⟩ := h2 ⟨⟨.mean ("f", "c") (fun p => p.1) (fun p => p.2), true, 4 / 3⟩, by simp [exTerms], by
    show ¬ 0 < totalN _ _; decide⟩
  exact ⟨stats, e, h1, he⟩

/-- C75_total_teacher on this batch, with `alpha = 1/4` and `T = 2` (here the teacher's terms are the same) -/
example : ∃ stats : List (SufficientStats × Bool), ∃ v,
    List.Forall₂ (fun p s => kdTotal (rawTerms exTerms p.1) (rawTerms exTerms p.1) (1 / 4) 2 = .ok s.1 ∧
      s.2 = p.2) exBatch stats ∧
    closeGlobalSuff validSchema (finalize 0 (fun x => x)) stats = .ok v ∧
    v.sum.data = [1 / 4 * 2 ^ 2 * (14 / 3) + (1 - 1 / 4) * (14 / 3) + 879 / 250] := by
  obtain ⟨stats, h1, h2, -⟩ := C75_total_teacher 0 le_rfl (fun x => x) exTerms exTerms
    ⟨⟨.mean ("f", "c") (fun p => p.1) (fun p => p.2), true, 4 / 3⟩, by simp [exTerms], rfl⟩
    ⟨⟨.mean ("f", "c") (fun p => p.1) (fun p => p.2), true, 4 / 3⟩, by simp [exTerms], rfl⟩ (1 / 4) 2
    exTerms_wellNamed exTerms_wellNamed exBatch (by simp [exBatch])
  obtain ⟨v, hv, -, -, hd⟩ := h2 (fun t ht _ => exTerms_nonEmpty t ht) exTerms_nonEmpty
  exact ⟨stats, v, h1, hv, by rw [hd, exTerms_parts.1, exTerms_parts.2]⟩

end Verif.Total
