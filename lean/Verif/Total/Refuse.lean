import Verif.Total.Group
import Mathlib.Tactic.ByContra

/-!
C75: a total over nothing is refused. If some loss head has no entry in the whole global batch (no row that
counts), closing the batch is an error; no number is reported.
-/

namespace Verif.Total

open Verif.Stats

variable {Part : Type}

theorem addAll_err (value : String → Except String (Ten ℚ)) :
    ∀ (ids : List String) (acc : Option (Ten ℚ)), (∃ id ∈ ids, ∃ e, value id = .error e) →
      ∃ e, addAll value acc ids = .error e := by
  intro ids
  induction ids with
  | nil => rintro acc ⟨id, h, _⟩; cases h
  | cons i ids ih =>
    rintro acc ⟨id, h, e, he⟩
    rw [addAll]
    cases hv : value i with
    | error e' => exact ⟨e', rfl⟩
    | ok v =>
      have hin : id ∈ ids := by
        rcases List.mem_cons.1 h with rfl | h
        · rw [he] at hv; cases hv
        · exact h
      dsimp only
      cases acc with
      | none => exact ih _ ⟨id, hin, e, he⟩
      | some r => exact ih _ ⟨id, hin, e, he⟩

theorem addAll_err_sorted (value : String → Except String (Ten ℚ)) (ids : List String) (acc : Option (Ten ℚ))
    (h : ∃ id ∈ ids, ∃ e, value id = .error e) : ∃ e, addAll value acc (sortIds ids) = .error e := by
  apply addAll_err
  obtain ⟨id, hid, he⟩ := h
  exact ⟨id, (sortIds_perm ids).mem_iff.2 hid, he⟩

theorem countOf_ge (C : Dict Int) (cs : List (CSpec Part)) (P : List Part) (hC : GetC C cs P) (k : String)
    (f : Part → Nat) (h : (⟨k, f⟩ : CSpec Part) ∈ cs) (h0 : ¬ 0 < totalN f P) : countOf C k ≤ 0 := by
  rw [getC_count hC h]
  omega

theorem finalizeVq_err (eps : ℚ) (log : ℚ → ℚ) (T : Dict (Ten ℚ)) (C : Dict Int)
    (slots : List (Slot Part)) (hn : SlotNames T C slots) (hid : (slots.map Slot.id).Nodup)
    (P : List Part) (hC : GetC C (slotsC slots) P)
    (h0 : ∃ s ∈ slots, ¬ (0 < totalN s.elements P ∧ 0 < totalN s.vectors P)) :
    ∃ e, finalizeVq eps log T C = .error e := by
  obtain ⟨s, hs, h0⟩ := h0
  have hv : ∃ e, slotValue eps log T C s.id = .error e := by
    unfold slotValue slotBase
    have hc : countOf C ("elements:" ++ s.id) ≤ 0 ∨ countOf C ("vectors:" ++ s.id) ≤ 0 := by
      by_cases he : 0 < totalN s.elements P
      · right
        refine countOf_ge C (slotsC slots) P hC _ s.vectors (List.mem_flatMap.2 ⟨s, hs, ?_⟩)
          (fun hv => h0 ⟨he, hv⟩)
        simp [Slot.cs, nkey]
      · left
        refine countOf_ge C (slotsC slots) P hC _ s.elements (List.mem_flatMap.2 ⟨s, hs, ?_⟩) he
        simp [Slot.cs, nkey]
    dsimp only
    rw [if_pos hc]
    exact ⟨_, rfl⟩
  have hmem : s.id ∈ schemaIds T "embed_sum:" := (slot_ids hn hid).mem_iff.2 (List.mem_map.2 ⟨s, hs, rfl⟩)
  obtain ⟨e, he⟩ := addAll_err_sorted (slotValue eps log T C) _ none ⟨s.id, hmem, hv⟩
  unfold finalizeVq
  dsimp only
  split
  · exact ⟨_, rfl⟩
  · rw [he]; exact ⟨e, rfl⟩

theorem group_refuses {T : Dict (Ten ℚ)} {C : Dict Int} {items : List (Item Part)} {exT exC : List String}
    (h : CompNames T C items exT exC) (eps : ℚ) (log : ℚ → ℚ) (P : List Part)
    (hC : GetC C (itemsC 0 items) P) (g : String) (hg : '.' ∉ g.toList)
    (h0 : ∃ x ∈ items, x.1 = g ∧ ¬ x.2.1.nonEmpty P) :
    ∃ e, finalizeGroup eps log T C g = .error e := by
  obtain ⟨y, hy, hyg, hne⟩ := h0
  obtain ⟨i, hi, rfl⟩ := List.mem_iff_getElem.1 hy
  obtain ⟨x, hxe⟩ : ∃ x : Item Part × Nat, x = (items[i], i) := ⟨_, rfl⟩
  have hm : x ∈ items.zipIdx 0 := by
    rw [hxe, List.mem_iff_getElem]; exact ⟨i, by simpa using hi, by simp⟩
  have h1 : x.1.1 = g := by rw [hxe]; exact hyg
  have h2 : ¬ x.1.2.1.nonEmpty P := by rw [hxe]; exact hne
  have gC : GetC C (x.1.2.1.cs x.1.1 x.2) P := fun c hc => hC c (List.mem_flatMap.2 ⟨x, hm, hc⟩)
  subst h1
  have k : ∀ K : String, K ++ ":" ++ (x.1.1 ++ "." ++ pad4 x.2) = ckey K x.1.1 (pad4 x.2) := fun K => by
    unfold ckey; simp only [String.append_assoc]
  cases hd : x.1.2.1 with
  | mean dd s c =>
    rw [hd] at gC h2
    have hv : ∃ e, meanValue eps T C x.1.1 (pad4 x.2) = .error e := by
      unfold meanValue
      have : countOf C ("mean_count:" ++ (x.1.1 ++ "." ++ pad4 x.2)) ≤ 0 := by
        rw [show "mean_count:" = "mean_count" ++ ":" from rfl, k]
        exact countOf_ge C _ P gC _ c (by simp [Head.cs]) h2
      dsimp only
      rw [if_pos this]; exact ⟨_, rfl⟩
    have hmem : pad4 x.2 ∈ schemaIds T ("mean_sum:" ++ x.1.1 ++ ".") :=
      (mean_ids h x.1.1 hg).mem_iff.2 (List.mem_map.2 ⟨x, mem_sel.2 ⟨hm, rfl, by rw [hd]; rfl⟩, rfl⟩)
    obtain ⟨e, he⟩ := addAll_err_sorted (meanValue eps T C x.1.1) _ none ⟨_, hmem, hv⟩
    unfold finalizeGroup
    rw [he]; exact ⟨e, rfl⟩
  | reg dd s c =>
    rw [hd] at gC h2
    have hv : ∃ e, regValue eps T C x.1.1 (pad4 x.2) = .error e := by
      unfold regValue
      have : countOf C ("reg_cells:" ++ (x.1.1 ++ "." ++ pad4 x.2)) ≤ 0 := by
        rw [show "reg_cells:" = "reg_cells" ++ ":" from rfl, k]
        exact countOf_ge C _ P gC _ c (by simp [Head.cs]) h2
      dsimp only
      rw [if_pos this]; exact ⟨_, rfl⟩
    have hmem : pad4 x.2 ∈ schemaIds T ("reg_sum:" ++ x.1.1 ++ ".") :=
      (reg_ids h x.1.1 hg).mem_iff.2 (List.mem_map.2 ⟨x, mem_sel.2 ⟨hm, rfl, by rw [hd]; rfl⟩, rfl⟩)
    unfold finalizeGroup
    cases addAll (meanValue eps T C x.1.1) none
        (sortIds (schemaIds T ("mean_sum:" ++ x.1.1 ++ "."))) with
    | error e => exact ⟨e, rfl⟩
    | ok r =>
      obtain ⟨e, he⟩ := addAll_err_sorted (regValue eps T C x.1.1) _ r ⟨_, hmem, hv⟩
      dsimp only
      rw [he]; exact ⟨e, rfl⟩
  | vq slots =>
    have hw := h.wellIdx hm
    rw [hd] at gC h2 hw
    have e : ∀ k, "vq:" ++ x.1.1 ++ "." ++ pad4 x.2 ++ ":" ++ k = vkey x.1.1 x.2 k := by
      intro k
      unfold vkey ckey nkey
      apply str_ext; simp
    have hv : ∃ e, vqValue eps log T C x.1.1 (pad4 x.2) = .error e := by
      unfold vqValue
      refine finalizeVq_err eps log _ _ slots (nested_names h x hm slots hd) hw.2.1 P ?_ ?_
      · intro c hc
        rw [get?_extract, e]
        exact gC (renC (vkey x.1.1 x.2) c) (List.mem_map.2 ⟨c, hc, rfl⟩)
      · by_contra hall
        exact h2 (fun s hs => by by_contra hx; exact hall ⟨s, hs, hx⟩)
    have hmem : pad4 x.2 ∈ vqIds T x.1.1 :=
      (vq_ids h x.1.1 hg).mem_iff.2 (List.mem_map.2 ⟨x, mem_sel.2 ⟨hm, rfl, by rw [hd]; rfl⟩, rfl⟩)
    unfold finalizeGroup
    cases addAll (meanValue eps T C x.1.1) none
        (sortIds (schemaIds T ("mean_sum:" ++ x.1.1 ++ "."))) with
    | error e => exact ⟨e, rfl⟩
    | ok r =>
      dsimp only
      cases addAll (regValue eps T C x.1.1) r
          (sortIds (schemaIds T ("reg_sum:" ++ x.1.1 ++ "."))) with
      | error e => exact ⟨e, rfl⟩
      | ok r2 =>
        dsimp only
        exact addAll_err_sorted (vqValue eps log T C x.1.1) _ r2 ⟨_, hmem, hv⟩

end Verif.Total
