import Verif.Collide.Spec
import Verif.Resume.Load84
import Mathlib.Tactic.SplitIfs
import Mathlib.Tactic.ByContra

/-!
C107: a checkpoint that is already on disk is kept only when it holds exactly what would be saved.
-/

namespace Verif.Collide

open Verif.Canon Verif.Resume

/-! ### Comparing values -/

theorem sameValue_step (L : Lib) (v w : Val) : SameValue L v w ↔ Alike L v w ∧
    ∀ n, (match child v n, child w n with
      | some x, some y => SameValue L x y
      | none, none => True
      | _, _ => False) := by
  constructor
  · intro h
    refine ⟨h [], fun n => ?_⟩
    cases hv : child v n with
    | none =>
      cases hw : child w n with
      | none => trivial
      | some y => have := h [n]; simp only [descend, hv, hw, AlikeAt] at this
    | some x =>
      cases hw : child w n with
      | none => have := h [n]; simp only [descend, hv, hw, AlikeAt] at this
      | some y =>
        intro path
        have := h (n :: path)
        simpa only [descend, hv, hw] using this
  · rintro ⟨h0, h⟩ path
    cases path with
    | nil => exact h0
    | cons n r =>
      have := h n
      cases hv : child v n with
      | none =>
        cases hw : child w n with
        | none => simp only [descend, hv, hw, AlikeAt]
        | some y => simp only [hv, hw] at this
      | some x =>
        cases hw : child w n with
        | none => simp only [hv, hw] at this
        | some y =>
          simp only [hv, hw] at this
          simpa only [descend, hv, hw] using this r

theorem same_dict (L : Lib) (a b : Dict) : SameValue L (.dict a) (.dict b) ↔
    a.map Prod.fst = b.map Prod.fst ∧
      ∀ (n : Nat) (e f : Key × Val), a[n]? = some e → b[n]? = some f → SameValue L e.2 f.2 := by
  rw [sameValue_step]
  refine and_congr_right fun hk => ?_
  have hk : a.map Prod.fst = b.map Prod.fst := hk
  have hl : a.length = b.length := by simpa using congrArg List.length hk
  constructor
  · intro h n e f he hf
    have := h n
    simpa only [child, he, hf, Option.map_some] using this
  · intro h n
    cases ha : a[n]? with
    | none =>
      have : b[n]? = none := by rw [List.getElem?_eq_none_iff] at ha ⊢; omega
      simp only [child, ha, this, Option.map_none]
    | some e =>
      cases hb : b[n]? with
      | none =>
        have h1 := (List.getElem?_eq_some_iff.mp ha).1
        rw [List.getElem?_eq_none_iff] at hb; omega
      | some f => simpa only [child, ha, hb, Option.map_some] using h n e f ha hb

theorem same_seq (L : Lib) (p q : Bool) (a b : List Val) : SameValue L (.seq p a) (.seq q b) ↔
    (p = q ∧ a.length = b.length) ∧
      ∀ (n : Nat) (e f : Val), a[n]? = some e → b[n]? = some f → SameValue L e f := by
  rw [sameValue_step]
  refine and_congr_right fun hk => ?_
  have hl : a.length = b.length := hk.2
  constructor
  · intro h n e f he hf
    have := h n
    simpa only [child, he, hf] using this
  · intro h n
    cases ha : a[n]? with
    | none =>
      have : b[n]? = none := by rw [List.getElem?_eq_none_iff] at ha ⊢; omega
      simp only [child, ha, this]
    | some e =>
      cases hb : b[n]? with
      | none =>
        have h1 := (List.getElem?_eq_some_iff.mp ha).1
        rw [List.getElem?_eq_none_iff] at hb; omega
      | some f => simpa only [child, ha, hb] using h n e f ha hb

theorem same_leaf (L : Lib) (v w : Val) (hv : ∀ n, child v n = none) (hw : ∀ n, child w n = none) :
    SameValue L v w ↔ Alike L v w := by
  rw [sameValue_step]
  refine ⟨fun h => h.1, fun h => ⟨h, fun n => ?_⟩⟩
  rw [hv, hw]; trivial

theorem same_alike {L : Lib} {v w : Val} (h : SameValue L v w) : Alike L v w := h []

theorem forall_cons {α β : Type} (a : α) (b : β) (r : List α) (s : List β) (R : α → β → Prop) :
    (∀ (n : Nat) (e : α) (f : β), (a :: r)[n]? = some e → (b :: s)[n]? = some f → R e f) ↔
      R a b ∧ ∀ (n : Nat) (e : α) (f : β), r[n]? = some e → s[n]? = some f → R e f := by
  constructor
  · intro h
    exact ⟨h 0 a b rfl rfl, fun n e f he hf => h (n + 1) e f (by simpa using he) (by simpa using hf)⟩
  · rintro ⟨h0, h⟩ n e f he hf
    cases n with
    | zero =>
      simp only [List.getElem?_cons_zero, Option.some.injEq] at he hf
      subst he hf; exact h0
    | succ n => exact h n e f (by simpa using he) (by simpa using hf)

theorem same_kinds (L : Lib) (v w : Val) (h : valuesEqual L v w = false) (h' : ¬ Alike L v w) :
    valuesEqual L v w = true ↔ SameValue L v w := by
  rw [h]
  exact ⟨fun h => (by cases h), fun h => (h' (same_alike h)).elim⟩

theorem same_scalar (L : Lib) (v w : Val) (h : IsScalar v ∨ IsScalar w) :
    valuesEqual L v w = true ↔ SameValue L v w := by
  by_cases h' : IsScalar v ∧ IsScalar w
  · rw [same_leaf]
    · cases v <;> first
        | exact h'.1.elim
        | (cases w <;> first
            | exact h'.2.elim
            | simp [valuesEqual, Alike, IsScalar])
    · intro n; cases v <;> first | rfl | exact h'.1.elim
    · intro n; cases w <;> first | rfl | exact h'.2.elim
  · refine same_kinds L v w ?_ ?_
    · cases v <;> cases w <;> first
        | (simp [valuesEqual]; done)
        | exact (h.elim False.elim False.elim : False).elim
        | (exact (h' (And.intro trivial trivial)).elim)
    · cases v <;> cases w <;> first
        | (simp [Alike, IsScalar]; done)
        | exact (h.elim False.elim False.elim : False).elim
        | (exact (h' (And.intro trivial trivial)).elim)

mutual
/-- The comparison answers exactly whether the two values agree at every place. -/
theorem C107_values_iff (L : Lib) (v w : Val) : valuesEqual L v w = true ↔ SameValue L v w := by
  match v, w with
  | .tensor t, .tensor u =>
    rw [same_leaf _ _ _ (fun _ => rfl) (fun _ => rfl)]
    simp only [valuesEqual, tensorsEqual, Alike]
    by_cases h1 : t.shape = u.shape
    · by_cases h2 : t.dtype = u.dtype
      · simp [h1, h2]
      · simp [h1, h2]
    · simp [h1]
  | .dict a, .dict b =>
    rw [same_dict]
    simp only [valuesEqual, Bool.and_eq_true, beq_iff_eq]
    refine and_congr_right fun hk => ?_
    exact dictEqual_iff L a b
  | .seq p a, .seq q b =>
    rw [same_seq]
    simp only [valuesEqual, Bool.and_eq_true, beq_iff_eq]
    exact and_congr_right fun hk => listEqual_iff L a b
  | .null, w => exact same_scalar L _ _ (.inl trivial)
  | .bool _, w => exact same_scalar L _ _ (.inl trivial)
  | .int _, w => exact same_scalar L _ _ (.inl trivial)
  | .float _, w => exact same_scalar L _ _ (.inl trivial)
  | .str _, w => exact same_scalar L _ _ (.inl trivial)
  | .bytes _, w => exact same_scalar L _ _ (.inl trivial)
  | .other _, w => exact same_scalar L _ _ (.inl trivial)
  | v, .null => exact same_scalar L _ _ (.inr trivial)
  | v, .bool _ => exact same_scalar L _ _ (.inr trivial)
  | v, .int _ => exact same_scalar L _ _ (.inr trivial)
  | v, .float _ => exact same_scalar L _ _ (.inr trivial)
  | v, .str _ => exact same_scalar L _ _ (.inr trivial)
  | v, .bytes _ => exact same_scalar L _ _ (.inr trivial)
  | v, .other _ => exact same_scalar L _ _ (.inr trivial)
  | .tensor _, .dict _ => exact same_kinds L _ _ (by simp [valuesEqual]) (by simp [Alike, IsScalar])
  | .tensor _, .seq _ _ => exact same_kinds L _ _ (by simp [valuesEqual]) (by simp [Alike, IsScalar])
  | .dict _, .tensor _ => exact same_kinds L _ _ (by simp [valuesEqual]) (by simp [Alike, IsScalar])
  | .dict _, .seq _ _ => exact same_kinds L _ _ (by simp [valuesEqual]) (by simp [Alike, IsScalar])
  | .seq _ _, .tensor _ => exact same_kinds L _ _ (by simp [valuesEqual]) (by simp [Alike, IsScalar])
  | .seq _ _, .dict _ => exact same_kinds L _ _ (by simp [valuesEqual]) (by simp [Alike, IsScalar])

theorem dictEqual_iff (L : Lib) (a b : List (Key × Val)) : dictEqual L a b = true ↔
    ∀ (n : Nat) (e f : Key × Val), a[n]? = some e → b[n]? = some f → SameValue L e.2 f.2 := by
  match a, b with
  | [], _ => simp [dictEqual]
  | _ :: _, [] => simp [dictEqual]
  | x :: r, y :: s =>
    rw [forall_cons x y r s (fun e f => SameValue L e.2 f.2), dictEqual, Bool.and_eq_true,
      C107_values_iff L x.2 y.2, dictEqual_iff L r s]

theorem listEqual_iff (L : Lib) (a b : List Val) : listEqual L a b = true ↔
    ∀ (n : Nat) (e f : Val), a[n]? = some e → b[n]? = some f → SameValue L e f := by
  match a, b with
  | [], _ => simp [listEqual]
  | _ :: _, [] => simp [listEqual]
  | x :: r, y :: s =>
    rw [forall_cons x y r s (fun e f => SameValue L e f), listEqual, Bool.and_eq_true,
      C107_values_iff L x y, listEqual_iff L r s]
end

end Verif.Collide
