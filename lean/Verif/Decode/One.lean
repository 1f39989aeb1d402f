import Verif.Decode.Packed

/-! # C74: what a single decoded row contains -/
namespace Verif.Decode
open Verif.Board Verif.Rng

variable {α : Type}

/-- **C74 (content of a row).** Without transformations the decoded row holds the file's planes, side input (zero if the file has none) and values of that
row; a policy keeps its entries, and the flat policy of a board without pass move becomes the plane whose entry at row `y`, column `x` is entry
`y * w + x`, the pass entry being left out. -/
theorem C74_row_content [Zero α] (c : Cfg α) (hs : c.fixedSide = false) (hf : c.fixedSize = none) (hk : c.kind = none) (ref : Ref) (a : Arrays α)
    (ha : c.load ref.path = some a) (hw : WellFormed a) (x : Row α) (h : decodeOne c ref = some x) :
    a.bf[ref.row]? = some x.planes ∧ (x.bh, x.bw, x.h, x.w) = (a.h, a.w, a.h, a.w) ∧
    (match a.gf with | some g => g[ref.row]? = some x.stm | none => x.stm = [0]) ∧ a.vt[ref.row]? = some x.value ∧
    (∀ l v, a.pt = some l → l[ref.row]? = some (.flat v) →
      if c.hasPass then x.policy = .flat v
      else v.length = a.h * a.w + 1 ∧ ∃ g, x.policy = .plane g ∧ g.h = a.h ∧ g.w = a.w ∧
        ∀ y j, y < a.h → j < a.w → v[y * a.w + j]? = some (g.at' y j)) ∧
    (∀ l g, a.pt = some l → l[ref.row]? = some (.plane g) → x.policy = .plane g) ∧
    (a.pt = none → if c.hasPass then x.policy = .flat (List.replicate (a.h * a.w + 1) 0)
      else x.policy = .plane ⟨a.h, a.w, fun _ _ => 0⟩) := by
  obtain ⟨_, y, i, h1, _, h3⟩ := decodeOne_raw ha h
  rw [postOne_eq c hf i y (rawRow_good hw h1)] at h3
  simp [sideOne, hs, symOne, hk] at h3
  subst h3
  rw [rawRow_eq] at h1
  cases c1 : a.bf[ref.row]? with
  | none => simp [c1] at h1
  | some p =>
  cases c2 : gfAt a ref.row with
  | none => simp [c1, c2] at h1
  | some s =>
  cases c3 : a.vt[ref.row]? with
  | none => simp [c1, c2, c3] at h1
  | some v =>
  cases c4 : ptAt c a a.h a.w ref.row with
  | none => simp [c1, c2, c3, c4] at h1
  | some pol =>
  cases c5 : dropPass c.hasPass a.h a.w pol with
  | none => simp [c1, c2, c3, c4, c5] at h1
  | some pol' =>
    simp [c1, c2, c3, c4, c5] at h1
    subst h1
    refine ⟨rfl, rfl, ?_, rfl, ?_, ?_, ?_⟩
    · unfold gfAt at c2
      cases hg : a.gf with
      | none => simp [hg] at c2; simp [c2]
      | some g => simpa [hg] using c2
    · intro l v' hl hv
      simp only [ptAt, hl, hv, Option.some.injEq] at c4
      subst c4
      unfold dropPass at c5
      by_cases hp : c.hasPass = true
      · rw [if_pos hp] at c5 ⊢; cases c5; rfl
      · rw [if_neg hp] at c5 ⊢
        simp only at c5
        split_ifs at c5 with hlen
        cases c5
        have hlen' : v'.length = a.h * a.w + 1 := by simpa using hlen
        refine ⟨hlen', _, rfl, rfl, rfl, ?_⟩
        intro y j hy hj
        have hb : y * a.w + j < a.h * a.w := by
          have : (y + 1) * a.w ≤ a.h * a.w := Nat.mul_le_mul_right _ hy
          rw [Nat.succ_mul] at this; omega
        have : y * a.w + j < v'.dropLast.length := by rw [List.length_dropLast, hlen']; omega
        simp only [unflat, List.getD_eq_getElem?_getD, List.getElem?_eq_getElem this, Option.getD_some, List.getElem_dropLast]
        exact List.getElem?_eq_getElem (by omega)
    · intro l g hl hv
      simp only [ptAt, hl, hv, Option.some.injEq] at c4
      subst c4
      unfold dropPass at c5
      split_ifs at c5 <;> cases c5 <;> rfl
    · intro hn
      simp only [ptAt, hn, Option.some.injEq] at c4
      subst c4
      unfold dropPass defaultPolicy at c5
      by_cases hp : c.hasPass = true
      · simp [hp] at c5 ⊢; exact c5.symm
      · simp [hp] at c5 ⊢; exact c5.symm

end Verif.Decode
