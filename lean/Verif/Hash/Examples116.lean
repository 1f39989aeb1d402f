import Verif.Hash.Props116
import Mathlib.Algebra.Order.Round

/-!
# Concrete cases for C116
-/
namespace Verif.Hash

/-- Three binary inputs, eight rows, two sub-tables of 8 and 4 rows. -/
def cfgP : Cfg := ⟨3, 2, 20, 2, 2⟩
/-- Three ternary inputs hashed to 16 rows. -/
def cfgH : Cfg := ⟨3, 3, 4, 1, 2⟩
def hs : Nat → Int → Int := fun i a => 7 * (i : Int) - 11 * a - 5

theorem cfgP_usable : Usable cfgP := ⟨by decide, by decide, by decide⟩
theorem cfgH_usable : Usable cfgH := ⟨by decide, by decide, by decide⟩
example : cfgP.level ^ cfgP.n ≤ 2 ^ cfgP.logsize := by decide +kernel
example : ¬ cfgH.level ^ cfgH.n ≤ 2 ^ cfgH.logsize := by decide +kernel
theorem validP : Valid cfgP [1, 0, 1] := ⟨rfl, by decide⟩
theorem validH : Valid cfgH [2, 0, 1] := ⟨rfl, by decide⟩

example : rows cfgP hs [1, 0, 1] = some [5, 10] := by decide +kernel
example : rows cfgP hs [2, 0, 0] = none := by decide +kernel
example : rows cfgH hs [2, 0, 1] = some [5] := by decide +kernel
example : rows cfgH hs [2, -1, 1] = none := by decide +kernel
example := C116_rows cfgP cfgP_usable hs _ validP
example := C116_rows cfgH cfgH_usable hs _ validH
example := (C116_perfect cfgP cfgP_usable hs (by decide +kernel)).1 _ _ validP validP rfl
example := (C116_perfect cfgP cfgP_usable hs (by decide +kernel)).2 6 (by decide)
example := C116_refused cfgH cfgH_usable hs [2, -1, 1] ⟨-1, by decide, by decide⟩

theorem round_near (v : ℝ) : |((round v : Int) : ℝ) - v| ≤ 1 / 2 := by
  rw [abs_sub_comm]; exact abs_sub_round v

example := (C116_float cfgP cfgP_usable (by decide) hs (fun v => round v) round_near [0, 1, 2] rfl).1 ⟨2, by simp, Or.inr (by norm_num)⟩
example := (C116_float cfgP cfgP_usable (by decide) hs (fun v => round v) round_near [0, 1, 1 / 3] rfl).2.1 (by
  intro a ha
  simp only [List.mem_cons, List.not_mem_nil, or_false] at ha
  rcases ha with rfl | rfl | rfl <;> norm_num)
example := (C116_float cfgP cfgP_usable (by decide) hs (fun v => round v) round_near _ rfl).2.2 [1, 0, 1] validP rfl

end Verif.Hash
