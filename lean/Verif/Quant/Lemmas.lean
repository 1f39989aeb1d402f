import Verif.Quant.Spec
import Verif.Export.Props51
import Mathlib.Tactic.Linarith
import Mathlib.Tactic.Ring
import Mathlib.Tactic.FieldSimp
import Mathlib.Tactic.Positivity
import Mathlib.Tactic.NormNum
import Mathlib.Algebra.BigOperators.Ring.Finset
import Mathlib.Algebra.BigOperators.Field
import Mathlib.Algebra.Order.BigOperators.Group.Finset
import Mathlib.Algebra.Order.Ring.Abs

namespace Verif.Quant

open Verif.Export (roundEven quantFeature roundEven_mono_bounds)
open Finset
open Engine (sat toI8 rect affine)

theorem roundEven_int (z : Int) : roundEven (z : ℚ) = z := by
  have := roundEven_mono_bounds (z : ℚ) z z le_rfl le_rfl
  omega

/-- Rounding commutes with clipping at integers. -/
theorem roundEven_clamp (y : ℚ) (a b : Int) (hab : a ≤ b) :
    roundEven (clampQ y a b) = clampZ (roundEven y) a b := by
  unfold clampQ clampZ
  have habq : (a : ℚ) ≤ b := by exact_mod_cast hab
  rcases le_total y a with h | h
  · rw [max_eq_right h, min_eq_left habq, roundEven_int]
    have h1 : roundEven y ≤ a :=
      (roundEven_mono_bounds y ⌊y⌋ a (Int.floor_le y) h).2
    rw [max_eq_right h1, min_eq_left hab]
  · rw [max_eq_left h]
    rcases le_total y b with h2 | h2
    · have := roundEven_mono_bounds y a b h h2
      rw [min_eq_left h2, max_eq_left this.1, min_eq_left this.2]
    · rw [min_eq_right h2, roundEven_int]
      have h1 : b ≤ roundEven y :=
        (roundEven_mono_bounds y b (⌊y⌋ + 1) h2 (by push_cast; exact (Int.lt_floor_add_one y).le)).1
      rw [max_eq_left (le_trans hab h1), min_eq_right h1]

theorem floor_clamp (y : ℚ) (a b : Int) : ⌊clampQ y a b⌋ = clampZ ⌊y⌋ a b := by
  unfold clampQ clampZ
  rw [Int.floor_mono.map_min, Int.floor_mono.map_max, Int.floor_intCast, Int.floor_intCast]

theorem clampQ_scale (x a b s : ℚ) (hs : 0 < s) :
    clampQ x (a / s) (b / s) * s = clampQ (x * s) a b := by
  unfold clampQ
  rw [min_mul_of_nonneg _ _ hs.le, max_mul_of_nonneg _ _ hs.le, div_mul_cancel₀ _ hs.ne',
    div_mul_cancel₀ _ hs.ne']

theorem pow_le (n : Nat) : (-(2 ^ n) : Int) ≤ 2 ^ n - 1 := by
  have : (1 : Int) ≤ 2 ^ n := one_le_pow₀ (by norm_num)
  omega

theorem clampZ_eq_sat (z : Int) (n : Nat) :
    clampZ z (-(2 ^ (n - 1))) (2 ^ (n - 1) - 1) = sat n z := by
  unfold clampZ sat
  have := pow_le (n - 1)
  omega

theorem sat_eq (n : Nat) (z : Int) (h1 : -(2 ^ (n - 1)) ≤ z) (h2 : z ≤ 2 ^ (n - 1) - 1) :
    sat n z = z := by
  unfold sat; omega

theorem sat_range (n : Nat) (z : Int) :
    -(2 ^ (n - 1)) ≤ sat n z ∧ sat n z ≤ 2 ^ (n - 1) - 1 := by
  unfold sat
  have := pow_le (n - 1)
  omega

theorem sat_clampZ (n : Nat) (z : Int) :
    sat n (clampZ z (-(2 ^ (n - 1))) (2 ^ (n - 1) - 1)) = sat n z := by
  rw [clampZ_eq_sat]
  exact sat_eq _ _ (sat_range n z).1 (sat_range n z).2

/-- `fake_quant` with flooring. -/
theorem fakeQuant_floor (x s : ℚ) (n : Nat) (hs : 0 < s) :
    fakeQuant x (scale := s) (numBits := some n) (floor := true) = (sat n ⌊x * s⌋ : ℚ) / s := by
  unfold fakeQuant
  simp only [if_true]
  have e : clampQ x (-(2 ^ (n - 1)) / s) ((2 ^ (n - 1) - 1) / s) * s
      = clampQ (x * s) ((-(2 ^ (n - 1)) : Int) : ℚ) ((2 ^ (n - 1) - 1 : Int) : ℚ) := by
    rw [clampQ_scale _ _ _ _ hs]; push_cast; rfl
  rw [add_zero, sub_self, zero_add, sub_zero, e, floor_clamp, clampZ_eq_sat]

/-- `fake_quant` with rounding. -/
theorem fakeQuant_round (x s : ℚ) (n : Nat) (hs : 0 < s) :
    fakeQuant x (scale := s) (numBits := some n) = (sat n (roundEven (x * s)) : ℚ) / s := by
  unfold fakeQuant
  simp only [if_true, Bool.false_eq_true, if_false]
  have e : clampQ x (-(2 ^ (n - 1)) / s) ((2 ^ (n - 1) - 1) / s) * s
      = clampQ (x * s) ((-(2 ^ (n - 1)) : Int) : ℚ) ((2 ^ (n - 1) - 1 : Int) : ℚ) := by
    rw [clampQ_scale _ _ _ _ hs]; push_cast; rfl
  rw [add_zero, sub_self, zero_add, sub_zero, e, roundEven_clamp _ _ _ (pow_le _), clampZ_eq_sat]

/-- Flooring an integer over a scale: an arithmetic shift. -/
theorem floor_div_mul (z : Int) (a b : Nat) (ha : 0 < a) (hb : 0 < b) :
    ⌊(z : ℚ) / ((a * b : Nat) : ℚ) * (a : ℚ)⌋ = z / (b : Int) := by
  have ha' : (a : ℚ) ≠ 0 := by positivity
  have hb' : (b : ℚ) ≠ 0 := by positivity
  have e : (z : ℚ) / ((a * b : Nat) : ℚ) * (a : ℚ) = (z : ℚ) / (b : ℚ) := by
    push_cast; field_simp
  rw [e, Rat.floor_intCast_div_natCast]

theorem floor_scale (z : Int) (a : ℚ) (ha : 0 < a) : ⌊(z : ℚ) / a * a⌋ = z := by
  rw [div_mul_cancel₀ _ ha.ne', Int.floor_intCast]

theorem roundEven_scale (z : Int) (a : ℚ) (ha : 0 < a) : roundEven ((z : ℚ) / a * a) = z := by
  rw [div_mul_cancel₀ _ ha.ne', roundEven_int]

theorem relu_div (z : Int) (s : ℚ) (hs : 0 < s) : relu ((z : ℚ) / s) = ((rect z : Int) : ℚ) / s := by
  unfold relu rect
  push_cast
  have h := max_div_div_right hs.le (z : ℚ) 0
  rw [zero_div] at h
  exact h

/-- The exported linear layer against the trained one. -/
theorem linearBlock_eq (n : Nat) (act : Bool) (L : Lin) (x : Vec) (o : Nat) :
    linearBlock n act L x o =
      (((if act then rect else id) (affine n (exportLin L) (fun i => sat 8 ⌊x i * 128⌋) o) : Int) : ℚ)
        / (128 * 128) := by
  have key : linear n (fun o i => fakeQuant (L.w o i))
      (fun o => fakeQuant (L.b o) (scale := 128 * 128) (numBits := some 32))
      (fun i => fakeQuant (x i) (floor := true)) o
      = ((affine n (exportLin L) (fun i => sat 8 ⌊x i * 128⌋) o : Int) : ℚ) / (128 * 128) := by
    unfold linear affine exportLin
    simp only
    push_cast
    rw [add_div, sum_div]
    congr 1
    · refine sum_congr rfl fun i _ => ?_
      rw [fakeQuant_floor _ _ _ (by norm_num), fakeQuant_round _ _ _ (by norm_num)]
      have := clampZ_eq_sat (roundEven (L.w o i * 128)) 8
      norm_num at this
      rw [this]
      ring
    · rw [fakeQuant_round _ _ _ (by norm_num)]
      have := clampZ_eq_sat (roundEven (L.b o * 128 * 128)) 32
      norm_num at this
      norm_num
      rw [this, mul_assoc]
      norm_num
  cases act
  · exact key
  · show relu (linear n _ _ _ o) = _
    rw [key, relu_div _ _ (by norm_num)]
    rfl

end Verif.Quant
