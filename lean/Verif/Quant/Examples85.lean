/-
C85: the gate of the fast gradient, concrete networks, and witnesses of the limits of the claim.
-/
import Verif.Quant.Props85

namespace Verif.Quant

open Verif.Export (roundEven quantFeature)
open Finset
open Engine (sat rect)

/-! ### `product_quantization_has_linear_gradient` -/

/-- model/ops/quantized.py:10-35 `product_quantization_has_linear_gradient`; `bits ≥ 1`. -/
def productGate (inScale : ℚ) (inBits : Nat) (wScale : ℚ) (wBits : Nat) (pScale : ℚ) (pBits : Nat) :
    Bool :=
  let ib : ℚ × ℚ := (-(2 ^ (inBits - 1)) / inScale, (2 ^ (inBits - 1) - 1) / inScale)
  let wb : ℚ × ℚ := (-(2 ^ (wBits - 1)) / wScale, (2 ^ (wBits - 1) - 1) / wScale)
  let products : List ℚ := [ib.1 * wb.1, ib.1 * wb.2, ib.2 * wb.1, ib.2 * wb.2]
  let pb : ℚ × ℚ := (-(2 ^ (pBits - 1)) / pScale, (2 ^ (pBits - 1) - 1) / pScale)
  decide (∀ p ∈ products, pb.1 ≤ p) && decide (∀ p ∈ products, p ≤ pb.2)

theorem bilinear_bounds (x w a b c d lo hi : ℚ) (hx : a ≤ x ∧ x ≤ b) (hw : c ≤ w ∧ w ≤ d)
    (hac : lo ≤ a * c ∧ a * c ≤ hi) (had : lo ≤ a * d ∧ a * d ≤ hi)
    (hbc : lo ≤ b * c ∧ b * c ≤ hi) (hbd : lo ≤ b * d ∧ b * d ≤ hi) :
    lo ≤ x * w ∧ x * w ≤ hi := by
  have e1 : lo ≤ a * w ∧ a * w ≤ hi := by
    rcases le_total 0 a with h | h
    · exact ⟨le_trans hac.1 (mul_le_mul_of_nonneg_left hw.1 h),
        le_trans (mul_le_mul_of_nonneg_left hw.2 h) had.2⟩
    · exact ⟨le_trans had.1 (mul_le_mul_of_nonpos_left hw.2 h),
        le_trans (mul_le_mul_of_nonpos_left hw.1 h) hac.2⟩
  have e2 : lo ≤ b * w ∧ b * w ≤ hi := by
    rcases le_total 0 b with h | h
    · exact ⟨le_trans hbc.1 (mul_le_mul_of_nonneg_left hw.1 h),
        le_trans (mul_le_mul_of_nonneg_left hw.2 h) hbd.2⟩
    · exact ⟨le_trans hbd.1 (mul_le_mul_of_nonpos_left hw.2 h),
        le_trans (mul_le_mul_of_nonpos_left hw.1 h) hbc.2⟩
  rcases le_total 0 w with h | h
  · exact ⟨le_trans e1.1 (mul_le_mul_of_nonneg_right hx.1 h),
      le_trans (mul_le_mul_of_nonneg_right hx.2 h) e2.2⟩
  · exact ⟨le_trans e2.1 (mul_le_mul_of_nonpos_right hx.2 h),
      le_trans (mul_le_mul_of_nonpos_right hx.1 h) e1.2⟩

/-- The values a signed `n`-bit quantiser of the given scale can produce: whole numbers over the
scale. -/
def Representable (scale : ℚ) (n : Nat) (q : ℚ) : Prop :=
  ∃ z : Int, -(2 ^ (n - 1)) ≤ z ∧ z ≤ 2 ^ (n - 1) - 1 ∧ q = z / scale

/-- **C85**, the fast backward pass is enabled exactly when no product of a representable input and a
representable weight is changed by the clamp of the product quantiser, i.e. when the straight-through
derivative of the product quantiser is one everywhere. -/
theorem C85_product_gate (si sw sp : ℚ) (ni nw np : Nat) (hsi : 0 < si) (hsw : 0 < sw) :
    productGate si ni sw nw sp np = true ↔
      ∀ x w, Representable si ni x → Representable sw nw w →
        -(2 ^ (np - 1)) / sp ≤ x * w ∧ x * w ≤ (2 ^ (np - 1) - 1) / sp := by
  unfold productGate
  simp only [Bool.and_eq_true, decide_eq_true_eq, List.mem_cons, List.not_mem_nil, or_false,
    forall_eq_or_imp, forall_eq]
  have bnd : ∀ (s : ℚ) (n : Nat) (q : ℚ), 0 < s → Representable s n q →
      -(2 ^ (n - 1)) / s ≤ q ∧ q ≤ (2 ^ (n - 1) - 1) / s := by
    rintro s n q hs ⟨z, h1, h2, rfl⟩
    have h1' : (-(2 ^ (n - 1)) : ℚ) ≤ z := by exact_mod_cast h1
    have h2' : (z : ℚ) ≤ 2 ^ (n - 1) - 1 := by exact_mod_cast h2
    exact ⟨div_le_div_of_nonneg_right h1' hs.le, div_le_div_of_nonneg_right h2' hs.le⟩
  have lowR : ∀ (s : ℚ) (n : Nat), Representable s n (-(2 ^ (n - 1)) / s) := fun s n =>
    ⟨-(2 ^ (n - 1)), le_rfl, pow_le _, by push_cast; rfl⟩
  have highR : ∀ (s : ℚ) (n : Nat), Representable s n ((2 ^ (n - 1) - 1) / s) := fun s n =>
    ⟨2 ^ (n - 1) - 1, pow_le _, le_rfl, by push_cast; rfl⟩
  constructor
  · rintro ⟨⟨a1, a2, a3, a4⟩, b1, b2, b3, b4⟩ x w hx hw
    exact bilinear_bounds x w _ _ _ _ _ _ (bnd si ni x hsi hx) (bnd sw nw w hsw hw)
      ⟨a1, b1⟩ ⟨a2, b2⟩ ⟨a3, b3⟩ ⟨a4, b4⟩
  · intro h
    have c1 := h _ _ (lowR si ni) (lowR sw nw)
    have c2 := h _ _ (lowR si ni) (highR sw nw)
    have c3 := h _ _ (highR si ni) (lowR sw nw)
    have c4 := h _ _ (highR si ni) (highR sw nw)
    exact ⟨⟨c1.1, c2.1, c3.1, c4.1⟩, c1.2, c2.2, c3.2, c4.2⟩

/-- The gate is open for the Mix9 depthwise convolution and closed for an 8-bit product of the same
operands. -/
example : productGate 128 16 65536 16 128 16 = true ∧ productGate 128 16 65536 16 128 8 = false := by
  decide +kernel

/-! ### A concrete network -/

/-- Small pseudo-random weights. -/
def demoLin (a : Nat) : Lin where
  w := fun o i => (((o * 7 + i * 3 + a) % 23 : Nat) - 11) / 12
  b := fun o => (((o * 5 + a) % 13 : Nat) - 6) / 10

def demoStar (a : Nat) : Star := { up1 := demoLin a, up2 := demoLin (a + 1), down := demoLin (a + 2) }

/-- A star-group, dynamic-policy network with 3 features. -/
def demoNet : Net where
  dimFeature := 3
  dimPolicy := 2
  dimValue := 2
  dimDw := 2
  dwW := fun c k => (((c * 5 + k * 4) % 9 : Nat) - 4) / 7
  dwB := fun c => ((c : ℚ) - 1) / 3
  policy := .dynamic (demoLin 1) (demoLin 2)
  outW := fun o => ((o : ℚ) - 7) / 5
  outB := 1 / 10
  value := .grouped (.star (demoStar 3)) (.star (demoStar 4)) (.star (demoStar 5)) (.star (demoStar 6))
    (demoLin 7) (demoLin 8) (demoLin 9)

/-- A mapping output on the board, outside the clipping range at some points. -/
def demoMap : Nat → FMap := fun d c y x => (((d * 11 + c * 5 + y * 7 + x * 3) % 29 : Nat) - 9) * 9 / 8

/-- The hypotheses of `C85_forward` hold for it, and integer inference gives three different,
non-zero value accumulators. -/
example :
    (∀ c < demoNet.dimDw, -64 ≤ demoNet.dwB c ∧ demoNet.dwB c ≤ 64) ∧ 4 * 5 ≤ 65536 ∧
    [0, 1, 2].map (Engine.run (exportNet demoNet) 4 5
      (fun d c y x => quantFeature (demoMap d c y x))).value = [4432, -6973, -2691]
    ∧ (Engine.run (exportNet demoNet) 4 5
      (fun d c y x => quantFeature (demoMap d c y x))).policy 1 2 = 1630465 / 524288 := by
  decide +kernel

/-! ### Limits of the claim -/

/-- A network whose depthwise weights are all at the upper end of the trained range, bias 0. -/
def wideNet : Net := { demoNet with dwW := fun _ _ => 32767 / 65536, dwB := fun _ => 0 }

/-- A position all of whose features are at the upper end. -/
def wideMap : Nat → FMap := fun _ _ _ _ => 511 / 32

/-- **C85** (finding), the depthwise accumulator can leave int16 although the exporter's assertion
passed: 36783 at the centre of a 3 by 3 board.  (The trained network saturates at 32767 there.) -/
theorem C85_dwconv_can_overflow :
    (∀ c, dwCheck wideNet c)
    ∧ Engine.dwAcc 3 3 (exportNet wideNet) (Engine.accum (table wideMap)) 0 1 1 = 36783
    ∧ Engine.feature (exportNet wideNet) 3 3 (table wideMap) 0 1 1 = 32767 :=
  ⟨fun c => C85_dwconv_check_never_fires wideNet c, by decide +kernel, by decide +kernel⟩

/-- The sufficient condition of `C85_dwconv_int16` is met by the demo network. -/
example : 8176 * ∑ k ∈ range 9, |(exportNet demoNet).dwW 0 k| + 65536 * (9 + |(exportNet demoNet).dwB 0|)
    ≤ 65536 * 32767 := by
  decide +kernel

/-- **C85** (finding), the hypothesis on the depthwise bias is needed: the exporter clips it to
[-64, 64], the trained network uses up to ±256. -/
theorem C85_bias_clip_differs :
    fakeQuant 100 (numBits := some 16) = 100
    ∧ ((exportNet { demoNet with dwB := fun _ => 100 }).dwB 0 : ℚ) / 128 = 64 := by
  decide +kernel

/-- A static policy head whose weights are at the upper end. -/
def hotNet : Net := { wideNet with
  dimPolicy := 3
  dimDw := 3
  policy := .static { w := fun _ _ => 32767 / 16384, b := fun _ => 0 } }

/-- **C85** (finding), with saturated features the int32 accumulator of the static policy
convolution can overflow with three policy channels already (the trained network has no bound there). -/
theorem C85_policy_can_overflow :
    let f := Engine.feature (exportNet hotNet) 3 3 (table wideMap)
    Engine.policyMidAcc (exportNet hotNet) f (Engine.total 3 3 f) 1 1 0 = 3221028867
    ∧ (3221028867 : Int) > 2 ^ 31 - 1 := by
  decide +kernel

end Verif.Quant
