import Verif.Mix10.Props105b
import Verif.Mapping.Examples97

set_option linter.dupNamespace false

/-! Concrete cases and limits of C105. -/
namespace Verif.Mix10
open Finset
open Verif.Quant (demoLin FMap)
open Verif.Export (quantFeature)

/-- 16 features, 8 of them behind the depthwise convolution, value dimension 4. -/
def demoNet : Net10 where
  dimFeature := 16
  dimDw := 8
  dimValue := 4
  norm := none
  dwW := fun c k => (((c * 5 + k * 4) % 9 : Nat) - 4) / 17
  dwB := fun c => ((c : ℚ) - 1) / 3
  policySmall1 := demoLin 1
  policySmall2 := demoLin 2
  smallOutW := fun o => ((o : ℚ) - 7) / 5
  smallOutB := 1 / 10
  policyLarge0 := demoLin 3
  policyLarge1 := demoLin 4
  policyLarge2 := demoLin 5
  largeOutW := fun o => ((o : ℚ) - 4) / 3
  largeOutB := 1 / 7
  small1 := demoLin 6
  small2 := demoLin 7
  small3 := demoLin 8
  gate := demoLin 9
  corner := demoLin 10
  edge := demoLin 11
  center := demoLin 12
  quad := demoLin 13
  large1 := demoLin 14
  large2 := demoLin 15
  large3 := demoLin 16

/-- A mapping output on the board, above the upper clip at some points, near the lower one at others. -/
def demoMap : Nat → FMap := fun d c y x => (((d * 11 + c * 5 + y * 7 + x * 3) % 33 : Nat) - 15) * 17 / 16

theorem demoMap_inRange : InRange demoMap := by
  intro d c y x
  have h : (0 : ℚ) ≤ ((d * 11 + c * 5 + y * 7 + x * 3) % 33 : Nat) := by positivity
  unfold demoMap
  linarith

theorem demo_bias : ∀ c < demoNet.dimDw, -64 ≤ demoNet.dwB c ∧ demoNet.dwB c ≤ 64 := by decide +kernel

/-- The hypotheses of `C105_forward` hold together. -/
example : ∀ o, (forward demoNet 4 5 demoMap).value o
    = ((Engine.run (exportNet demoNet) 4 5 fun d c y x => quantFeature (demoMap d c y x)).value o : ℚ) / (128 * 128) :=
  (C105_forward demoNet rfl 4 5 demoMap demoMap_inRange (by decide) demo_bias).2.1

/-- Something is computed: the small value and the features of one point. -/
example : (Engine.run (exportNet demoNet) 1 2 fun d c y x => quantFeature (demoMap d c y x)).valueSmall 0 = 4429
    ∧ (List.range 10).map (fun c => Engine.feature (exportNet demoNet) 1 2 (fun d c y x => quantFeature (demoMap d c y x)) c 0 1)
      = [0, 0, 43, 85, 280, 154, 644, 256, 375, 0] := by
  decide +kernel

/-- The alignment hypotheses of a usual size; and the sizes of `C105_not_aligned` are accepted by the exporter. -/
example (f32 : ℚ → Int) : Quant.Doc.sizeOf (Doc.bucket f32 (exportNet { demoNet with dimFeature := 64, dimDw := 32, dimValue := 64 })) % 64 = 0 :=
  (C105_aligned f32 _ (by decide) (by decide) (by decide) (by decide)).2.2.2.2

example : archSize 64 32 64 = some 525320 := by decide +kernel

/-- **C105** (finding), the range hypothesis is needed: training limits the mapping output to [-511/32, 511/32], the exported table starts at
-512/32; one direction at -16 gives another feature. -/
theorem C105_low_feature_differs :
    let m : Nat → FMap := fun d _ _ _ => if d = 0 then -16 else 511 / 32
    getFeature demoNet 1 1 m 8 0 0 = 1022 / 128
    ∧ Engine.feature (exportNet demoNet) 1 1 (fun d c y x => quantFeature (m d c y x)) 8 0 0 = 1021 := by
  decide +kernel

/-- A network with `spherical_feature`; the norm of the channel vector (3, 4, 0, ...) is 5. -/
def sphericalNet : Net10 := { demoNet with norm := some fun v => if v 0 = 3 ∧ v 1 = 4 then 5 else 1 }

/-- **C105** (finding), the exporter ignores `spherical_feature`: the trained network uses 3 / 5 · 511 / 32 = 9.58 where the exported table has 3. -/
theorem C105_spherical_not_exported :
    let m : Nat → FMap := fun _ c _ _ => if c % 8 = 0 then 3 else if c % 8 = 1 then 4 else 0
    getFeature sphericalNet 1 1 m 8 0 0 = 1228 / 128
    ∧ Engine.feature (exportNet sphericalNet) 1 1 (fun d c y x => quantFeature (m d c y x)) 8 0 0 = 384 := by
  decide +kernel

/-! ### From the board -/

open Verif.Mapping (Mappings demoBoard demoBoard_noOverlap demoMapping featureArray lookupArray Mapping)

/-- The demo mapping of C97, with 16 outputs. -/
def demoMapping16 : Mapping ℚ := { demoMapping true (1 / 8) with dimOut := 16 }

theorem demo_features : ∀ d < 4, ∀ c < 16, ∀ y < 4, ∀ x < 5, -1023 / 64 < (Mappings.two demoMapping16 demoMapping16).feature demoBoard d c y x := by
  decide +kernel

/-- All hypotheses of the end-to-end theorem together. -/
example : ∃ codes, Verif.LineEnc.transformBoard 5 false demoBoard = some codes ∧
    ∀ y x, (forward demoNet 4 5 (featureArray (.two demoMapping16 demoMapping16) 16 demoBoard)).policy y x
      = (Engine.run (exportNet demoNet) 4 5 (lookupArray (.two demoMapping16 demoMapping16) 4096 5 16 codes demoBoard)).policy y x := by
  obtain ⟨codes, hc⟩ : ∃ codes, Verif.LineEnc.transformBoard 5 false demoBoard = some codes :=
    Option.isSome_iff_exists.1 (by decide +kernel)
  exact ⟨codes, hc, (C105_end_to_end (.two demoMapping16 demoMapping16) 4096 5 true demoNet rfl (by decide)
    ⟨⟨⟨rfl, by decide, rfl⟩, rfl, rfl⟩, ⟨rfl, by decide, rfl⟩, rfl, rfl⟩ demoBoard demoBoard_noOverlap codes hc (by decide) demo_bias
    demo_features).2.2.2⟩

end Verif.Mix10
