/-
C86: a concrete file.
-/
import Verif.Quant.Props86
import Verif.Quant.Examples85

namespace Verif.Quant

/-- A stand-in for the float encoding (any 32-bit pattern will do). -/
def demoF32 : ℚ → Int := fun q => max (-(2 ^ 31)) (min ⌊q * 1000000⌋ (2 ^ 31 - 1))

theorem demoF32_range (q : ℚ) : -(2 ^ 31) ≤ demoF32 q ∧ demoF32 q < 2 ^ 31 := by
  unfold demoF32; omega

/-- The hypothesis of `C86_layout` holds for it, and the file of the demo network has 2 mapping
streams of 8 bytes and the documented struct behind them; the weight of window position 4, channel 1
is read from its place. -/
example :
    let b := fileBytes demoF32 [[1, -2], [511]] (exportNet demoNet)
    b.length = 16 + Doc.sizeOf (Doc.fields demoF32 (exportNet demoNet))
    ∧ Doc.readInt b (16 + 2 * (4 * 2 + 1)) 2 = (exportNet demoNet).dwW 1 4
    ∧ (exportNet demoNet).dwW 1 4 = -9362 := by
  decide +kernel

/-- A value dimension the exporter accepts but whose bucket is not a multiple of 64 bytes. -/
example : DimsOk { exportNet demoNet with dimFeature := 64, dimPolicy := 32, dimValue := 8 }
    ∧ Doc.sizeOf (Doc.bucket demoF32
        { exportNet demoNet with dimFeature := 64, dimPolicy := 32, dimValue := 8 }) % 64 = 32 := by
  unfold DimsOk
  decide +kernel

/-- The default dimensions are aligned. -/
example : Doc.sizeOf (Doc.bucket demoF32
    { exportNet demoNet with dimFeature := 64, dimPolicy := 32, dimValue := 64 }) % 64 = 0 := by
  decide +kernel

example : archSize 64 32 64 32 = some (8 + 4 * 2 ^ 8 + 8 * 2 ^ 14 + 4 * 2 ^ 20) := by decide +kernel

end Verif.Quant
