import Verif.Regions.Props117

/-!
# Concrete cases for C117
-/
namespace Verif.Regions

example : (List.range 3).map (fun r => (axis 15 r).length) = [5, 5, 5] := by decide +kernel
example : (List.range 3).map (fun r => (axis 16 r).length) = [5, 6, 5] := by decide +kernel
example : (List.range 3).map (fun r => (axis 17 r).length) = [6, 5, 6] := by decide +kernel
example : region 4 5 (fun y x => (y, x)) 1 2 = [[(1, 3), (1, 4)], [(2, 3), (2, 4)]] := by decide +kernel
example : regionSum 4 5 (fun y x => 10 * y + x) 1 2 = 74 := by decide +kernel
example : regionMean 4 5 (fun y x => 10 * y + x) 1 2 = some (37 / 2) := by decide +kernel
example : regionMean 2 5 (fun y x => 10 * y + x) 1 2 = none := by decide +kernel
example := C117_tiling 4 5 fun y x => (y, x)
example := C117_total 4 5 fun y x => 10 * y + x
example := (C117_sizes 4 5 fun y x => 10 * y + x).2.mpr (by decide)
example := C117_mean 4 5 (by decide) (by decide) (fun y x => 10 * y + x) 1 2 (by decide) (by decide)
example := C117_symmetric 4 5 (fun y x => 10 * y + x) 0 2 (by decide) (by decide)
example := C117_qsum 4 5 (fun y x => 10 * (y : Int) - 50 * x) 1 2 (by decide +kernel) (by decide +kernel)
example := C117_avg4 0 1 2 127 (by decide) (by decide) (by decide) (by decide)
example : avg4 (0 / 128) (1 / 128) (2 / 128) (127 / 128) = 33 / 128 := by decide +kernel

end Verif.Regions
