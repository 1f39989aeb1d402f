import Verif.Sidecar.Props100

/-! # C100 on concrete names and directories -/
namespace Verif.Sidecar
open Verif.Ckpt (Name toInt fmt7)

def tok : Name := "0123456789abcdef0123456789abcdef".toList

theorem tok_hex : Hex32 tok := (hexOk_iff 32 tok).mp (by decide +kernel)

example : sidecarName 1200 tok 3 = "runtime_0001200_0123456789abcdef0123456789abcdef_rank_3.pt".toList := by decide +kernel
example : sidecarName 12345678 tok 10 = "runtime_12345678_0123456789abcdef0123456789abcdef_rank_10.pt".toList := by decide +kernel
example : runtimeBasename 1200 tok 3 = .ok (sidecarName 1200 tok 3) := by
  obtain ⟨n, h, _⟩ := C100_name_accepted 1200 tok 3 tok_hex
  rw [h]
  have : runtimeBasename 1200 tok 3 = .ok (sidecarName 1200 tok 3) := by
    unfold runtimeBasename
    rw [if_neg (by decide +kernel)]
  rw [h] at this; exact this
/-- Names outside the grammar: leading zeros in the rank, a short iteration, an upper-case token, a trailing character. -/
example : matchSidecar "runtime_0001200_0123456789abcdef0123456789abcdef_rank_03.pt".toList = none := by decide +kernel
example : matchSidecar "runtime_1200_0123456789abcdef0123456789abcdef_rank_3.pt".toList = none := by decide +kernel
example : matchSidecar "runtime_00012000_0123456789abcdef0123456789abcdef_rank_3.pt".toList = none := by decide +kernel
example : matchSidecar "runtime_0001200_0123456789ABCDEF0123456789abcdef_rank_3.pt".toList = none := by decide +kernel
example : matchSidecar "runtime_0001200_0123456789abcdef0123456789abcdef_rank_3.pt\n".toList = none := by decide +kernel
/-- A token outside the grammar is refused. -/
example : runtimeBasename 5 "xyz".toList 0 = .error "invalid runtime sidecar basename" := by
  unfold runtimeBasename
  rw [if_pos (by decide +kernel)]

/-- A directory with one older sidecar. -/
def dir0 : Dir := fun n => if n = sidecarName 1000 tok 0 then some [1, 2] else none

example : (publish dir0 (tempName 1200 tok 0 77 tok) (sidecarName 1200 tok 0) [[5], [5, 6]] [5, 6, 7] .none).error = none :=
  (C100_success dir0 _ _ _ _ _).1.mpr ⟨by decide +kernel, by decide +kernel, by decide +kernel, rfl⟩
example : (publish dir0 (tempName 1200 tok 0 77 tok) (sidecarName 1200 tok 0) [[5], [5, 6]] [5, 6, 7] .none).dir (sidecarName 1200 tok 0) =
    some [5, 6, 7] := by decide +kernel
/-- A second write at the same name. -/
example : (publish dir0 (tempName 1000 tok 0 77 tok) (sidecarName 1000 tok 0) [[5]] [5, 6, 7] .none).error = some "link failed" ∧
    (publish dir0 (tempName 1000 tok 0 77 tok) (sidecarName 1000 tok 0) [[5]] [5, 6, 7] .none).dir (sidecarName 1000 tok 0) = some [1, 2] := by
  decide +kernel

end Verif.Sidecar
