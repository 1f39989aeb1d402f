import Verif.Ckio.Props114

/-!
# Concrete cases for C114
-/
namespace Verif.Ckio.Examples114

open Verif.Ckio

def pa : Str := "runs/ckpt_model_0000100".toList
def ex : List (Str × Nat) := [("optim".toList, 7), ("scheduler".toList, 8)]
def ms : List (Str × Str) := [("epoch".toList, "3".toList), ("iteration".toList, "100".toList)]
def fs : Fs Nat Unit := fun _ => none

theorem noExt : ¬ HasExt pa := by
  rintro ⟨dir, a, b, h, _⟩
  have : '.' ∈ pa := by rw [h]; simp
  revert this
  decide +kernel

example : HasExt "runs/a.b.pth".toList :=
  ⟨"runs/".toList, "a.b".toList, "pth".toList, by decide +kernel, Or.inr ⟨"runs".toList, by decide +kernel⟩, by decide +kernel, by decide +kernel,
    by decide +kernel, 'a', by decide +kernel, by decide⟩
example : hasExt "runs.v1/.pt".toList = false ∧ hasExt "runs/x.".toList = true := by decide +kernel

example := C114_roundtrip (fun _ : Unit => none) fs pa 5 ex (some ms) (by decide +kernel) (by decide +kernel) (by decide +kernel)

/-- The round trip really is met. -/
example : load (fun _ : Unit => none) (save fs pa 5 (extrasOf ex) (some (metaOfStr ms))).1 (pa ++ ext) = .ok (.dict 5, ex, ms) := by
  have h := ((C114_roundtrip (fun _ : Unit => none) fs pa 5 ex (some ms) (by decide +kernel) (by decide +kernel) (by decide +kernel)).2).mpr
    ⟨by decide +kernel, by decide +kernel, by decide +kernel⟩
  rw [(C114_target pa).2 noExt] at h
  exact h

/-- An extra named "model" is loaded as the model. -/
example : ¬ load (fun _ : Unit => none) (save fs pa 5 (extrasOf [(kModel, 9)]) none).1 (target pa) = .ok (.dict 5, [(kModel, 9)], []) :=
  fun h => ((C114_roundtrip (fun _ : Unit => none) fs pa 5 [(kModel, 9)] none (by decide +kernel) (by decide +kernel) (by decide +kernel)).2.mp h).1
    (by decide +kernel)

/-- A bare file name cannot be saved to. -/
example : (save fs "ckpt.pt".toList 5 [] none).2 = some .noDir := by
  unfold save
  rw [if_pos]
  decide +kernel

example := C114_save fs pa 5 (extrasOf ex) (some (metaOfStr ms))
example := C114_reload_path (fun _ : Unit => none) fs pa 5 (extrasOf ex) (some (metaOfStr ms)) noExt rfl
example := (C114_load (fun _ : Unit => some "()".toList) (fun _ => some [(kModel, .dict 5), (['e'], .other ())]) pa).2.2 _ _ rfl (by decide)
  (List.mem_cons_self)

end Verif.Ckio.Examples114
