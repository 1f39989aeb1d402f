import Verif.VqExport.Props98
import Verif.Mapping.Examples97

/-! Concrete cases of C98. -/
namespace Verif.VqExport

open Verif.LineEnc
open Verif.Mapping (Mapping demoConv demoPw demoBoard demoBoard_noOverlap)
open Verif.Vq (Codebook)

/-- A mapping for windows of length 3 with two features. -/
def smallMapping : Mapping ℚ where
  fix := true
  dimOut := 2
  act := fun x => max x 0
  conv := demoConv 2 (1 / 8)
  norm := fun v => v
  blocks := []
  conv1 := demoPw 2
  conv2 := demoPw 2
  final := demoPw 2

/-- Three codes, the search picks by a threshold; code 1 is never chosen. -/
def demoBook (t : ℚ) : Codebook where
  codes := [[-20], [7], [t + 1 / 50]]
  nearest := fun x => if x.getD 0 0 < t then 0 else 2
  soft := fun _ => []

def demoLayer : Layer := ⟨true, 3, 1, [demoBook 2, demoBook 3], none⟩

theorem demoLayer_wf : demoLayer.Wf where
  count := by decide
  width := by decide
  near := by
    intro q hq x
    have : q.nearest x = 0 ∨ q.nearest x = 2 := by
      simp only [demoLayer, List.mem_cons, List.not_mem_nil, or_false] at hq
      rcases hq with rfl | rfl <;> simp only [demoBook] <;> split_ifs <;> simp
    show q.nearest x < 3
    omega

theorem demo_codes : ∃ codes, transformBoard 3 false demoBoard = some codes := Option.isSome_iff_exists.1 (by decide +kernel)

/-- The export of the small layer: the unused code is reset, the others are quantised and clipped. -/
example : (exportCodebook demoLayer smallMapping 7 3).toOption.map Prod.fst
    = some [[[-512], [0], [65]], [[-512], [0], [97]]] := by
  decide +kernel

/-- All hypotheses of `C98_file_is_network` together: two processes, one of them with a padding row. -/
example : ∃ codes books index, exportCodebook demoLayer smallMapping 4096 3 = .ok (books, index) ∧
    networkLayer true demoLayer smallMapping [2, 3]
      [⟨[⟨demoBoard, codes⟩], [true], true⟩, ⟨[⟨demoBoard, codes⟩, ⟨demoBoard, codes⟩], [true, false], true⟩]
      = .ok ([⟨[⟨demoBoard, codes⟩], [true], true⟩, (⟨[⟨demoBoard, codes⟩, ⟨demoBoard, codes⟩], [true, false], true⟩ : Proc)].map
        fun p => p.samples.flatMap fun s =>
        [2, 3].flatMap fun d => (List.range s.board.H).flatMap fun y => (List.range s.board.W).map fun x =>
          fileFeature 2 3 1 (codebookBytes books) (indexBytes index) (s.codes d y x)) := by
  obtain ⟨codes, hc⟩ := demo_codes
  have hs : Sample.Wf 3 ⟨demoBoard, codes⟩ := ⟨demoBoard_noOverlap, hc⟩
  obtain ⟨books, index, h1, h2⟩ := C98_file_is_network true demoLayer demoLayer_wf smallMapping 4096 3 (by decide)
    ⟨rfl, le_refl 3, rfl⟩ rfl rfl rfl rfl (by decide) [2, 3] (by decide)
    [⟨[⟨demoBoard, codes⟩], [true], true⟩, ⟨[⟨demoBoard, codes⟩, ⟨demoBoard, codes⟩], [true, false], true⟩]
    (Or.inl rfl) (by
      intro p hp
      simp only [List.mem_cons, List.not_mem_nil, or_false] at hp
      rcases hp with rfl | rfl
      · exact ⟨rfl, fun s hm => by simp only [List.mem_cons, List.not_mem_nil, or_false] at hm; rw [hm]; exact hs⟩
      · exact ⟨rfl, fun s hm => by
          simp only [List.mem_cons, List.not_mem_nil, or_false] at hm
          rcases hm with rfl | rfl <;> exact hs⟩)
  exact ⟨codes, books, index, h1, h2⟩

/-- **C98** (finding): the mask of the last evaluation batch stays in the layer, and exporting the same model object
then fails. -/
theorem C98_stale_mask : exportCodebook { demoLayer with mask := some [true, false] } smallMapping 7 3
    = .error "evaluation VQ mask must contain one flag per quantizer entry" :=
  export_mask { demoLayer with mask := some [true, false] } ⟨demoLayer_wf.count, demoLayer_wf.width, demoLayer_wf.near⟩
    smallMapping 7 3 rfl (by decide +kernel)

end Verif.VqExport
