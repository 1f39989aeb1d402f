import Verif.Weights.Props110b

/-! # C110 on a concrete model -/
namespace Verif.Weights

def t1 (x : Nat) : Tensor Nat := ⟨[1], [x]⟩
def t2 (x y : Nat) : Tensor Nat := ⟨[2], [x, y]⟩
def t0 (x : Nat) : Tensor Nat := ⟨[], [x]⟩

/-- A ladder model with two convolutions and a quantiser whose flag is cached. -/
def demo : Mod Nat := .mk .ladder [("bias", t1 7)]
  (.cons "convs" (.mk .plain [] (.cons "0" (.mk .plain [("w", t2 1 2)] .nil) (.cons "1" (.mk .plain [("w", t2 3 4)] .nil) .nil)))
    (.cons "vq" (.mk (.quantizer (some false)) [("inited", t0 0)] .nil) .nil))

/-- An old file: more convolutions, the flag with one dimension. -/
def old : Dict Nat := [(["bias"], t1 8), (["convs", "0", "w"], t2 5 6), (["convs", "1", "w"], t2 7 8), (["convs", "24", "w"], t2 0 0), (["convs", "2", "b"], t1 0),
  (["vq", "inited"], t1 1)]

/-- Accepted by the strict load; the flag is read again. -/
example : (match (loadStateDict true demo old).2 with | .ok r => decide (r = ([], [])) | .error _ => false) = true := by decide +kernel
example : (loadStateDict true demo old).1.dict =
    [(["bias"], t1 8), (["convs", "0", "w"], t2 5 6), (["convs", "1", "w"], t2 7 8), (["vq", "inited"], t0 1)] := by decide +kernel

/-- A convolution beyond those of old files is refused, and so is a missing tensor. -/
example : (match (loadStateDict true demo ((["convs", "25", "w"], t1 0) :: old)).2 with | .ok _ => false | .error _ => true) = true := by decide +kernel
example : (match (loadStateDict true demo (old.drop 1)).2 with | .ok _ => false | .error _ => true) = true := by decide +kernel

/-- Pretrained weights: a wrong shape is left out and reported, an unknown key is reported. -/
example : (match (loadPretrained demo [(["bias"], t2 1 1), (["convs", "0", "w"], t2 5 6), (["head"], t1 1), (["convs", "9", "w"], t1 0)]).2 with
    | .ok r => decide (r = ([["bias"], ["convs", "1", "w"], ["vq", "inited"]], [["head"]]))
    | .error _ => false) = true := by decide +kernel

theorem not_decimal_w (i : Nat) : ¬ Decimal "w".toList i := by
  rintro ⟨_, h, _⟩
  exact absurd (h 'w' (by decide)) (by decide)

/-- The hypotheses of the theorems hold of it. -/
theorem demo_wf : demo.WF := by
  refine ⟨fun _ => ⟨_, List.mem_cons_self, ?_⟩, by decide, ?_, ?_, trivial⟩
  · intro s hs i hd
    have : s = "0" ∨ s = "1" := by simpa [Mod.inner, Kids.toList] using hs
    rcases this with rfl | rfl
    · have := (parseIndex_iff _ _).mpr hd
      have h0 : parseIndex "0".toList = some 0 := by decide
      rw [h0] at this
      simp only [Option.some.injEq] at this
      rw [← this]; decide
    · have := (parseIndex_iff _ _).mpr hd
      have h0 : parseIndex "1".toList = some 1 := by decide
      rw [h0] at this
      simp only [Option.some.injEq] at this
      rw [← this]; decide
  · exact ⟨fun h => by simp at h, by decide, ⟨fun h => by simp at h, by decide, trivial⟩, ⟨fun h => by simp at h, by decide, trivial⟩, trivial⟩
  · exact ⟨fun h => by simp at h, by decide, trivial⟩

example : (demo.dict.map Prod.fst).Nodup ∧ (old.map Prod.fst).Nodup := by decide +kernel

/-- `C110_legacy` applied: with and without the old convolutions. -/
example : ∃ d', Accepted (loadStateDict true demo d') ∧ d'.length = 4 := by
  refine ⟨[(["bias"], t1 8), (["convs", "0", "w"], t2 5 6), (["convs", "1", "w"], t2 7 8), (["vq", "inited"], t1 1)], ?_, rfl⟩
  refine (C110_legacy demo demo_wf _ old (by decide +kernel) (by decide +kernel) ?_).1.mpr ⟨([], []), by decide +kernel⟩
  have hd : ∀ s i, parseIndex s = some i → Decimal s i := fun s i h => (parseIndex_iff s i).mp h
  have h1 : Ignored demo ["convs", "24", "w"] := .here _ _ _ _ 24 _ List.mem_cons_self (hd _ _ (by decide)) (by decide) (by decide)
  have h2 : Ignored demo ["convs", "2", "b"] := .here _ _ _ _ 2 _ List.mem_cons_self (hd _ _ (by decide)) (by decide) (by decide)
  intro k t hk
  have n1 : k ≠ ["convs", "24", "w"] := fun h => hk (h ▸ h1)
  have n2 : k ≠ ["convs", "2", "b"] := fun h => hk (h ▸ h2)
  unfold Has old
  simp only [List.mem_cons, Prod.mk.injEq, n1, n2, false_and, false_or]

end Verif.Weights
