import Verif.Sidecar.Props108b
import Verif.Sidecar.Examples101

/-! # C108 on a concrete run -/
namespace Verif.Sidecar
open Verif.Ckpt (Name toInt)

theorem named0 : Named p0 := ⟨by decide, by decide⟩

theorem float0 : FloatParams p0 := by
  intro m path i h
  rcases at_p0 m path i h with rfl | rfl
  · decide
  · decide

/-- The first process writes its sidecar; the manifest is accepted for its iteration and rank, and for no others. -/
example : ∃ (x : Ext ℤ) (m : Manifest) (dir' : Dir),
    writeSidecar x p0 dir0 1200 tok 77 tok [[1]] .none = (.ok m, dir') ∧ retained x dir' m 1200 1 = .ok m.basename ∧
    (∀ n, retained x dir' m 1201 1 ≠ .ok n) ∧ (∀ n, retained x dir' m 1200 0 ≠ .ok n) ∧ (∀ n, retained x (fun _ => none) m 1200 1 ≠ .ok n) ∧
    ∃ xs, Consistent m xs ∧ m.modules ≠ [] := by
  have hcap : (match capture (fun _ => true) p0 with | .ok c => decide (c.acc.raw = 24 ∧ c.acc.maxRaw = 48 ∧ c.acc.stats ≠ []) | .error _ => false) = true := by
    decide +kernel
  obtain ⟨r, hr⟩ : ∃ r, r = capture (fun _ : ℤ => true) p0 := ⟨_, rfl⟩
  rw [← hr] at hcap
  cases r with
  | error e => simp at hcap
  | ok c =>
    simp only [decide_eq_true_eq] at hcap
    obtain ⟨enc, dec, hcd, hz⟩ := codec (payloadOf c p0 1200 tok)
    let x : Ext ℤ := ⟨enc, dec, fun _ => tok ++ tok, fun _ => true⟩
    have hname : runtimeBasename 1200 tok p0.rank = .ok (sidecarName 1200 tok 1) := by
      unfold runtimeBasename
      rw [if_neg (by decide +kernel)]
      rfl
    have hsucc := C100_success dir0 (tempName 1200 tok p0.rank 77 tok) (sidecarName 1200 tok 1) [[1]] (enc (payloadOf c p0 1200 tok)) .none
    have herr := hsucc.1.mpr ⟨by decide +kernel, by decide +kernel, by decide +kernel, rfl⟩
    have hfile := (hsucc.2 herr).1
    obtain ⟨m, dir', hw, hmod⟩ : ∃ m dir', writeSidecar x p0 dir0 1200 tok 77 tok [[1]] .none = (.ok m, dir') ∧ m.modules ≠ [] := by
      unfold writeSidecar
      rw [hname]
      simp only []
      rw [show capture x.finite p0 = .ok c from hr.symm]
      simp only []
      rw [show (publish dir0 (tempName 1200 tok p0.rank 77 tok) (sidecarName 1200 tok 1) [[1]] (x.encode (payloadOf c p0 1200 tok)) .none).error = none from herr]
      simp only []
      rw [show (publish dir0 (tempName 1200 tok p0.rank 77 tok) (sidecarName 1200 tok 1) [[1]] (x.encode (payloadOf c p0 1200 tok)) .none).dir
        (sidecarName 1200 tok 1) = some (enc (payloadOf c p0 1200 tok)) from hfile]
      simp only []
      rw [hz, if_neg (by simp)]
      exact ⟨_, _, rfl, hcap.2.2⟩
    have hacc := C108_own x (fun _ => (show hexOk 64 (tok ++ tok) = true by decide +kernel)) p0 named0 float0 dir0 dir' dir' 1200 tok 77 tok [[1]] .none m
      hw rfl
    refine ⟨x, m, dir', hw, hacc, ?_, ?_, ?_, ?_⟩
    · intro n hn
      exact absurd (C108_identity x dir' dir' m _ _ _ _ _ n hacc hn).1 (by decide)
    · intro n hn
      exact absurd (C108_identity x dir' dir' m _ _ _ _ _ n hacc hn).2.1 (by decide)
    · intro n hn
      obtain ⟨b, b', _, h, _⟩ := (C108_file x dir' (fun _ => none) m _ _ _ hacc).mp ((C108_identity x dir' _ m _ _ _ _ _ n hacc hn).2.2 ▸ hn)
      simp at h
    · obtain ⟨_, _, ⟨xs, hc⟩, _⟩ := (C108_accept_iff x dir' m 1200 1 m.basename).mp hacc
      exact ⟨xs, hc, hmod⟩

/-- `C108_restorable` applies: the second process is named and has floating-point parameters. -/
theorem named_q0 : Named q0 := ⟨by decide, by decide⟩

end Verif.Sidecar
