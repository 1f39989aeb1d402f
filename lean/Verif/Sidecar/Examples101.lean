import Verif.Sidecar.Props101
import Verif.Sidecar.Examples100
import Mathlib.Data.Countable.Basic
import Mathlib.Logic.Equiv.Basic
import Mathlib.Logic.Encodable.Basic
import Mathlib.Logic.Equiv.List

/-! # C101 on a concrete run -/
namespace Verif.Sidecar
open Verif.Ckpt (Name toInt)

/-! ### A codec exists -/

instance : Countable Char := (show Function.Injective Char.toNat from fun a b h => by
  have : a.toNat = b.toNat := h
  exact Char.ext (UInt32.toNat_inj.mp this)).countable
instance : Countable String := (show Function.Injective String.toList from fun a b h => String.toList_inj.mp h).countable
instance : Countable Desc := (show Function.Injective (fun d : Desc => (d.codebookSize, d.dimFeature, d.multiplier, d.kmeansIter, d.cosine, d.simvq,
  d.toFp32, d.paramDtype, d.target)) from by rintro ⟨⟩ ⟨⟩ h; simp_all).countable
instance : Countable (Tensor ℤ) := (show Function.Injective (fun d : Tensor ℤ => (d.dtype, d.shape, d.data)) from by rintro ⟨⟩ ⟨⟩ h; simp_all).countable
instance : Countable (State ℤ) := (show Function.Injective (fun d : State ℤ => (d.version, d.desc, d.dtype, d.inited, d.count, d.samples)) from by
  rintro ⟨⟩ ⟨⟩ h; simp_all).countable
instance : Countable (Saved ℤ) := (show Function.Injective (fun d : Saved ℤ => (d.aliases, d.state)) from by rintro ⟨⟩ ⟨⟩ h; simp_all).countable
instance : Countable ModSchema := (show Function.Injective (fun d : ModSchema => (d.path, d.aliases, d.desc, d.inited)) from by
  rintro ⟨⟩ ⟨⟩ h; simp_all).countable
instance : Countable (Payload ℤ) := (show Function.Injective (fun d : Payload ℤ => (d.version, d.models, d.schema, d.autocast, d.iteration, d.world,
  d.rank, d.generation)) from by rintro ⟨⟩ ⟨⟩ h; simp_all).countable

/-- A lossless encoder that gives a chosen payload a short encoding. -/
theorem codec (pl0 : Payload ℤ) : ∃ (enc : Payload ℤ → Bytes) (dec : Bytes → Option (Payload ℤ)), (∀ pl, dec (enc pl) = some pl) ∧ enc pl0 = [] := by
  obtain ⟨g, hg⟩ := Countable.exists_injective_nat (Payload ℤ)
  have hf : Function.Injective (fun pl => List.replicate (Equiv.swap (g pl0) 0 (g pl)) (0 : UInt8)) := by
    intro a b h
    have := congrArg List.length h
    simp only [List.length_replicate] at this
    exact hg ((Equiv.swap (g pl0) 0).injective this)
  refine ⟨_, Function.partialInv (fun pl => List.replicate (Equiv.swap (g pl0) 0 (g pl)) (0 : UInt8)), fun pl => Function.partialInv_left hf pl, ?_⟩
  simp

/-! ### A run with a shared quantizer -/

def dsc : Desc := ⟨4, 2, 1, 3, false, false, true, "torch.bfloat16", 4⟩
def dsc2 : Desc := { dsc with toFp32 := false }

/-- Three samples in two batches. -/
def vA : Vq ℤ := ⟨dsc, false, [⟨"torch.float32", [1, 2], [7, 8]⟩, ⟨"torch.float32", [2, 2], [1, 2, 3, 4]⟩], 3, none, true⟩
/-- An initialised one. -/
def vB : Vq ℤ := ⟨dsc2, true, [], 0, some true, false⟩
def blank (d : Desc) (i : Bool) : Vq ℤ := ⟨d, i, [], 0, none, false⟩

/-- Two models; quantizer 1 is reachable by three paths, quantizer 2 by one, module 3 is not a quantizer. -/
def p0 : Proc ℤ :=
  { models := [("model", [("", 3), ("vq", 1), ("body.vq", 1), ("head", 2)]), ("ema", [("vq", 1)])]
    isVq := fun i => decide (i % 10 = 1 ∨ i % 10 = 2)
    store := fun i => if i = 1 then vA else vB
    precision := some "bf16"
    rank := 1, world := 2, iteration := 1200 }

/-- The process that resumes. -/
def q0 : Proc ℤ :=
  { models := [("model", [("", 13), ("vq", 11), ("body.vq", 11), ("head", 12)]), ("ema", [("vq", 11)])]
    isVq := fun i => decide (i % 10 = 1 ∨ i % 10 = 2)
    store := fun i => if i = 11 then blank dsc false else blank dsc2 true
    precision := some "bf16"
    rank := 1, world := 2, iteration := 1200 }

theorem at_p0 (m path : String) (i : Nat) (h : At p0 m path i) : i = 1 ∨ i = 2 := by
  obtain ⟨l, hl, hs, hv⟩ := h
  simp only [p0, List.mem_cons, Prod.mk.injEq, List.not_mem_nil, or_false] at hl
  rcases hl with ⟨_, rfl⟩ | ⟨_, rfl⟩
  · simp only [List.mem_cons, Prod.mk.injEq, List.not_mem_nil, or_false] at hs
    rcases hs with h | h | h | h <;> rw [h.2] at hv ⊢
    · exact absurd hv (by decide)
    · exact .inl rfl
    · exact .inl rfl
    · exact .inr rfl
  · simp only [List.mem_cons, Prod.mk.injEq, List.not_mem_nil, or_false] at hs
    exact .inl hs.2

theorem same0 : SameRun (· + 10) p0 q0 1200 where
  inj := fun a b h => by simpa using h
  models := by rfl
  isVq := fun i => by simp [p0, q0]
  desc := fun m path i h => by rcases at_p0 m path i h with rfl | rfl <;> rfl
  inited := fun m path i h => by rcases at_p0 m path i h with rfl | rfl <;> rfl
  precision := rfl
  rank := rfl
  world := rfl
  iteration := rfl

theorem one0 : OneModulePerPath p0 := by
  have key : ∀ s ∈ sites p0, ∀ s' ∈ sites p0, s.1 = s'.1 → s.2.1 = s'.2.1 → s.2.2 = s'.2.2 := by decide +kernel
  intro m path i j hi hj
  exact key _ ((sites_iff p0 m path i).mpr hi) _ ((sites_iff p0 m path j).mpr hj) rfl rfl

theorem tens0 : TensorsOk p0 := by
  intro m path i h
  rcases at_p0 m path i h with rfl | rfl
  · decide +kernel
  · decide +kernel

/-- The discovered modules. -/
example : (match discover p0 with | .ok d => d | .error _ => []) =
    [⟨"model", "vq", [("model", "vq"), ("model", "body.vq"), ("ema", "vq")], 1⟩, ⟨"model", "head", [("model", "head")], 2⟩] := by decide +kernel

/-- The hypothesis of `C101_capture_succeeds` holds of the first process. -/
example : ∃ c, capture (fun _ : ℤ => true) p0 = .ok c := by
  refine C101_capture_succeeds _ p0 (by decide +kernel) (by decide +kernel) ?_
  intro m path i h
  rcases at_p0 m path i h with rfl | rfl
  · refine ⟨by decide +kernel, .inr ⟨by decide +kernel, by decide +kernel, ?_⟩⟩
    intro b hb
    have hb' : b = ⟨"torch.float32", [1, 2], [7, 8]⟩ ∨ b = ⟨"torch.float32", [2, 2], [1, 2, 3, 4]⟩ := by
      simpa [p0, vA] using hb
    rcases hb' with rfl | rfl
    · exact ⟨⟨1, by omega, rfl⟩, by decide +kernel, fun _ _ => rfl⟩
    · exact ⟨⟨2, by omega, rfl⟩, by decide +kernel, fun _ _ => rfl⟩
  · exact ⟨by decide +kernel, .inl rfl⟩

/-- The whole cycle: written with some lossless encoder, then restored into the second process. -/
example : ∃ (x : Ext ℤ) (m : Manifest) (dir' : Dir) (store' : Nat → Vq ℤ),
    writeSidecar x p0 dir0 1200 tok 77 tok [[1]] .none = (.ok m, dir') ∧ restoreSidecar x q0 dir' m = .ok store' ∧
    samples (store' 11) = [7, 8, 1, 2, 3, 4] ∧ (store' 11).count = 3 := by
  have hcap : (match capture (fun _ => true) p0 with | .ok c => decide (c.acc.raw = 24 ∧ c.acc.maxRaw = 48) | .error _ => false) = true := by
    decide +kernel
  obtain ⟨r, hr⟩ : ∃ r, r = capture (fun _ : ℤ => true) p0 := ⟨_, rfl⟩
  rw [← hr] at hcap
  cases r with
  | error e => simp at hcap
  | ok c =>
    simp only [decide_eq_true_eq] at hcap
    obtain ⟨enc, dec, hcd, hz⟩ := codec (payloadOf c p0 1200 tok)
    let x : Ext ℤ := ⟨enc, dec, fun _ => tok ++ tok, fun _ => true⟩
    have hname : runtimeBasename 1200 tok p0.rank = .ok (sidecarName 1200 tok 1) := by
      unfold runtimeBasename
      rw [if_neg (by decide +kernel)]
      rfl
    have hsucc := C100_success dir0 (tempName 1200 tok p0.rank 77 tok) (sidecarName 1200 tok 1) [[1]] (enc (payloadOf c p0 1200 tok)) .none
    have herr := hsucc.1.mpr ⟨by decide +kernel, by decide +kernel, by decide +kernel, rfl⟩
    have hfile := (hsucc.2 herr).1
    obtain ⟨m, dir', hw⟩ : ∃ m dir', writeSidecar x p0 dir0 1200 tok 77 tok [[1]] .none = (.ok m, dir') := by
      unfold writeSidecar
      rw [hname]
      simp only []
      rw [show capture x.finite p0 = .ok c from hr.symm]
      simp only []
      rw [show (publish dir0 (tempName 1200 tok p0.rank 77 tok) (sidecarName 1200 tok 1) [[1]] (x.encode (payloadOf c p0 1200 tok)) .none).error = none from herr]
      simp only []
      rw [show (publish dir0 (tempName 1200 tok p0.rank 77 tok) (sidecarName 1200 tok 1) [[1]] (x.encode (payloadOf c p0 1200 tok)) .none).dir
        (sidecarName 1200 tok 1) = some (enc (payloadOf c p0 1200 tok)) from hfile]
      simp only []
      rw [hz, if_neg (by simp)]
      exact ⟨_, _, rfl⟩
    obtain ⟨store', h1, h2, _⟩ := C101_roundtrip x hcd (fun _ => (show hexOk 64 (tok ++ tok) = true by decide +kernel)) (· + 10) p0 q0 one0 tens0 dir0 dir' dir' 1200 tok 77 tok [[1]] .none m
      hw same0 rfl
    have hat : At p0 "ema" "vq" 1 := ⟨[("vq", 1)], List.mem_cons_of_mem _ (List.mem_cons_self ..), List.mem_cons_self .., by decide⟩
    refine ⟨x, m, dir', store', hw, h1, ?_, ?_⟩
    · have := ((h2 "ema" "vq" 1 hat).2.2.2 rfl).2.1
      exact this.trans (by decide +kernel)
    · exact ((h2 "ema" "vq" 1 hat).2.2.2 rfl).1

end Verif.Sidecar
