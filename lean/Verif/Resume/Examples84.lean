import Verif.Resume.Load84

/-! Concrete cases for C84: a run of two processes with a map-style sampler. -/

namespace Verif.Resume

open Verif.Canon

/-- library parameters: the fingerprint is the hexadecimal text of the bytes, which has no collisions -/
noncomputable def exOps : PyOps where
  lib := ⟨fun _ => 0, fun _ => [], fun _ => none, fun _ => none⟩
  sha := fun b => toHex b.toList
  eqInt := fun _ _ => false
  eqVal := fun v w => match v, w with | .str a, .str b => a == b | _, _ => false
  dictOf := fun _ => none
  intOf := fun _ => none
  truthyOther := fun _ => true

def exRng : Rng :=
  { python := .seq true [.int 3, .seq true [.int 17, .int 4294967295, .int 624], .null]
    bitGenerator := "MT19937".toList
    words := [0x12345678#32, 0xFFFFFFFF#32, 1#32]
    position := 624
    hasGauss := 0
    cachedGaussian := 0x0#64
    torchCpu := [1, 2, 255]
    torchCuda := none }

/-- what process `r` knows: its sampler has consumed `cursor` rows -/
def exEnv (r : Nat) : RankEnv :=
  { reason := none
    signature := .dict [(.str "files".toList, .seq false [.str "a.npz".toList])]
    rng := captureRng exRng false
    cursor := .sampler (.dict [(.str "rank".toList, .int r), (.str "epoch".toList, .int 2),
      (.str "cursor".toList, .int 40)])
    vqRuntime := some (.dict [(.str "version".toList, .int 1), (.str "schema".toList, .seq false []),
      (.str "autocast_mode".toList, .str "no".toList), (.str "rank".toList, .int r)])
    tuning := none }

/-- the capture succeeds when both encodings do -/
theorem localState_exists (P : PyOps) (e : RankEnv) (r : Nat) (pr : Dict) (j : J)
    (h1 : projection P (bareState e r) = .ok pr) (h2 : canon (.dict pr) = .ok j)
    (h3 : ∀ g, ∃ j', canon (.dict (put (bareState e r) kGlobal (.str g))) = .ok j') :
    ∃ s, localState P e r = .ok s ∧ find s kGlobal = some (.str (P.sha (dumps P.lib j).utf8Encode)) := by
  obtain ⟨j', hj'⟩ := h3 (P.sha (dumps P.lib j).utf8Encode)
  refine ⟨_, (localState_ok P e r _).mpr ⟨pr, P.sha (dumps P.lib j).utf8Encode,
    P.sha (dumps P.lib j').utf8Encode, h1, ?_, ?_, rfl⟩, ?_⟩
  · rw [digest_ok]; exact ⟨_, by rw [encode, h2]; rfl, rfl⟩
  · rw [digest_ok]; exact ⟨_, by rw [encode, hj']; rfl, rfl⟩
  · rw [find_put_ne _ _ (by decide), find_put_self]

/-- the shared part of both processes -/
def exShared : Dict := [(.str kSupported, .bool true), (.str kCursor, vMap),
  (.str kSig, .dict [(.str "files".toList, .seq false [.str "a.npz".toList])]),
  (.str kVq, .dict [(.str kVersion, .int 1), (.str kSchema, .seq false []),
    (.str kAutocast, .str "no".toList)]),
  (.str kSampler, .dict [(.str "epoch".toList, .int 2), (.str "cursor".toList, .int 40)])]

theorem exProj (r : Nat) : projection exOps (bareState (exEnv r) r) = .ok exShared := rfl

theorem exShared_ok : ∃ j, canon (.dict exShared) = .ok j := by
  have : (canon (.dict exShared)).isOk = true := by decide +kernel
  cases h : canon (.dict exShared) with
  | ok j => exact ⟨j, rfl⟩
  | error e => rw [h] at this; cases this

theorem exBare_ok (r : Nat) (hr : r < 2) (g : Str) :
    ∃ j, canon (.dict (put (bareState (exEnv r) r) kGlobal (.str g))) = .ok j := by
  have he : Encodable (.dict (put (bareState (exEnv r) r) kGlobal (.str g))) := by
    have hb : ∃ b, encode exOps.lib (.dict (put (bareState (exEnv r) r) kGlobal .null)) = .ok b := by
      have : (canon (.dict (put (bareState (exEnv r) r) kGlobal .null))).isOk = true := by
        have h2 : r = 0 ∨ r = 1 := by omega
        rcases h2 with rfl | rfl <;> decide +kernel
      cases h : canon (.dict (put (bareState (exEnv r) r) kGlobal .null)) with
      | ok j => exact ⟨_, by rw [encode, h]; rfl⟩
      | error e => rw [h] at this; cases this
    have := (C07_accepts _ _).mp hb
    have e1 : ∀ v, put (bareState (exEnv r) r) kGlobal v = bareState (exEnv r) r ++ [(.str kGlobal, v)] :=
      fun _ => rfl
    rw [e1] at this ⊢
    cases this with
    | dict _ hk hv =>
    refine .dict _ ?_ ?_
    · intro kv hkv
      rw [List.mem_append] at hkv
      rcases hkv with hkv | hkv
      · exact hk kv (List.mem_append_left _ hkv)
      · simp only [List.mem_singleton] at hkv
        subst hkv
        exact hk (.str kGlobal, .null) (List.mem_append_right _ (List.mem_singleton.mpr rfl))
    · intro kv hkv
      rw [List.mem_append] at hkv
      rcases hkv with hkv | hkv
      · exact hv kv (List.mem_append_left _ hkv)
      · simp only [List.mem_singleton] at hkv
        subst hkv
        exact .str g
  obtain ⟨b, hb⟩ := (C07_accepts exOps.lib _).mpr he
  obtain ⟨j, hj, -⟩ := except_map_ok _ _ _ hb
  exact ⟨j, hj⟩

def exTrainer : Trainer :=
  { optimizers := [(.str "main".toList, .dict [])], schedulers := [], optimizerConfig := .str ['o'],
    schedulerConfig := .str ['s'], scaler := none, iteration := 1000, epoch := 2, rows := 64000 }

/-- the run of two processes can be saved -/
theorem exSaves : ∃ f, saveState exOps exTrainer [exEnv 0, exEnv 1] = .ok f := by
  obtain ⟨j, hj⟩ := exShared_ok
  obtain ⟨s0, h0, g0⟩ := localState_exists exOps (exEnv 0) 0 exShared j (exProj 0) hj (exBare_ok 0 (by omega))
  obtain ⟨s1, h1, g1⟩ := localState_exists exOps (exEnv 1) 1 exShared j (exProj 1) hj (exBare_ok 1 (by omega))
  refine ⟨_, (C84_save_iff exOps exTrainer _ (by simp) _).mpr ⟨[s0, s1], rfl, ?_, ?_, rfl⟩⟩
  · intro r e he
    match r, he with
    | 0, he => cases he; exact ⟨s0, rfl, h0⟩
    | 1, he => cases he; exact ⟨s1, rfl, h1⟩
    | r + 2, he => cases he
  · intro s hs s' hs'
    have : ∀ x ∈ [s0, s1], find x "global_digest".toList =
        some (.str (exOps.sha (dumps exOps.lib j).utf8Encode)) := by
      intro x hx
      simp only [List.mem_cons, List.not_mem_nil, or_false] at hx
      rcases hx with rfl | rfl
      · exact g0
      · exact g1
    rw [this s hs, this s' hs']

def exLoader (r : Nat) : Loader :=
  { world := 2, index := r, optimizerConfig := .str ['o'], schedulerConfig := .str ['s'],
    optimizerNames := ["main".toList], signatureMatches := fun v _ => match v with | .dict _ => true | _ => false,
    modelsLoad := fun i => i == 1000, v1Compatible := fun _ => false, optimizerLoads := fun _ _ => true }

/-- and process 1 resumes with its own sampler and generators -/
example : ∃ f out, saveState exOps exTrainer [exEnv 0, exEnv 1] = .ok f ∧
    loadState exOps (exLoader 1) 1000 f = .ok out ∧ out.rows = 64000 ∧
    find out.pending "rng".toList = some (captureRng exRng false) := by
  obtain ⟨f, hf⟩ := exSaves
  obtain ⟨s, -, hload, hrng, -⟩ := C84_roundtrip exOps exTrainer _ f hf 1 (exEnv 1) rfl rfl _ rfl
    (exLoader 1) rfl rfl rfl rfl rfl rfl rfl (by intro x _; rfl)
  exact ⟨f, _, hf, hload, rfl, hrng⟩

/-- the parameters are sane, so the agreement theorem applies -/
example : exOps.Sane := by intro v d h; cases h

/-- the oldest format: any two states are accepted in any order -/
example : validate exOps 2 [
    .dict [(.str kSupported, .bool true), (.str kSig, .null), (.str kSampler, .int 1), (.str kRng, .null)],
    .dict [(.str kSupported, .bool true), (.str kSig, .null), (.str kSampler, .int 0), (.str kRng, .null)]]
    = .ok ([
    .dict [(.str kSupported, .bool true), (.str kSig, .null), (.str kSampler, .int 1), (.str kRng, .null)],
    .dict [(.str kSupported, .bool true), (.str kSig, .null), (.str kSampler, .int 0), (.str kRng, .null)]],
    true) := rfl

/-- the words of a generator survive the byte form -/
example : bytesToWords (wordsToBytes exRng.words) = some exRng.words := by decide +kernel

end Verif.Resume
