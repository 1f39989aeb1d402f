import Verif.Collide.Props107c
import Verif.Resume.Examples84

/-! Concrete cases for C107: the run of two processes of `Examples84`, saved twice. -/

namespace Verif.Collide

open Verif.Canon Verif.Resume

/-- Python's `==` on scalars of the same kind; bit patterns of NaN differ from themselves. -/
def exEq : Val → Val → Bool
  | .null, .null => true
  | .bool a, .bool b => a == b
  | .int a, .int b => a == b
  | .str a, .str b => a == b
  | .bytes a, .bytes b => a == b
  | .float a, .float b => a == b && !(a.extractLsb' 52 11 == 0x7FF#11 && a.extractLsb' 0 52 != 0#52)
  | _, _ => false

/-- float32 NaN, the only float bytes the examples use -/
def exNan : List UInt8 := [0, 0, 0xC0, 0x7F]

noncomputable def exL : Lib where
  py := { exOps with eqVal := exEq }
  torchEqual := fun t u => t.data == u.data && t.data != exNan

def exWeights : Val := .dict [(.str "w".toList,
  .tensor ⟨false, true, some .float32, [1], [0, 0, 0x80, 0x3F]⟩)]

/-- process 1, about to save again -/
def exProcess : Process :=
  { world := 2, index := 1, trainer := exTrainer, env := exEnv 1
    models := [("main".toList, exWeights)]
    modelFile := fun n => if n = "main".toList then some ⟨exWeights, some 1000⟩ else none
    manifestValid := fun i _ v => i == 1000 && isDict v
    schema := .str "s".toList
    sidecarMatches := fun i _ => i == 1000
    v1Compatible := fun _ => true }

/-- a calm value, decided -/
theorem calm_of (L : Lib) (v : Val) (h : valuesEqual L v v = true) : Calm L v := (C107_values_self L v).mp h

/-- same as `exEnv`, the manifest names the modules of `exProcess` -/
def exEnvS (r : Nat) : RankEnv :=
  { exEnv r with vqRuntime := some (.dict [(.str "version".toList, .int 1),
      (.str "schema".toList, .str "s".toList), (.str "autocast_mode".toList, .str "no".toList)]) }

theorem exCalm : CalmEnv exL (exEnvS 1) where
  text s := by simp [exL, exEq]
  number s := by simp [exL, exEq]
  truth s := by simp [exL, exEq]
  signature := calm_of _ _ (by decide +kernel)
  rng := calm_of _ _ (by decide +kernel)
  tuning v h := by cases h
  stream st a b c h := by cases h
  sampler st h := by cases h; exact calm_of _ _ (by decide +kernel)

def exShared2 : Dict := [(.str kSupported, .bool true), (.str kCursor, vMap),
  (.str kSig, .dict [(.str "files".toList, .seq false [.str "a.npz".toList])]),
  (.str kVq, .dict [(.str kVersion, .int 1), (.str kSchema, .str "s".toList),
    (.str kAutocast, .str "no".toList)]),
  (.str kSampler, .dict [(.str "epoch".toList, .int 2), (.str "cursor".toList, .int 40)])]

theorem exShared2_ok : ∃ j, canon (.dict exShared2) = .ok j := by
  have : (canon (.dict exShared2)).isOk = true := by decide +kernel
  cases h : canon (.dict exShared2) with
  | ok j => exact ⟨j, rfl⟩
  | error e => rw [h] at this; cases this

theorem exBareS_ok (r : Nat) (hr : r < 2) (g : Str) :
    ∃ j, canon (.dict (put (bareState (exEnvS r) r) kGlobal (.str g))) = .ok j := by
  have hb : Encodable (.dict (put (bareState (exEnvS r) r) kGlobal (.str []))) := by
    refine (C07_accepts exOps.lib _).mp ?_
    have : (canon (.dict (put (bareState (exEnvS r) r) kGlobal (.str [])))).isOk = true := by
      have h2 : r = 0 ∨ r = 1 := by omega
      rcases h2 with rfl | rfl <;> decide +kernel
    cases h : canon (.dict (put (bareState (exEnvS r) r) kGlobal (.str []))) with
    | ok j => exact ⟨_, by rw [encode, h]; rfl⟩
    | error e => rw [h] at this; cases this
  have he : Encodable (.dict (put (bareState (exEnvS r) r) kGlobal (.str g))) := by
    refine encodable_sub (b := put (bareState (exEnvS r) r) kGlobal (.str [])) ?_ hb
    have e1 : ∀ v, put (bareState (exEnvS r) r) kGlobal v = bareState (exEnvS r) r ++ [(.str kGlobal, v)] :=
      fun _ => rfl
    intro x hx
    rw [e1] at hx ⊢
    rw [List.mem_append] at hx
    rcases hx with hx | hx
    · exact .inl (List.mem_append_left _ hx)
    · simp only [List.mem_singleton] at hx
      exact .inr ⟨kGlobal, g, hx, by decide, by decide, by decide⟩
  obtain ⟨b, hb⟩ := (C07_accepts exOps.lib _).mpr he
  obtain ⟨j, hj, -⟩ := except_map_ok _ _ _ hb
  exact ⟨j, hj⟩

theorem exSaves3 : ∃ f, saveState exL.py exTrainer [exEnvS 0, exEnvS 1] = .ok f := by
  obtain ⟨j, hj⟩ := exShared2_ok
  obtain ⟨s0, h0, g0⟩ := localState_exists exL.py (exEnvS 0) 0 exShared2 j rfl hj (exBareS_ok 0 (by omega))
  obtain ⟨s1, h1, g1⟩ := localState_exists exL.py (exEnvS 1) 1 exShared2 j rfl hj (exBareS_ok 1 (by omega))
  refine ⟨_, (C84_save_iff exL.py exTrainer _ (by simp) _).mpr ⟨[s0, s1], rfl, ?_, ?_, rfl⟩⟩
  · intro r e he
    match r, he with
    | 0, he => cases he; exact ⟨s0, rfl, h0⟩
    | 1, he => cases he; exact ⟨s1, rfl, h1⟩
    | r + 2, he => cases he
  · intro s hs s' hs'
    have : ∀ x ∈ [s0, s1], find x "global_digest".toList =
        some (.str (exL.py.sha (dumps exL.py.lib j).utf8Encode)) := by
      intro x hx
      simp only [List.mem_cons, List.not_mem_nil, or_false] at hx
      rcases hx with rfl | rfl
      · exact g0
      · exact g1
    rw [this s hs, this s' hs']

/-- saving the unchanged run again keeps the files -/
example : ∃ f, saveState exL.py exTrainer [exEnvS 0, exEnvS 1] = .ok f ∧
    committedMatches exL exProcess f = .ok () := by
  obtain ⟨f, hf⟩ := exSaves3
  refine ⟨f, hf, C107_resave exL exTrainer [exEnvS 0, exEnvS 1] f hf exProcess (exEnvS 1) rfl rfl rfl rfl
    exCalm rfl rfl (calm_of _ _ (by decide +kernel)) (calm_of _ _ (by decide +kernel))
    (calm_of _ _ (by decide +kernel)) ?_ ?_ ?_⟩
  · intro name s h
    simp only [exProcess, List.mem_singleton, Prod.mk.injEq] at h
    obtain ⟨rfl, rfl⟩ := h
    exact ⟨calm_of _ _ (by decide +kernel), rfl⟩
  · intro k e he
    match k, he with
    | 0, he => cases he; exact ⟨_, rfl, rfl, rfl⟩
    | 1, he => cases he; exact ⟨_, rfl, rfl, rfl⟩
    | k + 2, he => cases he
  · intro m _; rfl

/-- a process whose sampler has moved on does not accept it -/
example : ∃ f, saveState exL.py exTrainer [exEnvS 0, exEnvS 1] = .ok f ∧
    committedMatches exL { exProcess with env := { exEnvS 1 with
      cursor := .sampler (.dict [(.str "rank".toList, .int 1), (.str "epoch".toList, .int 2),
        (.str "cursor".toList, .int 41)]) } } f ≠ .ok () := by
  obtain ⟨f, hf⟩ := exSaves3
  refine ⟨f, hf, fun h => ?_⟩
  obtain ⟨-, -, -, -, -, -, -, -, -, -, e, he, -, h⟩ := C107_changed exL _ _ _ (by simp) hf _ h
  cases he
  have h := (h rfl rfl).2.2.1
  have h : SameValue exL (.dict [(.str "rank".toList, .int 1), (.str "epoch".toList, .int 2),
      (.str "cursor".toList, .int 40)]) (.dict [(.str "rank".toList, .int 1), (.str "epoch".toList, .int 2),
      (.str "cursor".toList, .int 41)]) := h
  rw [← C107_values_iff] at h
  revert h
  decide +kernel

/-- a NaN in the optimizer state is not calm -/
example : ¬ Calm exL (.dict [(.str "exp_avg".toList, .tensor ⟨false, true, some .float32, [1], exNan⟩)]) := by
  rw [← C107_values_self]
  decide +kernel

/-- tuples and lists, key order, shapes and types of tensors are told apart -/
example : valuesEqual exL (.seq false [.int 1]) (.seq true [.int 1]) = false ∧
    valuesEqual exL (.dict [(.str ['a'], .int 1), (.str ['b'], .int 2)])
      (.dict [(.str ['b'], .int 2), (.str ['a'], .int 1)]) = false ∧
    valuesEqual exL (.tensor ⟨false, true, some .float32, [1], [0, 0, 0, 0]⟩)
      (.tensor ⟨false, true, some .int32, [1], [0, 0, 0, 0]⟩) = false ∧
    valuesEqual exL (.seq true [.int 1, .null]) (.seq true [.int 1, .null]) = true := by decide +kernel

/-- a state of the oldest format exists -/
example : OldFormat (.dict [(.str "supported".toList, .bool true), (.str "data_stream_signature".toList, .null),
    (.str "sampler".toList, .null), (.str "rng".toList, .null)]) :=
  ⟨_, rfl, fun k => by simp, rfl⟩

example : decision false (some 500) 1000 true [.ok (), .ok ()] = .keep ∧
    decision false (some 500) 1000 true [.ok (), .error "differs"] = .collision ∧
    decision false (some 300) 1000 true [.ok ()] = .write false ∧
    decision true (some 300) 1000 false [] = .write true := by decide

end Verif.Collide
