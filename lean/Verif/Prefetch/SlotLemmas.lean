import Verif.Prefetch.CudaModel
import Mathlib.Tactic.Linarith

namespace Verif.Prefetch.Cuda
variable {ν : Type}

/-- Remaining segments from `i` on. -/
def copyTail (names : List ν) (n i : Nat) : List (SOp ν) := (List.range' i (n - i)).flatMap (copyOps names)
def compTail (uses : Nat → List ν) (n i : Nat) : List (SOp ν) := (List.range' i (n - i)).flatMap (stepOps uses)

inductive CPos (ν : Type)
  | before (i : Nat)
  | inside (i : Nat) (v w : List ν)

inductive KPos (ν : Type)
  | old (o : List ν)
  | before (j : Nat)
  | inside (j : Nat) (u : List ν)

def CPos.ops (names : List ν) (n : Nat) : CPos ν → List (SOp ν)
  | .before i => copyTail names n i
  | .inside i _ w => w.map (.write i) ++ .recReady i :: copyTail names n (i + 1)

def CPos.ok (names : List ν) (n : Nat) : CPos ν → Prop
  | .before i => i ≤ n
  | .inside i v w => i < n ∧ names = v ++ w

/-- Copies finished / entered. -/
def CPos.count : CPos ν → Nat
  | .before i => i
  | .inside i _ _ => i
def CPos.started : CPos ν → Nat
  | .before i => i
  | .inside i _ _ => i + 1

def KPos.ops (uses : Nat → List ν) (n : Nat) : KPos ν → List (SOp ν)
  | .old o => o.map .readOld ++ .recDone 0 :: compTail uses n 0
  | .before j => compTail uses n j
  | .inside j u => u.map (.read j) ++ .recDone (j + 1) :: compTail uses n (j + 1)

def KPos.ok (uses : Nat → List ν) (n : Nat) : KPos ν → Prop
  | .old _ => True
  | .before j => j ≤ n
  | .inside j u => j < n ∧ ∃ v, uses j = v ++ u

def KPos.count : KPos ν → Nat
  | .old _ => 0
  | .before j => j + 1
  | .inside j _ => j + 1
def KPos.entered : KPos ν → Nat
  | .old _ => 0
  | .before j => j
  | .inside j _ => j + 1

/-- What the slots hold. -/
def slotOk (names : List ν) (slot0 slot : ν → Option Nat) : CPos ν → Prop
  | .before 0 => slot = slot0
  | .before (i + 1) => ∀ m ∈ names, slot m = some i
  | .inside i v _ => ∀ m ∈ v, slot m = some i

/-- What a read must see. -/
def readOk (slot0 : ν → Option Nat) (r : Option Nat × ν × Option Nat) : Prop :=
  match r.1 with
  | none => r.2.2 = slot0 r.2.1
  | some i => r.2.2 = some i

structure DInv (names : List ν) (uses : Nat → List ν) (n : Nat) (slot0 : ν → Option Nat) (d : Dev ν) (cp : CPos ν) (kp : KPos ν) : Prop where
  copy : d.copy = cp.ops names n
  compute : d.compute = kp.ops uses n
  cok : cp.ok names n
  kok : kp.ok uses n
  ready : ∀ k, k ∈ d.ready ↔ k < cp.count
  done : ∀ k, k ∈ d.done ↔ k < kp.count
  le1 : cp.started ≤ kp.count
  le2 : kp.entered ≤ cp.count
  slot : slotOk names slot0 d.slot cp
  reads : ∀ r ∈ d.reads, readOk slot0 r

theorem copyTail_lt {names : List ν} {n i : Nat} (h : i < n) :
    copyTail names n i = .waitDone i :: (names.map (.write i) ++ .recReady i :: copyTail names n (i + 1)) := by
  unfold copyTail
  have : n - i = (n - (i + 1)) + 1 := by omega
  rw [this, List.range'_succ, List.flatMap_cons]
  simp [copyOps]

theorem copyTail_ge {names : List ν} {n i : Nat} (h : n ≤ i) : copyTail names n i = [] := by
  unfold copyTail
  rw [Nat.sub_eq_zero_of_le h]
  rfl

theorem compTail_lt {uses : Nat → List ν} {n i : Nat} (h : i < n) :
    compTail uses n i = .waitReady i :: ((uses i).map (.read i) ++ .recDone (i + 1) :: compTail uses n (i + 1)) := by
  unfold compTail
  have : n - i = (n - (i + 1)) + 1 := by omega
  rw [this, List.range'_succ, List.flatMap_cons]
  simp [stepOps]

theorem compTail_ge {uses : Nat → List ν} {n i : Nat} (h : n ≤ i) : compTail uses n i = [] := by
  unfold compTail
  rw [Nat.sub_eq_zero_of_le h]
  rfl

variable [DecidableEq ν]

theorem dinv_step {names : List ν} {uses : Nat → List ν} (hu : ∀ i, ∀ m ∈ uses i, m ∈ names) {n : Nat} {slot0 : ν → Option Nat}
    {d d' : Dev ν} {cp : CPos ν} {kp : KPos ν} (hi : DInv names uses n slot0 d cp kp) (h : DStep d d') :
    ∃ cp' kp', DInv names uses n slot0 d' cp' kp' := by
  obtain ⟨hc, hk, hcok, hkok, hr, hd, h1, h2, hs, hrd⟩ := hi
  cases h with
  | @copy op r d' hq he =>
    rw [hc] at hq
    cases cp with
    | before i =>
      by_cases hin : i < n
      · rw [CPos.ops, copyTail_lt hin] at hq
        simp only [List.cons.injEq] at hq
        obtain ⟨rfl, rfl⟩ := hq
        simp only [exec] at he
        split at he
        · next hm =>
          simp only [Option.some.injEq] at he
          subst he
          have := (hd i).mp hm
          exact ⟨.inside i [] names, kp, rfl, hk, ⟨hin, rfl⟩, hkok, hr, hd, this, h2, by simp [slotOk], hrd⟩
        · simp at he
      · rw [CPos.ops, copyTail_ge (by omega)] at hq
        simp at hq
    | inside i v w =>
      obtain ⟨hin, hvw⟩ := hcok
      cases w with
      | nil =>
        simp only [CPos.ops, List.map_nil, List.nil_append, List.cons.injEq] at hq
        obtain ⟨rfl, rfl⟩ := hq
        simp only [exec, Option.some.injEq] at he
        subst he
        refine ⟨.before (i + 1), kp, rfl, hk, hin, hkok, ?_, hd, h1, ?_, ?_, hrd⟩
        · intro k
          have := hr k
          simp only [CPos.count] at this ⊢
          rw [List.mem_cons, this]
          omega
        · simp only [CPos.count] at h2 ⊢
          omega
        · simp only [slotOk] at hs ⊢
          rw [hvw, List.append_nil]
          exact hs
      | cons m w =>
        simp only [CPos.ops, List.map_cons, List.cons_append, List.cons.injEq] at hq
        obtain ⟨rfl, rfl⟩ := hq
        simp only [exec, Option.some.injEq] at he
        subst he
        refine ⟨.inside i (v ++ [m]) w, kp, rfl, hk, ⟨hin, by rw [hvw]; simp⟩, hkok, hr, hd, h1, h2, ?_, hrd⟩
        simp only [slotOk] at hs ⊢
        intro m' hm'
        split
        · rfl
        · next hne =>
          simp only [List.mem_append, List.mem_singleton] at hm'
          rcases hm' with hm' | hm'
          · exact hs m' hm'
          · exact absurd hm' hne
  | @compute op r d' hq he =>
    rw [hk] at hq
    cases kp with
    | old o =>
      have hcp : cp = .before 0 := by
        simp only [KPos.count] at h1
        cases cp with
        | before i => simp only [CPos.started] at h1; congr 1; omega
        | inside i v w => simp only [CPos.started] at h1; omega
      cases o with
      | nil =>
        simp only [KPos.ops, List.map_nil, List.nil_append, List.cons.injEq] at hq
        obtain ⟨rfl, rfl⟩ := hq
        simp only [exec, Option.some.injEq] at he
        subst he
        refine ⟨cp, .before 0, hc, rfl, hcok, Nat.zero_le _, hr, ?_, ?_, Nat.zero_le _, hs, hrd⟩
        · intro k
          have := hd k
          simp only [KPos.count] at this ⊢
          rw [List.mem_cons, this]
          omega
        · rw [hcp]; simp [CPos.started, KPos.count]
      | cons m o =>
        simp only [KPos.ops, List.map_cons, List.cons_append, List.cons.injEq] at hq
        obtain ⟨rfl, rfl⟩ := hq
        simp only [exec, Option.some.injEq] at he
        subst he
        refine ⟨cp, .old o, hc, rfl, hcok, trivial, hr, hd, h1, h2, hs, ?_⟩
        intro x hx
        rcases List.mem_append.mp hx with hx | hx
        · exact hrd x hx
        · simp only [List.mem_singleton] at hx
          subst hx
          subst hcp
          simp only [slotOk] at hs
          simp [readOk, hs]
    | before j =>
      by_cases hjn : j < n
      · rw [KPos.ops, compTail_lt hjn] at hq
        simp only [List.cons.injEq] at hq
        obtain ⟨rfl, rfl⟩ := hq
        simp only [exec] at he
        split at he
        · next hm =>
          simp only [Option.some.injEq] at he
          subst he
          have := (hr j).mp hm
          exact ⟨cp, .inside j (uses j), hc, rfl, hcok, ⟨hjn, [], rfl⟩, hr, hd, h1, this, hs, hrd⟩
        · simp at he
      · rw [KPos.ops, compTail_ge (by omega)] at hq
        simp at hq
    | inside j u =>
      obtain ⟨hjn, v, hv⟩ := hkok
      cases u with
      | nil =>
        simp only [KPos.ops, List.map_nil, List.nil_append, List.cons.injEq] at hq
        obtain ⟨rfl, rfl⟩ := hq
        simp only [exec, Option.some.injEq] at he
        subst he
        refine ⟨cp, .before (j + 1), hc, rfl, hcok, hjn, hr, ?_, ?_, h2, hs, hrd⟩
        · intro k
          have := hd k
          simp only [KPos.count] at this ⊢
          rw [List.mem_cons, this]
          omega
        · simp only [KPos.count] at h1 ⊢
          omega
      | cons m u =>
        simp only [KPos.ops, List.map_cons, List.cons_append, List.cons.injEq] at hq
        obtain ⟨rfl, rfl⟩ := hq
        simp only [exec, Option.some.injEq] at he
        subst he
        refine ⟨cp, .inside j u, hc, rfl, hcok, ⟨hjn, v ++ [m], by rw [hv]; simp⟩, hr, hd, h1, h2, hs, ?_⟩
        intro x hx
        rcases List.mem_append.mp hx with hx | hx
        · exact hrd x hx
        · simp only [List.mem_singleton] at hx
          subst hx
          have hcp : cp = .before (j + 1) := by
            simp only [KPos.count, KPos.entered] at h1 h2
            cases cp with
            | before i => simp only [CPos.started, CPos.count] at h1 h2; congr 1; omega
            | inside i v w => simp only [CPos.started, CPos.count] at h1 h2; omega
          subst hcp
          simp only [slotOk] at hs
          simp only [readOk]
          exact hs m (hu j m (by rw [hv]; simp))

theorem dinv_start (names old : List ν) (uses : Nat → List ν) (n : Nat) (slot0 : ν → Option Nat) :
    DInv names uses n slot0 (dstart names old uses n slot0) (.before 0) (.old old) := by
  refine ⟨?_, ?_, Nat.zero_le _, trivial, ?_, ?_, Nat.le_refl _, Nat.le_refl _, rfl, ?_⟩
  · simp [dstart, copyQueue, CPos.ops, copyTail, List.range_eq_range']
  · simp [dstart, computeQueue, KPos.ops, compTail, List.range_eq_range']
  · simp [dstart, CPos.count]
  · simp [dstart, KPos.count]
  · simp [dstart]

theorem dinv_exec {names old : List ν} {uses : Nat → List ν} (hu : ∀ i, ∀ m ∈ uses i, m ∈ names) {n : Nat} {slot0 : ν → Option Nat}
    {d : Dev ν} (h : DExec (dstart names old uses n slot0) d) : ∃ cp kp, DInv names uses n slot0 d cp kp := by
  induction h with
  | refl => exact ⟨_, _, dinv_start names old uses n slot0⟩
  | step _ hs ih =>
    obtain ⟨cp, kp, hi⟩ := ih
    exact dinv_step hu hi hs

theorem dev_progress {names : List ν} {uses : Nat → List ν} {n : Nat} {slot0 : ν → Option Nat}
    {d : Dev ν} {cp : CPos ν} {kp : KPos ν} (hi : DInv names uses n slot0 d cp kp) (hstuck : ∀ d', ¬ DStep d d') :
    d.copy = [] ∧ d.compute = [] := by
  obtain ⟨hc, hk, hcok, hkok, hr, hd, h1, h2, hs, hrd⟩ := hi
  have nc : ∀ op r d', d.copy = op :: r → exec d op ≠ some d' := fun op r d' h h' => hstuck _ (.copy h h')
  have nk : ∀ op r d', d.compute = op :: r → exec d op ≠ some d' := fun op r d' h h' => hstuck _ (.compute h h')
  cases kp with
  | old o =>
    exfalso
    cases o with
    | nil => exact nk (.recDone 0) _ _ hk rfl
    | cons m o => exact nk (.readOld m) _ _ hk rfl
  | inside j u =>
    exfalso
    cases u with
    | nil => exact nk (.recDone (j + 1)) _ _ hk rfl
    | cons m o => exact nk (.read j m) _ _ hk rfl
  | before j =>
    have hkn : j < n → ¬ j ∈ d.ready := by
      intro hj hm
      rw [KPos.ops, compTail_lt hj] at hk
      exact nk _ _ d hk (by simp [exec, hm])
    cases cp with
    | inside i v w =>
      exfalso
      cases w with
      | nil => exact nc (.recReady i) _ _ hc rfl
      | cons m w => exact nc (.write i m) _ _ hc rfl
    | before i =>
      have hcn : i < n → ¬ i ∈ d.done := by
        intro hj hm
        rw [CPos.ops, copyTail_lt hj] at hc
        exact nc _ _ d hc (by simp [exec, hm])
      simp only [CPos.ok] at hcok
      simp only [KPos.ok] at hkok
      by_cases hin : i < n
      · have := hcn hin
        rw [hd] at this
        simp only [KPos.count] at this
        have hj := hkn (by omega)
        rw [hr] at hj
        simp only [CPos.count] at hj
        omega
      · by_cases hjn : j < n
        · have := hkn hjn
          rw [hr] at this
          simp only [CPos.count] at this
          omega
        · exact ⟨by rw [hc, CPos.ops, copyTail_ge (by omega)], by rw [hk, KPos.ops, compTail_ge (by omega)]⟩

end Verif.Prefetch.Cuda
