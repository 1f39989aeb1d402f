/-
C88: the staging ring of gradient pointer tables.
-/
import Verif.Adam.RingInv
import Mathlib.Tactic.IntervalCases

namespace Verif.Adam.Ring

/-- **C88.** For any number of plans, any sequence of steps with any gradient addresses, steps that fail
before their launch, other work on the stream and any pace of the device: every kernel reads exactly the
gradient addresses of its own step, although the host has overwritten the buffers many times since. -/
theorem C88_kernel_reads_its_own_addresses (tables : Nat → Table) (l : List Act) :
    ∀ e ∈ (run (start tables) l).reads, e.2 = e.1 :=
  fun e he => ((run_inv l _ (start_inv tables)).reads e he).symm

/-! ### Stalls -/

/-- What the events of a plan describe. -/
def Old (d : Side) : Prop :=
  d.slot = d.starts.length % 3
  ∧ ∀ k, 1 ≤ k → k ≤ 2 → d.event ((d.starts.length + 3 - k) % 3) ≤ (d.starts[k - 1]?).getD 0

def Calm (y : Sys) : Prop :=
  (∀ p, Old (y.side p))
  ∧ ∀ p a, y.pc = .waiting p a → (y.side p).event (y.side p).slot ≤ ((y.side p).starts[2]?).getD 0

theorem start_calm (tables : Nat → Table) : Calm (start tables) :=
  ⟨fun _ => ⟨rfl, fun _ _ _ => Nat.zero_le _⟩, fun _ _ h => by cases h⟩

theorem act_calm {y y' : Sys} (h : Inv y) (hc : Calm y) (a : Act) (hs : act y a = some y') : Calm y' := by
  cases a with
  | begin p t m =>
    unfold act at hs
    cases hp : y.pc <;> rw [hp] at hs <;> simp only [Option.some.injEq, reduceCtorEq] at hs
    subst hs
    unfold begin
    simp only
    split_ifs with hm
    · exact ⟨hc.1, fun _ _ h => by cases h⟩
    · have ho := hc.1 p
      obtain ⟨o1, o2⟩ := ho
      obtain ⟨d, hd⟩ : ∃ d : Side, d = { y.side p with
        cached := t, slot := ((y.side p).slot + 1) % slots, starts := y.stream.length :: (y.side p).starts } :=
        ⟨_, rfl⟩
      rw [← hd]
      have d1 : d.slot = ((y.side p).slot + 1) % 3 := by rw [hd]; rfl
      have d2 : d.starts = y.stream.length :: (y.side p).starts := by rw [hd]
      have d3 : d.event = (y.side p).event := by rw [hd]
      refine ⟨?_, ?_⟩
      · intro q
        show Old (setSide y p d q)
        by_cases hq : q = p
        · subst hq
          rw [setSide_self]
          refine ⟨?_, ?_⟩
          · rw [d1, d2, o1, List.length_cons]; omega
          · intro k k1 k2
            rw [d2, d3, List.length_cons]
            obtain rfl | rfl : k = 1 ∨ k = 2 := by omega
            · exact h.events q _
            · have := o2 1 (by omega) (by omega)
              rw [show ((y.side q).starts.length + 1 + 3 - 2) % 3 = ((y.side q).starts.length + 3 - 1) % 3 by
                congr 1]
              exact this
        · rw [setSide_of_ne y hq]; exact hc.1 q
      · intro q b hb
        cases hb
        show (setSide y p d p).event (setSide y p d p).slot ≤ ((setSide y p d p).starts[2]?).getD 0
        rw [setSide_self, d1, d2, d3]
        have := o2 2 (by omega) (by omega)
        have e : ((y.side p).slot + 1) % 3 = ((y.side p).starts.length + 3 - 2) % 3 := by rw [o1]; omega
        rw [e]
        exact this
  | host =>
    have hs' : hostStep y = some y' := hs
    clear hs
    unfold hostStep at hs'
    have keep : ∀ (p : Nat) (d : Side), d.slot = (y.side p).slot → d.starts = (y.side p).starts →
        (∀ s, s ≠ d.slot → d.event s = (y.side p).event s) → ∀ q, Old (setSide y p d q) := by
      intro p d h1 h2 h3 q
      by_cases hq : q = p
      · subst hq
        rw [setSide_self]
        obtain ⟨o1, o2⟩ := hc.1 q
        refine ⟨by rw [h1, h2, o1], fun k k1 k2 => ?_⟩
        rw [h3, h2]
        · exact o2 k k1 k2
        · rw [h1, h2, o1]; omega
      · rw [setSide_of_ne y hq]; exact hc.1 q
    cases hp : y.pc with
    | idle => rw [hp] at hs'; cases hs'
    | waiting p a =>
      rw [hp] at hs'
      simp only at hs'
      split_ifs at hs'
      cases hs'
      exact ⟨hc.1, fun _ _ h => by cases h⟩
    | writing p a =>
      rw [hp] at hs'
      cases hs'
      exact ⟨keep p _ rfl rfl fun _ _ => rfl, fun _ _ h => by cases h⟩
    | copying p a => rw [hp] at hs'; cases hs'; exact ⟨hc.1, fun _ _ h => by cases h⟩
    | pointing p a =>
      rw [hp] at hs'
      cases hs'
      exact ⟨keep p _ rfl rfl fun _ _ => rfl, fun _ _ h => by cases h⟩
    | launching p a => rw [hp] at hs'; cases hs'; exact ⟨hc.1, fun _ _ h => by cases h⟩
    | marking p =>
      rw [hp] at hs'
      cases hs'
      refine ⟨keep p _ rfl rfl fun s hs => ?_, fun _ _ h => by cases h⟩
      exact Function.update_of_ne hs ..
  | fail =>
    unfold act at hs
    cases hp : y.pc <;> rw [hp] at hs <;> simp only [Option.some.injEq, reduceCtorEq] at hs
    subst hs
    exact ⟨hc.1, fun _ _ h => by cases h⟩
  | enqueue => unfold act at hs; simp only [Option.some.injEq] at hs; subst hs; exact hc
  | device =>
    unfold act at hs
    cases hop : y.stream[y.done]? with
    | none => rw [hop] at hs; cases hs
    | some op =>
      rw [hop] at hs
      simp only [Option.some.injEq] at hs
      subst hs
      cases op <;> exact hc

theorem run_calm : ∀ (l : List Act) (y : Sys), Inv y → Calm y → Inv (run y l) ∧ Calm (run y l)
  | [], _, h, hc => ⟨h, hc⟩
  | a :: l, y, h, hc => by
    show Inv (run ((act y a).getD y) l) ∧ Calm (run ((act y a).getD y) l)
    cases hs : act y a with
    | none => exact run_calm l y h hc
    | some y' => exact run_calm l y' (act_inv h a hs) (act_calm h hc a hs)

/-- **C88**, the host never waits for recent work: when a refresh of plan `p` waits, everything it waits
for was on the stream before the refresh of that plan before the previous one began, and on the first two
refreshes it waits for nothing. -/
theorem C88_waits_only_for_old_work (tables : Nat → Table) (l : List Act) (p : Nat) (a : Table) :
    let y := run (start tables) l
    y.pc = .waiting p a →
      (y.side p).event (y.side p).slot ≤ ((y.side p).starts[2]?).getD 0 :=
  fun hp => (run_calm l _ (start_inv tables) (start_calm tables)).2.2 p a hp

/-- **C88**, no deadlock: in the middle of a step either the host can go on or the device has work to do. -/
theorem C88_never_stuck (tables : Nat → Table) (l : List Act) :
    let y := run (start tables) l
    y.pc ≠ .idle → (hostStep y).isSome ∨ (act y .device).isSome := by
  intro y hp
  have h : Inv y := run_inv l _ (start_inv tables)
  cases hq : y.pc with
  | idle => exact absurd hq hp
  | waiting p a =>
    by_cases hw : (y.side p).event (y.side p).slot ≤ y.done
    · left; unfold hostStep; rw [hq]; simp only; rw [if_pos hw]; rfl
    · right
      have := h.events p (y.side p).slot
      have hlt : y.done < y.stream.length := by omega
      unfold act
      simp only
      rw [List.getElem?_eq_getElem hlt]
      rfl
  | writing p a => left; unfold hostStep; rw [hq]; rfl
  | copying p a => left; unfold hostStep; rw [hq]; rfl
  | pointing p a => left; unfold hostStep; rw [hq]; rfl
  | launching p a => left; unfold hostStep; rw [hq]; rfl
  | marking p => left; unfold hostStep; rw [hq]; rfl

/-- A completed step on plan `p` puts one kernel on the stream, marked with that step's addresses. -/
theorem C88_step_launches (y : Sys) (p : Nat) (a : Table) (hp : y.pc = .launching p a) :
    ∃ src, hostStep y = some { y with stream := y.stream ++ [.kernel p src a], pc := .marking p } :=
  ⟨(y.side p).src, by unfold hostStep; rw [hp]⟩

/-! ### A run -/

/-- One refreshing step without the device doing anything. -/
def oneStep (a : Table) : List Act := [.begin 0 a false, .host, .host, .host, .host, .host, .host]

/-- Three refreshes run ahead of an idle device, the fourth waits until the first has been executed. -/
def busy : List Act := oneStep [1] ++ oneStep [2] ++ oneStep [3] ++ oneStep [4]

example : (run (start fun _ => [0]) busy).stream.length = 6
    ∧ (run (start fun _ => [0]) (busy ++ List.replicate 6 .device)).reads = [([1], [1]), ([2], [2]), ([3], [3])]
    ∧ (run (start fun _ => [0]) (busy ++ List.replicate 6 .device ++ List.replicate 6 .host
        ++ List.replicate 2 .device)).reads = [([1], [1]), ([2], [2]), ([3], [3]), ([4], [4])] := by
  decide +kernel

/-- A step that fails before its launch, with its copy still in flight. -/
example : (run (start fun _ => [0]) ([.begin 0 [1] false, .host, .host, .host, .host, .fail, .host]
    ++ oneStep [2] ++ oneStep [3] ++ oneStep [4] ++ List.replicate 9 .device ++ List.replicate 6 .host
    ++ List.replicate 9 .device)).reads = [([2], [2]), ([3], [3]), ([4], [4])] := by
  decide +kernel

end Verif.Adam.Ring
