/-
C87: concrete optimizers, and what the launch cache does not notice.
-/
import Verif.Adam.Props87
import Mathlib.Data.Rat.Defs
import Mathlib.Data.List.Nodup

namespace Verif.Adam

set_option synthInstance.maxHeartbeats 400000
set_option maxRecDepth 100000

theorem solid_of_nodup (b : Buf) (h1 : b.shape.length = b.stride.length)
    (h2 : ((indices b.shape).map (offset b.stride)).Nodup) : Solid b b.shape :=
  ⟨rfl, h1, fun r r' hr hr' e =>
    List.inj_on_of_nodup_map h2 ((mem_indices _ _).mpr hr) ((mem_indices _ _).mpr hr') e⟩

/-! ### An optimizer with two groups -/

def buf (addr : Nat) (shape stride : List Nat) : Buf := ⟨addr, shape, stride, true, true, 0⟩

/-- Group 0: a 2×3 matrix, a 2×2 matrix, a vector. Group 1 (`amsgrad`): a vector. -/
def params0 : Nat → Buf
  | 0 => buf 10 [2, 3] [3, 1]
  | 1 => buf 11 [2, 2] [2, 1]
  | 2 => buf 12 [2] [1]
  | _ => buf 13 [2] [1]

/-- Parameter 1 has a transposed gradient, parameter 2 has none. -/
def grads0 : Nat → Option Buf
  | 0 => some (buf 20 [2, 3] [3, 1])
  | 1 => some (buf 21 [2, 2] [1, 2])
  | 2 => none
  | _ => some (buf 23 [2] [1])

def hyper0 : Hyper ℚ := ⟨1 / 10, 1 / 2, 3 / 4, 1, 1 / 5, false, false⟩
def hyper1 : Hyper ℚ := ⟨1 / 7, 1 / 3, 1 / 2, 1, 0, true, true⟩

def plat : Platform ℚ := ⟨true, id, List.reverse, fun l => l.headD 0⟩

def opt0 : Opt ℚ where
  mem := fun c => (c.1 : ℚ) + c.2 / 2
  param := params0
  grad := grads0
  state := fun _ => none
  groups := [(hyper0, [0, 1, 2]), (hyper1, [3])]
  cache := fun _ => none
  next := 100

def own0 : Nat → Option (Nat × Role) := fun a =>
  if a = 10 then some (0, .param) else if a = 11 then some (1, .param)
  else if a = 12 then some (2, .param) else if a = 13 then some (3, .param) else none

theorem plat_perm : ∀ l, (plat.sched l).Perm l := fun l => List.reverse_perm l

theorem opt0_all : opt0.all = [0, 1, 2, 3] := rfl

theorem opt0_live : LiveBy own0 opt0 := by
  refine ⟨by decide, ?_, ?_, ?_, ?_, ?_, ?_⟩
  · intro i hi
    rw [opt0_all] at hi
    simp only [List.mem_cons, List.not_mem_nil, or_false] at hi
    rcases hi with rfl | rfl | rfl | rfl <;>
      exact ⟨by decide, by decide, solid_of_nodup _ (by decide) (by decide)⟩
  · intro i _ s hs; cases hs
  · intro i _ s hs; cases hs
  · intro i _ s hs; cases hs
  · intro i hi g hg
    rw [opt0_all] at hi
    simp only [List.mem_cons, List.not_mem_nil, or_false] at hi
    rcases hi with rfl | rfl | rfl | rfl <;> cases hg <;> decide
  · intro e _ _ i _ s hs; cases hs

/-- Gradients at addresses not used so far keep everything live. -/
theorem live_fresh_grads {K : Type} (o : Opt K) (hl : Live o) (grad : Nat → Option Buf) (mem : Mem K)
    (n : Nat) (hn : o.next ≤ n) (hpos : 0 < o.next)
    (hg : ∀ i ∈ o.all, ∀ g, grad i = some g → o.next ≤ g.addr ∧ g.addr < n
      ∧ g.shape = (o.param i).shape ∧ g.shape.length = g.stride.length) :
    Live { o with grad := grad, mem := mem, next := n } := by
  obtain ⟨own, hl⟩ := hl
  refine ⟨fun a => if a < o.next then own a else none, hl.nodup, ?_, ?_, ?_, ?_, ?_, hl.ams⟩
  · intro i hi
    obtain ⟨h1, h2, h3⟩ := hl.param i hi
    exact ⟨by simp only [if_pos h2]; exact h1, Nat.lt_of_lt_of_le h2 hn, h3⟩
  · intro i hi s hs
    obtain ⟨h1, h2, h3⟩ := hl.avg i hi s hs
    exact ⟨by simp only [if_pos h2]; exact h1, Nat.lt_of_lt_of_le h2 hn, h3⟩
  · intro i hi s hs
    obtain ⟨h1, h2, h3⟩ := hl.sq i hi s hs
    exact ⟨by simp only [if_pos h2]; exact h1, Nat.lt_of_lt_of_le h2 hn, h3⟩
  · intro i hi s hs b hb
    obtain ⟨h1, h2, h3⟩ := hl.mx i hi s hs b hb
    exact ⟨by simp only [if_pos h2]; exact h1, Nat.lt_of_lt_of_le h2 hn, h3⟩
  · intro i hi g he
    obtain ⟨h1, h2, h3, h4⟩ := hg i hi g he
    exact ⟨by simp only [if_neg (Nat.not_lt.mpr h1)], h2, by omega, h3, h4⟩

/-- Second backward: all gradients move, parameter 1's is contiguous now, parameter 2 gets one,
parameter 0's is transposed. -/
def grads1 (a : Nat) : Nat → Option Buf
  | 0 => some (buf a [2, 3] [1, 2])
  | 1 => some (buf (a + 1) [2, 2] [2, 1])
  | 2 => some (buf (a + 2) [2] [1])
  | _ => some (buf (a + 3) [2] [1])

def opt1 : Opt ℚ := step plat opt0

/-- Before the second step. -/
def opt2 : Opt ℚ :=
  { opt1 with grad := grads1 opt1.next, mem := fun c => if c.1 < opt1.next then opt1.mem c else c.2,
              next := opt1.next + 4 }

theorem reach1 : Reachable plat opt1 :=
  .next opt0 opt0 (.init opt0 ⟨own0, opt0_live⟩ fun _ => rfl) (.dropped ⟨own0, opt0_live⟩ fun _ => rfl)

theorem opt1_live : Live opt1 ∧ opt1.param = opt0.param ∧ opt1.groups = opt0.groups := by
  have h := step_fold plat plat_perm opt0 ⟨own0, opt0_live⟩ (fun x _ plan hp => by cases hp)
  exact ⟨h.1, h.2.1, h.2.2.2.1⟩

theorem opt1_next : opt1.next = 109 := by decide +kernel

theorem between12 : Between opt1 opt2 := by
  have h := opt1_live
  refine .kept ?_ rfl rfl rfl (fun e _ => Or.inl fun i _ => rfl)
  refine live_fresh_grads opt1 h.1 _ _ _ (by omega) (by rw [opt1_next]; omega) ?_
  intro i hi g hg
  have : opt1.all = [0, 1, 2, 3] := by unfold Opt.all; rw [h.2.2]; rfl
  rw [this] at hi
  rw [h.2.1]
  rw [opt1_next] at hg ⊢
  simp only [List.mem_cons, List.not_mem_nil, or_false] at hi
  rcases hi with rfl | rfl | rfl | rfl <;> cases hg <;> decide

/-- The hypotheses of `C87_every_step_is_adamw` are met by a history of two steps. -/
example : Reachable plat opt1 ∧ Between opt1 opt2 := ⟨reach1, between12⟩

/-- In the first step parameter 0 takes the kernel, parameter 1 (transposed gradient) the reference
path; in the second the other way round, and parameter 2 is one step behind. -/
example : (opt1.cache 0).map (fun p => (p.fast, p.slow)) = some ([0], [1])
    ∧ ((step plat opt2).cache 0).map (fun p => (p.fast, p.slow)) = some ([1], [0, 2])
    ∧ ((step plat opt2).cache 1).map (fun p => (p.fast, p.slow)) = some ([], [3])
    ∧ (updates (step plat opt2) 0, updates (step plat opt2) 2) = (2, 1) := by
  decide +kernel

/-- Numbers: the transposed gradient is read at the right element. -/
example : elem (step plat opt0).mem (params0 1) [0, 1]
      = (adamw id hyper0 1 (21 + 2 / 2) ⟨11 + 1 / 2, 0, 0, 0⟩).θ
    ∧ elem (step plat opt0).mem (params0 1) [0, 1] ≠ 11 + 1 / 2 := by
  decide +kernel

/-! ### Layouts -/

/-- A square matrix and its transpose differ in their keys; trailing singleton dimensions do not
matter; a channels-last gradient is flat; an expanded tensor is not. -/
example : flatLayout (buf 1 [3, 3] [3, 1]) ≠ flatLayout (buf 1 [3, 3] [1, 3])
    ∧ flatLayout (buf 1 [3, 3, 1, 1] [3, 1, 1, 1]) = flatLayout (buf 1 [3, 3, 1, 1] [3, 1, 3, 3])
    ∧ (flatLayout (buf 1 [2, 3, 2, 2] [12, 1, 6, 3])).isSome
    ∧ flatLayout (buf 1 [3, 2] [0, 1]) = none ∧ flatLayout (buf 1 [3, 2] [4, 1]) = none := by
  decide +kernel

/-! ### A parameter that moves alone -/

/-- One parameter. -/
def solo0 : Opt ℚ where
  mem := fun c => (c.1 : ℚ) + c.2 / 2
  param := fun _ => buf 10 [2] [1]
  grad := fun _ => some (buf 20 [2] [1])
  state := fun _ => none
  groups := [(hyper0, [0])]
  cache := fun _ => none
  next := 100

def solo1 : Opt ℚ := step plat solo0

/-- `param.data = …`: the parameter lives at address 50 now, the gradient where it was. -/
def solo2 : Opt ℚ := { solo1 with param := fun _ => buf 50 [2] [1] }

/-- **C87**, finding: when a parameter is re-allocated while every gradient stays where it was, the cached
plan is reused with the old parameter address: the step count rises and the moments are updated, but
the parameter is not — the write goes to the storage it no longer uses. -/
theorem C87_silent_move :
    updates (step plat solo2) 0 = updates solo2 0 + 1
    ∧ (∀ i < 2, elem (step plat solo2).mem (solo2.param 0) [i] = elem solo2.mem (solo2.param 0) [i])
    ∧ (weightAt (step plat solo2) 0 [0]).m ≠ (weightAt solo2 0 [0]).m
    ∧ (step plat solo2).mem (10, 0) ≠ solo2.mem (10, 0)
    ∧ (adamw id hyper0 2 (elem solo2.mem (buf 20 [2] [1]) [0]) (weightAt solo2 0 [0])).θ
        ≠ elem solo2.mem (solo2.param 0) [0] := by
  decide +kernel

/-- Dropping the cache, or moving a gradient as well, is enough for the update to reach the new storage. -/
example :
    let o := { solo2 with grad := fun _ => some (buf 21 [2] [1]) }
    elem (step plat o).mem (solo2.param 0) [0]
      = (adamw id hyper0 2 (elem o.mem (buf 21 [2] [1]) [0]) (weightAt o 0 [0])).θ := by
  decide +kernel

end Verif.Adam
