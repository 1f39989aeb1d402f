import Verif.Schedule.Props109b
import Mathlib.Algebra.Order.Ring.Rat

/-! # C109 on concrete runs -/
namespace Verif.Schedule

/-- Exact fractions, with a table of one cosine. -/
def ratNum : Num ℚ := ⟨fun a b => a * b, fun a b => a + b, fun a b => a - b, fun a b => a / b, 1, 2, fun a b => if a = 0 then 1 else if a = b then -1 else 0, 9 / 10, 1 / 100000⟩

/-- Two optimizers, one of them with two groups. -/
def cfgQ : Config ℚ := ⟨[("main", [(8, 3), (4, 1)]), ("aux", [(1, 2)])], "step", ⟨some 2, some (1 / 2), none⟩, 10⟩

def histQ : List Event := [.update fun _ => false, .restart, .update fun n => decide (n = "aux"), .restart, .update fun _ => false]

/-- Three updates of `main` and two of `aux`. -/
example : (match start ratNum cfgQ with
    | .error _ => []
    | .ok us => match run ratNum cfgQ histQ us with
      | .error _ => []
      | .ok vs => vs.map fun u => (u.name, u.groups.map Group.lr, u.sched.lastEpoch)) = [("main", [4, 2], 3), ("aux", [1 / 2], 2)] := by decide +kernel

/-- Another number of iterations: refused. -/
example : (match start ratNum cfgQ with
    | .error _ => false
    | .ok us => match resume ratNum { cfgQ with iterations := 20 } (save cfgQ us) with
      | .error e => decide (e = "scheduler configuration changed")
      | .ok _ => false) = true := by decide +kernel

/-- Another learning rate: refused. -/
example : (match start ratNum cfgQ with
    | .error _ => false
    | .ok us => match resume ratNum { cfgQ with opts := [("main", [(8, 3), (5, 1)]), ("aux", [(1, 2)])] } (save cfgQ us) with
      | .error e => decide (e = "configured optimizer layout/base learning rates changed")
      | .ok _ => false) = true := by decide +kernel

/-- The hypotheses of `C109_rates` hold of a cosine run. -/
noncomputable def cfgR : Config ℝ := ⟨[("main", [(1, 3)])], "cosine", ⟨none, none, some 0⟩, 4⟩

open Classical in
example : ∃ us us', start realNum cfgR = .ok us ∧ run realNum cfgR histQ us = .ok us' ∧
    ∀ u ∈ us', u.groups.map Group.lr = [rate cfgR 1 3] := by
  obtain ⟨us, hs⟩ := (C109_start realNum cfgR).mpr (.inr (.inr (.inr rfl)))
  have hnd : (cfgR.opts.map Prod.fst).Nodup := by simp [cfgR]
  obtain ⟨us', hr⟩ := (C109_resume realNum cfgR hnd us hs histQ).2
  refine ⟨us, us', hs, hr, ?_⟩
  have h := C109_rates cfgR hnd (fun h => absurd h (by simp [cfgR])) (fun _ => by simp [cfgR]) us hs histQ us' hr
  intro u hu
  obtain ⟨o, ho, _, h2⟩ := forall2_mem _ _ _ h u hu
  rw [h2]
  have : o = ("main", [(1, 3)]) := by simpa [cfgR] using ho
  subst this
  rfl

end Verif.Schedule
