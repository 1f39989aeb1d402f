/-
Instances of the hypotheses of C96.
-/
import Verif.Log.Props96
import Mathlib.Tactic.NormNum

namespace Verif.Log

/-- Two processes, two micro-steps, logged every four and shown every three iterations. -/
def exCfg : Cfg := ⟨2, 2, 4, 3, true⟩

/-- Iteration with losses `v`, … in different orders of insertion. -/
def exIter (v : ℚ) : Iter where
  micros := [[([("policy", v), ("loss", v)], [("acc", 1)]), ([("loss", v + 1), ("policy", 0)], [("acc", 0)])],
             [([("policy", v), ("loss", v)], [("acc", 1)]), ([("loss", v + 1), ("policy", 0)], [("acc", 0)])]]
  norms := [v, v + 2]

theorem exShape (v : ℚ) : Shape exCfg (exIter v) where
  micros := rfl
  procs := by intro m hm; simp only [exIter, List.mem_cons, List.not_mem_nil, or_false] at hm; rcases hm with rfl | rfl <;> rfl
  norms := rfl
  names := by
    intro m hm d hd
    simp only [exIter, List.mem_cons, List.not_mem_nil, or_false] at hm
    rcases hm with rfl | rfl <;> (simp only [List.mem_cons, List.not_mem_nil, or_false] at hd; rcases hd with rfl | rfl <;> simp)

set_option synthInstance.maxHeartbeats 400000 in
set_option synthInstance.maxSize 1000 in
/-- The run goes through, and writes what the theorems say. -/
example : ((run exCfg (start exCfg 0) [exIter 1, exIter 2, exIter 3, exIter 7]).map fun r => r.2.map metricsOf) =
    some [(3, ([("loss", 5 / 2), ("policy", 1)], [("acc", 1 / 2), ("grad_norm", 3)])), (4, ([("loss", 15 / 2), ("policy", 7 / 2)], [("acc", 1 / 2), ("grad_norm", 8)]))] := by
  decide +kernel

/-- An iteration with a new metric ends the run. -/
def exVq : Iter where
  micros := [[([("loss", 1), ("policy", 0), ("vq_loss", 1)], [("acc", 1)]), ([("loss", 1), ("policy", 0), ("vq_loss", 1)], [("acc", 1)])],
             [([("loss", 1), ("policy", 0), ("vq_loss", 1)], [("acc", 1)]), ([("loss", 1), ("policy", 0), ("vq_loss", 1)], [("acc", 1)])]]
  norms := [1, 1]

theorem exVqShape : Shape exCfg exVq where
  micros := rfl
  procs := by intro m hm; simp only [exVq, List.mem_cons, List.not_mem_nil, or_false] at hm; rcases hm with rfl | rfl <;> rfl
  norms := rfl
  names := by
    intro m hm d hd
    simp only [exVq, List.mem_cons, List.not_mem_nil, or_false] at hm
    rcases hm with rfl | rfl <;> (simp only [List.mem_cons, List.not_mem_nil, or_false] at hd; rcases hd with rfl | rfl <;> simp)

example : run exCfg (start exCfg 0) ([exIter 1, exIter 2] ++ [exVq]) = none :=
  C96_new_metric_aborts exCfg (by decide) (by decide) 0 [exIter 1, exIter 2] exVq (by simp)
    (by intro y hy
        simp only [List.cons_append, List.nil_append, List.mem_cons, List.not_mem_nil, or_false] at hy
        rcases hy with rfl | rfl | rfl
        · exact exShape 1
        · exact exShape 2
        · exact exVqShape)
    (by intro y hy m hm d hd
        simp only [List.mem_cons, List.not_mem_nil, or_false] at hy
        rcases hy with rfl | rfl <;>
          (simp only [exIter, List.mem_cons, List.not_mem_nil, or_false] at hm
           rcases hm with rfl | rfl <;> (simp only [List.mem_cons, List.not_mem_nil, or_false] at hd; rcases hd with rfl | rfl <;> simp)))
    (by intro m hm d hd
        simp only [exVq, List.mem_cons, List.not_mem_nil, or_false] at hm
        rcases hm with rfl | rfl <;> (simp only [List.mem_cons, List.not_mem_nil, or_false] at hd; rcases hd with rfl | rfl <;> simp))

/-- A run restarted after the codebook is filled goes on. -/
example : ∃ r, run exCfg (start exCfg 2) [exVq] = some r :=
  (C96_names exCfg (by decide) (by decide) 2 [exVq] (by intro x hx; simp only [List.mem_singleton] at hx; subst hx; exact exVqShape)).mpr (by
    intro x hx m hm d hd x' hx' m' hm' d' hd'
    simp only [List.mem_singleton] at hx hx'
    subst hx hx'
    simp only [exVq, List.mem_cons, List.not_mem_nil, or_false, or_self] at hm hm'
    subst hm hm'
    simp only [List.mem_cons, List.not_mem_nil, or_false, or_self] at hd hd'
    subst hd hd'
    simp)

end Verif.Log
