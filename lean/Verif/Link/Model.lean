/-
Model of the zero links of /repo/model/vq.py:27-97 (`_DDPPreinitIdentity`, `_DDPRealUseIdentity`, `ddp_preinit_identity`,
`mark_ddp_parameter_use`, `mark_ddp_parameter_use_on_backward`, `clear_ddp_preinit_gradients`), of their uses in
vq.py:948-967 and flatnet.py:1297-1306, and of the accumulation window of trainer/base.py:3720-3800.

Parameters are numbers.  The attribute of a parameter is `none` (absent), `some true` or `some false`.  A gradient is a
real number (one entry of it).  Averaging over the processes is left out.
-/
import Mathlib.Data.Real.Basic

namespace Verif.Link

/-- The call of one vector quantiser (or of the mapping in front of it) in a forward pass. -/
structure Call where
  /-- `self.parameters()` -/
  params : List Nat
  /-- flatnet.py:1305 marks in the forward pass, vq.py:963 in the backward pass -/
  mapping : Bool
  /-- `is_initialized()` -/
  inited : Bool
  /-- the backward pass reaches this call -/
  reach : Bool
  /-- contribution to the gradient of a parameter -/
  g : Nat → ℝ

structure Env where
  /-- vq.py:53-59 `_ddp_zero_link_enabled()` -/
  enabled : Bool
  /-- `requires_grad` -/
  requiresGrad : Nat → Bool

structure St where
  flag : Nat → Option Bool
  grad : Nat → Option ℝ

/-- vq.py:62-72 `ddp_preinit_identity`: the attribute -/
def preinit (e : Env) (ps : List Nat) (s : St) : St :=
  if e.enabled = false then s
  else { s with flag := fun p => if p ∈ ps ∧ e.requiresGrad p = true then (if (s.flag p).getD true = true then some true else s.flag p) else s.flag p }

/-- vq.py:75-79 `mark_ddp_parameter_use` -/
def mark (ps : List Nat) (s : St) : St :=
  { s with flag := fun p => if p ∈ ps ∧ (s.flag p).isSome = true then some false else s.flag p }

/-- accumulation into `.grad` -/
def addGrad (e : Env) (ps : List Nat) (g : Nat → ℝ) (s : St) : St :=
  { s with grad := fun p => if p ∈ ps ∧ e.requiresGrad p = true then some ((s.grad p).getD 0 + g p) else s.grad p }

/-- the forward pass of a call -/
def forwardCall (e : Env) (s : St) (c : Call) : St :=
  if c.inited = false then preinit e c.params s
  else if c.mapping = true then mark c.params s
  else s

/-- the backward pass of a call: zeros for a link (vq.py:36-37), the real gradient and the mark (vq.py:48-50, 82-86)
otherwise -/
def backwardCall (e : Env) (s : St) (c : Call) : St :=
  if c.reach = false then s
  else if c.inited = false then (if e.enabled = true then addGrad e c.params (fun _ => 0) s else s)
  else
    let s := addGrad e c.params c.g s
    if c.mapping = false ∧ e.enabled = true then mark c.params s else s

/-- one micro-step: forward, then backward in the opposite order -/
def microStep (e : Env) (s : St) (cs : List Call) : St :=
  cs.reverse.foldl (backwardCall e) (cs.foldl (forwardCall e) s)

/-- vq.py:89-97 `clear_ddp_preinit_gradients` (of all trained parameters) -/
def clear (s : St) : St where
  flag := fun _ => none
  grad := fun p => if s.flag p = some true then none else s.grad p

/-- base.py:3720-3800: the micro-steps of one optimizer step, then the clearing -/
def window (e : Env) (s : St) (micros : List (List Call)) : St :=
  clear (micros.foldl (microStep e) s)

end Verif.Link
