/-
The pinned staging ring of the gradient pointer tables (utils/fused_adamw.py:56-58, 196-240, 466-520).

The host enqueues work on one CUDA stream, the device executes the stream in order at its own pace.  An
asynchronous copy reads the pinned host buffer when the device executes it.  Plans are numbered in the
order of their creation; each has its own ring, a rebuilt plan gets a new number.  Simplifications: one
stream; the gradient addresses of the fast parameters are a list of numbers; a step may fail anywhere
between taking its plan and the launch (the reference update or the launch raises), but the refresh
itself does not raise.
-/
import Mathlib.Logic.Function.Basic

namespace Verif.Adam.Ring

abbrev Table := List Nat

/-- `_STAGING_SLOTS` (utils/fused_adamw.py:58). -/
def slots : Nat := 3

/-- Work on the stream. `src` is the table the kernel was launched with: the one uploaded with the plan
or a slot of the ring. `want` is not in the program: the addresses of the gradients of that step. -/
inductive Op where
  | copy (p s : Nat)
  | kernel (p : Nat) (src : Option Nat) (want : Table)
  | other
deriving DecidableEq

/-- Host side of a plan (utils/fused_adamw.py:188-225). `starts` is not in the program: the length of
the stream at each refresh, latest first. -/
structure Side where
  table : Table
  cached : Table
  slot : Nat
  src : Option Nat
  host : Nat → Table
  event : Nat → Nat
  starts : List Nat

/-- Where the host is in `step`. -/
inductive Pc where
  | idle
  | waiting (p : Nat) (a : Table)
  | writing (p : Nat) (a : Table)
  | copying (p : Nat) (a : Table)
  | pointing (p : Nat) (a : Table)
  | launching (p : Nat) (a : Table)
  | marking (p : Nat)

/-- `reads`: for every kernel executed, what it should have read and what it read. -/
structure Sys where
  side : Nat → Side
  dev : Nat → Nat → Table
  stream : List Op
  done : Nat
  pc : Pc
  reads : List (Table × Table)

/-- What the scheduler may do: a step of the optimizer begins on plan `p` whose fast gradients are at
`a`; the host goes on; the host's step fails before the launch; other work is enqueued; the device
executes one operation. -/
inductive Act where
  | begin (p : Nat) (a : Table) (moved : Bool)
  | host
  | fail
  | enqueue
  | device

/-- A plan right after its construction with gradients at `a` (utils/fused_adamw.py:188-225, 449-461);
an event never recorded does not block. -/
def Side.new (a : Table) : Side :=
  { table := a, cached := a, slot := 0, src := none, host := fun _ => [], event := fun _ => 0, starts := [] }

def setSide (y : Sys) (p : Nat) (d : Side) : Nat → Side := Function.update y.side p d

/-- The table a kernel reads. -/
def readTable (table : Nat → Table) (dev : Nat → Nat → Table) (p : Nat) : Option Nat → Table
  | none => table p
  | some s => dev p s

/-- `device.copy_(host)` executed: slot `s` of plan `p` becomes `t`. -/
def setDev (dev : Nat → Nat → Table) (p s : Nat) (t : Table) : Nat → Nat → Table :=
  fun q r => if q = p ∧ r = s then t else dev q r

/-- The device executes an operation. -/
def exec (y : Sys) : Op → Sys
  | .copy p s => { y with dev := setDev y.dev p s ((y.side p).host s) }
  | .kernel p src want =>
    { y with reads := y.reads ++ [(want, readTable (fun q => (y.side q).table) y.dev p src)] }
  | .other => y

/-- utils/fused_adamw.py:385-428: the first check compares the addresses, otherwise
`refresh_grad_pointers` (227-234) starts.  `moved` covers a refresh caused by another gradient. -/
def begin (y : Sys) (p : Nat) (a : Table) (moved : Bool) : Sys :=
  let d := y.side p
  if d.cached = a ∧ moved = false then { y with pc := .launching p a }
  else
    { y with
      side := setSide y p { d with
        cached := a, slot := (d.slot + 1) % slots, starts := y.stream.length :: d.starts }
      pc := .waiting p a }

/-- One action of the host inside `step`: utils/fused_adamw.py:227-240, 498-520. -/
def hostStep (y : Sys) : Option Sys :=
  match y.pc with
  | .idle => none
  | .waiting p a =>
    let d := y.side p
    if d.event d.slot ≤ y.done then some { y with pc := .writing p a } else none
  | .writing p a =>
    let d := y.side p
    some { y with
      side := setSide y p { d with host := Function.update d.host d.slot a }, pc := .copying p a }
  | .copying p a =>
    let d := y.side p
    some { y with stream := y.stream ++ [.copy p d.slot], pc := .pointing p a }
  | .pointing p a =>
    let d := y.side p
    some { y with side := setSide y p { d with src := some d.slot }, pc := .launching p a }
  | .launching p a =>
    let d := y.side p
    some { y with stream := y.stream ++ [.kernel p d.src a], pc := .marking p }
  | .marking p =>
    let d := y.side p
    some { y with
      side := setSide y p { d with event := Function.update d.event d.slot y.stream.length }, pc := .idle }

/-- One action of the system, if possible. -/
def act (y : Sys) : Act → Option Sys
  | .begin p a moved =>
    match y.pc with
    | .idle => some (begin y p a moved)
    | _ => none
  | .host => hostStep y
  | .fail =>
    match y.pc with
    | .launching p _ => some { y with pc := .marking p }
    | _ => none
  | .enqueue => some { y with stream := y.stream ++ [.other] }
  | .device =>
    match y.stream[y.done]? with
    | some op => some { exec y op with done := y.done + 1 }
    | none => none

/-- Actions in sequence; impossible ones are skipped. -/
def run (y : Sys) (l : List Act) : Sys := l.foldl (fun y a => (act y a).getD y) y

/-- Fresh plans with the given tables, empty stream. -/
def start (tables : Nat → Table) : Sys :=
  { side := fun p => Side.new (tables p), dev := fun _ _ => [], stream := [], done := 0, pc := .idle, reads := [] }

end Verif.Adam.Ring
