/-
What AdamW is, independent of the code: one scalar weight with its moments.
-/
import Verif.Adam.Model

namespace Verif.Adam

/-- A scalar weight and its optimizer state. -/
@[ext] structure Weight (K : Type) where
  θ : K
  m : K
  v : K
  vmax : K

variable {K : Type} [Field K] [LinearOrder K]

/-- The AdamW update number `t` of a weight with gradient `g`: decoupled weight decay, exponential
moving averages of the gradient and of its square, bias-corrected step.  With `maximize` the gradient
is negated; with `amsgrad` the largest second moment so far is used. -/
def adamw (sqrt : K → K) (h : Hyper K) (t : Nat) (g : K) (x : Weight K) : Weight K :=
  let g := if h.maximize then -g else g
  let m := h.beta1 * x.m + (1 - h.beta1) * g
  let v := h.beta2 * x.v + (1 - h.beta2) * g ^ 2
  let vmax := if h.amsgrad then max x.vmax v else x.vmax
  let used := if h.amsgrad then vmax else v
  { θ := x.θ - h.lr * h.wd * x.θ
      - h.lr * (m / (1 - h.beta1 ^ t)) / (sqrt used / sqrt (1 - h.beta2 ^ t) + h.eps)
    m := m, v := v, vmax := vmax }

/-- The element `idx` of a tensor. -/
def elem (mem : Mem K) (b : Buf) (idx : List Nat) : K := mem (b.at idx)

/-- The weight at `idx` of parameter `i`; moments not created yet count as zero. -/
def weightAt (o : Opt K) (i : Nat) (idx : List Nat) : Weight K :=
  match o.state i with
  | none => ⟨elem o.mem (o.param i) idx, 0, 0, 0⟩
  | some s =>
    ⟨elem o.mem (o.param i) idx, elem o.mem s.avg idx, elem o.mem s.sq idx,
      match s.mx with
      | none => 0
      | some b => elem o.mem b idx⟩

/-- Number of updates a parameter has received. -/
def updates (o : Opt K) (i : Nat) : Nat :=
  match o.state i with
  | none => 0
  | some s => s.step

end Verif.Adam
