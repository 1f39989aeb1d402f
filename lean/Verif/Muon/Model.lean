/-
Model of utils/muon.py.

Tensors hold real numbers (rounding, bfloat16 and devices are left out); a parameter is its logical
row-major list of elements with a shape.  A batched matrix product acts on every matrix of the batch.
`closure` is left out.  Errors are `none`.
-/
import Mathlib.Analysis.Real.Sqrt
import Mathlib.LinearAlgebra.Matrix.Notation
import Mathlib.Data.Matrix.Mul

namespace Verif.Muon
open Matrix

/-- Coefficients (utils/muon.py:41). -/
noncomputable def cA : ℝ := 3.4445
noncomputable def cB : ℝ := -4.7750
noncomputable def cC : ℝ := 2.0315

/-- Frobenius norm: `F.normalize(X, p=2.0, dim=(-2, -1))` divides by the larger of it and `eps` (utils/muon.py:47). -/
noncomputable def frob {m n : Nat} (X : Matrix (Fin m) (Fin n) ℝ) : ℝ := Real.sqrt (∑ i, ∑ j, X i j ^ 2)
noncomputable def normalize {m n : Nat} (X : Matrix (Fin m) (Fin n) ℝ) : Matrix (Fin m) (Fin n) ℝ :=
  (max (frob X) (1 / 10 ^ 7))⁻¹ • X

/-- `torch.baddbmm(input, b1, b2, beta, alpha)`. -/
noncomputable def baddbmm {m k n : Nat} (input : Matrix (Fin m) (Fin n) ℝ) (b1 : Matrix (Fin m) (Fin k) ℝ)
    (b2 : Matrix (Fin k) (Fin n) ℝ) (beta alpha : ℝ) : Matrix (Fin m) (Fin n) ℝ := beta • input + alpha • (b1 * b2)

/-- One iteration (utils/muon.py:51-60). -/
noncomputable def nsStep (useBaddbmm : Bool) {m n : Nat} (X : Matrix (Fin m) (Fin n) ℝ) : Matrix (Fin m) (Fin n) ℝ :=
  let A := X * Xᵀ
  if useBaddbmm then
    let B := baddbmm A A A cB cC
    baddbmm X B X cA 1
  else
    let B := cB • A + (cC • A) * A
    cA • X + B * X

/-- utils/muon.py:27-64 `zeropower_via_newtonschulz5` of one matrix. -/
noncomputable def zeropower (steps : Nat) (useBaddbmm : Bool) {m n : Nat} (G : Matrix (Fin m) (Fin n) ℝ) :
    Matrix (Fin m) (Fin n) ℝ :=
  if m > n then ((nsStep useBaddbmm)^[steps] (normalize Gᵀ))ᵀ
  else (nsStep useBaddbmm)^[steps] (normalize G)

/-! ### The optimizer -/

/-- A parameter with its gradient, its momentum buffer (`self.state[p]`), device and dtype. -/
structure Par where
  shape : List Nat
  dev : Nat
  dtype : Nat
  val : List ℝ
  grad : Option (List ℝ)
  buf : Option (List ℝ)

/-- Hyperparameters of the group and options of the optimizer (utils/muon.py:91-111). -/
structure Hyper where
  lr : ℝ
  wd : ℝ
  momentum : ℝ
  nesterov : Bool
  steps : Nat
  useBaddbmm : Bool

abbrev Key := List Nat × Nat × Nat
def Par.key (p : Par) : Key := (p.shape, p.dev, p.dtype)

/-- `shape_groups[key]…append` in a dictionary that keeps insertion order (utils/muon.py:132-137). -/
def addTo (k : Key) (i : Nat) : List (Key × List Nat) → List (Key × List Nat)
  | [] => [(k, [i])]
  | (k', is) :: gs => if k' = k then (k', is ++ [i]) :: gs else (k', is) :: addTo k i gs

/-- utils/muon.py:125-137: the indices of the parameters with a gradient, grouped. -/
def groupsOf (ps : List Par) : List (Key × List Nat) :=
  ps.zipIdx.foldl (fun gs pi => if pi.1.grad.isSome then addTo pi.1.key pi.2 gs else gs) []

/-- `torch.lerp(a, b, w)` elementwise. -/
noncomputable def lerp (w : ℝ) (a b : List ℝ) : List ℝ := List.zipWith (fun x y => x + w * (y - x)) a b

/-- A flat list as a matrix (`reshape`) and back. -/
def toMat (m n : Nat) (v : List ℝ) : Matrix (Fin m) (Fin n) ℝ := fun i j => v.getD (i * n + j) 0
def ofMat {m n : Nat} (M : Matrix (Fin m) (Fin n) ℝ) : List ℝ :=
  (List.finRange m).flatMap fun i => (List.finRange n).map (M i)

/-- utils/muon.py:147-160: the stacked gradients (elements in row-major order) orthogonalised, with
`max(g[0].size())`.  The stack of 0-d parameters fails the assertion.  The stack of 1-d parameters is itself
one matrix, which `baddbmm` refuses.  More than two dimensions are flattened to two. -/
noncomputable def orth (h : Hyper) (shape : List Nat) (gs : List (List ℝ)) : Option (List (List ℝ) × Nat) :=
  match shape with
  | [] => none
  | [d] =>
    if h.useBaddbmm ∧ 0 < h.steps then none
    else
      let M : Matrix (Fin gs.length) (Fin d) ℝ := fun i j => (gs.getD i []).getD j 0
      let O := zeropower h.steps h.useBaddbmm M
      some ((List.finRange gs.length).map (fun i => (List.finRange d).map (O i)), d)
  | d :: rest =>
    some (gs.map fun v => ofMat (zeropower h.steps h.useBaddbmm (toMat d rest.prod v)), max d rest.prod)

/-- `ps[i] = p` for all pairs. -/
def writeAll : List Par → List (Nat × Par) → List Par
  | ps, [] => ps
  | ps, (i, p) :: l => writeAll (ps.set i p) l

/-- utils/muon.py:138-173: one shape group. -/
noncomputable def runGroup (h : Hyper) (ps : List Par) (g : Key × List Nat) : Option (List Par) :=
  let mem := g.2.filterMap fun i => ps[i]?
  let grads := mem.map fun p => p.grad.getD []
  let bufs := List.zipWith (lerp (1 - h.momentum)) (mem.map fun p => p.buf.getD (List.replicate (p.grad.getD []).length 0)) grads
  let m := bufs
  let gr := if h.nesterov then List.zipWith (lerp h.momentum) grads m else m
  (orth h g.1.1 gr).map fun (updates, size) =>
    let decayed := if h.wd > 0 then mem.map fun p => p.val.map fun x => (1 - h.lr * h.wd) * x else mem.map fun p => p.val
    let alpha := -h.lr * Real.sqrt size
    let vals := List.zipWith (fun v u => List.zipWith (fun x y => x + alpha * y) v u) decayed updates
    writeAll ps (g.2.zip (List.zipWith (fun p bv => { p with buf := some bv.1, val := bv.2 }) mem (bufs.zip vals)))

/-- utils/muon.py:113-175 `step` for one parameter group: groups are built first (creating the buffers), then run. -/
noncomputable def step (h : Hyper) (ps : List Par) : Option (List Par) :=
  (groupsOf ps).foldlM (runGroup h) ps

end Verif.Muon
