/-
Model of `utils/fused_adamw.py`: the single-pass multi-tensor AdamW, its launch plan cache, its
partition into a fast and a reference path and its state dictionary.

Simplifications.  Arithmetic is exact, over any ordered field with a square-root function.  Memory is
a map from (storage address, element offset from `data_ptr()`) to values; live tensors have different
addresses.  Gradients are dense (`is_sparse` is false; the reference path raises on sparse ones) and
`decoupled_weight_decay` is true (as the constructor sets it).  A lazily created state tensor gets an
address never used before.  The kernel's lanes run one after the other, in an arbitrary order.  The
pinned staging ring of the gradient pointer table is in `Verif.Adam.Ring`; here the table is current.
-/
import Mathlib.Algebra.Field.Basic
import Mathlib.Algebra.Order.Field.Basic
import Mathlib.Data.List.Sort
import Mathlib.Logic.Function.Basic

namespace Verif.Adam

/-- A (storage address, element offset) pair. -/
abbrev Cell := Nat × Nat

abbrev Mem (K : Type) := Cell → K

/-- What the optimizer looks at of a tensor: `data_ptr()`, `shape`, `stride()`, `is_cuda`,
`dtype == torch.float32`, `device`. -/
structure Buf where
  addr : Nat
  shape : List Nat
  stride : List Nat
  cuda : Bool
  f32 : Bool
  device : Nat
deriving DecidableEq

/-- `tensor.numel()`. -/
def Buf.numel (b : Buf) : Nat := b.shape.prod

/-- The `(size, stride)` pairs of the dimensions that vary (utils/fused_adamw.py:132-134). -/
def extents (b : Buf) : List (Nat × Nat) :=
  (b.shape.zip b.stride).filter fun e => decide (e.1 ≠ 1)

/-- Python's order on pairs of numbers. -/
def lexLe (a b : Nat × Nat) : Prop := a.1 < b.1 ∨ (a.1 = b.1 ∧ a.2 ≤ b.2)

instance : DecidableRel lexLe := fun a b => by unfold lexLe; infer_instance

/-- The loop of utils/fused_adamw.py:135-139 over the sorted `(stride, size)` pairs. -/
def walk : Nat → List (Nat × Nat) → Bool
  | _, [] => true
  | covered, (stride, size) :: rest => if stride = covered then walk (covered * size) rest else false

/-- utils/fused_adamw.py:110-140 `_flat_layout`. -/
def flatLayout (b : Buf) : Option (List (Nat × Nat)) :=
  if walk 1 (((extents b).map fun e => (e.2, e.1)).insertionSort lexLe) then some (extents b) else none

/-- Hyperparameters of a parameter group (utils/fused_adamw.py:267-277). -/
structure Hyper (K : Type) where
  lr : K
  beta1 : K
  beta2 : K
  eps : K
  wd : K
  amsgrad : Bool
  maximize : Bool

/-- Per-parameter state (utils/fused_adamw.py:358-363). -/
structure PState where
  step : Nat
  avg : Buf
  sq : Buf
  mx : Option Buf

/-- utils/fused_adamw.py:173-198 `_LaunchPlan`; the kernel argument tables are the lists `tp` … `tn`. -/
structure Plan where
  paramAddrs : List Nat
  gradAddrs : List Nat
  fast : List Nat
  slow : List Nat
  layouts : List (Option (List (Nat × Nat)))
  tp : List Nat
  tg : List Nat
  tm : List Nat
  tv : List Nat
  chunks : List (Nat × Nat)
  tn : List Nat

/-- The optimizer and what it sees of the process. Parameters are numbered. -/
structure Opt (K : Type) where
  mem : Mem K
  param : Nat → Buf
  grad : Nat → Option Buf
  state : Nat → Option PState
  groups : List (Hyper K × List Nat)
  cache : Nat → Option Plan
  next : Nat

/-- What is not fixed by the code: whether Triton is importable, the square root, the order in which
the lanes of a launch run, and which of the most frequent step counts `max(set(steps), ...)` returns. -/
structure Platform (K : Type) where
  triton : Bool
  sqrt : K → K
  sched : List (Nat × Nat) → List (Nat × Nat)
  major : List Nat → Nat

/-- `_BLOCK` (utils/fused_adamw.py:50). -/
def block : Nat := 1024

/-- utils/fused_adamw.py:143-158 `_supports_fast_path`. -/
def supportsFast (p g : Buf) (s : PState) : Bool :=
  (flatLayout p).isSome &&
    [g, s.avg, s.sq].all fun b =>
      b.cuda && b.f32 && decide (b.device = p.device) && decide (flatLayout b = flatLayout p)

/-- utils/fused_adamw.py:161-173 `_grad_layout_unchanged`; a missing gradient would raise. -/
def gradUnchanged (g : Option Buf) (layout : Option (List (Nat × Nat))) : Bool :=
  match g with
  | none => false
  | some g => g.f32 && g.cuda && decide (flatLayout g = layout)

variable {K : Type} [Field K] [LinearOrder K]

/-! ### Contiguous strides, fresh tensors -/

/-- Row-major strides. -/
def rowStrides : List Nat → List Nat
  | [] => []
  | _ :: s => s.prod :: rowStrides s

/-- `torch.zeros_like(param)`: keeps the strides of a dense parameter, otherwise contiguous. -/
def zerosLike (p : Buf) (addr : Nat) : Buf :=
  { p with addr := addr, stride := if (flatLayout p).isSome then p.stride else rowStrides p.shape }

/-- Storage `a` zeroed. -/
def zeroAt (mem : Mem K) (a : Nat) : Mem K := fun c => if c.1 = a then 0 else mem c

/-- utils/fused_adamw.py:357-363: creation of the state of parameter `i`. -/
def initState (ams : Bool) (o : Opt K) (i : Nat) : Opt K :=
  match o.grad i, o.state i with
  | some _, none =>
    let p := o.param i
    { o with
      mem := zeroAt (zeroAt (zeroAt o.mem o.next) (o.next + 1)) (o.next + 2)
      state := Function.update o.state i (some
        { step := 0, avg := zerosLike p o.next, sq := zerosLike p (o.next + 1)
          mx := if ams then some (zerosLike p (o.next + 2)) else none })
      next := o.next + 3 }
  | _, _ => o

/-- Whether parameter `i` goes to the fast path before the step counts are compared
(utils/fused_adamw.py:352-365). -/
def usable (P : Platform K) (h : Hyper K) (o : Opt K) (i : Nat) : Bool :=
  match o.grad i, o.state i with
  | some g, some s => P.triton && !h.amsgrad && !h.maximize && supportsFast (o.param i) g s
  | _, _ => false

def stepOf (o : Opt K) (i : Nat) : Nat := ((o.state i).map (·.step)).getD 0

/-- utils/fused_adamw.py:341-373 `_partition`. -/
def partition (P : Platform K) (h : Hyper K) (ps : List Nat) (o : Opt K) :
    List Nat × List Nat × Opt K :=
  let o := ps.foldl (initState h.amsgrad) o
  let fast := ps.filter fun i => (o.grad i).isSome && usable P h o i
  let slow := ps.filter fun i => (o.grad i).isSome && !usable P h o i
  let steps := fast.map (stepOf o)
  let majority := P.major steps
  if steps.all fun s => decide (some s = steps.head?) then (fast, slow, o)
  else
    (fast.filter fun i => decide (stepOf o i = majority),
     slow ++ fast.filter fun i => decide (stepOf o i ≠ majority), o)

/-- `grad_addresses` (utils/fused_adamw.py:388). -/
def gradAddrs (o : Opt K) (ps : List Nat) : List Nat :=
  ps.map fun i => match o.grad i with
    | none => 0
    | some g => g.addr

/-- `param_addresses` (utils/fused_adamw.py:417). -/
def paramAddrs (o : Opt K) (ps : List Nat) : List Nat := ps.map fun i => (o.param i).addr

/-- The chunk map (utils/fused_adamw.py:439-443): position and offset. -/
def chunkMap (numels : List Nat) : List (Nat × Nat) :=
  numels.zipIdx.flatMap fun e =>
    (List.range ((e.1 + block - 1) / block)).map fun c => (e.2, c * block)

def gradAddr (o : Opt K) (i : Nat) : Nat := ((o.grad i).map (·.addr)).getD 0
def avgAddr (o : Opt K) (i : Nat) : Nat := ((o.state i).map (·.avg.addr)).getD 0
def sqAddr (o : Opt K) (i : Nat) : Nat := ((o.state i).map (·.sq.addr)).getD 0

/-- utils/fused_adamw.py:431-461: a new plan. -/
def buildPlan (P : Platform K) (h : Hyper K) (ps : List Nat) (o : Opt K) : Plan × Opt K :=
  let (fast, slow, o') := partition P h ps o
  let numels := fast.map fun i => (o'.param i).numel
  ({ paramAddrs := paramAddrs o ps, gradAddrs := gradAddrs o ps, fast := fast, slow := slow
     layouts := fast.map fun i => flatLayout (o'.param i)
     tp := paramAddrs o' fast
     tg := fast.map (gradAddr o')
     tm := fast.map (avgAddr o')
     tv := fast.map (sqAddr o')
     chunks := chunkMap numels
     tn := numels }, o')

/-- `all(_grad_layout_unchanged(...) for ... in zip(plan.fast, plan.fast_layouts))`. -/
def layoutsUnchanged (o : Opt K) (plan : Plan) : Bool :=
  (plan.fast.zip plan.layouts).all fun e => gradUnchanged (o.grad e.1) e.2

/-- utils/fused_adamw.py:375-463 `_launch_plan`: the plan used and the new cache entry. -/
def launchPlan (P : Platform K) (index : Nat) (h : Hyper K) (ps : List Nat) (o : Opt K) :
    Plan × Opt K :=
  let ga := gradAddrs o ps
  let fresh := fun _ : Unit =>
    let r := buildPlan P h ps o
    (r.1, { r.2 with cache := Function.update r.2.cache index (some r.1) })
  match o.cache index with
  | none => fresh ()
  | some plan =>
    if decide (plan.gradAddrs = ga) && layoutsUnchanged o plan then (plan, o)
    else
      if decide (plan.paramAddrs = paramAddrs o ps)
          && (plan.gradAddrs.zip ga).all (fun e => decide ((e.1 = 0) ↔ (e.2 = 0)))
          && layoutsUnchanged o plan then
        let plan := { plan with gradAddrs := ga, tg := plan.fast.map (gradAddr o) }
        (plan, { o with cache := Function.update o.cache index (some plan) })
      else fresh ()

/-! ### The updates -/

/-- The four (or five) cells an element of a parameter lives in. -/
structure Cells where
  p : Cell
  g : Cell
  m : Cell
  v : Cell

/-- Scalars passed to the kernel (utils/fused_adamw.py:505-512). -/
structure Scalars (K : Type) where
  decay : K
  beta2 : K
  omb1 : K
  omb2 : K
  eps : K
  stepSize : K
  rsqrt : K

/-- utils/fused_adamw.py:493-512: the scalars for step `t`. -/
def scalars (P : Platform K) (h : Hyper K) (t : Nat) : Scalars K where
  decay := 1 - h.lr * h.wd
  beta2 := h.beta2
  omb1 := 1 - h.beta1
  omb2 := 1 - h.beta2
  eps := h.eps
  stepSize := h.lr / (1 - h.beta1 ^ t)
  rsqrt := (P.sqrt (1 - h.beta2 ^ t))⁻¹

/-- One active lane of the kernel (utils/fused_adamw.py:90-107). -/
def laneAct (P : Platform K) (s : Scalars K) (c : Cells) (mem : Mem K) : Mem K :=
  let p := mem c.p * s.decay
  let g := mem c.g
  let m := mem c.m + (g - mem c.m) * s.omb1
  let v := mem c.v * s.beta2 + g * g * s.omb2
  let d := P.sqrt v * s.rsqrt + s.eps
  Function.update (Function.update (Function.update mem c.m m) c.v v) c.p (p - s.stepSize * (m / d))

/-- The lane `lane` of program `chunk` (utils/fused_adamw.py:80-107); the mask switches lanes off. -/
def runLane (P : Platform K) (s : Scalars K) (plan : Plan) (mem : Mem K) (e : Nat × Nat) : Mem K :=
  match plan.chunks[e.1]? with
  | none => mem
  | some (pos, start) =>
    match plan.tp[pos]?, plan.tg[pos]?, plan.tm[pos]?, plan.tv[pos]?, plan.tn[pos]? with
    | some p, some g, some m, some v, some n =>
      let off := start + e.2
      if off < n then laneAct P s ⟨(p, off), (g, off), (m, off), (v, off)⟩ mem else mem
    | _, _, _, _, _ => mem

/-- All lanes of a launch: `num_chunks` programs of `_BLOCK` lanes. -/
def allLanes (plan : Plan) : List (Nat × Nat) :=
  (List.range plan.chunks.length).flatMap fun c => (List.range block).map fun l => (c, l)

/-- The launch. -/
def launch (P : Platform K) (s : Scalars K) (plan : Plan) (mem : Mem K) : Mem K :=
  (P.sched (allLanes plan)).foldl (runLane P s plan) mem

/-- All multi-indices of a shape. -/
def indices : List Nat → List (List Nat)
  | [] => [[]]
  | n :: s => (List.range n).flatMap fun i => (indices s).map fun r => i :: r

/-- Element offset of a multi-index. -/
def offset (stride idx : List Nat) : Nat := (List.zipWith (· * ·) stride idx).sum

/-- The cell of an element of a tensor. -/
def Buf.at (b : Buf) (idx : List Nat) : Cell := (b.addr, offset b.stride idx)

/-- The reference update of one element (utils/fused_adamw.py:319-339); the tensor operations act on
the elements independently. -/
def refAct (P : Platform K) (h : Hyper K) (t : Nat) (c : Cells) (x : Option Cell) (mem : Mem K) :
    Mem K :=
  let g := if h.maximize then -mem c.g else mem c.g
  let bc1 := 1 - h.beta1 ^ t
  let bc2 := 1 - h.beta2 ^ t
  let mem := Function.update mem c.p (mem c.p * (1 - h.lr * h.wd))
  let mem := Function.update mem c.m (mem c.m + (1 - h.beta1) * (g - mem c.m))
  let mem := Function.update mem c.v (mem c.v * h.beta2 + (1 - h.beta2) * (g * g))
  let mem := match x with
    | some x => Function.update mem x (max (mem x) (mem c.v))
    | none => mem
  let w := match x with
    | some x => mem x
    | none => mem c.v
  let d := P.sqrt w / P.sqrt bc2 + h.eps
  Function.update mem c.p (mem c.p + (-h.lr / bc1) * (mem c.m / d))

/-- The running maximum takes part only with `amsgrad`. -/
def maxBuf (h : Hyper K) (s : PState) : Option Buf := if h.amsgrad then s.mx else none

/-- utils/fused_adamw.py:315-339 `_reference_update` for parameter `i`. -/
def refUpdate (P : Platform K) (h : Hyper K) (o : Opt K) (i : Nat) : Opt K :=
  match o.grad i, o.state i with
  | some g, some s =>
    let t := s.step + 1
    let p := o.param i
    { o with
      state := Function.update o.state i (some { s with step := t })
      mem := (indices p.shape).foldl (fun mem idx =>
        refAct P h t ⟨p.at idx, g.at idx, s.avg.at idx, s.sq.at idx⟩
          ((maxBuf h s).map (·.at idx)) mem) o.mem }
  | _, _ => o

/-- utils/fused_adamw.py:493-495: the step counter of a fast parameter. -/
def setStep (t : Nat) (o : Opt K) (i : Nat) : Opt K :=
  match o.state i with
  | some s => { o with state := Function.update o.state i (some { s with step := t }) }
  | none => o

/-- utils/fused_adamw.py:466-520: one group. -/
def stepGroup (P : Platform K) (index : Nat) (h : Hyper K) (ps : List Nat) (o : Opt K) : Opt K :=
  let r := launchPlan P index h ps o
  let plan := r.1
  let o := plan.slow.foldl (refUpdate P h) r.2
  match plan.fast with
  | [] => o
  | i0 :: _ =>
    let t := stepOf o i0 + 1
    let o := plan.fast.foldl (setStep t) o
    { o with mem := launch P (scalars P h t) plan o.mem }

/-- utils/fused_adamw.py:465-522 `step`: `for index, group in enumerate(self.param_groups)`. -/
def step (P : Platform K) (o : Opt K) : Opt K :=
  o.groups.zipIdx.foldl (fun o e => stepGroup P e.2 e.1.1 e.1.2 o) o

/-! ### State dictionary -/

/-- `torch.tensor(float(n))`: a float32, i.e. `n` rounded to 24 significant bits, ties to even. -/
def f32Nat (n : Nat) : Nat :=
  let e := Nat.log2 n - 23
  let q := n / 2 ^ e
  let r := n % 2 ^ e
  let q := if 2 * r > 2 ^ e ∨ (2 * r = 2 ^ e ∧ q % 2 = 1) then q + 1 else q
  q * 2 ^ e

/-- utils/fused_adamw.py:291-312: the step counter after `state_dict` and `load_state_dict`. -/
def reloadStep (n : Nat) : Nat := f32Nat n

end Verif.Adam
