/-
Model of utils/training_utils.py:1163-1202: weight clipping.
-/
import Mathlib.Data.List.Basic
import Mathlib.Data.Rat.Defs
import Mathlib.Algebra.Order.Ring.Rat

namespace Verif.Utils

/-- A tensor: its shape and its values by multi-index (values are exact rationals: float
rounding and NaN are not modelled). -/
structure Tensor where
  shape : List Nat
  val : List Nat → ℚ

/-- The multi-index is inside the shape. -/
def InRange (shape idx : List Nat) : Prop := List.Forall₂ (fun n i => i < n) shape idx

/-- The model's parameters, by name (`dict(named_parameters)`). Parameters are objects: two groups
naming the same parameter refer to the same tensor. -/
abbrev Params := String → Option Tensor

/-- One entry of the `clip_parameters` configuration. -/
structure ClipCfg where
  minW : ℚ
  maxW : ℚ
  params : List String
  virtuals : Option (List String)

/-- utils/training_utils.py:1163-1183 `resolve_weight_clipping`, one group: `KeyError` for an
unknown name, `ValueError` for lists of different lengths. Resolved parameters are kept by name. -/
inductive ClipErr where
  | keyError (name : String)
  | lengthMismatch
deriving Repr, DecidableEq

def lookupAll (P : Params) : List String → Option ClipErr
  | [] => none
  | n :: ns => match P n with
    | none => some (.keyError n)
    | some _ => lookupAll P ns

def resolveGroup (P : Params) (g : ClipCfg) : Option ClipErr :=
  match lookupAll P g.params with
  | some e => some e
  | none => match g.virtuals with
    | none => none
    | some vs => match lookupAll P vs with
      | some e => some e
      | none => if vs.length ≠ g.params.length then some .lengthMismatch else none

/-- utils/training_utils.py:1171-1183: all groups, first error wins. -/
def resolve (P : Params) : List ClipCfg → Option ClipErr
  | [] => none
  | g :: gs => match resolveGroup P g with
    | some e => some e
    | none => resolve P gs

/-- `torch.clamp(x, min, max)`: `min(max(x, min), max)`, also when `min > max`. -/
def clamp (x lo hi : ℚ) : ℚ := min (max x lo) hi

/-- utils/training_utils.py:1193-1195: `[p.shape[i] // v.shape[i] for i in range(v.ndim)]`;
`none`: too few dimensions or division by zero. -/
def repeats : List Nat → List Nat → Option (List Nat)
  | _, [] => some []
  | [], _ :: _ => none
  | p :: ps, v :: vs =>
    if v = 0 then none
    else match repeats ps vs with
      | none => none
      | some r => some (p / v :: r)

/-- `virtual_param.repeat(*reps)`: tiling. -/
def tile (v : Tensor) (reps : List Nat) : Tensor where
  shape := List.zipWith (· * ·) v.shape reps
  val := fun idx => v.val (List.zipWith (· % ·) idx v.shape)

/-- Elementwise with right-aligned broadcasting of `t` against the shape `s`: the shapes must
agree, or be 1 in `t` (a `t` larger than `s` makes the final `copy_` fail). -/
def broadcastsTo (t s : List Nat) : Bool :=
  decide (t.length ≤ s.length) &&
    (List.zipWith (fun a b => decide (a = b ∨ a = 1)) t (s.drop (s.length - t.length))).all id

/-- The value of a broadcast tensor at an index of the larger shape. -/
def bval (t : Tensor) (idx : List Nat) : ℚ :=
  t.val (List.zipWith (fun a i => if a = 1 then 0 else i) t.shape (idx.drop (idx.length - t.shape.length)))

/-- utils/training_utils.py:1192-1202: one parameter with a virtual parameter; `none`: an error
raised by torch. -/
def clipVirtual (p v : Tensor) (lo hi : ℚ) : Option Tensor :=
  match repeats p.shape v.shape with
  | none => none
  | some reps =>
    let virt := tile v reps
    if broadcastsTo virt.shape p.shape then
      some { p with val := fun idx => min (max (p.val idx) (lo - bval virt idx)) (hi - bval virt idx) }
    else none

/-- utils/training_utils.py:1189-1191: one parameter without a virtual parameter. -/
def clipPlain (p : Tensor) (lo hi : ℚ) : Tensor :=
  { p with val := fun idx => clamp (p.val idx) lo hi }

def setParam (P : Params) (n : String) (t : Tensor) : Params :=
  fun m => if m = n then some t else P m

/-- utils/training_utils.py:1189-1191. -/
def applyPlain (lo hi : ℚ) : List String → Params → Option Params
  | [], P => some P
  | n :: ns, P => match P n with
    | none => none
    | some t => applyPlain lo hi ns (setParam P n (clipPlain t lo hi))

/-- utils/training_utils.py:1192-1202: `for p, virtual_param in zip(params, virtual_params)`; the
virtual parameter is read at that moment (an earlier clip of the same call is visible). -/
def applyVirtual (lo hi : ℚ) : List (String × String) → Params → Option Params
  | [], P => some P
  | (n, vn) :: rest, P => match P n, P vn with
    | some t, some v => match clipVirtual t v lo hi with
      | none => none
      | some t' => applyVirtual lo hi rest (setParam P n t')
    | _, _ => none

def applyGroup (g : ClipCfg) (P : Params) : Option Params :=
  match g.virtuals with
  | none => applyPlain g.minW g.maxW g.params P
  | some vs => applyVirtual g.minW g.maxW (g.params.zip vs) P

/-- utils/training_utils.py:1186-1202 `apply_weight_clipping`. -/
def applyClipping : List ClipCfg → Params → Option Params
  | [], P => some P
  | g :: gs, P => match applyGroup g P with
    | none => none
    | some P' => applyClipping gs P'

end Verif.Utils
