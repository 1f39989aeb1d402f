import Mathlib.Analysis.Real.Sqrt

/-!
# Model of gradient clipping

* `utils/training_utils.py:38-65` (`clip_grad_norm`)
* `trainer/base.py:3366-3390` (`_clip_gradients`)

A gradient entry is a real number, an infinity or NaN, with the rules of IEEE arithmetic for the special values; real arithmetic is exact (no
rounding, no overflow of finite numbers). A tensor is the list of its entries, a parameter without gradient is `none`. The trainer only uses the
Euclidean norm. The fallback to `torch.nn.utils.clip_grad_norm_` for several devices or dtypes, and Accelerate's wrapper for several processes,
compute the same function and are not told apart.
-/
namespace Verif.Clip

inductive Num
  | fin (r : ℝ)
  | pinf
  | ninf
  | nan

def Num.isNan : Num → Bool
  | .nan => true
  | _ => false

def Num.isInf : Num → Bool
  | .pinf => true
  | .ninf => true
  | _ => false

def Num.real : Num → ℝ
  | .fin r => r
  | _ => 0

/-- The Euclidean norm of some entries. -/
noncomputable def norm (l : List Num) : Num :=
  if l.any Num.isNan = true then .nan
  else if l.any Num.isInf = true then .pinf
  else .fin (Real.sqrt ((l.map fun x => x.real ^ 2).sum))

/-- Addition of a real number. -/
def addReal (a : ℝ) : Num → Num
  | .fin r => .fin (r + a)
  | x => x

/-- A non-negative number (a limit) over a positive number (a norm plus 1e-6). -/
noncomputable def div : Num → Num → Num
  | .fin m, .fin n => .fin (m / n)
  | .fin _, .pinf => .fin 0
  | .pinf, .fin _ => .pinf
  | _, _ => .nan

/-- `torch.clamp(x, max=1.0)` -/
noncomputable def clampOne : Num → Num
  | .fin r => .fin (min r 1)
  | .pinf => .fin 1
  | x => x

/-- Product of an entry with a coefficient that is a non-negative real number or NaN. -/
noncomputable def mul : Num → Num → Num
  | .fin r, .fin c => .fin (r * c)
  | .pinf, .fin c => if 0 < c then .pinf else .nan
  | .ninf, .fin c => if 0 < c then .ninf else .nan
  | _, _ => .nan

abbrev Tensor := List Num

/-- utils/training_utils.py:50: the gradients that exist. -/
def gradients (params : List (Option Tensor)) : List Tensor := params.filterMap id

/-- utils/training_utils.py:60-61: the norm of the norms of the tensors. -/
noncomputable def totalNorm (grads : List Tensor) : Num := norm (grads.map norm)

/-- utils/training_utils.py:62-63. -/
noncomputable def coefficient (limit total : Num) : Num := clampOne (div limit (addReal (1 / 10 ^ 6) total))

/-- utils/training_utils.py:38-65: the new gradients and the returned norm. -/
noncomputable def clipGradNorm (limit : Num) (params : List (Option Tensor)) : List (Option Tensor) × Num :=
  if (gradients params).isEmpty = true then (params, .fin 0)
  else
    let total := totalNorm (gradients params)
    let c := coefficient limit total
    (params.map fun p => p.map fun t => t.map fun x => mul x c, total)

/-- `torch.nn.utils.clip_grad_value_`: `clamp_(min=-v, max=v)` of every entry. -/
noncomputable def clampEntry (v : ℝ) : Num → Num
  | .fin r => .fin (max (-v) (min r v))
  | .pinf => .fin v
  | .ninf => .fin (-v)
  | .nan => .nan

/-- trainer/base.py:3366-3390 `_clip_gradients`. -/
noncomputable def clipGradients (maxNorm clipValue : Option ℝ) (params : List (Option Tensor)) : List (Option Tensor) × Num :=
  let r := clipGradNorm (match maxNorm with
    | some m => .fin m
    | none => .pinf) params
  match clipValue with
  | some v => (r.1.map fun p => p.map fun t => t.map (clampEntry v), r.2)
  | none => r

end Verif.Clip
