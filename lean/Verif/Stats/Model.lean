import Mathlib.Algebra.Order.Field.Rat
import Mathlib.Algebra.BigOperators.Group.List.Basic
import Mathlib.Data.Rat.Cast.Order
import Mathlib.Order.WithBot

/-
Model of the evaluation statistics: /repo/dataset/core.py:816-970 (`SumCount`, `Maximum`,
`SufficientStats` and the simple finalizers), and of the code in /repo/trainer/base.py that
accumulates them over batches and ranks: `_gather_averaged_metrics` (4497-4595),
`_accumulate_evaluation_metrics` (4597-4617), `_zero_evaluation_stat` (4619-4642) and
`_finalize_masked_global_batch` (4752-4867).

Simplifications. Tensor elements are exact rationals (floating point rounding is not modelled), a
tensor is its shape, dtype, device and flat element list. A metric dictionary is modelled one key at a
time: all these functions treat the keys independently. `accelerator.reduce(x, "sum")` is the exact sum
of the ranks' values, `"max"` their maximum.
-/

namespace Verif.Stats

/-- A tensor: metadata and flat elements. -/
structure Ten (α : Type) where
  shape : List Nat
  dtype : String
  device : String
  data : List α
  deriving DecidableEq

/-- shape, dtype and device agree (core.py:833-838). -/
def Ten.compat {α β : Type} (a : Ten α) (b : Ten β) : Bool :=
  a.shape == b.shape && a.dtype == b.dtype && a.device == b.device

/-- elementwise operation on two tensors of the same shape -/
def Ten.zip {α : Type} (f : α → α → α) (a b : Ten α) : Ten α :=
  { a with data := List.zipWith f a.data b.data }

/-- elementwise map -/
def Ten.map {α β : Type} (f : α → β) (a : Ten α) : Ten β :=
  ⟨a.shape, a.dtype, a.device, a.data.map f⟩

/-- `torch.zeros_like` -/
def Ten.zeros (a : Ten ℚ) : Ten ℚ := a.map (fun _ => 0)

inductive Scope where
  | globalBatch
  | evaluation
  deriving DecidableEq, Repr

/-! ### SumCount (core.py:816-845) -/

structure SumCount where
  scope : Scope
  sum : Ten ℚ
  count : Int
  deriving DecidableEq

/-- core.py:822-832 `__post_init__` (the scope check is in the type). -/
def SumCount.mk? (s : Scope) (sum : Ten ℚ) (count : Int) : Except String SumCount :=
  if count < 0 then .error "SumCount count must be non-negative" else .ok ⟨s, sum, count⟩

/-- core.py:834-840 `combine`. -/
def SumCount.combine (a b : SumCount) : Except String SumCount :=
  if a.scope ≠ b.scope ∨ a.sum.compat b.sum = false then .error "incompatible SumCount values"
  else SumCount.mk? a.scope (a.sum.zip (· + ·) b.sum) (a.count + b.count)

/-- core.py:842-845 `finalize`. -/
def SumCount.finalize (a : SumCount) : Except String (Ten ℚ) :=
  if a.count = 0 then .error "cannot finalize empty SumCount"
  else .ok (a.sum.map (fun x => x / (a.count : ℚ)))

/-! ### Maximum (core.py:848-883); `⊥` is negative infinity -/

structure Maximum where
  value : Ten (WithBot ℚ)
  validCount : Int
  deriving DecidableEq

/-- core.py:854-865 `__post_init__`. -/
def Maximum.mk? (v : Ten (WithBot ℚ)) (n : Int) : Except String Maximum :=
  if n < 0 then .error "Maximum valid_count must be non-negative" else .ok ⟨v, n⟩

/-- core.py:867-877 `combine`. -/
def Maximum.combine (a b : Maximum) : Except String Maximum :=
  if a.value.compat b.value = false then .error "incompatible Maximum values"
  else if a.validCount = 0 then .ok b
  else if b.validCount = 0 then .ok a
  else Maximum.mk? (a.value.zip max b.value) (a.validCount + b.validCount)

/-- core.py:879-882 `finalize`. -/
def Maximum.finalize (a : Maximum) : Except String (Ten (WithBot ℚ)) :=
  if a.validCount = 0 then .error "cannot finalize empty Maximum" else .ok a.value

/-! ### SufficientStats (core.py:885-938) -/

structure SufficientStats where
  scope : Scope
  finalizer : String
  tensors : List (String × Ten ℚ)
  counts : List (String × Int)
  deriving DecidableEq

/-- dictionary lookup -/
def get? {α : Type} (k : String) : List (String × α) → Option α
  | [] => none
  | (k', v) :: r => if k' = k then some v else get? k r

/-- `a.keys() == b.keys()` (set comparison) -/
def sameKeys {α β : Type} (a : List (String × α)) (b : List (String × β)) : Bool :=
  a.all (fun x => b.any (fun y => y.1 == x.1)) && b.all (fun y => a.any (fun x => x.1 == y.1))

/-- core.py:909-926 the compatibility test of `combine`. -/
def SufficientStats.compat (a b : SufficientStats) : Bool :=
  decide (a.scope = b.scope) && decide (a.finalizer = b.finalizer) &&
  sameKeys a.tensors b.tensors && sameKeys a.counts b.counts &&
  a.tensors.all (fun x => match get? x.1 b.tensors with | some t => x.2.compat t | none => false)

/-- core.py:893-911 `__post_init__`: the count check; the schema check is the parameter `schema`
(core.py:1097-1160 `_validate_sufficient_stats_schema`). -/
def SufficientStats.mk? (schema : SufficientStats → Bool) (s : SufficientStats) :
    Except String SufficientStats :=
  if s.counts.any (fun kv => decide (kv.2 < 0)) then .error "counts must be non-negative"
  else if schema s = false then .error "invalid tensor/count schema"
  else .ok s

/-- core.py:931 the tensors of the combination (the keys were compared before). -/
def addTensors (a b : List (String × Ten ℚ)) : List (String × Ten ℚ) :=
  a.map (fun kv => (kv.1, match get? kv.1 b with
    | some t => kv.2.zip (· + ·) t
    | none => kv.2))

/-- core.py:932 the counts of the combination. -/
def addCounts (a b : List (String × Int)) : List (String × Int) :=
  a.map (fun kv => (kv.1, match get? kv.1 b with
    | some c => kv.2 + c
    | none => kv.2))

/-- core.py:913-934 `combine`. -/
def SufficientStats.combine (schema : SufficientStats → Bool) (a b : SufficientStats) :
    Except String SufficientStats :=
  if a.compat b = false then .error "incompatible SufficientStats values"
  else SufficientStats.mk? schema
    { scope := a.scope, finalizer := a.finalizer,
      tensors := addTensors a.tensors b.tensors, counts := addCounts a.counts b.counts }

/-- core.py:1102-1121 the simple schemas. -/
def simpleSchema (s : SufficientStats) : Bool :=
  let is (ts cs : List String) : Bool :=
    sameKeys s.tensors (ts.map (fun k => (k, ()))) && sameKeys s.counts (cs.map (fun k => (k, ())))
  if s.finalizer = "policy_mean_square_v1" then is ["valid_logit_sum"] ["valid_cells"]
  else if s.finalizer = "mean_v1" then is ["sum"] ["count"]
  else if s.finalizer = "replicated_constant_v1" then is ["sum", "square_sum"] ["replicas"]
  else false

/-- core.py:941-948 `_finalize_mean_square`. -/
def finalizeMeanSquare (s : SufficientStats) : Except String (Ten ℚ) :=
  match get? "valid_logit_sum" s.tensors, get? "valid_cells" s.counts with
  | some t, some n =>
    if n = 0 then .error "policy_mean_square requires valid cells"
    else .ok (t.map (fun x => (x / (n : ℚ)) ^ 2))
  | _, _ => .error "policy_mean_square_v1 has an invalid tensor/count schema"

/-- core.py:951-957 `_finalize_mean`. -/
def finalizeMean (s : SufficientStats) : Except String (Ten ℚ) :=
  match get? "sum" s.tensors, get? "count" s.counts with
  | some t, some n =>
    if n ≤ 0 then .error "mean_v1 requires a positive count"
    else .ok (t.map (fun x => x / (n : ℚ)))
  | _, _ => .error "mean_v1 has an invalid tensor/count schema"

/-- core.py:960-979 `_constant_mean`; `eps` is `torch.finfo(dtype).eps`. -/
def constantMean (eps : ℚ) (sum sq : Ten ℚ) (replicas : Int) : Except String (Ten ℚ) :=
  if replicas ≤ 0 then .error "replicated constant has no replicas"
  else
    let mean := sum.map (fun x => x / (replicas : ℚ))
    let meanSq := sq.map (fun x => x / (replicas : ℚ))
    let bad := List.zipWith (fun m q =>
      decide (16 * eps * max 1 (m ^ 2) < |q - m ^ 2|)) mean.data meanSq.data
    if bad.any id then .error "replicated constant differs across ranks" else .ok mean

/-- core.py:982-994 `_finalize_replicated_constant`. -/
def finalizeReplicated (eps : ℚ) (s : SufficientStats) : Except String (Ten ℚ) :=
  match get? "sum" s.tensors, get? "square_sum" s.tensors, get? "replicas" s.counts with
  | some a, some b, some n => constantMean eps a b n
  | _, _, _ => .error "replicated_constant_v1 has an invalid schema"

/-- core.py:936-937 `finalize` for the simple finalizers. -/
def SufficientStats.finalizeSimple (eps : ℚ) (s : SufficientStats) : Except String (Ten ℚ) :=
  if s.finalizer = "policy_mean_square_v1" then finalizeMeanSquare s
  else if s.finalizer = "mean_v1" then finalizeMean s
  else if s.finalizer = "replicated_constant_v1" then finalizeReplicated eps s
  else .error "not a simple finalizer"

/-! ### Accumulation over batches and ranks (trainer/base.py) -/

/-- a typed metric value -/
inductive Stat where
  | sc (s : SumCount)
  | mx (m : Maximum)
  | ss (s : SufficientStats)
  deriving DecidableEq

/-- base.py:4597-4617 `_accumulate_evaluation_metrics`, one key: `none` is a key not yet in `totals`.
(The untyped branches of that function are unreachable: `_finalize_masked_global_batch` rejects opaque
values before.) -/
def accumulate (schema : SufficientStats → Bool) (total : Option Stat) (value : Stat) :
    Except String Stat :=
  match total, value with
  | none, v => .ok v
  | some (.sc a), .sc b => (a.combine b).map .sc
  | some (.mx a), .mx b => (a.combine b).map .mx
  | some (.ss a), .ss b => (a.combine schema b).map .ss
  | _, _ => .error "evaluation statistic type changed"

/-- base.py:4619-4642 `_zero_evaluation_stat`. -/
def zeroStat : Stat → Stat
  | .sc a => .sc ⟨a.scope, a.sum.zeros, 0⟩
  | .mx m => .mx ⟨m.value, 0⟩
  | .ss s => .ss { s with tensors := s.tensors.map (fun kv => (kv.1, kv.2.zeros)),
                          counts := s.counts.map (fun kv => (kv.1, 0)) }

/-- `accelerator.reduce(x, "sum")` over the ranks (rank 0 first; metadata is the first rank's). -/
def reduceSum (xs : List (Ten ℚ)) : Option (Ten ℚ) :=
  match xs with
  | [] => none
  | x :: r => some (r.foldl (fun a b => a.zip (· + ·) b) x)

/-- `accelerator.reduce(x, "max")` over the ranks. -/
def reduceMax (xs : List (Ten (WithBot ℚ))) : Option (Ten (WithBot ℚ)) :=
  match xs with
  | [] => none
  | x :: r => some (r.foldl (fun a b => a.zip max b) x)

/-- base.py:4758-4798 `_finalize_masked_global_batch` for a `SumCount` of scope `global_batch`: every
rank offers its statistic and whether the batch is its own (`include_metrics`); the result, the same on
every rank, is the value of the global batch counted once. -/
def closeGlobalSum (vals : List (SumCount × Bool)) : Except String SumCount :=
  match reduceSum (vals.map (fun v => if v.2 then v.1.sum else v.1.sum.zeros)) with
  | none => .error "no ranks"
  | some gsum =>
    let gcount : Int := (vals.map (fun v => if v.2 then v.1.count else 0)).sum
    match SumCount.mk? .globalBatch gsum gcount with
    | .error e => .error e
    | .ok s => match s.finalize with
      | .error e => .error e
      | .ok v => SumCount.mk? .evaluation v 1

/-- base.py:4744-4757 the same function for scope `evaluation`: the rank keeps its own statistic, or an
empty one for a replayed batch. -/
def keepLocal (v : SumCount) (own : Bool) : SumCount :=
  if own then v else ⟨.evaluation, v.sum.zeros, 0⟩

/-- base.py:4845-4855 and for a `Maximum`. -/
def keepMax (v : Maximum) (own : Bool) : Maximum :=
  if own then v else ⟨v.value, 0⟩

/-- base.py:5113-5128 one batch of the validation loop at one rank, after closing the global batch:
own batches are accumulated, a replayed batch only makes sure that the key exists. -/
def stepTotals (schema : SufficientStats → Bool) (total : Option Stat) (value : Stat) (own : Bool) :
    Except String (Option Stat) :=
  if own then (accumulate schema total value).map some
  else match total with
    | none => .ok (some (zeroStat value))
    | some t => .ok (some t)

/-- base.py:4530-4538 `_gather_averaged_metrics`, a `SumCount`: sums of all ranks. `none` is the
division by zero (the code then logs nan). -/
def gatherSum (xs : List SumCount) : Option (Ten ℚ) :=
  match reduceSum (xs.map (·.sum)) with
  | none => none
  | some s =>
    let n : Int := (xs.map (·.count)).sum
    if n = 0 then none else some (s.map (fun x => x / (n : ℚ)))

/-- base.py:4539-4555 `_gather_averaged_metrics`, a `Maximum`. The collective called with
`reduction="max"` is the parameter `red` (`reduceMax` is what the name says). -/
def gatherMaxWith (red : List (Ten (WithBot ℚ)) → Option (Ten (WithBot ℚ))) (xs : List Maximum) :
    Except String (Ten (WithBot ℚ)) :=
  match red (xs.map (fun m => if m.validCount ≠ 0 then m.value else m.value.map (fun _ => ⊥))) with
  | none => .error "no ranks"
  | some v =>
    if (xs.map (·.validCount)).sum = 0 then .error "evaluation maximum has no values" else .ok v

/-- with a collective that takes the maximum -/
def gatherMax (xs : List Maximum) : Except String (Ten (WithBot ℚ)) := gatherMaxWith reduceMax xs

/-- base.py:4799-4841 / 4556-4572: one `accelerator.reduce` per name of the first rank (the names are the
same on all ranks: `_preflight_evaluation_schema`), then the constructor. -/
def reduceSuff (schema : SufficientStats → Bool) (sc : Scope) (xs : List SufficientStats) :
    Except String SufficientStats :=
  match xs with
  | [] => .error "no ranks"
  | x :: _ => SufficientStats.mk? schema
    { scope := sc, finalizer := x.finalizer,
      tensors := x.tensors.filterMap (fun kv =>
        (reduceSum (xs.filterMap (fun y => get? kv.1 y.tensors))).map (fun t => (kv.1, t))),
      counts := x.counts.map (fun kv => (kv.1, (xs.filterMap (fun y => get? kv.1 y.counts)).sum)) }

/-- an empty contribution with the same schema (base.py:4805-4815, 4630-4639) -/
def zeroSuff (s : SufficientStats) : SufficientStats :=
  { s with tensors := s.tensors.map (fun kv => (kv.1, kv.2.zeros)),
           counts := s.counts.map (fun kv => (kv.1, 0)) }

/-- base.py:4816-4844 `_finalize_masked_global_batch` for a `SufficientStats` of scope `global_batch`;
`fin` is the registered finalizer (core.py:936-937). -/
def closeGlobalSuff (schema : SufficientStats → Bool) (fin : SufficientStats → Except String (Ten ℚ))
    (vals : List (SufficientStats × Bool)) : Except String SumCount :=
  match reduceSuff schema .globalBatch (vals.map (fun v => if v.2 then v.1 else zeroSuff v.1)) with
  | .error e => .error e
  | .ok s => match fin s with
    | .error e => .error e
    | .ok v => SumCount.mk? .evaluation v 1

/-- base.py:4556-4577 `_gather_averaged_metrics`, a `SufficientStats`. -/
def gatherSuff (schema : SufficientStats → Bool) (fin : SufficientStats → Except String (Ten ℚ))
    (xs : List SufficientStats) : Except String (Ten ℚ) :=
  match xs with
  | [] => .error "no ranks"
  | x :: _ => match reduceSuff schema x.scope xs with
    | .error e => .error e
    | .ok s => fin s

/-- base.py:4744-4757, 4799-4815, 4845-4855: a statistic of scope `evaluation` (every `Maximum` is) stays
local to the rank. -/
def keep (v : Stat) (own : Bool) : Stat :=
  match v with
  | .sc s => .sc (keepLocal s own)
  | .mx m => .mx (keepMax m own)
  | .ss s => .ss (if own then s else zeroSuff s)

/-- The totals of one rank after its forwards, for a metric of scope `evaluation`: base.py:5079-5128. -/
def rankTotals (schema : SufficientStats → Bool) : Option Stat → List (Stat × Bool) →
    Except String (Option Stat)
  | total, [] => .ok total
  | total, (v, own) :: rest =>
    match stepTotals schema total (keep v own) own with
    | .error e => .error e
    | .ok t => rankTotals schema t rest

/-- `stepTotals` at every rank: `owns` are the ranks' `include_metrics`, the closed value is the same on
every rank. -/
def stepRanks (schema : SufficientStats → Bool) (value : Stat) :
    List (Option Stat) → List Bool → Except String (List (Option Stat))
  | t :: ts, o :: os =>
    match stepTotals schema t value o, stepRanks schema value ts os with
    | .ok t', .ok ts' => .ok (t' :: ts')
    | _, _ => .error "accumulation failed"
  | _, _ => .ok []

/-- base.py:5079-5128 the validation loop of all ranks in lock step for one `global_batch` metric:
`batches` gives, per forward, every rank's local statistic and `include_metrics` flag. -/
def validateLoop (schema : SufficientStats → Bool) :
    List (Option Stat) → List (List (SumCount × Bool)) → Except String (List (Option Stat))
  | totals, [] => .ok totals
  | totals, b :: rest =>
    match closeGlobalSum b with
    | .error e => .error e
    | .ok v =>
      match stepRanks schema (.sc v) totals (b.map Prod.snd) with
      | .error e => .error e
      | .ok totals' => validateLoop schema totals' rest

/-- the `SumCount`s of the ranks' totals -/
def sumCounts : List (Option Stat) → List SumCount
  | [] => []
  | some (.sc s) :: r => s :: sumCounts r
  | _ :: r => sumCounts r

/-- The validation value of one metric: loop, then `_gather_averaged_metrics`. -/
def validateMetric (schema : SufficientStats → Bool) (world : Nat)
    (batches : List (List (SumCount × Bool))) : Except String (Option (Ten ℚ)) :=
  match validateLoop schema (List.replicate world none) batches with
  | .error e => .error e
  | .ok totals => .ok (gatherSum (sumCounts totals))

end Verif.Stats
