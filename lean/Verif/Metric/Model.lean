import Verif.Loss.Model

/-
Model of /repo/trainer/metric/supervised.py `compute_supervised_metric_statistics`.

Tensors and numerical primitives are those of Verif/Loss/Model.lean (exact rationals, `(B, ...)` tensors are
lists of flattened rows).  `torch.argmax` and `torch.topk` on a row are arbitrary functions of the row (ties
are not specified by torch).  The `lossCE_` statistics (line 52-53) are those of C75/C76 and left out here.
-/

namespace Verif.Metric
open Verif.Loss Verif.Stats Verif.Total

/-- `torch.argmax(row)` and the indices of `torch.topk(row, k)` -/
structure Choice where
  argmax : List ℚ → Nat
  topk : Nat → List ℚ → List Nat

/-- `data` and `results`, as far as they are read -/
structure Batch where
  isReal : Option (List Bool)
  value : Mat
  policy : Mat
  boardMask : Option Mat
  valueTarget : Mat
  policyTarget : Mat

/-- a statistic of the result -/
inductive MStat where
  | sum (s : SumCount)
  | max (m : Maximum)
  deriving DecidableEq

/-- metric/supervised.py:19-25 the flags of the rows -/
def flags (b : Batch) : Except String (List Bool) :=
  match b.isReal with
  | none => .ok (List.replicate b.value.rows.length true)
  | some m =>
    if m.length ≠ b.value.rows.length then .error "is_real must contain one flag per evaluation row" else .ok m

/-- `mask.float().sum()` of a list of booleans -/
def trues (l : List Bool) : ℚ := (l.map fun b => if b then (1 : ℚ) else 0).sum

/-- `SumCount("global_batch", sum, count)` -/
def sumCount (dd : String × String) (x : ℚ) (n : Nat) : MStat := .sum ⟨.globalBatch, scalar dd x, n⟩

/-- metric/supervised.py:55-60 -/
def bestmove (S : Choice) (dd : String × String) (p t : Mat) : String × MStat :=
  let eq := List.zipWith (fun a b => decide (S.argmax a = S.argmax b)) p.rows t.rows
  ("bestmove_acc", sumCount dd (trues eq) eq.length)

/-- metric/supervised.py:61-71 the overlap of one row: every predicted move that equals any target move -/
def overlap (S : Choice) (k : Nat) (a b : List ℚ) : Nat :=
  let predicted := S.topk k a
  let target := S.topk k b
  (predicted.filter fun i => target.any fun j => decide (i = j)).length

/-- metric/supervised.py:61-71 -/
def topMoves (S : Choice) (dd : String × String) (k : Nat) (p t : Mat) : Except String (String × MStat) :=
  if k > p.cols then .error "selected index k out of range"
  else .ok ("top" ++ toString k ++ "move_acc",
    sumCount dd ((List.zipWith (overlap S k) p.rows t.rows).sum : Nat) (k * p.rows.length))

/-- metric/supervised.py:73-78: value, target of one dimension -/
def scalarValue (P : Prims) (dd : String × String) (v t : List ℚ) : List (String × MStat) :=
  let probability := v.map P.sigmoid
  let correct := List.zipWith (fun p t => decide ((p - 1 / 2) * (t - 1 / 2) ≥ 0)) probability t
  let error := List.zipWith (fun p t => (p - t) ^ 2) probability t
  [("winrate_acc", sumCount dd (trues correct) probability.length), ("winrate_mse", sumCount dd error.sum probability.length)]

/-- metric/supervised.py:79-107: value, target of two dimensions -/
def wdlValue (P : Prims) (S : Choice) (dd : String × String) (v t : Mat) : List (String × MStat) :=
  let probability := v.onRows P.softmax
  let correct := List.zipWith (fun a b => decide (a = b))
    (List.zipWith (fun x y => decide (x ≥ y)) (probability.col 0) (probability.col 1))
    (List.zipWith (fun x y => decide (x ≥ y)) (t.col 0) (t.col 1))
  let error := List.zipWith (fun x y => (x - y) ^ 2) (winrateOf probability) (winrateOf t)
  let drawCorrect := List.zipWith (fun a b => decide (a = b))
    (probability.rows.map fun r => decide (S.argmax r = 2)) (t.rows.map fun r => decide (S.argmax r = 2))
  let drawError := List.zipWith (fun x y => (x - y) ^ 2) (probability.col 2) (t.col 2)
  [("drawrate_acc", sumCount dd (trues drawCorrect) probability.rows.length),
   ("drawrate_mse", sumCount dd drawError.sum probability.rows.length),
   ("winrate_acc", sumCount dd (trues correct) probability.rows.length),
   ("winrate_mse", sumCount dd error.sum probability.rows.length)]

/-- `x.max()` if there are elements, `-inf` otherwise, with the number of elements -/
def maximum (dd : String × String) (xs : List ℚ) : MStat :=
  .max ⟨⟨[], dd.1, dd.2, [xs.foldl (fun (m : WithBot ℚ) (x : ℚ) => Max.max m (x : WithBot ℚ)) ⊥]⟩, xs.length⟩

/-- metric/supervised.py:109-141 on the elements of `probability` and `value_target` in order -/
def crossEval (dd : String × String) (probability target : List ℚ) : List (String × MStat) :=
  let absError := List.zipWith (fun p t => |p - t|) probability target
  let relError := List.zipWith (fun e p => e / (|p| + 1 / 10000)) absError probability
  [("value_abserr_mean", sumCount dd absError.sum absError.length), ("value_abserr_max", maximum dd absError),
   ("value_relerr_mean", sumCount dd relError.sum relError.length), ("value_relerr_max", maximum dd relError)]

/-- metric/supervised.py:73-142: the value statistics -/
def valueStats (P : Prims) (S : Choice) (dd : String × String) (cross : Bool) (value target : Mat) :
    Except String (List (String × MStat)) :=
  if value.cols = 1 then
    if target.cols = 0 then .error "IndexError"
    else match convertValueTarget value target with
      | (.one v, .one t) => .ok (scalarValue P dd v t ++ if cross then crossEval dd (v.map P.sigmoid) t else [])
      | _ => .error "unreachable"
  else if value.cols < 3 ∨ target.cols < 3 then .error "IndexError"
  else if cross = true ∧ value.cols ≠ target.cols then .error "shape mismatch"
  else .ok (wdlValue P S dd value target ++
    if cross then crossEval dd (value.onRows P.softmax).rows.flatten target.rows.flatten else [])

/-- metric/supervised.py:16-142 `compute_supervised_metric_statistics` -/
def metricStats (P : Prims) (S : Choice) (dd : String × String) (cross : Bool) (b : Batch) :
    Except String (List (String × MStat)) := do
  let mask ← flags b
  let value := b.value.selected mask
  let policy := b.policy.selected mask
  let valueTarget := b.valueTarget.selected mask
  let policyTarget := b.policyTarget.selected mask
  let (p, t) ← preparePolicy policy policyTarget (b.boardMask.map fun m => m.selected mask)
  if p.cols = 0 then .error "argmax of an empty dimension" else
  let top2 ← topMoves S dd 2 p t
  let top3 ← topMoves S dd 3 p t
  let vs ← valueStats P S dd cross value valueTarget
  .ok (bestmove S dd p t :: top2 :: top3 :: vs)

end Verif.Metric
