import Verif.Total.Spec

/-
Model of /repo/trainer/loss/supervised.py: the training loss `compute_supervised_losses` (407-550),
`_compute_loss_terms` (831-909), `_apply_aux_losses` (912-986), `_sum_terms` (821-828), the loss functions
(18-130), and the validation statistics `_compute_evaluation_terms` (553-695) and their assembly (752-818);
/repo/trainer/loss/utils.py; `cross_entropy_with_softlabel` of /repo/utils/training_utils.py:1205-1260.

Simplifications. Elements are exact rationals and the numerical primitives (sigmoid, softmax over a row,
log-softmax over a row, exp, log, power, elementwise BCE with logits and Huber) are arbitrary functions: both
sides use the same ones. A tensor of shape `(B, ...)` is a list of `B` flattened rows together with the
number of columns (`torch.flatten(x, start_dim=1)` is therefore the identity); a tensor of shape `(B,)` is a
list. Loss types are an enumeration (an unknown name is a `KeyError` in training only). Gradients, `detach`,
devices and `aux_outputs` are left out. Elementwise operations on tensors of equal shape are `zipWith`.
-/

namespace Verif.Loss

open Verif.Stats Verif.Total

/-- the numerical primitives -/
structure Prims where
  sigmoid : ℚ → ℚ
  exp : ℚ → ℚ
  log : ℚ → ℚ
  pow : ℚ → ℚ → ℚ
  bce : ℚ → ℚ → ℚ
  huber : ℚ → ℚ → ℚ
  softmax : List ℚ → List ℚ
  logSoftmax : List ℚ → List ℚ

/-- a tensor of shape `(B, cols)` -/
structure Mat where
  cols : Nat
  rows : List (List ℚ)

/-- a tensor of shape `(B,)` or `(B, cols)` -/
inductive Val where
  | one (xs : List ℚ)
  | two (m : Mat)

/-- `x[:, j]` -/
def Mat.col (m : Mat) (j : Nat) : List ℚ := m.rows.map (fun r => r.getD j 0)

/-- an operation on every row -/
def Mat.onRows (f : List ℚ → List ℚ) (m : Mat) : Mat := { m with rows := m.rows.map f }

/-- an elementwise operation -/
def Mat.map (f : ℚ → ℚ) (m : Mat) : Mat := m.onRows (fun r => r.map f)

/-- an elementwise operation on two tensors of equal shape -/
def Mat.zip (f : ℚ → ℚ → ℚ) (a b : Mat) : Mat := { a with rows := List.zipWith (List.zipWith f) a.rows b.rows }

/-- `x.numel()` -/
def Mat.numel (m : Mat) : Nat := m.rows.length * m.cols

/-- `x.sum()` -/
def Mat.sum (m : Mat) : ℚ := (m.rows.map List.sum).sum

/-- `x.masked_fill(mask == 0, c)` -/
def Mat.fillZero (m mask : Mat) (c : ℚ) : Mat := Mat.zip (fun x b => if b = 0 then c else x) m mask

/-- `torch.mean` -/
def mean (xs : List ℚ) : ℚ := xs.sum / xs.length

/-! ### trainer/loss/utils.py -/

/-- loss/utils.py:6-30 `apply_kd_temperature(..., is_value=True)`. -/
def applyKdTemperature (P : Prims) (value target : Mat) (T : ℚ) : Mat × Mat :=
  let target := if target.cols > 1 then (target.map (· / T)).onRows P.softmax
    else (target.map (· / T)).map P.sigmoid
  (value.map (· / T), target)

/-- loss/utils.py:33-50 `convert_value_target`. -/
def convertValueTarget (value target : Mat) : Val × Val :=
  if value.cols = 1 then
    (.one (value.col 0),
     if target.cols = 1 then .one (target.col 0)
     else .one (List.zipWith (fun a b => (a - b + 1) / 2) (target.col 0) (target.col 1)))
  else (.two value, .two target)

/-- loss/utils.py:53-73 `prepare_policy`. -/
def preparePolicy (policy target : Mat) (mask : Option Mat) : Except String (Mat × Mat) :=
  if target.cols ≠ policy.cols then .error "AssertionError"
  else match mask with
    | none => .ok (policy, target)
    | some m => .ok (policy.fillZero m (-1000000), target.fillZero m 0)

/-! ### cross_entropy_with_softlabel (utils/training_utils.py:1205-1260) -/

/-- training_utils.py:1229-1237 one row -/
def ceRow (P : Prims) (gamma : ℚ) (kl : Bool) (x t : List ℚ) : ℚ :=
  let lp := P.logSoftmax x
  let lp := if gamma > 0 then lp.map (fun l => l * P.pow (1 - P.exp l) gamma) else lp
  let b := -(List.zipWith (· * ·) t lp).sum
  if kl then b + (t.map (fun u => u * P.log (max u (1 / 10 ^ 8)))).sum else b

/-- training_utils.py:1240-1251 one entry -/
def bceEntry (P : Prims) (gamma : ℚ) (kl : Bool) (x t : ℚ) : ℚ :=
  let b := P.bce x t
  let b := if gamma > 0 then
      let probs := P.sigmoid x
      b * P.pow (1 - (t * probs + (1 - t) * (1 - probs))) gamma
    else b
  if kl then b + (t * P.log (max t (1 / 10 ^ 8)) + (1 - t) * P.log (max (1 - t) (1 / 10 ^ 8))) else b

/-- `cross_entropy_with_softlabel(..., reduction="none")`; the weight is only given with two dimensions. -/
def crossEntropyNone (P : Prims) (input target : Val) (weight : Option Mat) (gamma : ℚ) (kl : Bool) : List ℚ :=
  match input, target with
  | .two x, .two t =>
    let t := match weight with
      | none => t
      | some w => t.zip (· * ·) w
    List.zipWith (ceRow P gamma kl) x.rows t.rows
  | .one x, .one t => List.zipWith (bceEntry P gamma kl) x t
  | _, _ => []

/-- `cross_entropy_with_softlabel(..., reduction="mean")` -/
def crossEntropyMean (P : Prims) (input target : Val) (weight : Option Mat) (gamma : ℚ) (kl : Bool) : ℚ :=
  mean (crossEntropyNone P input target weight gamma kl)

/-! ### Loss functions (supervised.py:18-130) -/

inductive VType where | KL | CE | MSE
deriving DecidableEq
inductive PType where | KL | CE | MSE | NONE
deriving DecidableEq

/-- `(x[:, 0] - x[:, 1] + 1) / 2` -/
def winrateOf (m : Mat) : List ℚ := List.zipWith (fun a b => (a - b + 1) / 2) (m.col 0) (m.col 1)

/-- supervised.py:18-20 -/
def valueLossKl (P : Prims) (v t : Val) : ℚ := crossEntropyMean P v t none 0 true
/-- supervised.py:23-25 -/
def valueLossCe (P : Prims) (v t : Val) (gamma : ℚ) : ℚ := crossEntropyMean P v t none gamma false
/-- supervised.py:28-36 -/
def valueLossMse (P : Prims) (v t : Val) : ℚ :=
  match v, t with
  | .one v, .one t => mean (List.zipWith (fun a b => (P.sigmoid a - b) ^ 2) v t)
  | .two v, .two t => mean (List.zipWith (fun a b => (a - b) ^ 2) (winrateOf (v.onRows P.softmax)) (winrateOf t))
  | _, _ => 0

/-- supervised.py:116-120 -/
def dispatchValueLoss (P : Prims) (ty : VType) (v t : Val) (gamma : ℚ) : ℚ :=
  match ty with
  | .CE => valueLossCe P v t gamma
  | .KL => valueLossKl P v t
  | .MSE => valueLossMse P v t

/-- supervised.py:42-46 -/
def policyLossKl (P : Prims) (p t : Mat) (w : Option Mat) : ℚ := crossEntropyMean P (.two p) (.two t) w 0 true
/-- supervised.py:49-53 -/
def policyLossCe (P : Prims) (p t : Mat) (w : Option Mat) (gamma : ℚ) : ℚ :=
  crossEntropyMean P (.two p) (.two t) w gamma false
/-- supervised.py:56-62 -/
def policyLossMse (P : Prims) (p t : Mat) (w : Option Mat) : ℚ :=
  let l := Mat.zip (fun a b => (a - b) ^ 2) (p.onRows P.softmax) t
  let l := match w with
    | none => l
    | some w => l.zip (· * ·) w
  l.sum / l.numel

/-- supervised.py:123-130 and 880-883 (`NONE`) -/
def dispatchPolicyLoss (P : Prims) (ty : PType) (p t : Mat) (w : Option Mat) (gamma : ℚ) : ℚ :=
  match ty with
  | .CE => policyLossCe P p t w gamma
  | .KL => policyLossKl P p t w
  | .MSE => policyLossMse P p t w
  | .NONE => 0

/-- supervised.py:68-76 -/
def policyRegLoss (p : Mat) (mask : Option Mat) : ℚ :=
  match mask with
  | some m => ((p.zip (· * ·) m).sum / m.sum) ^ 2
  | none => (p.sum / p.numel) ^ 2

/-- supervised.py:97-107 -/
def uncertaintyGt (P : Prims) (v t : Val) : List ℚ :=
  match v, t with
  | .one v, .one t => List.zipWith (fun a b => (P.sigmoid a - b) ^ 2) v t
  | .two v, .two t => List.zipWith (fun a b => (a - b) ^ 2) (winrateOf (v.onRows P.softmax)) (winrateOf t)
  | _, _ => []

/-- supervised.py:82-85 -/
def valueUncertaintyLoss (P : Prims) (u : List ℚ) (v t : Val) : ℚ :=
  mean (List.zipWith P.huber u (uncertaintyGt P v t))

/-- supervised.py:88-94 -/
def valueRelativeUncertaintyLoss (P : Prims) (u : List ℚ) (vs vl t : Val) : ℚ :=
  let s := uncertaintyGt P vs t
  let l := uncertaintyGt P vl t
  mean (List.zipWith (fun a b => (a - b) ^ 2) u (List.zipWith (fun l s => if l < s then l / s else 1) l s))

/-! ### Batches -/

/-- `results["aux_losses"][name]` -/
inductive Aux where
  | opaque (x : ℚ)
  | valueLoss (m : Mat)
  | policyLoss (m : Mat)
  | uncertainty (u : List ℚ) (v t : Val)
  | relUncertainty (u : List ℚ) (vs vl t : Val)
  | policyReg (m : Mat)
  | vq (value : ℚ) (slots : List RawSlot)
  | unsupported

/-- `data`, `results` and `kd_results`, as far as the losses read them. -/
structure Batch where
  isReal : Option (List Bool)
  value : Mat
  policy : Mat
  boardMask : Option Mat
  valueTarget : Mat
  policyTarget : Mat
  forbidden : Mat
  teacher : Option (Mat × Mat)
  aux : List (String × Aux)

/-- the arguments of the loss -/
structure Cfg where
  vtype : VType
  ptype : PType
  regLambda : ℚ
  ratio : ℚ
  valueGamma : ℚ
  policyGamma : ℚ
  ignoreForbidden : Bool
  lambdas : String → Option ℚ
  kdT : ℚ
  kdAlpha : ℚ

/-- supervised.py:606, 886 -/
def Cfg.valueLambda (c : Cfg) : ℚ := 2 * c.ratio / (c.ratio + 1)
/-- supervised.py:607, 887 -/
def Cfg.policyLambda (c : Cfg) : ℚ := 2 / (c.ratio + 1)

/-- `x[mask]` along the first dimension -/
def select {α : Type} (xs : List α) (mask : List Bool) : List α := ((xs.zip mask).filter (fun p => p.2)).map (fun p => p.1)

/-- supervised.py:142-148, 436-442 a tensor is filtered if its first dimension is the batch -/
def Mat.selected (m : Mat) (mask : List Bool) : Mat :=
  if m.rows.length = mask.length then { m with rows := select m.rows mask } else m

/-- the same for a tensor of one dimension -/
def selected1 (xs : List ℚ) (mask : List Bool) : List ℚ := if xs.length = mask.length then select xs mask else xs

def Val.selected (v : Val) (mask : List Bool) : Val :=
  match v with
  | .one xs => .one (selected1 xs mask)
  | .two m => .two (m.selected mask)

/-- supervised.py:436-449 `filter_tree` on one auxiliary loss; in a VQ sidecar the sums are scalars, and the
training loss reads only its value. -/
def Aux.selected (a : Aux) (mask : List Bool) : Aux :=
  match a with
  | .valueLoss m => .valueLoss (m.selected mask)
  | .policyLoss m => .policyLoss (m.selected mask)
  | .uncertainty u v t => .uncertainty (selected1 u mask) (v.selected mask) (t.selected mask)
  | .relUncertainty u vs vl t =>
    .relUncertainty (selected1 u mask) (vs.selected mask) (vl.selected mask) (t.selected mask)
  | .policyReg m => .policyReg (m.selected mask)
  | a => a

/-! ### The training loss -/

/-- supervised.py:863-871, 586-593 the teacher's policy target and the scaled policy -/
def kdPolicy (P : Prims) (p pt : Mat) (mask : Option Mat) (T : ℚ) : Mat × Mat :=
  let pt := match mask with
    | some m => pt.fillZero m (-1000000)
    | none => pt
  let pt := (pt.map (· / T)).onRows P.softmax
  let p := p.map (· / T)
  let pt := match mask with
    | some m => pt.fillZero m 0
    | none => pt
  (p, pt)

/-- supervised.py:874-878, 595-601 the weight of the cells -/
def policyWeight (cfg : Cfg) (forbidden : Mat) : Option Mat :=
  if cfg.ignoreForbidden then some (forbidden.map (fun f => 1 - f)) else none

/-- supervised.py:929-986 the loop body for one auxiliary loss: `none` is `continue`, otherwise the name,
the weight, the loss and whether it depends on the target. `kdT` is `none` without a teacher. -/
def trainAux (P : Prims) (cfg : Cfg) (name : String) (vtarget ptarget : Mat) (mask weight : Option Mat)
    (kdT : Option ℚ) (a : Aux) : Except String (Option (String × ℚ × ℚ × Bool)) :=
  let w := cfg.lambdas name
  match a with
  | .opaque x => .ok (some (name ++ "_loss", w.getD 1, x, false))
  | .valueLoss m =>
    let m := match kdT with
      | none => m
      | some T => m.map (· / T)
    let vv := convertValueTarget m vtarget
    .ok (some (name ++ "_loss", w.getD cfg.valueLambda, dispatchValueLoss P cfg.vtype vv.1 vv.2 cfg.valueGamma, true))
  | .policyLoss m =>
    if cfg.ptype = .NONE then .ok none
    else match preparePolicy m ptarget mask with
      | .error e => .error e
      | .ok (p, t) =>
        let p := match kdT with
          | none => p
          | some T => p.map (· / T)
        .ok (some (name ++ "_loss", w.getD cfg.policyLambda,
          dispatchPolicyLoss P cfg.ptype p t weight cfg.policyGamma, true))
  | .uncertainty u v t => .ok (some (name ++ "_loss", w.getD 1, valueUncertaintyLoss P u v t, false))
  | .relUncertainty u vs vl t =>
    .ok (some (name ++ "_loss", w.getD 1, valueRelativeUncertaintyLoss P u vs vl t, false))
  | .policyReg m =>
    if w = none ∧ cfg.regLambda = 0 then .ok none
    else .ok (some (name, w.getD cfg.regLambda, policyRegLoss m mask, false))
  | .vq value _ => .ok (some (name ++ "_loss", w.getD 1, value, false))
  | .unsupported => .error "Unsupported predefined aux loss"

/-- supervised.py:912-986 `_apply_aux_losses`: appends to the terms and the named losses. -/
def trainAuxLoop (P : Prims) (cfg : Cfg) (vtarget ptarget : Mat) (mask weight : Option Mat) (kdT : Option ℚ) :
    List (String × Aux) → List (ℚ × Bool) → Dict ℚ → Except String (List (ℚ × Bool) × Dict ℚ)
  | [], terms, d => .ok (terms, d)
  | (name, a) :: rest, terms, d =>
    match trainAux P cfg name vtarget ptarget mask weight kdT a with
    | .error e => .error e
    | .ok none => trainAuxLoop P cfg vtarget ptarget mask weight kdT rest terms d
    | .ok (some (pname, w, x, dep)) =>
      trainAuxLoop P cfg vtarget ptarget mask weight kdT rest (terms ++ [(w * x, dep)]) (setKey d pname x)

/-- supervised.py:831-909 `_compute_loss_terms`: against the teacher if one is given, else the data. -/
def lossTerms (P : Prims) (cfg : Cfg) (b : Batch) (teacher : Option (Mat × Mat)) :
    Except String (List (ℚ × Bool) × Dict ℚ) :=
  let vtarget := match teacher with
    | some t => t.1
    | none => b.valueTarget
  let ptarget := match teacher with
    | some t => t.2
    | none => b.policyTarget
  let vv := match teacher with
    | some _ => applyKdTemperature P b.value vtarget cfg.kdT
    | none => (b.value, vtarget)
  let cv := convertValueTarget vv.1 vv.2
  let vloss := dispatchValueLoss P cfg.vtype cv.1 cv.2 cfg.valueGamma
  match preparePolicy b.policy ptarget b.boardMask with
  | .error e => .error e
  | .ok (p, pt) =>
    let pp := match teacher with
      | some _ => kdPolicy P p pt b.boardMask cfg.kdT
      | none => (p, pt)
    let weight := policyWeight cfg b.forbidden
    let ploss := dispatchPolicyLoss P cfg.ptype pp.1 pp.2 weight cfg.policyGamma
    let terms := [(cfg.valueLambda * vloss + cfg.policyLambda * ploss, true)]
    let d : Dict ℚ := [("value_loss", vloss), ("policy_loss", ploss)]
    let reg := policyRegLoss b.policy b.boardMask
    let terms := if cfg.regLambda > 0 then terms ++ [(cfg.regLambda * reg, false)] else terms
    let d := if cfg.regLambda > 0 then setKey d "policy_reg" reg else d
    trainAuxLoop P cfg vv.2 pp.2 b.boardMask weight (teacher.map (fun _ => cfg.kdT)) b.aux terms d

/-- supervised.py:821-828 `_sum_terms` -/
def sumTerms (dep : Option Bool) : Option ℚ → List (ℚ × Bool) → Option ℚ
  | acc, [] => acc
  | acc, (x, d) :: rest =>
    if dep ≠ none ∧ some d ≠ dep then sumTerms dep acc rest
    else match acc with
      | none => sumTerms dep (some x) rest
      | some a => sumTerms dep (some (a + x)) rest

/-- supervised.py:514-550 the body of `compute_supervised_losses` without `is_real`: the total and the named
losses. -/
def trainBody (P : Prims) (cfg : Cfg) (b : Batch) : Except String (ℚ × Dict ℚ) :=
  match lossTerms P cfg b b.teacher with
  | .error e => .error e
  | .ok (terms, d) =>
    match b.teacher with
    | none =>
      match sumTerms none none terms with
      | none => .error "AttributeError"
      | some total => .ok (total, setKey d "total_loss" total)
    | some _ =>
      match lossTerms P cfg b none with
      | .error e => .error e
      | .ok (realTerms, realD) =>
        match sumTerms (some true) none terms, sumTerms (some true) none realTerms with
        | some kd, some real =>
          let total := cfg.kdAlpha * kd * cfg.kdT ^ 2 + (1 - cfg.kdAlpha) * real
          let total := match sumTerms (some false) none realTerms with
            | none => total
            | some i => total + i
          .ok (total, setKey (update realD (d.map (fun kv => ("kd_" ++ kv.1, kv.2)))) "total_loss" total)
        | _, _ => .error "TypeError"

/-- supervised.py:424-449 the batch restricted to its real rows -/
def Batch.filterReal (b : Batch) (mask : List Bool) : Batch :=
  { isReal := none, value := b.value.selected mask, policy := b.policy.selected mask,
    boardMask := b.boardMask.map (fun m => m.selected mask), valueTarget := b.valueTarget.selected mask,
    policyTarget := b.policyTarget.selected mask, forbidden := b.forbidden.selected mask,
    teacher := b.teacher.map (fun t => (t.1.selected mask, t.2.selected mask)),
    aux := b.aux.map (fun na => (na.1, na.2.selected mask)) }

/-- supervised.py:465-478 `value[:1]` if the first dimension is the batch -/
def Mat.firstRow (m : Mat) (n : Nat) : Mat := if m.rows.length = n then { m with rows := m.rows.take 1 } else m
def first1 (xs : List ℚ) (n : Nat) : List ℚ := if xs.length = n then xs.take 1 else xs
def Val.first (v : Val) (n : Nat) : Val :=
  match v with
  | .one xs => .one (first1 xs n)
  | .two m => .two (m.firstRow n)

def Aux.first (a : Aux) (n : Nat) : Aux :=
  match a with
  | .valueLoss m => .valueLoss (m.firstRow n)
  | .policyLoss m => .policyLoss (m.firstRow n)
  | .uncertainty u v t => .uncertainty (first1 u n) (v.first n) (t.first n)
  | .relUncertainty u vs vl t => .relUncertainty (first1 u n) (vs.first n) (vl.first n) (t.first n)
  | .policyReg m => .policyReg (m.firstRow n)
  | a => a

/-- supervised.py:454-481 the probe batch: the first row -/
def Batch.probe (b : Batch) (n : Nat) : Batch :=
  { isReal := none, value := b.value.firstRow n, policy := b.policy.firstRow n,
    boardMask := b.boardMask.map (fun m => m.firstRow n), valueTarget := b.valueTarget.firstRow n,
    policyTarget := b.policyTarget.firstRow n, forbidden := b.forbidden.firstRow n,
    teacher := b.teacher.map (fun t => (t.1.firstRow n, t.2.firstRow n)),
    aux := b.aux.map (fun na => (na.1, na.2.first n)) }

/-- supervised.py:407-550 `compute_supervised_losses`. -/
def computeLosses (P : Prims) (cfg : Cfg) (b : Batch) : Except String (ℚ × Dict ℚ) :=
  match b.isReal with
  | none => trainBody P cfg b
  | some mask =>
    if mask.any (fun m => m) then trainBody P cfg (b.filterReal mask)
    else if mask.length = 0 then .error "masked evaluation batch must contain padded rows"
    else match trainBody P cfg (b.probe mask.length) with
      | .error e => .error e
      | .ok (_, d) => .ok (0, d.map (fun kv => (kv.1, 0)))

/-! ### The validation statistics -/

/-- dtype and device of the statistics -/
abbrev DD := String × String

/-- supervised.py:158-163 `_sum_count` of a vector -/
def sumCount (dd : DD) (values : List ℚ) : RawTerm := .mean (scalar dd values.sum) values.length

/-- supervised.py:166-187 `_value_loss_stat` -/
def valueLossStat (P : Prims) (dd : DD) (ty : VType) (v t : Val) (gamma : ℚ) : RawTerm :=
  if ty = .MSE then
    match v, t with
    | .one v, .one t => sumCount dd (List.zipWith (fun a b => (P.sigmoid a - b) ^ 2) v t)
    | .two v, .two t =>
      sumCount dd (List.zipWith (fun a b => (a - b) ^ 2) (winrateOf (v.onRows P.softmax)) (winrateOf t))
    | _, _ => sumCount dd []
  else sumCount dd (crossEntropyNone P v t none (if ty = .CE then gamma else 0) (decide (ty = .KL)))

/-- supervised.py:190-214 `_policy_loss_stat` -/
def policyLossStat (P : Prims) (dd : DD) (ty : PType) (p t : Mat) (w : Option Mat) (gamma : ℚ) : RawTerm :=
  if ty = .NONE then .mean (scalar dd (p.sum * 0)) p.rows.length
  else if ty = .MSE then
    let l := Mat.zip (fun a b => (a - b) ^ 2) (p.onRows P.softmax) t
    let l := match w with
      | none => l
      | some w => l.zip (· * ·) w
    .mean (scalar dd l.sum) l.numel
  else
    let values := crossEntropyNone P (.two p) (.two t) w (if ty = .CE then gamma else 0) (decide (ty = .KL))
    .mean (scalar dd values.sum) values.length

/-- supervised.py:217-233 `_policy_regularizer_stat`; the shapes are those of the policy. -/
def policyRegStat (dd : DD) (p : Mat) (mask : Option Mat) : RawTerm :=
  match mask with
  | none => .reg (scalar dd p.sum) p.numel
  | some m =>
    let valid := m.map (fun b => if b = 0 then 0 else 1)
    .reg (scalar dd (p.zip (· * ·) valid).sum) ((m.rows.map (fun r => (r.filter (fun b => b ≠ 0)).length)).sum : Nat)

/-- supervised.py:335-349 `_uncertainty_stat` -/
def uncertaintyStat (P : Prims) (dd : DD) (u : List ℚ) (v t : Val) : RawTerm :=
  sumCount dd (List.zipWith P.huber u (uncertaintyGt P v t))

def relUncertaintyStat (P : Prims) (dd : DD) (u : List ℚ) (vs vl t : Val) : RawTerm :=
  sumCount dd (List.zipWith (fun a b => (a - b) ^ 2) u
    (List.zipWith (fun l s => if l < s then l / s else 1) (uncertaintyGt P vl t) (uncertaintyGt P vs t)))

/-- supervised.py:133-139 `_evaluation_mask` -/
def evaluationMask (b : Batch) : Except String (List Bool) :=
  match b.isReal with
  | none => .ok (List.replicate b.value.rows.length true)
  | some m => if m.length ≠ b.value.rows.length then .error "is_real must contain one flag per evaluation row"
    else .ok m

/-- supervised.py:624-693 the loop body for one auxiliary loss: name, weight, statistic, dependence -/
def evalAux (P : Prims) (dd : DD) (cfg : Cfg) (sel : List Bool) (name : String) (vtarget ptarget : Mat)
    (mask weight : Option Mat) (kd : Bool) (a : Aux) : Except String (Option (String × ℚ × RawTerm × Bool)) :=
  let w := cfg.lambdas name
  match a with
  | .opaque _ => .error "evaluation auxiliary loss is opaque"
  | .valueLoss m =>
    let m := m.selected sel
    let m := if kd then m.map (· / cfg.kdT) else m
    let vv := convertValueTarget m vtarget
    .ok (some (name ++ "_loss", w.getD cfg.valueLambda, valueLossStat P dd cfg.vtype vv.1 vv.2 cfg.valueGamma, true))
  | .policyLoss m =>
    if cfg.ptype = .NONE then .ok none
    else match preparePolicy (m.selected sel) ptarget mask with
      | .error e => .error e
      | .ok (p, t) =>
        let p := if kd then p.map (· / cfg.kdT) else p
        .ok (some (name ++ "_loss", w.getD cfg.policyLambda,
          policyLossStat P dd cfg.ptype p t weight cfg.policyGamma, true))
  | .uncertainty u v t =>
    .ok (some (name ++ "_loss", w.getD 1,
      uncertaintyStat P dd (selected1 u sel) (v.selected sel) (t.selected sel), false))
  | .relUncertainty u vs vl t =>
    .ok (some (name ++ "_loss", w.getD 1,
      relUncertaintyStat P dd (selected1 u sel) (vs.selected sel) (vl.selected sel) (t.selected sel), false))
  | .policyReg m =>
    if w = none ∧ cfg.regLambda = 0 then .ok none
    else .ok (some (name, w.getD cfg.regLambda, policyRegStat dd (m.selected sel) mask, false))
  | .vq _ slots => .ok (some (name ++ "_loss", w.getD 1, .vq slots, false))
  | .unsupported => .error "Unsupported predefined aux loss"

/-- supervised.py:622-695 the loop over the auxiliary losses -/
def evalAuxLoop (P : Prims) (dd : DD) (cfg : Cfg) (sel : List Bool) (vtarget ptarget : Mat)
    (mask weight : Option Mat) (kd : Bool) :
    List (String × Aux) → List (RawTerm × Bool × ℚ) → Dict RawTerm →
      Except String (List (RawTerm × Bool × ℚ) × Dict RawTerm)
  | [], terms, d => .ok (terms, d)
  | (name, a) :: rest, terms, d =>
    match evalAux P dd cfg sel name vtarget ptarget mask weight kd a with
    | .error e => .error e
    | .ok none => evalAuxLoop P dd cfg sel vtarget ptarget mask weight kd rest terms d
    | .ok (some (pname, w, s, dep)) =>
      evalAuxLoop P dd cfg sel vtarget ptarget mask weight kd rest (terms ++ [(s, dep, w)]) (setKey d pname s)

/-- supervised.py:553-695 `_compute_evaluation_terms`. -/
def evaluationTerms (P : Prims) (dd : DD) (cfg : Cfg) (b : Batch) (teacher : Option (Mat × Mat)) :
    Except String (List (RawTerm × Bool × ℚ) × Dict RawTerm) :=
  match evaluationMask b with
  | .error e => .error e
  | .ok sel =>
    let value := { b.value with rows := select b.value.rows sel }
    let policy := { b.policy with rows := select b.policy.rows sel }
    let mask := b.boardMask.map (fun m => m.selected sel)
    let vtarget := match teacher with
      | none => b.valueTarget.selected sel
      | some t => t.1.selected sel
    let ptarget := match teacher with
      | none => b.policyTarget.selected sel
      | some t => t.2.selected sel
    let vv := match teacher with
      | some _ => applyKdTemperature P value vtarget cfg.kdT
      | none => (value, vtarget)
    let cv := convertValueTarget vv.1 vv.2
    let vstat := valueLossStat P dd cfg.vtype cv.1 cv.2 cfg.valueGamma
    match preparePolicy policy ptarget mask with
    | .error e => .error e
    | .ok (p, pt) =>
      let pp := match teacher with
        | some _ => kdPolicy P p pt mask cfg.kdT
        | none => (p, pt)
      let weight := policyWeight cfg (b.forbidden.selected sel)
      let pstat := policyLossStat P dd cfg.ptype pp.1 pp.2 weight cfg.policyGamma
      let terms := [(vstat, true, cfg.valueLambda), (pstat, true, cfg.policyLambda)]
      let d : Dict RawTerm := [("value_loss", vstat), ("policy_loss", pstat)]
      let reg := policyRegStat dd policy mask
      let terms := if cfg.regLambda > 0 then terms ++ [(reg, false, cfg.regLambda)] else terms
      let d := if cfg.regLambda > 0 then setKey d "policy_reg" reg else d
      evalAuxLoop P dd cfg sel vv.2 pp.2 mask weight teacher.isSome b.aux terms d

/-- supervised.py:752-818 the `total_loss` of `compute_supervised_loss_statistics` (the assembly is
`Total.plainTotal` and `Total.kdTotal`). -/
def totalStatistic (P : Prims) (dd : DD) (cfg : Cfg) (b : Batch) : Except String SufficientStats :=
  match evaluationTerms P dd cfg b b.teacher with
  | .error e => .error e
  | .ok (terms, _) =>
    match b.teacher with
    | none => plainTotal terms
    | some _ =>
      match evaluationTerms P dd cfg b none with
      | .error e => .error e
      | .ok (realTerms, _) => kdTotal terms realTerms cfg.kdAlpha cfg.kdT

/-- supervised.py:752-818 the named losses of `compute_supervised_loss_statistics`, but for `total_loss` -/
def namedStatistics (P : Prims) (dd : DD) (cfg : Cfg) (b : Batch) : Except String (Dict RawTerm) :=
  match evaluationTerms P dd cfg b b.teacher with
  | .error e => .error e
  | .ok (_, d) =>
    match b.teacher with
    | none => .ok d
    | some _ =>
      match evaluationTerms P dd cfg b none with
      | .error e => .error e
      | .ok (_, realD) => .ok (update realD (d.map (fun kv => ("kd_" ++ kv.1, kv.2))))

end Verif.Loss
