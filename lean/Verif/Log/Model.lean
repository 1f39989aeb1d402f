/-
Model of the training metrics: /repo/trainer/base.py `_normalize_train_metrics` (3392-3455), the schema check of
`_synchronize_step_validity` (3473-3493), the sums of `_run_train_step` (3919-3929) and of `run` (4006-4063),
`_gather_train_metrics` (3963-3989), and /repo/utils/misc_utils.py `add_dict_to` (27-37).

All processes are run in lock-step (they meet in the collectives of every micro-step), so a state holds one entry per
process.  Metric values are rational numbers (rounding is left out), all of them scalar tensors; a metric that is not a real
scalar, an exception and a non-finite value end the run (`none`) and are not modelled further.
-/
import Mathlib.Data.String.Basic
import Mathlib.Data.List.Sort
import Mathlib.Data.Rat.Defs
import Mathlib.Algebra.Field.Rat

namespace Verif.Log

/-- a dictionary of scalar metrics, in its insertion order -/
abbrev Dict := List (String × ℚ)

/-- misc_utils.py:27-37, one entry -/
def addEntry (t : Dict) (kv : String × ℚ) : Dict :=
  if kv.1 ∈ t.map Prod.fst then t.map (fun p => if p.1 = kv.1 then (p.1, p.2 + kv.2) else p) else t ++ [kv]

/-- misc_utils.py:27-37 `add_dict_to` -/
def addDict (t d : Dict) : Dict := d.foldl addEntry t

/-- base.py:3455 `dict(sorted(normalized.items()))` -/
def normalize (d : Dict) : Dict := d.insertionSort (fun a b => a.1 ≤ b.1)

/-- base.py:3454-3455 (the dtype and the device type are left out) -/
def schemaOf (d : Dict) : List String := (d.map Prod.fst).insertionSort (· ≤ ·)

/-- `loss_schema + aux_schema` (the two name spaces are kept apart) -/
abbrev Schema := List String × List String

/-- base.py:3474-3493 for all processes: the schema of the first micro-step is compared between the processes and kept; later
ones are compared with the kept one.  An error in one process is an error in all (3574-3601). -/
def checkSchema (expected : Option (List Schema)) (now : List Schema) : Option (List Schema) :=
  match expected with
  | none => if now.tail.all (fun s => decide (some s = now.head?)) = true then some now else none
  | some e => if now = e then some e else none

/-- the losses and the auxiliary metrics of one process -/
abbrev Pair := Dict × Dict

def addPair (t d : Pair) : Pair := (addDict t.1 d.1, addDict t.2 d.2)

def scaleDict (c : ℚ) (d : Dict) : Dict := d.map fun p => (p.1, p.2 / c)

/-- one iteration as the models deliver it: for every micro-step and process the two dictionaries, and for every process the
norm of the gradients -/
structure Iter where
  micros : List (List Pair)
  norms : List ℚ

structure Cfg where
  /-- number of processes -/
  procs : Nat
  /-- `gradient_accumulation_steps` -/
  accum : Nat
  logInterval : Nat
  showInterval : Nat
  /-- `clip_grad_norm is not None` -/
  clipNorm : Bool

/-- the micro-steps of base.py:3725-3921: check, then add -/
def runMicros (expected : Option (List Schema)) (totals : List Pair) : List (List Pair) → Option (Option (List Schema) × List Pair)
  | [] => some (expected, totals)
  | m :: ms =>
    match checkSchema expected (m.map fun d => (schemaOf d.1, schemaOf d.2)) with
    | none => none
    | some e => runMicros (some e) (List.zipWith addPair totals (m.map fun d => (normalize d.1, normalize d.2))) ms

/-- base.py:3923-3926 -/
def average (cfg : Cfg) (t : Pair) : Pair :=
  if 1 < cfg.accum then (scaleDict cfg.accum t.1, scaleDict cfg.accum t.2) else t

/-- base.py:3927-3928: `total_aux_dict["grad_norm"] = …` -/
def setNorm (cfg : Cfg) (n : ℚ) (t : Pair) : Pair :=
  if cfg.clipNorm = false then t
  else if "grad_norm" ∈ t.2.map Prod.fst then (t.1, t.2.map fun p => if p.1 = "grad_norm" then (p.1, n) else p)
  else (t.1, t.2 ++ [("grad_norm", n)])

/-- base.py:3963-3989 `_gather_train_metrics`: `values` of a process -/
def localValues (count : Nat) (t : Pair) : List ℚ := (t.1.map fun p => p.2 / (count : ℚ)) ++ (t.2.map fun p => p.2 / (count : ℚ))

/-- the row `i` of `gathered.reshape(n, len)` -/
def row (flat : List ℚ) (len i : Nat) : List ℚ := (flat.drop (i * len)).take len

/-- `.mean(dim=0)` -/
def meanRows (n len : Nat) (flat : List ℚ) : List ℚ :=
  (List.range len).map fun j => ((List.range n).map fun i => (row flat len i).getD j 0).sum / (n : ℚ)

/-- what every process returns; `self` is its own entry (its keys name the result) -/
def gather (cfg : Cfg) (count : Nat) (sums : List Pair) (self : Pair) : Pair :=
  let values := localValues count self
  if values = [] then ([], [])
  else
    let host := meanRows cfg.procs values.length (sums.flatMap (localValues count))
    ((self.1.map Prod.fst).zip (host.take self.1.length), (self.2.map Prod.fst).zip (host.drop self.1.length))

inductive Event where
  | log (iteration : Nat) (metrics : Pair)
  | show (iteration : Nat) (metrics : Pair)

structure St where
  iteration : Nat
  expected : Option (List Schema)
  sums : List Pair
  count : Nat

/-- base.py:4006-4007 -/
def start (cfg : Cfg) (iteration : Nat) : St := ⟨iteration, none, List.replicate cfg.procs ([], []), 0⟩

/-- base.py:4014-4063, one pass of the loop; events are those of process 0, which writes the log -/
def step (cfg : Cfg) (s : St) (x : Iter) : Option (St × List Event) :=
  match runMicros s.expected (List.replicate cfg.procs ([], [])) x.micros with
  | none => none
  | some (e, totals) =>
    let it := s.iteration + 1
    let sums := List.zipWith addPair s.sums (List.zipWith (setNorm cfg) x.norms (totals.map (average cfg)))
    let count := s.count + 1
    if it % cfg.logInterval = 0 ∨ it % cfg.showInterval = 0 then
      let m := gather cfg count sums (sums.headD ([], []))
      some (⟨it, e, List.replicate cfg.procs ([], []), 0⟩,
        (if it % cfg.logInterval = 0 then [Event.log it m] else []) ++ (if it % cfg.showInterval = 0 then [Event.show it m] else []))
    else some (⟨it, e, sums, count⟩, [])

/-- the loop -/
def run (cfg : Cfg) (s : St) : List Iter → Option (St × List Event)
  | [] => some (s, [])
  | x :: xs =>
    match step cfg s x with
    | none => none
    | some (s', ev) =>
      match run cfg s' xs with
      | none => none
      | some (s'', ev') => some (s'', ev ++ ev')

end Verif.Log
