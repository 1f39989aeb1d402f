import Verif.Stats.Model
import Mathlib.Data.List.Dedup

/-
Model of the validation total loss. Producers: /repo/trainer/loss/supervised.py:158-163 (`_sum_count`),
217-233 (`_policy_regularizer_stat`, its constructor call), 236-332 (`_vq_loss_stat`),
352-389 (`_add_composition_term`), 392-401 (`_scale_vq_stat`), 698-727 (`_composition_stat`) and the
assembly of `total_loss` in `compute_supervised_loss_statistics` (764-818). Consumers:
/repo/dataset/core.py:992-1159 (the schema check of `SufficientStats`) and 1162-1404 (the finalizers
`vq_composition_v1`, `loss_composition_v1`, `kd_total_v1`).

Simplifications. Elements are exact rationals; `torch.log` is the parameter `log`; `torch.finfo.eps` is the
parameter `eps` (as in Verif.Stats). Dictionaries are association lists in insertion order, sets are
duplicate-free lists (`List.dedup`), strings are Lean strings. The metadata of the result of an
arithmetic operation is that of its first operand (type promotion is not modelled). Python `KeyError`s
are errors. Type tests (`isinstance`) are in the types.
-/

namespace Verif.Total

open Verif.Stats

abbrev Dict (α : Type) := List (String × α)

/-- the keys of a dictionary -/
def names {α : Type} (d : Dict α) : List String := d.map Prod.fst

/-- `d[k] = v` -/
def setKey {α : Type} (d : Dict α) (k : String) (v : α) : Dict α :=
  if k ∈ names d then d.map (fun kv => if kv.1 = k then (k, v) else kv) else d ++ [(k, v)]

/-- `d.update(e)` -/
def update {α : Type} (d e : Dict α) : Dict α := e.foldl (fun d kv => setKey d kv.1 kv.2) d

/-- `key[len(p):] if key.startswith(p)` -/
def stripPrefix (p k : String) : Option String :=
  if p.toList.isPrefixOf k.toList then some (String.ofList (k.toList.drop p.toList.length)) else none

/-- `s.split(":", 1)[0]` -/
def beforeColon (s : String) : String := String.ofList (s.toList.takeWhile (fun c => c != ':'))

/-- `s.split(":", 1)[1]` (of a string with a colon) -/
def afterColon (s : String) : String := String.ofList ((s.toList.dropWhile (fun c => c != ':')).drop 1)

/-- `f"{n:04d}"` -/
def pad4 (n : Nat) : String :=
  String.ofList (List.replicate (4 - (Nat.toDigits 10 n).length) '0' ++ Nat.toDigits 10 n)

/-- `sorted(ids)`: strings by code points -/
def sortIds (ids : List String) : List String := ids.mergeSort (fun a b => decide (a ≤ b))

/-- equality of the sets of the elements -/
def eqSet (a b : List String) : Bool := a.all (fun x => b.contains x) && b.all (fun x => a.contains x)

/-- core.py:992-997 `_schema_ids`. -/
def schemaIds {α : Type} (d : Dict α) (p : String) : List String :=
  ((names d).filterMap (stripPrefix p)).dedup

/-- core.py:1239-1257 `_extract_nested_stats`, one of the two dictionaries. -/
def extract {α : Type} (d : Dict α) (p : String) : Dict α :=
  d.filterMap (fun kv => (stripPrefix p kv.1).map (fun k => (k, kv.2)))

/-- core.py:1074-1079, 1312-1317 the ids of the nested statistics. -/
def vqIds {α : Type} (d : Dict α) (group : String) : List String :=
  (((names d).filterMap (stripPrefix ("vq:" ++ group ++ "."))).map beforeColon).dedup

/-! ### The schema check (core.py:1000-1159) -/

/-- core.py:1009-1016 -/
def slotTensorKeys (id : String) : List String :=
  ["embed_sum:" ++ id, "commit_sum:" ++ id, "slot_weight_sum:" ++ id, "slot_weight_square_sum:" ++ id,
   "commit_weight_sum:" ++ id, "commit_weight_square_sum:" ++ id]

/-- core.py:1017-1021 -/
def slotCountKeys (id : String) : List String :=
  ["elements:" ++ id, "vectors:" ++ id, "constant_replicas:" ++ id]

/-- core.py:1024-1028 -/
def entropyKeys (id : String) : List String :=
  ["probability_sum:" ++ id, "entropy_weight_sum:" ++ id, "entropy_weight_square_sum:" ++ id]

/-- core.py:1029-1035 one slot: the names to expect, or the refusal of an incomplete entropy schema. -/
def slotSchema (tn : List String) (id : String) : Except String (List String) :=
  let present := (entropyKeys id).filter (fun k => tn.contains k)
  if present.isEmpty then .ok (slotTensorKeys id)
  else if eqSet present (entropyKeys id) = false then .error "incomplete entropy schema"
  else .ok (slotTensorKeys id ++ entropyKeys id)

/-- the loop of core.py:1008-1035 -/
def slotsSchema (tn : List String) : List String → Except String (List String)
  | [] => .ok []
  | id :: rest =>
    match slotSchema tn id with
    | .error e => .error e
    | .ok a => match slotsSchema tn rest with
      | .error e => .error e
      | .ok b => .ok (a ++ b)

/-- core.py:1000-1038 `_vq_schema`. -/
def vqSchema (T : Dict (Ten ℚ)) (C : Dict Int) : Except String Unit :=
  let ids := schemaIds T "embed_sum:"
  if ids.isEmpty then .error "vq_composition_v1 requires at least one slot"
  else match slotsSchema (names T) ids with
    | .error e => .error e
    | .ok expT =>
      if eqSet (names T) expT && eqSet (names C) (ids.flatMap slotCountKeys) then .ok ()
      else .error "vq_composition_v1 has an invalid schema"

/-- core.py:1051-1056 and 1064-1069: the names of a mean, or of a regularizer -/
def termTensorKeys (kind pfx : String) : List String :=
  [kind ++ "_sum:" ++ pfx, kind ++ "_weight_sum:" ++ pfx, kind ++ "_weight_square_sum:" ++ pfx]

/-- core.py:1058-1060 -/
def meanCountKeys (pfx : String) : List String := ["mean_count:" ++ pfx, "mean_replicas:" ++ pfx]

/-- core.py:1071-1073 -/
def regCountKeys (pfx : String) : List String := ["reg_cells:" ++ pfx, "reg_replicas:" ++ pfx]

/-- core.py:1080-1084: the nested statistics must have the VQ schema themselves -/
def nestedSchemas (T : Dict (Ten ℚ)) (C : Dict Int) (group : String) : List String → Except String Unit
  | [] => .ok ()
  | id :: rest =>
    let p := "vq:" ++ group ++ "." ++ id ++ ":"
    match vqSchema (extract T p) (extract C p) with
    | .error e => .error e
    | .ok _ => nestedSchemas T C group rest

/-- core.py:1041-1093 `_composition_schema`: expected tensor names, expected count names, `has_terms`. -/
def compositionSchema (T : Dict (Ten ℚ)) (C : Dict Int) (group : String) :
    Except String (List String × List String × Bool) :=
  let mids := schemaIds T ("mean_sum:" ++ group ++ ".")
  let rids := schemaIds T ("reg_sum:" ++ group ++ ".")
  let vids := vqIds T group
  match nestedSchemas T C group vids with
  | .error e => .error e
  | .ok _ =>
    .ok (mids.flatMap (fun i => termTensorKeys "mean" (group ++ "." ++ i)) ++
         rids.flatMap (fun i => termTensorKeys "reg" (group ++ "." ++ i)) ++
         vids.flatMap (fun i => (names (extract T ("vq:" ++ group ++ "." ++ i ++ ":"))).map
           (fun k => "vq:" ++ group ++ "." ++ i ++ ":" ++ k)),
         mids.flatMap (fun i => meanCountKeys (group ++ "." ++ i)) ++
         rids.flatMap (fun i => regCountKeys (group ++ "." ++ i)) ++
         vids.flatMap (fun i => (names (extract C ("vq:" ++ group ++ "." ++ i ++ ":"))).map
           (fun k => "vq:" ++ group ++ "." ++ i ++ ":" ++ k)),
         !mids.isEmpty || !rids.isEmpty || !vids.isEmpty)

/-- core.py:1132-1137, 1353-1358 -/
def kdTensorKeys : List String :=
  ["kd_alpha_sum", "kd_alpha_square_sum", "kd_temperature_sum", "kd_temperature_square_sum"]

/-- core.py:1138, 1359 -/
def kdCountKeys : List String := ["kd_config_replicas"]

/-- core.py:1096-1159 `_validate_sufficient_stats_schema` (the simple schemas are `Stats.simpleSchema`). -/
def validSchema (s : SufficientStats) : Bool :=
  let T := s.tensors
  let C := s.counts
  if s.finalizer = "vq_composition_v1" then (vqSchema T C).isOk
  else if s.finalizer = "loss_composition_v1" then
    match compositionSchema T C "all" with
    | .error _ => false
    | .ok (et, ec, has) => has && eqSet (names T) et && eqSet (names C) ec
  else if s.finalizer = "kd_total_v1" then
    match compositionSchema T C "kd", compositionSchema T C "real", compositionSchema T C "independent" with
    | .ok (kt, kc, kh), .ok (rt, rc, rh), .ok (it, ic, _) =>
      kh && rh && eqSet (names T) (kdTensorKeys ++ kt ++ rt ++ it) &&
        eqSet (names C) (kdCountKeys ++ kc ++ rc ++ ic)
    | _, _, _ => false
  else simpleSchema s

/-! ### The finalizers (core.py:1162-1404) -/

/-- `tensors[k]` -/
def lookup (T : Dict (Ten ℚ)) (k : String) : Except String (Ten ℚ) :=
  match get? k T with
  | some t => .ok t
  | none => .error "KeyError"

/-- `counts.get(k, 0)` -/
def countOf (C : Dict Int) (k : String) : Int := (get? k C).getD 0

/-- core.py:957-975 `_constant_mean` with its dictionary lookups. -/
def constMean (eps : ℚ) (T : Dict (Ten ℚ)) (C : Dict Int) (sumKey sqKey repKey : String) :
    Except String (Ten ℚ) :=
  match lookup T sumKey, lookup T sqKey with
  | .ok a, .ok b => constantMean eps a b (countOf C repKey)
  | _, _ => .error "KeyError"

/-- `x / n` -/
def divBy (x : Ten ℚ) (n : Int) : Ten ℚ := x.map (fun v => v / (n : ℚ))

/-- core.py:1227-1229 `(probability * torch.log(probability.clamp_min(1e-7))).sum()` -/
def entropyReg (log : ℚ → ℚ) (p : Ten ℚ) : Ten ℚ :=
  ⟨[], p.dtype, p.device, [(p.data.map (fun x => x * log (max x (1 / 10 ^ 7)))).sum]⟩

/-- core.py:1187-1208 the value of one slot, without its entropy part -/
def slotBase (eps : ℚ) (T : Dict (Ten ℚ)) (C : Dict Int) (id : String) : Except String (Ten ℚ) :=
  let elements := countOf C ("elements:" ++ id)
  let vectors := countOf C ("vectors:" ++ id)
  if elements ≤ 0 ∨ vectors ≤ 0 then .error "VQ slot has no selected entries"
  else match constMean eps T C ("commit_weight_sum:" ++ id) ("commit_weight_square_sum:" ++ id)
      ("constant_replicas:" ++ id), lookup T ("embed_sum:" ++ id), lookup T ("commit_sum:" ++ id) with
    | .ok cw, .ok e, .ok c => .ok (divBy (e.zip (· + ·) (cw.zip (· * ·) c)) elements)
    | _, _, _ => .error "slot"

/-- core.py:1210-1230 the entropy part added to the slot value -/
def slotEntropy (eps : ℚ) (log : ℚ → ℚ) (T : Dict (Ten ℚ)) (C : Dict Int) (id : String) (base : Ten ℚ) :
    Except String (Ten ℚ) :=
  let present := (entropyKeys id).filter (fun k => (names T).contains k)
  if present.isEmpty then .ok base
  else if eqSet present (entropyKeys id) = false then .error "incomplete entropy schema"
  else match constMean eps T C ("entropy_weight_sum:" ++ id) ("entropy_weight_square_sum:" ++ id)
      ("constant_replicas:" ++ id), lookup T ("probability_sum:" ++ id) with
    | .ok ew, .ok p =>
      .ok (base.zip (· + ·) (ew.zip (· * ·) (entropyReg log (divBy p (countOf C ("vectors:" ++ id))))))
    | _, _ => .error "entropy"

/-- core.py:1171-1232 the body of the slot loop -/
def slotValue (eps : ℚ) (log : ℚ → ℚ) (T : Dict (Ten ℚ)) (C : Dict Int) (id : String) :
    Except String (Ten ℚ) :=
  match slotBase eps T C id with
  | .error e => .error e
  | .ok base =>
    match slotEntropy eps log T C id base with
    | .error e => .error e
    | .ok value =>
      match constMean eps T C ("slot_weight_sum:" ++ id) ("slot_weight_square_sum:" ++ id)
          ("constant_replicas:" ++ id) with
      | .error e => .error e
      | .ok w => .ok (w.zip (· * ·) value)

/-- `result = value if result is None else result + value` over a loop whose body computes `value` -/
def addAll (value : String → Except String (Ten ℚ)) :
    Option (Ten ℚ) → List String → Except String (Option (Ten ℚ))
  | acc, [] => .ok acc
  | acc, id :: rest =>
    match value id with
    | .error e => .error e
    | .ok v => match acc with
      | none => addAll value (some v) rest
      | some r => addAll value (some (r.zip (· + ·) v)) rest

/-- core.py:1162-1236 `_finalize_vq_composition`. -/
def finalizeVq (eps : ℚ) (log : ℚ → ℚ) (T : Dict (Ten ℚ)) (C : Dict Int) : Except String (Ten ℚ) :=
  let ids := schemaIds T "embed_sum:"
  if ids.isEmpty then .error "vq_composition_v1 requires at least one slot"
  else match addAll (slotValue eps log T C) none (sortIds ids) with
    | .ok (some v) =>
      match slotsSchema (names T) ids with
      | .error e => .error e
      | .ok expT =>
        if eqSet (names T) expT && eqSet (names C) (ids.flatMap slotCountKeys) then .ok v
        else .error "vq_composition_v1 has an invalid schema"
    | .ok none => .error "unreachable"
    | .error e => .error e

/-- core.py:1271-1289 the value of one mean -/
def meanValue (eps : ℚ) (T : Dict (Ten ℚ)) (C : Dict Int) (group id : String) : Except String (Ten ℚ) :=
  let pfx := group ++ "." ++ id
  let n := countOf C ("mean_count:" ++ pfx)
  if n ≤ 0 then .error "composition mean has no values"
  else match constMean eps T C ("mean_weight_sum:" ++ pfx) ("mean_weight_square_sum:" ++ pfx)
      ("mean_replicas:" ++ pfx), lookup T ("mean_sum:" ++ pfx) with
    | .ok w, .ok s => .ok (divBy (w.zip (· * ·) s) n)
    | _, _ => .error "mean"

/-- core.py:1294-1311 the value of one regularizer -/
def regValue (eps : ℚ) (T : Dict (Ten ℚ)) (C : Dict Int) (group id : String) : Except String (Ten ℚ) :=
  let pfx := group ++ "." ++ id
  let n := countOf C ("reg_cells:" ++ pfx)
  if n ≤ 0 then .error "composition regularizer has no cells"
  else match constMean eps T C ("reg_weight_sum:" ++ pfx) ("reg_weight_square_sum:" ++ pfx)
      ("reg_replicas:" ++ pfx), lookup T ("reg_sum:" ++ pfx) with
    | .ok w, .ok s => .ok (w.zip (· * ·) ((divBy s n).map (fun x => x ^ 2)))
    | _, _ => .error "regularizer"

/-- core.py:1319-1330 the value of one nested VQ statistic -/
def vqValue (eps : ℚ) (log : ℚ → ℚ) (T : Dict (Ten ℚ)) (C : Dict Int) (group id : String) :
    Except String (Ten ℚ) :=
  let p := "vq:" ++ group ++ "." ++ id ++ ":"
  finalizeVq eps log (extract T p) (extract C p)

/-- the names that core.py:1260-1332 adds to `expected_tensors` for one group -/
def expectedTensors (T : Dict (Ten ℚ)) (group : String) : List String :=
  (schemaIds T ("mean_sum:" ++ group ++ ".")).flatMap (fun i => termTensorKeys "mean" (group ++ "." ++ i)) ++
  (schemaIds T ("reg_sum:" ++ group ++ ".")).flatMap (fun i => termTensorKeys "reg" (group ++ "." ++ i)) ++
  (vqIds T group).flatMap (fun i => (names (extract T ("vq:" ++ group ++ "." ++ i ++ ":"))).map
    (fun k => "vq:" ++ group ++ "." ++ i ++ ":" ++ k))

/-- the names that core.py:1260-1332 adds to `expected_counts` for one group -/
def expectedCounts (T : Dict (Ten ℚ)) (C : Dict Int) (group : String) : List String :=
  (schemaIds T ("mean_sum:" ++ group ++ ".")).flatMap (fun i => meanCountKeys (group ++ "." ++ i)) ++
  (schemaIds T ("reg_sum:" ++ group ++ ".")).flatMap (fun i => regCountKeys (group ++ "." ++ i)) ++
  (vqIds T group).flatMap (fun i => (names (extract C ("vq:" ++ group ++ "." ++ i ++ ":"))).map
    (fun k => "vq:" ++ group ++ "." ++ i ++ ":" ++ k))

/-- core.py:1260-1332 `_finalize_composition_group`. -/
def finalizeGroup (eps : ℚ) (log : ℚ → ℚ) (T : Dict (Ten ℚ)) (C : Dict Int) (group : String) :
    Except String (Option (Ten ℚ)) :=
  match addAll (meanValue eps T C group) none (sortIds (schemaIds T ("mean_sum:" ++ group ++ "."))) with
  | .error e => .error e
  | .ok r1 =>
    match addAll (regValue eps T C group) r1 (sortIds (schemaIds T ("reg_sum:" ++ group ++ "."))) with
    | .error e => .error e
    | .ok r2 => addAll (vqValue eps log T C group) r2 (sortIds (vqIds T group))

/-- core.py:1335-1347 `_finalize_loss_composition`. -/
def finalizeLoss (eps : ℚ) (log : ℚ → ℚ) (T : Dict (Ten ℚ)) (C : Dict Int) : Except String (Ten ℚ) :=
  match finalizeGroup eps log T C "all" with
  | .error e => .error e
  | .ok none => .error "loss_composition_v1 requires at least one term"
  | .ok (some v) =>
    if eqSet (names T) (expectedTensors T "all") && eqSet (names C) (expectedCounts T C "all") then .ok v
    else .error "loss_composition_v1 has an invalid tensor/count schema"

/-- core.py:1386-1391 the formula of the KD total -/
def kdFormula (alpha temperature kd real : Ten ℚ) (indep : Option (Ten ℚ)) : Ten ℚ :=
  (((alpha.zip (· * ·) (temperature.map (fun x => x ^ 2))).zip (· * ·) kd).zip (· + ·)
    ((alpha.map (fun a => 1 - a)).zip (· * ·) real)).zip (· + ·)
    (indep.getD ⟨[], kd.dtype, kd.device, [0]⟩)

/-- core.py:1350-1394 `_finalize_kd_total`. -/
def finalizeKd (eps : ℚ) (log : ℚ → ℚ) (T : Dict (Ten ℚ)) (C : Dict Int) : Except String (Ten ℚ) :=
  if (kdTensorKeys.all (fun k => (names T).contains k) && kdCountKeys.all (fun k => (names C).contains k))
      = false then .error "kd_total_v1 has an invalid configuration schema"
  else match constMean eps T C "kd_alpha_sum" "kd_alpha_square_sum" "kd_config_replicas",
      constMean eps T C "kd_temperature_sum" "kd_temperature_square_sum" "kd_config_replicas" with
    | .ok alpha, .ok temp =>
      match finalizeGroup eps log T C "kd", finalizeGroup eps log T C "real",
          finalizeGroup eps log T C "independent" with
      | .ok (some kd), .ok (some real), .ok indep =>
        if eqSet (names T) (kdTensorKeys ++ expectedTensors T "kd" ++ expectedTensors T "real" ++
              expectedTensors T "independent") &&
            eqSet (names C) (kdCountKeys ++ expectedCounts T C "kd" ++ expectedCounts T C "real" ++
              expectedCounts T C "independent")
        then .ok (kdFormula alpha temp kd real indep)
        else .error "kd_total_v1 has an invalid tensor/count schema"
      | _, _, _ => .error "kd_total_v1 requires KD and real target terms"
    | _, _ => .error "configuration"

/-- core.py:936-937 `SufficientStats.finalize` and 1397-1404 `FINALIZERS`. -/
def finalize (eps : ℚ) (log : ℚ → ℚ) (s : SufficientStats) : Except String (Ten ℚ) :=
  if s.finalizer = "vq_composition_v1" then finalizeVq eps log s.tensors s.counts
  else if s.finalizer = "loss_composition_v1" then finalizeLoss eps log s.tensors s.counts
  else if s.finalizer = "kd_total_v1" then finalizeKd eps log s.tensors s.counts
  else s.finalizeSimple eps

/-! ### The producers (trainer/loss/supervised.py) -/

/-- One slot of the VQ sidecar (supervised.py:248-257). -/
structure RawSlot where
  id : String
  slotWeight : ℚ
  embedSum : Ten ℚ
  commitSum : Ten ℚ
  elements : Int
  vectors : Int
  commitmentWeight : ℚ
  entropyWeight : ℚ
  probabilitySum : Option (Ten ℚ)

/-- `t.new_tensor(x)` -/
def newTensor (t : Ten ℚ) (x : ℚ) : Ten ℚ := ⟨[], t.dtype, t.device, [x]⟩

/-- supervised.py:280-305 the entries of one slot, in insertion order -/
def slotEntries (s : RawSlot) (outer : ℚ) : Dict (Ten ℚ) × Dict Int :=
  ([("embed_sum:" ++ s.id, s.embedSum), ("commit_sum:" ++ s.id, s.commitSum),
    ("slot_weight_sum:" ++ s.id, newTensor s.embedSum (s.slotWeight * outer)),
    ("slot_weight_square_sum:" ++ s.id, newTensor s.embedSum ((s.slotWeight * outer) ^ 2)),
    ("commit_weight_sum:" ++ s.id, newTensor s.embedSum s.commitmentWeight),
    ("commit_weight_square_sum:" ++ s.id, newTensor s.embedSum (s.commitmentWeight ^ 2))],
   [("elements:" ++ s.id, s.elements), ("vectors:" ++ s.id, s.vectors),
    ("constant_replicas:" ++ s.id, 1)])

/-- supervised.py:306-329 the entropy entries of one slot -/
def slotEntropyEntries (s : RawSlot) : Except String (Dict (Ten ℚ)) :=
  if s.entropyWeight ≠ 0 then
    match s.probabilitySum with
    | none => .error "VQ slot requires a probability-sum vector"
    | some p =>
      if p.shape.length ≠ 1 then .error "VQ slot requires a probability-sum vector"
      else .ok [("probability_sum:" ++ s.id, p),
        ("entropy_weight_sum:" ++ s.id, newTensor s.embedSum s.entropyWeight),
        ("entropy_weight_square_sum:" ++ s.id, newTensor s.embedSum (s.entropyWeight ^ 2))]
  else match s.probabilitySum with
    | none => .ok []
    | some _ => .error "VQ slot provides probabilities with zero entropy weight"

/-- supervised.py:247-329 the slot loop -/
def slotLoop (outer : ℚ) (T : Dict (Ten ℚ)) (C : Dict Int) :
    List RawSlot → Except String (Dict (Ten ℚ) × Dict Int)
  | [] => .ok (T, C)
  | s :: rest =>
    if s.id = "" ∨ ':' ∈ s.id.toList then .error "invalid VQ slot id"
    else if ("embed_sum:" ++ s.id) ∈ names T then .error "duplicate VQ slot id"
    else if s.embedSum.shape ≠ [] ∨ s.commitSum.shape ≠ [] then .error "VQ slot sums must be scalar tensors"
    else if s.elements < 0 ∨ s.vectors < 0 then .error "VQ slot has invalid counts"
    else match slotEntropyEntries s with
      | .error e => .error e
      | .ok ent => slotLoop outer (update (update T (slotEntries s outer).1) ent)
          (update C (slotEntries s outer).2) rest

/-- supervised.py:236-332 `_vq_loss_stat` (`outer_weight` is 1 at every call). -/
def vqLossStat (slots : List RawSlot) : Except String SufficientStats :=
  if slots.isEmpty then .error "VQ auxiliary has an invalid loss sidecar"
  else match slotLoop 1 [] [] slots with
    | .error e => .error e
    | .ok (T, C) => SufficientStats.mk? validSchema
        { scope := .globalBatch, finalizer := "vq_composition_v1", tensors := T, counts := C }

/-- supervised.py:392-401 `_scale_vq_stat`: the loop over the keys, in order. -/
def scaleVq (weight : ℚ) : List String → Dict (Ten ℚ) → Except String (Dict (Ten ℚ))
  | [], T => .ok T
  | k :: rest, T =>
    match stripPrefix "slot_weight_sum:" k with
    | none => scaleVq weight rest T
    | some _ =>
      let id := afterColon k
      match lookup T k with
      | .error e => .error e
      | .ok v =>
        let T1 := setKey T k (v.map (· * weight))
        match lookup T1 ("slot_weight_square_sum:" ++ id) with
        | .error e => .error e
        | .ok q => scaleVq weight rest (setKey T1 ("slot_weight_square_sum:" ++ id) (q.map (· * weight ^ 2)))

/-- supervised.py:352-389 `_add_composition_term`. -/
def addTerm (T : Dict (Ten ℚ)) (C : Dict Int) (group : String) (ordinal : Nat) (stat : Stat) (weight : ℚ) :
    Except String (Dict (Ten ℚ) × Dict Int) :=
  let pfx := group ++ "." ++ pad4 ordinal
  match stat with
  | .sc s =>
    .ok (setKey (setKey (setKey T ("mean_sum:" ++ pfx) s.sum)
          ("mean_weight_sum:" ++ pfx) (newTensor s.sum weight))
          ("mean_weight_square_sum:" ++ pfx) (newTensor s.sum (weight ^ 2)),
        setKey (setKey C ("mean_count:" ++ pfx) s.count) ("mean_replicas:" ++ pfx) 1)
  | .ss s =>
    if s.finalizer = "policy_mean_square_v1" then
      match get? "valid_logit_sum" s.tensors, get? "valid_cells" s.counts with
      | some v, some n =>
        .ok (setKey (setKey (setKey T ("reg_sum:" ++ pfx) v)
              ("reg_weight_sum:" ++ pfx) (newTensor v weight))
              ("reg_weight_square_sum:" ++ pfx) (newTensor v (weight ^ 2)),
            setKey (setKey C ("reg_cells:" ++ pfx) n) ("reg_replicas:" ++ pfx) 1)
      | _, _ => .error "KeyError"
    else if s.finalizer = "vq_composition_v1" then
      match scaleVq weight (names s.tensors) s.tensors with
      | .error e => .error e
      | .ok scaled =>
        let p := "vq:" ++ pfx ++ ":"
        .ok (update T (scaled.map (fun kv => (p ++ kv.1, kv.2))),
             update C (s.counts.map (fun kv => (p ++ kv.1, kv.2))))
    else .error "unsupported total-loss statistic"
  | .mx _ => .error "unsupported total-loss statistic"

/-- supervised.py:701-709 the loop of `_composition_stat` -/
def addTerms (T : Dict (Ten ℚ)) (C : Dict Int) :
    Nat → List (String × Stat × ℚ) → Except String (Dict (Ten ℚ) × Dict Int)
  | _, [] => .ok (T, C)
  | n, (g, s, w) :: rest =>
    match addTerm T C g n s w with
    | .error e => .error e
    | .ok (T', C') => addTerms T' C' (n + 1) rest

/-- supervised.py:698-727 `_composition_stat` with the finalizer `loss_composition_v1`. -/
def compositionStat (terms : List (String × Stat × ℚ)) : Except String SufficientStats :=
  match addTerms [] [] 0 terms with
  | .error e => .error e
  | .ok (T, C) => SufficientStats.mk? validSchema
      { scope := .globalBatch, finalizer := "loss_composition_v1", tensors := T, counts := C }

/-- supervised.py:698-727 `_composition_stat` with the finalizer `kd_total_v1`. -/
def kdStat (terms : List (String × Stat × ℚ)) (alpha temperature : ℚ) : Except String SufficientStats :=
  match addTerms [] [] 0 terms with
  | .error e => .error e
  | .ok ([], _) => .error "StopIteration"
  | .ok ((k, reference) :: T, C) => SufficientStats.mk? validSchema
      { scope := .globalBatch, finalizer := "kd_total_v1",
        tensors := update ((k, reference) :: T)
          [("kd_alpha_sum", newTensor reference alpha), ("kd_alpha_square_sum", newTensor reference (alpha ^ 2)),
           ("kd_temperature_sum", newTensor reference temperature),
           ("kd_temperature_square_sum", newTensor reference (temperature ^ 2))],
        counts := setKey C "kd_config_replicas" 1 }

/-- What a loss head hands to the total: a sum and a count (supervised.py:158-163 and its callers), the
sum of the valid logits and the number of valid cells (217-233), or a VQ sidecar. -/
inductive RawTerm where
  | mean (sum : Ten ℚ) (count : Int)
  | reg (sum : Ten ℚ) (cells : Int)
  | vq (slots : List RawSlot)

/-- the typed statistic of a head: supervised.py:158-163, 228-233, 236-332 -/
def RawTerm.stat : RawTerm → Except String Stat
  | .mean s n => (SumCount.mk? .globalBatch s n).map .sc
  | .reg s n => (SufficientStats.mk? validSchema
      ⟨.globalBatch, "policy_mean_square_v1", [("valid_logit_sum", s)], [("valid_cells", n)]⟩).map .ss
  | .vq slots => (vqLossStat slots).map .ss

/-- the terms `(stat, target_dependent, weight)` of `_compute_evaluation_terms` (supervised.py:606-695) -/
def evalTerms : List (RawTerm × Bool × ℚ) → Except String (List (Stat × Bool × ℚ))
  | [] => .ok []
  | (r, d, w) :: rest =>
    match r.stat with
    | .error e => .error e
    | .ok s => match evalTerms rest with
      | .error e => .error e
      | .ok l => .ok ((s, d, w) :: l)

/-- supervised.py:774-781 `total_loss` without a teacher -/
def plainTotal (terms : List (RawTerm × Bool × ℚ)) : Except String SufficientStats :=
  match evalTerms terms with
  | .error e => .error e
  | .ok l => compositionStat (l.map (fun t => ("all", t.1, t.2.2)))

/-- supervised.py:793-817 `total_loss` with a teacher -/
def kdTotal (kdTerms realTerms : List (RawTerm × Bool × ℚ)) (alpha temperature : ℚ) :
    Except String SufficientStats :=
  match evalTerms kdTerms, evalTerms realTerms with
  | .ok k, .ok r =>
    kdStat ((k.filter (fun t => t.2.1)).map (fun t => ("kd", t.1, t.2.2)) ++
            (r.filter (fun t => t.2.1)).map (fun t => ("real", t.1, t.2.2)) ++
            (r.filter (fun t => !t.2.1)).map (fun t => ("independent", t.1, t.2.2))) alpha temperature
  | _, _ => .error "evaluation terms"

end Verif.Total
