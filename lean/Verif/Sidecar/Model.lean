import Verif.Sidecar.Files

/-!
# Model of the VQ runtime sidecar's content (`trainer/base.py:129-158, 1098-1216, 1308-1385, 2333-2617`, `model/vq.py:489-640`)

A process is its checkpointed models — for each, the sequence `named_modules(remove_duplicate=False)` as (path, identity) pairs, so a
shared module occurs several times with one identity — and the state of every module. `torch.save`/`torch.load` are an arbitrary
encoder and decoder, SHA-256 an arbitrary function. A tensor is its dtype, shape and entries; the entries are of any type.
Files whose decoded value is not a dictionary of the right keys and Python types count as undecodable (the `isinstance` and key-set
checks are folded into the decoder).
-/
namespace Verif.Sidecar
open Verif.Ckpt (Name toInt)

/-- `_vq_init_continuation_descriptor` (vq.py:489-504). -/
structure Desc where
  codebookSize : Nat
  dimFeature : Nat
  multiplier : Nat
  kmeansIter : Nat
  cosine : Bool
  simvq : Bool
  toFp32 : Bool
  paramDtype : String
  target : Nat
deriving DecidableEq

structure Tensor (V : Type) where
  dtype : String
  shape : List Nat
  data : List V
deriving DecidableEq

/-- The state of a vector quantizer that the sidecar is concerned with. -/
structure Vq (V : Type) where
  desc : Desc
  inited : Bool
  batches : List (Tensor V)
  count : Nat
  initedPy : Option Bool
  checked : Bool

structure Proc (V : Type) where
  /-- `_checkpointed_models()`, each with its `named_modules(remove_duplicate=False)`: path and identity. -/
  models : List (String × List (String × Nat))
  /-- `isinstance(module, VectorQuantize)`. -/
  isVq : Nat → Bool
  /-- the state of each module. -/
  store : Nat → Vq V
  /-- `accelerator.mixed_precision`. -/
  precision : Option String
  rank : Nat
  world : Nat
  /-- `self.state.iteration`. -/
  iteration : Nat

/-- An element of `discovered` (base.py:1113-1118). -/
structure Entry where
  model : String
  path : String
  aliases : List (String × String)
  id : Nat
deriving DecidableEq

/-- Lines 1111-1124: register one occurrence of a vector quantizer. -/
def addSite (d : List Entry) (m p : String) (i : Nat) : List Entry :=
  if d.any (fun e => decide (e.id = i)) then
    d.map fun e => if e.id = i then { e with aliases := e.aliases ++ [(m, p)] } else e
  else d ++ [⟨m, p, [(m, p)], i⟩]

/-- The vector quantizers of all models in order of traversal: model, path, identity (lines 1102-1110). -/
def sites {V : Type} (p : Proc V) : List (String × String × Nat) :=
  p.models.flatMap fun m => (m.2.filter fun s => p.isVq s.2).map fun s => (m.1, s.1, s.2)

/-- `_vq_runtime_modules` (base.py:1098-1125). -/
def discover {V : Type} (p : Proc V) : Except String (List Entry) :=
  if p.models.any (fun m => decide (m.1 = "")) then .error "invalid checkpointed model name"
  else .ok ((sites p).foldl (fun d s => addSite d s.1 s.2.1 s.2.2) [])

structure ModSchema where
  path : String
  aliases : List (String × String)
  desc : Desc
  inited : Bool
deriving DecidableEq

abbrev Schema := List (String × List ModSchema)

/-- `models.setdefault(key, []).append(value)` on a dictionary in insertion order. -/
def pushKey {β : Type} (d : List (String × List β)) (k : String) (v : β) : List (String × List β) :=
  if d.any (fun e => decide (e.1 = k)) then d.map fun e => if e.1 = k then (e.1, e.2 ++ [v]) else e
  else d ++ [(k, [v])]

/-- `_vq_runtime_schema` (base.py:1127-1148). -/
def schemaOf {V : Type} (store : Nat → Vq V) (d : List Entry) : Schema :=
  d.foldl (fun s e => pushKey s e.model ⟨e.path, e.aliases, (store e.id).desc, (store e.id).inited⟩) []

/-- `_vq_runtime_autocast_mode` (base.py:1150-1158). -/
def autocastMode {V : Type} (p : Proc V) : Except String String :=
  if p.precision.getD "no" = "" then .error "invalid accelerator mixed-precision mode" else .ok (p.precision.getD "no")

/-- `_RUNTIME_DTYPE_BYTES` (base.py:132-137). -/
def dtypeBytes (d : String) : Option Nat :=
  if d = "torch.float16" then some 2 else if d = "torch.bfloat16" then some 2
  else if d = "torch.float32" then some 4 else if d = "torch.float64" then some 8 else none

/-- `_runtime_serialization_allowance` (base.py:144-148). -/
def allowance (raw : Nat) : Nat := max (1024 * 1024) ((raw + 99) / 100)

/-- `_expected_vq_runtime_dtype` (base.py:151-160). -/
def expectedDtype (d : Desc) (count : Nat) (mode : String) : Except String String :=
  if mode ≠ "no" ∧ mode ≠ "bf16" ∧ mode ≠ "fp16" then .error "unsupported VQ autocast mode"
  else if d.toFp32 then .ok "torch.float32"
  else if count = 0 ∨ mode = "no" then .ok d.paramDtype
  else if mode = "bf16" then .ok "torch.bfloat16" else .ok "torch.float16"

/-- `samples.numel()`. -/
def Tensor.numel {V : Type} (t : Tensor V) : Nat := t.shape.foldr (· * ·) 1

/-- `samples.element_size()`; dtypes outside the table are refused by the callers whatever their size. -/
def Tensor.elemSize {V : Type} (t : Tensor V) : Nat := (dtypeBytes t.dtype).getD 1

/-- The continuation payload of one module (vq.py:566-573). -/
structure State (V : Type) where
  version : Nat
  desc : Desc
  dtype : String
  inited : Bool
  count : Nat
  samples : Tensor V

/-- `len(batch)`. -/
def Tensor.len {V : Type} (t : Tensor V) : Nat := t.shape.headD 0

/-- `dtype` at vq.py:533-541. -/
def pendingDtype (d : Desc) {V : Type} (batches : List (Tensor V)) : String :=
  match batches with
  | b :: _ => b.dtype
  | [] => if d.toFp32 then "torch.float32" else d.paramDtype

/-- The condition of vq.py:549-553 on one batch, negated. -/
def batchOk {V : Type} (d : Desc) (dtype : String) (b : Tensor V) : Bool :=
  decide (b.shape.length = 2) && decide (b.shape[1]? = some d.dimFeature) && decide (b.dtype = dtype)

/-- `_vq_init_continuation_state` (vq.py:506-573). `finite` is `torch.isfinite` on one entry. -/
def exportState {V : Type} (finite : V → Bool) (v : Vq V) : Except String (State V) :=
  let batches := if v.inited then [] else v.batches
  let count := if v.inited then 0 else v.count
  if v.desc.target < count then .error "pending VQ sample count is outside the target"
  else if (batches.map Tensor.len).sum ≠ count then .error "pending VQ sample batches do not match their count"
  else
    let dtype := pendingDtype v.desc batches
    if batches.all (batchOk v.desc dtype) = false then .error "pending VQ sample batch shape or dtype is inconsistent"
    else
      let data := batches.flatMap Tensor.data
      if data.all finite = false then .error "pending VQ samples contain non-finite values"
      else .ok ⟨1, v.desc, dtype, v.inited, count, ⟨dtype, [count, v.desc.dimFeature], data⟩⟩

/-- `_load_vq_init_continuation_state` (vq.py:575-640). The CPU and contiguity checks hold of every decoded tensor. -/
def loadState {V : Type} (finite : V → Bool) (v : Vq V) (s : State V) : Except String (Vq V) :=
  if s.version ≠ 1 then .error "unsupported VQ continuation version"
  else if s.desc ≠ v.desc then .error "VQ continuation descriptor differs"
  else if s.inited ≠ v.inited then .error "VQ continuation inited flag differs from loaded model state"
  else if v.desc.target < s.count then .error "VQ continuation count is outside the target"
  else if s.samples.shape ≠ [s.count, v.desc.dimFeature] then .error "VQ continuation sample shape differs"
  else if s.samples.dtype ≠ s.dtype then .error "VQ continuation sample dtype metadata differs"
  else if v.desc.toFp32 = true ∧ s.samples.dtype ≠ "torch.float32" then .error "FP32-converting VQ requires FP32 pending samples"
  else if (dtypeBytes s.samples.dtype).isSome = false then .error "VQ continuation samples must be floating point"
  else if s.samples.data.all finite = false then .error "VQ continuation samples contain non-finite values"
  else if s.inited = true ∧ s.count ≠ 0 then .error "initialized VQ cannot restore pending samples"
  else if s.inited then .ok { v with initedPy := none }
  else .ok { v with initedPy := none, batches := if s.count = 0 then [] else [s.samples], count := s.count, checked := false }

structure Saved (V : Type) where
  aliases : List (String × String)
  state : State V

structure Stat where
  model : String
  path : String
  dtype : String
  count : Nat
  rawBytes : Nat
deriving DecidableEq

/-- The dictionary saved in the sidecar (base.py:1202-1207, 1312-1318). -/
structure Payload (V : Type) where
  version : Nat
  models : List (String × List (String × Saved V))
  schema : Schema
  autocast : String
  iteration : Nat
  world : Nat
  rank : Nat
  generation : Name

/-- The manifest stored in the rank's state file (base.py:1208-1220, 1375-1384). -/
structure Manifest where
  version : Nat
  schema : Schema
  autocast : String
  modules : List Stat
  hasPartial : Bool
  rawBytes : Nat
  maximumBytes : Nat
  basename : Name
  sha : Name
  size : Nat
  iteration : Nat
  generation : Name
  rank : Nat

/-- What the loop of lines 1169-1201 accumulates. -/
structure Acc (V : Type) where
  models : List (String × List (String × Saved V))
  raw : Nat
  maxRaw : Nat
  partly : Bool
  stats : List Stat

/-- `payload_models.setdefault(model, {})[path] = value`. -/
def putKey {β : Type} (d : List (String × List (String × β))) (m p : String) (v : β) : List (String × List (String × β)) :=
  if d.any (fun e => decide (e.1 = m)) then
    d.map fun e => if e.1 = m then (e.1, if e.2.any (fun x => decide (x.1 = p)) then e.2.map (fun x => if x.1 = p then (p, v) else x)
      else e.2 ++ [(p, v)]) else e
  else d ++ [(m, [(p, v)])]

/-- The body of the loop at lines 1169-1201. -/
def captureOne {V : Type} (finite : V → Bool) (store : Nat → Vq V) (mode : String) (a : Acc V) (e : Entry) : Except String (Acc V) :=
  match exportState finite (store e.id) with
  | .error x => .error x
  | .ok s =>
    match expectedDtype s.desc s.count mode with
    | .error x => .error x
    | .ok want =>
      if (dtypeBytes s.dtype).isSome = false ∨ s.dtype ≠ want then .error "pending VQ dtype is incompatible with autocast mode"
      else .ok {
        models := putKey a.models e.model e.path ⟨e.aliases, s⟩
        raw := a.raw + s.samples.numel * s.samples.elemSize
        maxRaw := a.maxRaw + s.desc.target * s.desc.dimFeature * s.samples.elemSize
        partly := a.partly || decide (0 < s.count)
        stats := a.stats ++ [⟨e.model, e.path, s.dtype, s.count, s.samples.numel * s.samples.elemSize⟩] }

/-- A loop whose body may raise. -/
def loop {α β : Type} (f : β → α → Except String β) : β → List α → Except String β
  | b, [] => .ok b
  | b, a :: l => match f b a with
    | .error x => .error x
    | .ok b' => loop f b' l

/-- What `_capture_vq_runtime_payload` returns (base.py:1160-1221), before the caller adds iteration, rank and generation. -/
structure Captured (V : Type) where
  acc : Acc V
  schema : Schema
  autocast : String

def capture {V : Type} (finite : V → Bool) (p : Proc V) : Except String (Captured V) :=
  match discover p with
  | .error x => .error x
  | .ok d =>
    match autocastMode p with
    | .error x => .error x
    | .ok mode =>
      match loop (captureOne finite p.store mode) ⟨[], 0, 0, false, []⟩ d with
      | .error x => .error x
      | .ok a => .ok ⟨a, schemaOf p.store d, mode⟩

/-- The external functions: `torch.save`, `torch.load`, SHA-256 and `isfinite`. -/
structure Ext (V : Type) where
  encode : Payload V → Bytes
  decode : Bytes → Option (Payload V)
  sha : Bytes → Name
  finite : V → Bool

/-- The payload written (lines 1310-1318). -/
def payloadOf {V : Type} (c : Captured V) (p : Proc V) (iteration : Nat) (generation : Name) : Payload V :=
  ⟨1, c.acc.models, c.schema, c.autocast, iteration, p.world, p.rank, generation⟩

/-- `_write_vq_runtime_sidecar` (base.py:1308-1385): the manifest, or the error, and the directory left behind. -/
def writeSidecar {V : Type} (x : Ext V) (p : Proc V) (dir : Dir) (iteration : Nat) (generation : Name) (pid : Nat) (nonce : Name)
    (mids : List Bytes) (fault : Fault) : Except String Manifest × Dir :=
  match runtimeBasename iteration generation p.rank with
  | .error e => (.error e, dir)
  | .ok basename =>
    match capture x.finite p with
    | .error e => (.error e, dir)
    | .ok c =>
      let r := publish dir (tempName iteration generation p.rank pid nonce) basename mids (x.encode (payloadOf c p iteration generation)) fault
      match r.error with
      | some e => (.error e, r.dir)
      | none =>
        match r.dir basename with
        | none => (.error "no such file", r.dir)
        | some b =>
          let maximum := c.acc.maxRaw + allowance c.acc.maxRaw
          if maximum < b.length ∨ c.acc.raw + allowance c.acc.raw < b.length then
            (.error "runtime sidecar exceeds configured size bound", r.dir)
          else (.ok ⟨1, c.schema, c.autocast, c.acc.stats, c.acc.partly, c.acc.raw, maximum, basename, x.sha b, b.length, iteration,
            generation, p.rank⟩, r.dir)

/-- `descriptor_by_key` (lines 2411-2415): keys are distinct, as they are the dictionary keys of models and paths. -/
def descByKey (s : Schema) : List ((String × String) × ModSchema) := s.flatMap fun m => m.2.map fun x => ((m.1, x.path), x)

/-- What the loop of lines 2422-2471 accumulates. -/
structure VAcc where
  seen : List ((String × String) × Stat)
  raw : Nat
  maxRaw : Nat
  partly : Bool

/-- The module looked up in `descriptor_by_key` (the value with that key). -/
def findKey {β : Type} (l : List ((String × String) × β)) (k : String × String) : Option β :=
  (l.find? fun e => decide (e.1 = k)).map Prod.snd

/-- The body of the loop at lines 2422-2471. -/
def checkStat (descs : List ((String × String) × ModSchema)) (mode : String) (a : VAcc) (s : Stat) : Except String VAcc :=
  if a.seen.any (fun e => decide (e.1 = (s.model, s.path))) then .error "VQ runtime manifest has duplicate or unexpected modules"
  else match findKey descs (s.model, s.path) with
  | none => .error "VQ runtime manifest has duplicate or unexpected modules"
  | some d =>
    match expectedDtype d.desc s.count mode with
    | .error x => .error x
    | .ok want =>
      match dtypeBytes s.dtype with
      | none => .error "VQ runtime manifest statistics are invalid"
      | some w =>
        if d.desc.target < s.count ∨ s.rawBytes ≠ s.count * d.desc.dimFeature * w ∨ (d.inited = true ∧ s.count ≠ 0) ∨ s.dtype ≠ want then
          .error "VQ runtime manifest statistics are invalid"
        else .ok { seen := a.seen ++ [((s.model, s.path), s)], raw := a.raw + s.rawBytes,
                   maxRaw := a.maxRaw + d.desc.target * d.desc.dimFeature * w, partly := a.partly || decide (0 < s.count) }

/-- `_validate_vq_runtime_manifest` (base.py:2333-2478), with the iteration and rank of the running process. -/
def validate {V : Type} (p : Proc V) (m : Manifest) : Except String (List Entry × List ((String × String) × Stat) × Nat) :=
  if m.version ≠ 1 then .error "unsupported VQ runtime manifest"
  else match autocastMode p with
  | .error x => .error x
  | .ok mode =>
    if m.autocast ≠ mode then .error "VQ runtime autocast mode differs from checkpoint"
    else if groupsAre (matchSidecar m.basename) p.iteration m.generation p.rank = false ∨ m.iteration ≠ p.iteration ∨ m.rank ≠ p.rank ∨
        hexOk 32 m.generation = false ∨ hexOk 64 m.sha = false then .error "VQ runtime manifest path identity is invalid"
    else match discover p with
    | .error x => .error x
    | .ok d =>
      if schemaOf p.store d ≠ m.schema then .error "VQ runtime module/configuration schema differs from checkpoint"
      else
        let descs := descByKey (schemaOf p.store d)
        match loop (checkStat descs mode) ⟨[], 0, 0, false⟩ m.modules with
        | .error x => .error x
        | .ok a =>
          if descs.all (fun e => a.seen.any fun k => decide (k.1 = e.1)) = false then
            .error "VQ runtime manifest has missing or unexpected modules"
          else if m.hasPartial ≠ a.partly ∨ m.rawBytes ≠ a.raw ∨ m.maximumBytes ≠ a.maxRaw + allowance a.maxRaw then
            .error "VQ runtime manifest storage bounds are invalid"
          else .ok (d, a.seen, a.maxRaw + allowance a.maxRaw)

/-- `payload_models[model_name][path]`. -/
def savedAt {V : Type} (models : List (String × List (String × Saved V))) (k : String × String) : Option (Saved V) :=
  match models.find? fun e => decide (e.1 = k.1) with
  | none => none
  | some e => (e.2.find? fun x => decide (x.1 = k.2)).map Prod.snd

/-- The keys of the payload (lines 2563-2567). -/
def payloadKeys {V : Type} (models : List (String × List (String × Saved V))) : List (String × String) :=
  models.flatMap fun m => m.2.map fun x => (m.1, x.1)

/-- The body of the restoring loop (lines 2572-2617). -/
def restoreOne {V : Type} (finite : V → Bool) (pl : Payload V) (stats : List ((String × String) × Stat)) (store : Nat → Vq V)
    (e : Entry) : Except String (Nat → Vq V) :=
  match savedAt pl.models (e.model, e.path), findKey stats (e.model, e.path) with
  | some s, some st =>
    if s.aliases ≠ e.aliases then .error "VQ runtime aliases differ"
    else if s.state.dtype ≠ st.dtype ∨ s.state.count ≠ st.count ∨ s.state.samples.numel * s.state.samples.elemSize ≠ st.rawBytes then
      .error "VQ runtime payload statistics differ"
    else match loadState finite (store e.id) s.state with
      | .error x => .error x
      | .ok v => .ok fun i => if i = e.id then v else store i
  | _, _ => .error "missing key"

/-- `_restore_vq_runtime_sidecar` (base.py:2480-2617): the module states afterwards. -/
def restoreSidecar {V : Type} (x : Ext V) (p : Proc V) (dir : Dir) (m : Manifest) : Except String (Nat → Vq V) :=
  match validate p m with
  | .error e => .error e
  | .ok (d, stats, expectedMax) =>
    if (matchSidecar m.basename).isNone then .error "invalid runtime sidecar path"
    else match dir m.basename with
    | none => .error "no such file"
    | some b =>
      if b.length ≠ m.size ∨ m.maximumBytes ≠ expectedMax ∨ expectedMax < b.length ∨ m.rawBytes + allowance m.rawBytes < b.length then
        .error "VQ runtime sidecar has invalid size"
      else if x.sha b ≠ m.sha then .error "VQ runtime sidecar SHA-256 differs"
      else match x.decode b with
      | none => .error "undecodable"
      | some pl =>
        if pl.version ≠ 1 ∨ pl.iteration ≠ p.iteration ∨ pl.world ≠ p.world ∨ pl.rank ≠ p.rank ∨ pl.generation ≠ m.generation ∨
            pl.schema ≠ m.schema ∨ pl.autocast ≠ m.autocast then .error "VQ runtime sidecar metadata differs"
        else if (pl.models.all (fun e => d.any fun k => decide (k.model = e.1)) && d.all (fun k => pl.models.any fun e => decide (e.1 = k.model))) = false then
          .error "VQ runtime sidecar has missing or unexpected models"
        else if ((payloadKeys pl.models).all (fun k => d.any fun e => decide ((e.model, e.path) = k)) &&
            d.all (fun e => (payloadKeys pl.models).any fun k => decide (k = (e.model, e.path)))) = false then
          .error "VQ runtime sidecar has missing or unexpected modules"
        else loop (restoreOne x.finite pl stats) p.store d

end Verif.Sidecar
