import Verif.Canon.Model

/-
Model of the per-process continuation states of the training-state file: how a process builds its own
(/repo/trainer/base.py:2261-2331), how the gathered list is validated at save and at load
(/repo/trainer/base.py:1593-1696), how the state file is put together (2180-2206) and the checks of
loading it (1452-1565), and capture/restore of the random generators (2208-2259).

State dictionaries are the Python values of `Verif.Canon` with the canonical byte encoding modelled
there; SHA-256 is a parameter `sha`. Python's `==` on arbitrary values, `int(x)` and `dict(x)` of
non-dictionaries are parameters too (`PyOps`), so every theorem holds whatever they return on unusual
values. Error messages are labels. Reading and writing the file (`torch.save` / `torch.load`) is
outside; a file that was damaged or edited is an arbitrary value handed to `loadState`.
-/

namespace Verif.Resume

open Verif.Canon

/-- A Python dictionary: entries in insertion order. -/
abbrev Dict := List (Key × Val)

/-- `d.get(k)` with `None` told apart from a missing key. -/
def find (d : Dict) (k : Str) : Option Val :=
  match d with
  | [] => none
  | (k', v) :: r => if k' = Key.str k then some v else find r k

/-- `d.get(k)`: `None` when the key is missing. -/
def get (d : Dict) (k : Str) : Val := (find d k).getD .null

/-- `d[k] = v`: an existing key keeps its position. -/
def put (d : Dict) (k : Str) (v : Val) : Dict :=
  match d with
  | [] => [(.str k, v)]
  | (k', v') :: r => if k' = Key.str k then (k', v) :: r else (k', v') :: put r k v

/-- `d.pop(k, None)`. -/
def pop (d : Dict) (k : Str) : Dict := d.filter (fun e => e.1 ≠ Key.str k)

/-- Library behaviour on values the trainer itself never writes. -/
structure PyOps where
  /-- the canonical encoder's parameters -/
  lib : PyLib
  /-- `hashlib.sha256(b).hexdigest()` -/
  sha : ByteArray → Str
  /-- `v == n` for `v` neither an `int` nor a `bool` -/
  eqInt : Val → Int → Bool
  /-- `v == w` in general -/
  eqVal : Val → Val → Bool
  /-- `dict(v)` for `v` not a dictionary -/
  dictOf : Val → Option Dict
  /-- `int(v)` for `v` neither an `int` nor a `bool` -/
  intOf : Val → Option Int
  /-- truth value of something that is not `None`, a `bool`, a number, a string or a container -/
  truthyOther : Val → Bool

/-- `v == n`. -/
def pyEqInt (P : PyOps) (v : Val) (n : Int) : Bool :=
  match v with
  | .int m => m == n
  | .bool b => (if b then 1 else 0) == n
  | .null => false
  | .str _ => false
  | w => P.eqInt w n

/-- `bool(v)`. -/
def truthy (P : PyOps) (v : Val) : Bool :=
  match v with
  | .null => false
  | .bool b => b
  | .int n => n != 0
  | .str s => !s.isEmpty
  | .bytes b => !b.isEmpty
  | .seq _ xs => !xs.isEmpty
  | .dict d => !d.isEmpty
  | w => P.truthyOther w

/-- `int(v)`. -/
def toInt (P : PyOps) (v : Val) : Option Int :=
  match v with
  | .int n => some n
  | .bool b => some (if b then 1 else 0)
  | w => P.intOf w

/-- `hashlib.sha256(canonical_pipeline_state_bytes(d)).hexdigest()`. -/
noncomputable def digest (P : PyOps) (d : Dict) : Except String Str :=
  match encode P.lib (.dict d) with
  | .error e => .error e
  | .ok b => .ok (P.sha b)

def kSupported : Str := "supported".toList
def kReason : Str := "reason".toList
def kSlot : Str := "slot".toList
def kRank : Str := "rank".toList
def kSig : Str := "data_stream_signature".toList
def kRng : Str := "rng".toList
def kCursor : Str := "cursor_kind".toList
def kStream : Str := "stream".toList
def kSlice : Str := "slice".toList
def kCoord : Str := "stream_coordination".toList
def kSampler : Str := "sampler".toList
def kVq : Str := "vq_runtime".toList
def kTuning : Str := "pipeline_tuning".toList
def kGlobal : Str := "global_digest".toList
def kLocal : Str := "local_digest".toList
def kVersion : Str := "version".toList
def kSchema : Str := "schema".toList
def kAutocast : Str := "autocast_mode".toList
def vFile : Val := .str "file_stream_v1".toList
def vMap : Val := .str "map_sampler_v1".toList

/-- trainer/base.py:1676-1686 the `vq_runtime` entry of the projection. -/
def projVq (v : Val) : Except String Val :=
  match v with
  | .null => .ok .null
  | .dict m => .ok (.dict [(.str kVersion, get m kVersion), (.str kSchema, get m kSchema),
      (.str kAutocast, get m kAutocast)])
  | _ => .error "object has no attribute 'get'"

/-- trainer/base.py:1692-1694 `dict(state.get("sampler") or {})` without its `rank`. -/
def projSampler (P : PyOps) (v : Val) : Except String Val :=
  if truthy P v = false then .ok (.dict [])
  else match v with
    | .dict m => .ok (.dict (pop m kRank))
    | w => match P.dictOf w with
      | some m => .ok (.dict (pop m kRank))
      | none => .error "dict() argument is not a mapping"

/-- trainer/base.py:1687-1695 the cursor part of the projection: one entry. -/
def projCursor (P : PyOps) (s : Dict) : Except String (Key × Val) :=
  match get s kCursor with
  | .str c =>
    if c = "file_stream_v1".toList then
      match get s kCoord with
      | .null => .ok (.str kStream, get s kStream)
      | w => .ok (.str kCoord, w)
    else match projSampler P (get s kSampler) with
      | .ok v => .ok (.str kSampler, v)
      | .error e => .error e
  | _ => match projSampler P (get s kSampler) with
      | .ok v => .ok (.str kSampler, v)
      | .error e => .error e

/-- trainer/base.py:1668-1696 `_global_resume_projection`. -/
def projection (P : PyOps) (s : Dict) : Except String Dict :=
  match (match find s kVq with
    | none => .ok []
    | some v => match projVq v with
      | .ok w => .ok [(Key.str kVq, w)]
      | .error e => .error e : Except String Dict) with
  | .error e => .error e
  | .ok vq =>
    match projCursor P s with
    | .error e => .error e
    | .ok c => .ok ([(.str kSupported, get s kSupported), (.str kCursor, get s kCursor),
        (.str kSig, get s kSig)] ++ vq ++ [c])

/-- The data cursor of a run: a file stream or a map-style sampler. -/
inductive Cursor where
  | stream (state : Val) (start stop : Int) (coordination : Option Val)
  | sampler (state : Val)

/-- What a process knows when it saves. -/
structure RankEnv where
  /-- `_exact_resume_reason` -/
  reason : Option Str
  signature : Val
  rng : Val
  cursor : Cursor
  vqRuntime : Option Val
  tuning : Option Val

/-- trainer/base.py:2267-2276 `state[...] = value` when the value is not `None`. -/
def putOpt (d : Dict) (k : Str) (v : Option Val) : Dict :=
  match v with
  | none => d
  | some .null => d
  | some w => put d k w

/-- trainer/base.py:2267-2276, 2286-2320 the state before its digests. -/
def bareState (e : RankEnv) (rank : Nat) : Dict :=
  match e.reason with
  | some why =>
    putOpt [(.str kSupported, .bool false), (.str kReason, .str why), (.str kSlot, .int rank),
      (.str kRank, .int rank)] kVq e.vqRuntime
  | none =>
    let base : Dict := [(.str kSupported, .bool true), (.str kSlot, .int rank),
      (.str kRank, .int rank), (.str kSig, e.signature), (.str kRng, e.rng)]
    let withCursor : Dict :=
      match e.cursor with
      | .stream st a b coord =>
        putOpt (put (put (put base kCursor vFile) kStream st) kSlice (.seq false [.int a, .int b]))
          kCoord coord
      | .sampler st => put (put base kCursor vMap) kSampler st
    putOpt (putOpt withCursor kVq e.vqRuntime) kTuning e.tuning

/-- trainer/base.py:2261-2331 `_local_resume_state`. -/
noncomputable def localState (P : PyOps) (e : RankEnv) (rank : Nat) : Except String Dict :=
  match projection P (bareState e rank) with
  | .error er => .error er
  | .ok pr =>
    match digest P pr with
    | .error er => .error er
    | .ok g =>
      match digest P (put (bareState e rank) kGlobal (.str g)) with
      | .error er => .error er
      | .ok l => .ok (put (put (bareState e rank) kGlobal (.str g)) kLocal (.str l))

def legacyKeys : List Str := [kSupported, kSig, kSampler, kRng]

/-- trainer/base.py:1598-1604 one state of the oldest format. -/
def isLegacy (v : Val) : Bool :=
  match v with
  | .dict d =>
    (find d kCursor).isNone &&
    (match get d kSupported with | .bool true => true | _ => false) &&
    d.all (fun e => legacyKeys.any (fun k => e.1 == Key.str k)) &&
    legacyKeys.all (fun k => (find d k).isSome)
  | _ => false

/-- trainer/base.py:1613-1625 the cursor kind must fit `supported`. -/
def cursorOk (s : Dict) : Bool :=
  match get s kSupported with
  | .bool true =>
    (match get s kCursor with
     | .str c => c == "file_stream_v1".toList || c == "map_sampler_v1".toList
     | _ => false)
  | _ => (match get s kCursor with | .null => true | _ => false)

/-- trainer/base.py:1626-1627 `type(slot) is int and slot in range(world)`. -/
def slotOf (world : Nat) (s : Dict) : Option Nat :=
  match get s kSlot with
  | .int n => if 0 ≤ n ∧ n < world then some n.toNat else none
  | _ => none

/-- `v == text` for a text that is known to be a string. -/
def isStr (v : Val) (t : Str) : Bool :=
  match v with
  | .str s => s == t
  | _ => false

/-- The text of a string value. -/
def strOf (v : Val) : Str :=
  match v with
  | .str s => s
  | _ => []

/-- trainer/base.py:1609-1653 the checks of one state; `seen` are the slots already taken. Returns its
slot. -/
noncomputable def checkOne (P : PyOps) (world : Nat) (seen : List Nat) (v : Val) :
    Except String (Nat × Dict) :=
  match v with
  | .dict s =>
    if cursorOk s = false then .error "cursor kind"
    else match slotOf world s with
      | none => .error "invalid integer rank slot"
      | some slot =>
        if pyEqInt P (get s kRank) slot = false then .error "embedded rank"
        else if seen.contains slot then .error "duplicate rank slot"
        else match digest P (pop s kLocal) with
          | .error e => .error e
          | .ok l =>
            if isStr (get s kLocal) l = false then .error "local digest"
            else match projection P s with
              | .error e => .error e
              | .ok pr =>
                match digest P pr with
                | .error e => .error e
                | .ok g =>
                  if isStr (get s kGlobal) g = false then .error "global digest"
                  else .ok (slot, s)
  | _ => .error "not a dictionary"

/-- trainer/base.py:1606-1653 the loop; the result is `by_slot` in insertion order. -/
noncomputable def checkAll (P : PyOps) (world : Nat) : List (Nat × Dict) → List Val →
    Except String (List (Nat × Dict))
  | acc, [] => .ok acc
  | acc, v :: r =>
    match checkOne P world (acc.map Prod.fst) v with
    | .error e => .error e
    | .ok p => checkAll P world (acc ++ [p]) r

/-- `by_slot[slot]`. -/
def bySlot (m : List (Nat × Dict)) (slot : Nat) : Option Dict :=
  match m with
  | [] => none
  | (k, d) :: r => if k = slot then some d else bySlot r slot

/-- trainer/base.py:1593-1666 `_validate_rank_resume_states`: the states in slot order and whether they
are of the oldest format. -/
noncomputable def validate (P : PyOps) (world : Nat) (states : List Val) :
    Except String (List Val × Bool) :=
  if states.all isLegacy then .ok (states, true)
  else match checkAll P world [] states with
    | .error e => .error e
    | .ok m =>
      if (List.range world).all (fun i => (m.map Prod.fst).contains i) = false then
        .error "rank slots"
      else
        let ordered := (List.range world).filterMap (bySlot m)
        match ordered with
        | [] => .error "no global digest"
        | d :: r =>
          if r.all (fun x => isStr (get x kGlobal) (strOf (get d kGlobal))) = false then
            .error "rank-independent continuation state differs"
          else .ok (ordered.map Val.dict, false)

/-! ### The state file -/

def kFormat : Str := "format_version".toList
def kOpts : Str := "optimizers".toList
def kScheds : Str := "schedulers".toList
def kOptCfg : Str := "optimizer_config".toList
def kSchedCfg : Str := "scheduler_config".toList
def kResume : Str := "resume".toList
def kWorld : Str := "world_size".toList
def kRanks : Str := "ranks".toList
def kScaler : Str := "scaler".toList
def kMeta : Str := "metadata".toList
def kIter : Str := "iteration".toList
def kEpoch : Str := "epoch".toList
def kRows : Str := "rows".toList

/-- The part of the trainer the state file describes. -/
structure Trainer where
  optimizers : Dict
  schedulers : Dict
  optimizerConfig : Val
  schedulerConfig : Val
  scaler : Option Val
  iteration : Int
  epoch : Int
  rows : Int

/-- trainer/base.py:2180-2206 `_build_training_state`. -/
def buildState (t : Trainer) (world : Nat) (ranks : List Val) : Val :=
  .dict [(.str kFormat, .int 2), (.str kOpts, .dict t.optimizers),
    (.str kScheds, .dict t.schedulers), (.str kOptCfg, t.optimizerConfig),
    (.str kSchedCfg, t.schedulerConfig),
    (.str kResume, .dict [(.str kVersion, .int 2), (.str kWorld, .int world),
      (.str kRanks, .seq false ranks)]),
    (.str kScaler, t.scaler.getD .null),
    (.str kMeta, .dict [(.str kIter, .int t.iteration), (.str kEpoch, .int t.epoch),
      (.str kRows, .int t.rows)])]

/-- What the loading process brings along. -/
structure Loader where
  world : Nat
  index : Nat
  optimizerConfig : Val
  schedulerConfig : Val
  /-- names of the configured optimizers -/
  optimizerNames : List Str
  /-- `_data_stream_signature_matches` (saved signature, oldest format) -/
  signatureMatches : Val → Bool → Bool
  /-- trainer/base.py:1522-1534 every model file of the iteration exists, has that iteration in its
  metadata and loads -/
  modelsLoad : Int → Bool
  /-- trainer/base.py:1569-1591 the version-1 check of quantiser modules -/
  v1Compatible : Int → Bool
  /-- trainer/base.py:1546-1547 `load_state_dict` of one optimizer succeeds -/
  optimizerLoads : Str → Val → Bool

/-- What loading leaves in the trainer. -/
structure Loaded where
  iteration : Int
  epoch : Int
  rows : Int
  schedulers : Val
  optimizers : Dict
  pending : Dict
  version : Int

/-- `set(state["optimizers"]) == set(self.optimizers)`. -/
def sameNames (d : Dict) (names : List Str) : Bool :=
  d.all (fun e => names.any (fun n => e.1 == Key.str n)) && names.all (fun n => (find d n).isSome)

/-- `int(d.get(k, default))`. -/
def metaInt (P : PyOps) (d : Dict) (k : Str) (dflt : Int) : Option Int :=
  match find d k with
  | none => some dflt
  | some v => toInt P v

/-- trainer/base.py:1479-1486 `resume.get("version") in {1, 2}`. -/
def versionOf (P : PyOps) (r : Dict) : Option Int :=
  if pyEqInt P (get r kVersion) 1 then some 1
  else if pyEqInt P (get r kVersion) 2 then some 2 else none

/-- `isinstance(v, dict)`. -/
def isDict (v : Val) : Bool :=
  match v with
  | .dict _ => true
  | _ => false

/-- A key as text. -/
def keyText : Key → Str
  | .str s => s
  | .other _ => []

/-- trainer/base.py:1522-1564 the second half of loading: models, quantiser manifest, optimizers,
counters. The gradient scaler is left out. -/
def loadRest (P : PyOps) (L : Loader) (iteration : Int) (st md rank : Dict) (version : Int) :
    Except String Loaded :=
  if L.modelsLoad iteration = false then .error "model checkpoint"
  else if (if version = 1 then L.v1Compatible iteration
      else isDict (get rank kVq)) = false then
    .error "VQ runtime manifest"
  else match find st kOpts with
    | some (.dict opts) =>
      if sameNames opts L.optimizerNames = false then .error "optimizer names changed"
      else if opts.all (fun e => L.optimizerLoads (keyText e.1) e.2) = false then
        .error "optimizer state"
      else match find st kScheds, metaInt P md kIter 0, metaInt P md kEpoch 0, metaInt P md kRows 0 with
        | some scheds, some it, some ep, some rw =>
          .ok { iteration := it, epoch := ep, rows := rw, schedulers := scheds, optimizers := opts,
                pending := rank, version := version }
        | _, _, _, _ => .error "KeyError or ValueError"
    | _ => .error "optimizers"

/-- trainer/base.py:1502-1520 the checks of the selected state and of the metadata, then `loadRest`. -/
def loadSelected (P : PyOps) (L : Loader) (iteration : Int) (st : Dict) (version : Int)
    (ranks : List Val) (legacy : Bool) : Except String Loaded :=
  match ranks[L.index]? with
  | some (.dict rank) =>
    if truthy P (get rank kSupported) = false then .error "data stream is unsupported"
    else if L.signatureMatches (get rank kSig) legacy = false then
      .error "data-stream configuration or file identity changed"
    else match find st kMeta with
      | none =>
        if (-1 : Int) ≠ iteration then .error "metadata iteration differs"
        else loadRest P L iteration st [] rank version
      | some (.dict md) =>
        match metaInt P md kIter (-1) with
        | none => .error "ValueError"
        | some i =>
          if i ≠ iteration then .error "metadata iteration differs"
          else loadRest P L iteration st md rank version
      | some _ => .error "AttributeError"
  | _ => .error "IndexError or AttributeError"

/-- trainer/base.py:1487-1501 world size, number of states, validation, selection. -/
noncomputable def loadResume (P : PyOps) (L : Loader) (iteration : Int) (st r : Dict) (version : Int) :
    Except String Loaded :=
  if pyEqInt P (get r kWorld) L.world = false then .error "world size changed"
  else match get r kRanks with
    | .seq _ ranks =>
      if ranks.length ≠ L.world then .error "invalid per-rank continuation state count"
      else match validate P L.world ranks with
        | .error e => .error e
        | .ok (ordered, legacy) => loadSelected P L iteration st version ordered legacy
    | _ => .error "invalid per-rank continuation state count"

/-- trainer/base.py:1452-1565 `_load_state_checkpoint` on the loaded value; `iteration` is parsed from
the file name. A `ranks` entry that is neither list nor tuple ends in an error in Python too (its items
are not dictionaries). -/
noncomputable def loadState (P : PyOps) (L : Loader) (iteration : Int) (state : Val) :
    Except String Loaded :=
  match state with
  | .dict st =>
    if pyEqInt P (get st kFormat) 2 = false then .error "format version 2 is required"
    else if P.eqVal (get st kOptCfg) L.optimizerConfig = false then .error "optimizer layout changed"
    else if P.eqVal (get st kSchedCfg) L.schedulerConfig = false then
      .error "scheduler configuration changed"
    else match get st kResume with
      | .dict r =>
        match versionOf P r with
        | none => .error "continuation state is missing"
        | some version => loadResume P L iteration st r version
      | _ => .error "continuation state is missing"
  | _ => .error "AttributeError"

/-- trainer/base.py:2015-2049, 2180-2206 saving: every process builds its state (`envs[r]` is what
process `r` knows), the states are gathered in process order, validated, and put in the file. -/
noncomputable def saveState (P : PyOps) (t : Trainer) (envs : List RankEnv) : Except String Val :=
  match gather P envs 0 with
  | .error e => .error e
  | .ok states =>
    match validate P envs.length (states.map Val.dict) with
    | .error e => .error e
    | .ok (ordered, _) => .ok (buildState t envs.length ordered)
where
  /-- the captured states, one after the other -/
  gather (P : PyOps) : List RankEnv → Nat → Except String (List Dict)
    | [], _ => .ok []
    | e :: r, i =>
      match localState P e i, gather P r (i + 1) with
      | .ok s, .ok ss => .ok (s :: ss)
      | _, _ => .error "checkpoint continuation-state capture failed collectively"

/-! ### Random generators -/

/-- The generators a process saves. `words` are numpy's 32-bit words. -/
structure Rng where
  python : Val
  bitGenerator : Str
  words : List (BitVec 32)
  position : Int
  hasGauss : Int
  cachedGaussian : BitVec 64
  torchCpu : List UInt8
  torchCuda : Option (List UInt8)

def kPython : Str := "python".toList
def kNumpy : Str := "numpy".toList
def kTorchCpu : Str := "torch_cpu".toList
def kTorchCuda : Str := "torch_cuda".toList
def kBitGen : Str := "bit_generator".toList
def kWords : Str := "state_u32_le".toList
def kPos : Str := "position".toList
def kGauss : Str := "has_gauss".toList
def kCached : Str := "cached_gaussian".toList

/-- `astype("<u4").tobytes()`: four bytes per word, least significant first. -/
def wordsToBytes : List (BitVec 32) → List UInt8
  | [] => []
  | w :: r => UInt8.ofNat w.toNat :: UInt8.ofNat (w.toNat / 256) :: UInt8.ofNat (w.toNat / 65536) ::
      UInt8.ofNat (w.toNat / 16777216) :: wordsToBytes r

/-- `np.frombuffer(b, dtype="<u4")`; the length must be a multiple of four. -/
def bytesToWords : List UInt8 → Option (List (BitVec 32))
  | [] => some []
  | a :: b :: c :: d :: r =>
    (bytesToWords r).map (BitVec.ofNat 32 (a.toNat + 256 * b.toNat + 65536 * c.toNat +
      16777216 * d.toNat) :: ·)
  | _ => none

/-- trainer/base.py:2208-2226 `_capture_rng_state`; `cuda` says the run uses a CUDA device. -/
def captureRng (g : Rng) (cuda : Bool) : Val :=
  .dict [(.str kPython, g.python),
    (.str kNumpy, .dict [(.str kBitGen, .str g.bitGenerator), (.str kWords, .bytes (wordsToBytes g.words)),
      (.str kPos, .int g.position), (.str kGauss, .int g.hasGauss),
      (.str kCached, .float g.cachedGaussian)]),
    (.str kTorchCpu, .bytes g.torchCpu),
    (.str kTorchCuda, if cuda then (match g.torchCuda with | some b => .bytes b | none => .bytes [])
      else .null)]

/-- trainer/base.py:2228-2259 `_restore_rng_state` into a process whose generators are `now`; the older
format with a tensor of words is not modelled. -/
def restoreRng (now : Rng) (cuda : Bool) (v : Val) : Except String Rng :=
  match v with
  | .dict d =>
    match find d kPython, find d kNumpy, find d kTorchCpu with
    | some py, some (.dict n), some (.bytes cpu) =>
      match find n kBitGen, find n kWords, find n kPos, find n kGauss, find n kCached with
      | some (.str bg), some (.bytes wb), some (.int p), some (.int hg), some (.float cg) =>
        match bytesToWords wb with
        | none => .error "buffer size must be a multiple of element size"
        | some ws =>
          let g : Rng := { now with python := py, bitGenerator := bg, words := ws, position := p,
                                    hasGauss := hg, cachedGaussian := cg, torchCpu := cpu }
          match get d kTorchCuda with
          | .null => .ok g
          | .bytes b => if cuda then .ok { g with torchCuda := some b }
                        else .error "Cannot restore CUDA RNG state in a CPU training run."
          | _ => .error "TypeError"
      | _, _, _, _, _ => .error "KeyError"
    | _, _, _ => .error "KeyError"
  | _ => .error "TypeError"

end Verif.Resume
