import Verif.Pipe.Model

/-!
# Model of field validation and collation

* `dataset/core.py:167-213`  (`CORE_FIELD_SPECS`)
* `dataset/core.py:216-229`  (`_field_dtype_kind`: the field `kind` below)
* `dataset/core.py:232-347`  (`validate_field_dict`)
* `dataset/stream.py:39-58`  (`reject_duplicate_physical_files`)
* `dataset/stream.py:103-231` (`collate_sample_dicts`)

A field value is its Python class (tensor, array or number, anything else), the dtype kind the validator computes, the kind and shape of
`np.asarray(value)`, and its contents. Contents are an arbitrary type with an element-wise equality, a reading as integers, stacking and
taking rows. The dtype of a stack (numpy's promotion) is an arbitrary function of the kinds. A dictionary is an association list. An
exception is `.error`; which exception it is is not modelled, the texts are shortened.
-/
namespace Verif.Collate
open Verif.Pipe (Spec Collate Transform)

inductive Cls
  /-- `torch.Tensor` -/
  | tensor
  /-- `np.ndarray`, `np.number`, `int`, `float`, `bool` -/
  | numeric
  /-- strings, lists, ... -/
  | other
deriving DecidableEq

structure Val (A : Type) where
  cls : Cls
  /-- `_field_dtype_kind(value, spec)` (core.py:216-229) -/
  kind : Char
  /-- `np.asarray(value).dtype.kind` -/
  arrayKind : Char
  /-- `np.asarray(value).shape` -/
  shape : List Nat
  body : A
deriving DecidableEq

/-- What is needed of contents. -/
structure Lib (A : Type) where
  /-- `(a == b).all()` -/
  eq : A → A → Bool
  /-- `[int(item) for item in a]` -/
  ints : A → List Int
  stack : List A → A
  /-- rows along the leading axis -/
  rows : A → List A
  /-- dtype kind of a stack of arrays of these kinds -/
  promote : List Char → Char

/-- One check after another; the first exception is raised. -/
def andThen {B : Type} (e : Except String Unit) (f : Except String B) : Except String B :=
  match e with
  | .error m => .error m
  | .ok _ => f

abbrev Dict (A : Type) := List (String × Val A)

def get {B : Type} (d : List (String × B)) (k : String) : Option B := (d.find? fun e => decide (e.1 = k)).map Prod.snd

def names {B : Type} (d : List (String × B)) : List String := d.map Prod.fst

/-- core.py:213 `FIELD_SPECS`. -/
def specOf (specs : List Spec) (k : String) : Option Spec := specs.find? fun s => decide (s.name = k)

/-- core.py:167-211. -/
def coreSpecs : List Spec :=
  [⟨"board_size", true, false, none, none, .stack, ['i', 'u'], .plain⟩,
   ⟨"board_input", true, false, some (-2, -1), some 0, .stack, ['b', 'i', 'u'], .plain⟩,
   ⟨"stm_input", true, false, none, none, .stack, ['i', 'f'], .plain⟩,
   ⟨"value_target", true, false, none, some 0, .stack, ['f'], .plain⟩,
   ⟨"policy_target", true, false, none, none, .stack, ['b', 'i', 'u', 'f'], .boardPolicy⟩,
   ⟨"rule_index", false, false, none, none, .stack, ['i', 'u'], .plain⟩,
   ⟨"ply", false, false, none, none, .stack, ['i', 'u'], .plain⟩,
   ⟨"raw_eval", false, false, none, none, .stack, ['f'], .plain⟩,
   ⟨"sparse_feature_input", false, false, some (-2, -1), some 0, .stack, ['b', 'i', 'u', 'f'], .plain⟩,
   ⟨"sparse_feature_dim", false, true, none, none, .broadcast, ['i', 'u'], .plain⟩,
   ⟨"position", false, false, none, none, .list, ['O'], .moves⟩,
   ⟨"position_string", false, false, none, none, .list, ['U', 'S', 'O'], .moves⟩,
   ⟨"last_move", false, false, none, none, .stack, ['i', 'u'], .plain⟩,
   ⟨"forbidden_point", false, false, some (-2, -1), none, .stack, ['b', 'i', 'u'], .plain⟩,
   ⟨"line_encoding", false, false, some (-2, -1), none, .stack, ['i', 'u'], .plain⟩,
   ⟨"line_encoding_total_num", false, true, none, none, .broadcast, ['i', 'u'], .plain⟩]

/-- core.py:237-246: undeclared and missing fields. -/
def checkNames {B : Type} (specs : List Spec) (d : List (String × B)) : Except String Unit :=
  if (names d).any (fun k => (specOf specs k).isNone) = true then .error "undeclared dataset fields"
  else if specs.any (fun s => s.required && !(names d).contains s.name) = true then .error "missing required dataset fields"
  else .ok ()

/-- Size of axis `a` (in range). -/
def dim (shape : List Nat) (a : Int) : Int := shape.getD a.toNat 0

/-- `any(physical < logical for physical, logical in zip(...))` -/
def smaller (physical : List Int) (logical : List Int) : Bool :=
  (physical.zip logical).any fun p => decide (p.1 < p.2)

/-- core.py:307-314, 336-342 with `batched=False`; stream.py:150-153, 209-213. -/
def axisSample (ndim : Nat) (a : Int) : Int := if 0 ≤ a then a else ndim + a

def inRange (ndim : Nat) (a : Int) : Bool := decide (0 ≤ a) && decide (a < ndim)

/-- core.py:306-335 with `batched=False`. -/
def spatialSample {A : Type} (size : List Int) (s : Spec) (v : Val A) : Except String Unit :=
  match s.spatial with
  | none => .ok ()
  | some (p, q) =>
    if (inRange v.shape.length (axisSample v.shape.length p) && inRange v.shape.length (axisSample v.shape.length q)) = false then
      .error "missing declared spatial axes"
    else if smaller [dim v.shape (axisSample v.shape.length p), dim v.shape (axisSample v.shape.length q)] size = true then
      .error "spatial shape is smaller than board_size"
    else .ok ()

/-- core.py:336-347 with `batched=False`. -/
def sideSample {A : Type} (s : Spec) (v : Val A) : Except String Unit :=
  match s.side with
  | none => .ok ()
  | some a => if inRange v.shape.length (axisSample v.shape.length a) = false then .error "missing declared side axis" else .ok ()

/-- core.py:265-347 with `batched=False`: one field. `size` is `board_size` as integers. -/
def validateSampleField {A : Type} (size : List Int) (s : Spec) (v : Val A) : Except String Unit :=
  if s.kinds.contains v.kind = false then .error "dtype kind"
  else andThen (spatialSample size s v) <| sideSample s v

/-- The loop over the fields (core.py:265). -/
def validateSampleFields {A : Type} (specs : List Spec) (size : List Int) : Dict A → Except String Unit
  | [] => .ok ()
  | (k, v) :: d => match specOf specs k with
    | none => .error "undeclared"
    | some s => andThen (validateSampleField size s v) <| validateSampleFields specs size d

/-- core.py:232-347 `validate_field_dict(data, batched=False)`. -/
def validateSample {A : Type} (x : Lib A) (specs : List Spec) (d : Dict A) : Except String Unit :=
  andThen (checkNames specs d) <| match get d "board_size" with
    | none => .error "missing"
    | some b => if b.shape ≠ [2] then .error "board_size has invalid sample shape" else validateSampleFields specs (x.ints b.body) d

/-- core.py:307-314 with `batched=True`. -/
def axisBatch (shared : Bool) (ndim : Nat) (a : Int) : Int :=
  if 0 ≤ a then a + (if shared then 0 else 1) else ndim + a

/-- core.py:276-304: rows of a per-sample field, rows of a shared field. The leading size of an array is its number of rows. -/
def checkRows {A : Type} (x : Lib A) (n : Nat) (s : Spec) (v : Val A) : Except String Unit :=
  if decide (v.shape.length = 0) || decide (v.shape.headD 0 ≠ n) then .error "rows"
  else if s.shared = false then .ok ()
  else match x.rows v.body with
    | [] => .error "index"
    | r :: rs => if (r :: rs).all (fun y => x.eq y r) = true then .ok () else .error "differs"

/-- core.py:306-335 with `batched=True`. `sizes` are the rows of `board_size`. -/
def spatialBatch {A : Type} (sizes : List (List Int)) (s : Spec) (v : Val A) : Except String Unit :=
  match s.spatial with
  | none => .ok ()
  | some (p, q) =>
    if (inRange v.shape.length (axisBatch s.shared v.shape.length p) && inRange v.shape.length (axisBatch s.shared v.shape.length q))
        = false then .error "missing declared spatial axes"
    else if s.shared = false ∧ (axisBatch s.shared v.shape.length p = 0 ∨ axisBatch s.shared v.shape.length q = 0) then
      .error "spatial axes cannot target the batch axis"
    else if sizes.any (smaller [dim v.shape (axisBatch s.shared v.shape.length p), dim v.shape (axisBatch s.shared v.shape.length q)])
        = true then .error "spatial shape is smaller than board_size"
    else .ok ()

/-- core.py:336-347 with `batched=True`. -/
def sideBatch {A : Type} (s : Spec) (v : Val A) : Except String Unit :=
  match s.side with
  | none => .ok ()
  | some a => if inRange v.shape.length (axisBatch s.shared v.shape.length a) = false then .error "missing declared side axis" else .ok ()

/-- core.py:265-347 with `batched=True`. -/
def validateBatchField {A : Type} (x : Lib A) (n : Nat) (sizes : List (List Int)) (s : Spec) (v : Val A) : Except String Unit :=
  if s.kinds.contains v.kind = false then .error "dtype kind"
  else andThen (checkRows x n s v) <| andThen (spatialBatch sizes s v) <| sideBatch s v

def validateBatchFields {A : Type} (x : Lib A) (specs : List Spec) (n : Nat) (sizes : List (List Int)) : Dict A → Except String Unit
  | [] => .ok ()
  | (k, v) :: d => match specOf specs k with
    | none => .error "undeclared"
    | some s => andThen (validateBatchField x n sizes s v) <| validateBatchFields x specs n sizes d

/-- core.py:232-347 `validate_field_dict(data, batched=True)`. -/
def validateBatch {A : Type} (x : Lib A) (specs : List Spec) (d : Dict A) : Except String Unit :=
  andThen (checkNames specs d) <| match get d "board_size" with
    | none => .error "missing"
    | some b =>
      if b.shape.length ≠ 2 ∨ b.shape.getD 1 0 ≠ 2 then .error "board_size has invalid batch shape"
      else validateBatchFields x specs (b.shape.headD 0) ((x.rows b.body).map x.ints) d

/-! ### Collation -/

/-- stream.py:149-175. -/
def collateSpatial {A : Type} (x : Lib A) (s : Spec) (sample : Dict A) (v : Val A) : Except String Unit :=
  match s.spatial with
  | none => .ok ()
  | some (p, q) =>
    if (inRange v.shape.length (axisSample v.shape.length p) && inRange v.shape.length (axisSample v.shape.length q)) = false then
      .error "invalid spatial axes"
    else match get sample "board_size" with
      | none => .error "KeyError"
      | some b =>
        if smaller [dim v.shape (axisSample v.shape.length p), dim v.shape (axisSample v.shape.length q)] (x.ints b.body) = true then
          .error "does not match board_size"
        else .ok ()

/-- stream.py:177-206: a plane of exactly the board's size, or a flat policy for the board or for the physical input, with or without a
pass entry. -/
def collatePolicy {A : Type} (x : Lib A) (s : Spec) (sample : Dict A) (v : Val A) : Except String Unit :=
  if s.transform ≠ .boardPolicy then .ok ()
  else match get sample "board_size" with
    | none => .error "KeyError"
    | some b =>
      if v.shape.length = 2 ∧ v.shape.map (fun k => (k : Int)) = x.ints b.body then .ok ()
      else if v.shape.length = 1 then
        match x.ints b.body, get sample "board_input" with
        | r :: c :: _, some i =>
          if i.shape.length < 2 then .error "IndexError"
          else
            let h : Int := i.shape.getD (i.shape.length - 2) 0
            let w : Int := i.shape.getD (i.shape.length - 1) 0
            if ([r * c, r * c + 1, h * w, h * w + 1]).contains (v.shape.headD 0 : Int) then .ok () else .error "neither plane nor flat"
        | _, _ => .error "IndexError"
      else .error "neither plane nor flat"

/-- stream.py:207-220. -/
def collateSide {A : Type} (s : Spec) (v : Val A) : Except String Unit :=
  match s.side with
  | none => .ok ()
  | some a => if inRange v.shape.length (axisSample v.shape.length a) = false then .error "invalid side axis" else .ok ()

/-- stream.py:138-220: one sample's value of a declared field. -/
def collateCheck {A : Type} (x : Lib A) (s : Spec) (sample : Dict A) (v : Val A) : Except String Unit :=
  if s.kinds.contains v.arrayKind = false then .error "dtype"
  else andThen (collateSpatial x s sample v) <| andThen (collatePolicy x s sample v) <| collateSide s v

/-- The loop over the samples (stream.py:138). -/
def collateChecks {A : Type} (x : Lib A) (s : Spec) : List (Dict A × Val A) → Except String Unit
  | [] => .ok ()
  | (sample, v) :: l => andThen (collateCheck x s sample v) <| collateChecks x s l

/-- What a field of a batch can be. -/
inductive Out (A : Type)
  | stacked (v : Val A)
  | listed (vs : List (Val A))

/-- `torch.equal` / `np.array_equal` (stream.py:124-131). -/
def arrayEqual {A : Type} (x : Lib A) (v w : Val A) : Bool := decide (v.shape = w.shape) && x.eq v.body w.body

/-- `torch.stack(values, dim=0)` / `np.stack(..., axis=0)`: all shapes must agree. -/
def stackValues {A : Type} (x : Lib A) (cls : Cls) (values : List (Val A)) : Except String (Out A) :=
  match values with
  | [] => .error "empty"
  | v :: vs =>
    if vs.any (fun w => decide (w.shape ≠ v.shape)) = true then .error "cannot be stacked"
    else .ok (.stacked
      { cls := cls
        kind := x.promote (values.map Val.kind)
        arrayKind := x.promote (values.map Val.arrayKind)
        shape := values.length :: v.shape
        body := x.stack (values.map Val.body) })

/-- stream.py:221-231. -/
def assemble {A : Type} (x : Lib A) (values : List (Val A)) : Except String (Out A) :=
  if values.all (fun v => decide (v.cls = .tensor)) = true then stackValues x .tensor values
  else if values.all (fun v => decide (v.cls = .numeric)) = true then stackValues x .numeric values
  else .ok (.listed values)

/-- `[sample[key] for sample in samples]` (stream.py:120); `none` is a `KeyError`. -/
def valuesOf {A : Type} (k : String) : List (Dict A) → Option (List (Val A))
  | [] => some []
  | s :: l => match get s k, valuesOf k l with
    | some v, some vs => some (v :: vs)
    | _, _ => none

/-- stream.py:122-137: shared values agree with the first. -/
def differs {A : Type} (x : Lib A) : List (Val A) → Bool
  | [] => false
  | v :: vs => vs.any fun w => !arrayEqual x v w

/-- stream.py:119-231: one field. -/
def collateField {A : Type} (x : Lib A) (specs : List Spec) (samples : List (Dict A)) (k : String) : Except String (Out A) :=
  match valuesOf k samples with
  | none => .error "KeyError"
  | some values => match specOf specs k with
    | none => assemble x values
    | some s =>
      if (s.shared && differs x values) = true then .error "batch-shared field differs"
      else andThen (collateChecks x s (samples.zip values)) <| assemble x values

def collateKeys {A : Type} (x : Lib A) (specs : List Spec) (samples : List (Dict A)) : List String → Except String (List (String × Out A))
  | [] => .ok []
  | k :: ks => match collateField x specs samples k with
    | .error e => .error e
    | .ok o => match collateKeys x specs samples ks with
      | .error e => .error e
      | .ok l => .ok ((k, o) :: l)

/-- stream.py:112-114. -/
def validateAll {A : Type} (x : Lib A) (specs : List Spec) : List (Dict A) → Except String Unit
  | [] => .ok ()
  | d :: l => andThen (validateSample x specs d) <| validateAll x specs l

/-- `sample.keys() != keys` compares key sets. -/
def sameKeys {A : Type} (d e : Dict A) : Bool :=
  (names d).all (fun k => (names e).contains k) && (names e).all (fun k => (names d).contains k)

/-- stream.py:103-231 `collate_sample_dicts`. -/
def collate {A : Type} (x : Lib A) (specs : List Spec) (validate : Bool) (samples : List (Dict A)) :
    Except String (List (String × Out A)) :=
  match samples with
  | [] => .error "cannot collate an empty sample list"
  | s :: rest =>
    if rest.any (fun d => !sameKeys d s) = true then .error "inconsistent field schemas"
    else andThen (if validate = true then validateAll x specs samples else .ok ()) <| andThen (if validate = true then checkNames specs s else .ok ()) <| collateKeys x specs samples (names s)

/-! ### Physical files -/

/-- The file system as seen by one call: `realpath`, `stat` (device and inode; inode 0 on file systems without them), and
`normcase(path).casefold()`. -/
structure Fs where
  real : String → String
  stat : String → Option (Nat × Nat)
  fold : String → String

inductive Identity
  | inode (dev ino : Nat)
  | path (p : String)
deriving DecidableEq

/-- stream.py:43-49. -/
def identity (fs : Fs) (configured : String) : Option Identity :=
  match fs.stat (fs.real configured) with
  | none => none
  | some (dev, ino) => some (if ino ≠ 0 then .inode dev ino else .path (fs.fold (fs.real configured)))

/-- `identities.setdefault(identity, []).append(configured)` (stream.py:50-51). -/
def addAlias (table : List (Identity × List String)) (i : Identity) (p : String) : List (Identity × List String) :=
  match table with
  | [] => [(i, [p])]
  | (j, l) :: t => if j = i then (j, l ++ [p]) :: t else (j, l) :: addAlias t i p

/-- The loop (stream.py:42-52): normalised paths and the table of aliases; a missing file raises. -/
def scanFiles (fs : Fs) : List String → List String → List (Identity × List String) →
    Except String (List String × List (Identity × List String))
  | [], normalized, table => .ok (normalized, table)
  | p :: ps, normalized, table => match identity fs p with
    | none => .error "FileNotFoundError"
    | some i => scanFiles fs ps (normalized ++ [fs.real p]) (addAlias table i p)

/-- stream.py:39-58. The error carries the groups of spellings. -/
inductive Rejected
  | missing
  | duplicates (groups : List (List String))

def rejectDuplicates (fs : Fs) (paths : List String) : Except Rejected (List String) :=
  match scanFiles fs paths [] [] with
  | .error _ => .error .missing
  | .ok (normalized, table) =>
    let groups := (table.map Prod.snd).filter fun g => decide (1 < g.length)
    if groups ≠ [] then .error (.duplicates groups) else .ok normalized

end Verif.Collate
