import Verif.Canon.Model

/-!
# Model of the pipeline chain, `PipelineStateComposer` (`dataset/core.py:1419-1804`)

A field value is what the checks look at — dtype kind, shape, whether it is a list, and its rows along the leading axis. The value digest
is an arbitrary function, SHA-256 of the signature bytes another; the state encoding is the real one (`Verif.Canon`, C07). A pipeline is
an object with arbitrary hidden state: a call may return anything, change any field in place, change the state it was handed and change
itself.
-/
namespace Verif.Pipe
open Verif.Canon

inductive Collate | stack | broadcast | list
deriving DecidableEq

inductive Transform | plain | boardPolicy | flatPolicyPass | moves
deriving DecidableEq

/-- `FieldSpec` (core.py:99-112). -/
structure Spec where
  name : String
  required : Bool
  /-- `scope == "batch_shared"` -/
  shared : Bool
  spatial : Option (Int × Int)
  side : Option Int
  collate : Collate
  kinds : List Char
  transform : Transform

structure Field (A : Type) where
  kind : Char
  shape : List Nat
  isSeq : Bool
  rows : List A
deriving DecidableEq

/-- A field dictionary. -/
abbrev Data (A : Type) := List (String × Field A)

def get {A : Type} (d : Data A) (k : String) : Option (Field A) := (d.find? fun e => decide (e.1 = k)).map Prod.snd

/-- What is needed of row values: equality, and reading a `board_size` row as two integers. -/
structure Rows (A : Type) where
  eq : A → A → Bool
  pair : A → Int × Int

/-- `board_sizes` (core.py:1528-1537). -/
def boardSizes {A : Type} (r : Rows A) (d : Data A) (n : Nat) : Option (List (Int × Int)) :=
  match get d "board_size" with
  | none => none
  | some f => if f.shape = [n, 2] then some (f.rows.map r.pair) else none

/-- The normalised axis (core.py:1605-1609 for spatial axes, 1632-1637 for the side axis; both conventions agree). -/
def axisOf (shared : Bool) (ndim : Nat) (axis : Int) : Int :=
  if shared = false ∧ 0 ≤ axis then axis + 1 else if 0 ≤ axis then axis else ndim + axis

def inRange (ndim : Nat) (a : Int) : Bool := decide (0 ≤ a) && decide (a < ndim)

def dimAt (shape : List Nat) (a : Int) : Nat := shape.getD a.toNat 0

/-- Lines 1563-1602: leading dimension, list collation, shared rows. -/
def checkScope {A : Type} (r : Rows A) (s : Spec) (f : Field A) (n : Nat) : Except String Unit :=
  if s.shared = false then
    if f.shape.head? ≠ some n then .error "per-sample field must have leading dimension"
    else if s.collate = .list ∧ f.isSeq = false then .error "list-collated field must contain rows"
    else .ok ()
  else if s.collate = .list ∧ f.isSeq = false then .error "batch-shared list field must be a list"
  else if f.shape.head? ≠ some n then .error "batch-shared field must retain leading dimension"
  else match f.rows with
    | [] => .error "index out of range"
    | x :: xs => if xs.all (fun y => r.eq y x) = false then .error "batch-shared field differs" else .ok ()

/-- Lines 1603-1630: the spatial axes and the boards. -/
def checkSpatial {A : Type} (s : Spec) (f : Field A) (bs : Option (List (Int × Int))) : Except String Unit :=
  match s.spatial with
  | none => .ok ()
  | some (a, b) =>
    let a' := axisOf s.shared f.shape.length a
    let b' := axisOf s.shared f.shape.length b
    if inRange f.shape.length a' = false ∨ inRange f.shape.length b' = false then .error "spatial axis is invalid"
    else match bs with
      | none => .ok ()
      | some l => if l.all (fun p => decide (p.1 ≤ dimAt f.shape a') && decide (p.2 ≤ dimAt f.shape b')) = false then
          .error "spatial shape does not match board_size" else .ok ()

/-- Lines 1631-1652: the side axis. -/
def checkSide {A : Type} (s : Spec) (f : Field A) : Except String Unit :=
  match s.side with
  | none => .ok ()
  | some a =>
    let a' := axisOf s.shared f.shape.length a
    if inRange f.shape.length a' = false then .error "side axis is invalid"
    else if dimAt f.shape a' = 0 then .error "empty side axis"
    else match s.spatial with
      | none => .ok ()
      | some (b, c) => if a' = axisOf s.shared f.shape.length b ∨ a' = axisOf s.shared f.shape.length c then
          .error "side axis aliases a spatial axis" else .ok ()

/-- `shape[-2] * shape[-1]` of `board_input`. -/
def physicalSize {A : Type} (d : Data A) : Option Nat :=
  match get d "board_input" with
  | none => none
  | some f => if f.shape.length < 2 then none else some (f.shape.getD (f.shape.length - 2) 0 * f.shape.getD (f.shape.length - 1) 0)

/-- Lines 1653-1695: the transform. -/
def checkTransform {A : Type} (s : Spec) (f : Field A) (d : Data A) (bs : Option (List (Int × Int))) : Except String Unit :=
  match s.transform with
  | .plain => .ok ()
  | .moves => if s.collate ≠ .list then .error "move field requires list collation" else .ok ()
  | .flatPolicyPass =>
    match bs with
    | none => .error "requires board_size"
    | some l => if f.shape.length ≠ 2 ∨ l.all (fun p => decide ((f.shape.getD 1 0 : Int) = p.1 * p.2 + 1)) = false then
        .error "must contain one flattened board policy plus a pass entry" else .ok ()
  | .boardPolicy =>
    match bs with
    | none => .error "requires board_size"
    | some l =>
      match physicalSize d with
      | none => .error "board_input"
      | some ph =>
        let plane := decide (f.shape.length = 3) && l.all (fun p => decide (p = ((f.shape.getD 1 0 : Int), (f.shape.getD 2 0 : Int))))
        let flat := decide (f.shape.length = 2) && l.all (fun p => decide ((f.shape.getD 1 0 : Int) = p.1 * p.2) ||
          decide ((f.shape.getD 1 0 : Int) = p.1 * p.2 + 1) || decide (f.shape.getD 1 0 = ph) || decide (f.shape.getD 1 0 = ph + 1))
        if (plane || flat) = false then .error "neither a board plane nor a flattened board policy" else .ok ()

/-- The body of the loop over the declared fields (core.py:1538-1695). -/
def checkSpec {A : Type} (r : Rows A) (d : Data A) (n : Nat) (s : Spec) : Except String Unit :=
  match get d s.name with
  | none => if s.required then .error "missing required field" else .ok ()
  | some f =>
    if s.kinds.contains f.kind = false then .error "dtype kind"
    else match checkScope r s f n with
    | .error e => .error e
    | .ok _ => match checkSpatial s f (boardSizes r d n) with
      | .error e => .error e
      | .ok _ => match checkSide s f with
        | .error e => .error e
        | .ok _ => checkTransform s f d (boardSizes r d n)

/-- `_validate_fields` (core.py:1514-1699). -/
def validateFields {A : Type} (r : Rows A) (d : Data A) (n : Nat) : List Spec → Except String Unit
  | [] => .ok ()
  | s :: l => match checkSpec r d n s with
    | .error e => .error e
    | .ok _ => validateFields r d n l

/-- What a call of a pipeline leaves: the returned fields (after any in-place change), the returned next state, the state object it
was handed as it now is, and the pipeline itself. -/
structure Out (A H : Type) where
  data : Data A
  next : Val
  isolated : Val
  hidden : H

/-- A pipeline object. -/
structure Pipe (A K H : Type) where
  id : Str
  version : Int
  inputs : List Spec
  outputs : List Spec
  /-- `hasattr(pipeline, "initial_state")` -/
  stateful : Bool
  initial : Val
  signature : H → Val
  run : H → Data A → Val → K → Except String (Out A H)

/-- External functions: the digest of a field value, SHA-256 of the signature bytes. -/
structure Ext (A D : Type) where
  rows : Rows A
  digest : Field A → D
  sha : ByteArray → D
  lib : PyLib

structure Composer (A K H D : Type) where
  pipes : List (Pipe A K H)
  prints : List D
  initialBlob : ByteArray

def names (l : List Spec) : List String := l.map Spec.name

/-- One entry of the composite state (core.py:1456-1462, 1797-1803). -/
def entry (id : Str) (version : Int) (bytes : ByteArray) : Val := .seq true [.str id, .int version, .str (toHex bytes.data.toList)]

/-- The loop of the constructor (core.py:1429-1463). -/
noncomputable def makeLoop {A K H D : Type} (x : Ext A D) : List (Pipe A K H) → List H → List String → Except String (List Val × List D)
  | [], _, _ => .ok ([], [])
  | _ :: _, [], _ => .error "no pipeline object"
  | p :: ps, h :: hs, produced =>
    if p.id = [] then .error "opaque pipeline lacks pipeline_id"
    else match encode x.lib (p.signature h) with
    | .error e => .error e
    | .ok sig =>
      if ¬ (names p.outputs).Nodup then .error "declares duplicate output fields"
      else if (names p.outputs).any (fun k => produced.contains k) then .error "output collision"
      else if (names p.outputs).any (fun k => (names p.inputs).contains k) then .error "overwrites input fields"
      else match encode x.lib (if p.stateful then p.initial else .null) with
      | .error e => .error e
      | .ok b => match makeLoop x ps hs (produced ++ names p.outputs) with
        | .error e => .error e
        | .ok (es, ds) => .ok (entry p.id p.version b :: es, x.sha sig :: ds)

/-- `PipelineStateComposer.__init__` (core.py:1422-1464). -/
noncomputable def make {A K H D : Type} (x : Ext A D) (pipes : List (Pipe A K H)) (hs : List H) : Except String (Composer A K H D) :=
  if ¬ (pipes.map Pipe.id).Nodup then .error "duplicate pipeline identifiers"
  else match makeLoop x pipes hs [] with
  | .error e => .error e
  | .ok (es, ds) => match encode x.lib (.seq false es) with
    | .error e => .error e
    | .ok b => .ok ⟨pipes, ds, b⟩

/-- One entry of `_decode_blob` (core.py:1471-1477). -/
noncomputable def decodeEntry (lib : PyLib) (id : Str) (version : Int) (v : Val) : Except String Val :=
  match v with
  | .seq _ [.str i, .int w, .str h] =>
    if i ≠ id ∨ w ≠ version then .error "pipeline composite descriptor changed"
    else match fromHex h with
      | none => .error "fromhex"
      | some bs => decode lib ⟨bs.toArray⟩
  | _ => .error "cannot unpack"

noncomputable def decodeEntries {A K H : Type} (lib : PyLib) : List (Pipe A K H) → List Val → Except String (List Val)
  | [], [] => .ok []
  | p :: ps, v :: vs => match decodeEntry lib p.id p.version v with
    | .error e => .error e
    | .ok s => match decodeEntries lib ps vs with
      | .error e => .error e
      | .ok ss => .ok (s :: ss)
  | _, _ => .error "pipeline composite state length changed"

/-- `_decode_blob` (core.py:1466-1478). -/
noncomputable def decodeBlob {A K H : Type} (lib : PyLib) (pipes : List (Pipe A K H)) (blob : ByteArray) : Except String (List Val) :=
  match decode lib blob with
  | .error e => .error e
  | .ok (.seq _ vs) => decodeEntries lib pipes vs
  | .ok _ => .error "not a sequence"

/-- The body of the loop of `prepare_batch` for one pipeline (core.py:1715-1803): the fields, the entry and the object after. -/
noncomputable def step {A K H D : Type} [DecidableEq D] (x : Ext A D) (p : Pipe A K H) (print : D) (h : H) (d : Data A) (state : Val) (n : Nat) (keys : K) :
    Except String (Data A × Val × H) :=
  match encode x.lib (p.signature h) with
  | .error e => .error e
  | .ok sig =>
    if x.sha sig ≠ print then .error "signature state mutated"
    else match encode x.lib state with
    | .error e => .error e
    | .ok stateBytes => match decode x.lib stateBytes with
      | .error e => .error e
      | .ok isolated => match validateFields x.rows d n p.inputs with
        | .error e => .error e
        | .ok _ => match p.run h d (if p.stateful then isolated else .null) keys with
          | .error e => .error e
          | .ok out =>
            if d.any (fun f => (names p.outputs).contains f.1) then .error "overwrote existing fields"
            else if out.data.any (fun f => (get d f.1).isNone && !(names p.outputs).contains f.1) then .error "produced undeclared fields"
            else if d.any (fun f => (get out.data f.1).isNone) then .error "removed fields"
            else if d.any (fun f => decide ((get out.data f.1).map x.digest ≠ (get d f.1).map x.digest)) then .error "mutated undeclared fields"
            else match validateFields x.rows out.data n p.outputs with
            | .error e => .error e
            | .ok _ => match encode x.lib (if p.stateful then out.isolated else isolated) with
              | .error e => .error e
              | .ok after =>
                if after ≠ stateBytes then .error "mutated its input state"
                else match encode x.lib (p.signature out.hidden) with
                | .error e => .error e
                | .ok sig' =>
                  if sig' ≠ sig then .error "mutated declared state"
                  else match encode x.lib (if p.stateful then out.next else .null) with
                  | .error e => .error e
                  | .ok b => .ok (out.data, entry p.id p.version b, out.hidden)

noncomputable def steps {A K H D : Type} [DecidableEq D] (x : Ext A D) (n : Nat) (keys : K) :
    List (Pipe A K H) → List D → List H → List Val → Data A → Except String (Data A × List Val × List H)
  | p :: ps, q :: qs, h :: hs, s :: ss, d => match step x p q h d s n keys with
    | .error e => .error e
    | .ok (d', e, h') => match steps x n keys ps qs hs ss d' with
      | .error e => .error e
      | .ok (d'', es, hs') => .ok (d'', e :: es, h' :: hs')
  | _, _, _, _, d => .ok (d, [], [])

/-- `prepare_batch` (core.py:1701-1804). `n` is the number of sample keys. -/
noncomputable def prepare {A K H D : Type} [DecidableEq D] (x : Ext A D) (c : Composer A K H D) (hs : List H) (batch : Data A) (n : Nat) (keys : K)
    (blob : Option ByteArray) : Except String (Data A × ByteArray × List H) :=
  match decodeBlob x.lib c.pipes (blob.getD c.initialBlob) with
  | .error e => .error e
  | .ok states => match steps x n keys c.pipes c.prints hs states batch with
    | .error e => .error e
    | .ok (d, es, hs') => match encode x.lib (.seq false es) with
      | .error e => .error e
      | .ok b => .ok (d, b, hs')

end Verif.Pipe
