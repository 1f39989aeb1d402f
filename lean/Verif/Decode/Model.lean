import Verif.Board.Sample
import Verif.Rng.Model

/-!
# Model of the processed NPZ decoder (`dataset/decoder.py:29-891`)

One file is a set of arrays with a common number of rows.  A batch (a dictionary of arrays with a common leading dimension) is modelled as the list
of its rows; an array allocated with `np.empty` is a list of unset positions, so that a position that is never written shows.  Simplifications:
`astype` conversions act on every element separately and identically on all paths and are left out; the array cache (C55 and dataset/decoder.py:346-412)
is a pure `load` function; `validate_field_dict` is left out; exceptions are `none`.
-/
namespace Verif.Decode
open Verif.Board Verif.Rng

variable {α : Type}

/-- The arrays of one file after loading and filtering (dataset/decoder.py:121-192): `bf` (rows of planes), optional `gf`, `vt`, optional `pt`. -/
structure Arrays (α : Type) where
  h : Nat
  w : Nat
  bf : List (List (Nat → Nat → α))
  gf : Option (List (List α))
  vt : List (List α)
  pt : Option (List (Policy α))

/-- One row of a batch: `board_size`, `board_input` (with the shape of its planes), `stm_input`, `value_target`, `policy_target`. -/
structure Row (α : Type) where
  bh : Nat
  bw : Nat
  h : Nat
  w : Nat
  planes : List (Nat → Nat → α)
  stm : List α
  value : List α
  policy : Policy α

/-- `_DenseDecodeRef` (dataset/npz_source.py:83-89). -/
structure Ref where
  path : String
  row : Nat
  bh : Nat
  bw : Nat
  key : SampleKey

/-- Options of `ProcessedNpzDecoder` (dataset/decoder.py:34-70), the digest function of the RNG, the sign test of an element and the loader. -/
structure Cfg (α : Type) where
  fixedSide : Bool
  fixedSize : Option (Nat × Nat)
  hasPass : Bool
  kind : Option Kind                 -- `apply_symmetry`; `True` is `default`
  seed : Int
  epoch : Int
  H : Digest
  gt0 : α → Bool
  load : String → Option (Arrays α)

/-- The shape of a policy target. -/
inductive PShape
  | flat (n : Nat)
  | plane (h w : Nat)
deriving DecidableEq

def policyShape : Policy α → PShape
  | .flat v => .flat v.length
  | .plane g => .plane g.h g.w

/-- The shapes of the fields of a row (dtypes are fixed): channels, height, width, side inputs, values, policy. -/
structure Shape where
  c : Nat
  h : Nat
  w : Nat
  s : Nat
  v : Nat
  p : PShape
deriving DecidableEq

def Row.shape (r : Row α) : Shape := ⟨r.planes.length, r.h, r.w, r.stm.length, r.value.length, policyShape r.policy⟩

/-- `np.stack` of every field: all rows must have the same shapes (dataset/stream.py:103-231 without the validation). -/
def stack (rows : List (Row α)) : Option (List (Row α)) :=
  match rows with
  | [] => none
  | r :: rs => if ∀ x ∈ rs, x.shape = r.shape then some (r :: rs) else none

/-! ### Row by row -/

/-- The policy of a row: `pt`, or zeros (dataset/decoder.py:473-480). -/
def defaultPolicy [Zero α] (hasPass : Bool) (h w : Nat) : Policy α :=
  if hasPass then .flat (List.replicate (h * w + 1) 0) else .plane ⟨h, w, fun _ _ => 0⟩

/-- Dropping the pass entry of a flat policy (dataset/decoder.py:481-488). -/
def dropPass [Zero α] (hasPass : Bool) (h w : Nat) (p : Policy α) : Option (Policy α) :=
  if hasPass then some p
  else match p with
    | .plane g => some (.plane g)
    | .flat v => if v.length ≠ h * w + 1 then none else some (.plane (unflat h w v.dropLast))

/-- The symmetry of one sample (dataset/decoder.py:489-503): the index, 0 without augmentation. -/
def pickOne (c : Cfg α) (h w : Nat) (key : SampleKey) : Option Nat :=
  match c.kind with
  | none => some 0
  | some k => match available h w k with
    | none => none
    | some choices =>
      (uniformBelowForKeysV2 c.H choices.length c.seed "symmetry" c.epoch [key] 0).bind (·[0]?)

/-- `post_process_data` on a row (dataset/decoder.py:504-514); `stm_input > 0` as a condition needs exactly one element. -/
def postOne [Zero α] (c : Cfg α) (idx : Nat) (r : Row α) : Option (Row α) :=
  if c.fixedSide = true ∧ r.stm.length ≠ 1 then none
  else
    (process c.fixedSide c.fixedSize c.kind idx false
      { bh := r.bh, bw := r.bw, h := r.h, w := r.w, planes := r.planes,
        stm := if r.stm.any c.gt0 then 1 else 0, value := r.value, policy := r.policy,
        sparse := none, position := none, moves := none }).map fun s =>
      { bh := s.bh, bw := s.bw, h := s.h, w := s.w, planes := s.planes, stm := r.stm, value := s.value,
        policy := s.policy }

/-- `gf` and `pt` of row `i`, or the defaults (dataset/decoder.py:468-480). -/
def gfAt [Zero α] (a : Arrays α) (i : Nat) : Option (List α) := match a.gf with | none => some [0] | some g => g[i]?
def ptAt [Zero α] (c : Cfg α) (a : Arrays α) (h w i : Nat) : Option (Policy α) :=
  match a.pt with | none => some (defaultPolicy c.hasPass h w) | some p => p[i]?

/-- Fields of row `i` before post-processing (dataset/decoder.py:459-488, 504-511). -/
def rawRow [Zero α] (c : Cfg α) (a : Arrays α) (i : Nat) : Option (Row α) :=
  match a.bf[i]?, gfAt a i, a.vt[i]?, (ptAt c a a.h a.w i).bind (dropPass c.hasPass a.h a.w) with
  | some planes, some stm, some value, some policy => some ⟨a.h, a.w, a.h, a.w, planes, stm, value, policy⟩
  | _, _, _, _ => none

/-- `decode_one` (dataset/decoder.py:459-514). -/
def decodeOne [Zero α] (c : Cfg α) (ref : Ref) : Option (Row α) :=
  match c.load ref.path with
  | none => none
  | some a =>
    if ref.row < a.bf.length then
      match rawRow c a ref.row, pickOne c a.h a.w ref.key with
      | some r, some idx => postOne c idx r
      | _, _ => none
    else none

/-! ### Vectorised post-processing (dataset/decoder.py:516-620) -/

/-- `l[mask]`. -/
def maskGet {β : Type} : List Bool → List β → List β
  | true :: m, b :: l => b :: maskGet m l
  | false :: m, _ :: l => maskGet m l
  | _, _ => []

/-- `l[mask] = vals`. -/
def maskSet {β : Type} : List Bool → List β → List β → List β
  | true :: m, _ :: l, v :: vs => v :: maskSet m l vs
  | false :: m, b :: l, vs => b :: maskSet m l vs
  | _, l, _ => l

/-- Flip the colour planes and swap win and loss of a row. -/
def flipPlanes (r : Row α) : Row α := { r with planes := r.planes.reverse }
def swapValue (r : Row α) : Option (Row α) :=
  match r.value with
  | a :: b :: rest => some { r with value := b :: a :: rest }
  | _ => none

/-- The `fixed_side_input` block (dataset/decoder.py:530-545). -/
def vecSide (c : Cfg α) (rows : List (Row α)) : Option (List (Row α)) :=
  if c.fixedSide then
    if rows.any (fun r => r.stm.length != 1) then none
    else
      let white := rows.map fun r => r.stm.any c.gt0
      if white.any id then
        let flipped := maskSet white rows ((maskGet white rows).map flipPlanes)
        ((maskGet white flipped).mapM swapValue).map fun swapped => maskSet white flipped swapped
      else some rows
  else some rows

/-- `np.flatnonzero(indices == k)`, counting from `i`. -/
def positionsOf {κ : Type} [DecidableEq κ] (k : κ) : Nat → List κ → List Nat
  | _, [] => []
  | i, x :: xs => if x = k then i :: positionsOf k (i + 1) xs else positionsOf k (i + 1) xs

/-- `l[positions]`. -/
def takeAt {β : Type} (l : List β) (pos : List Nat) : Option (List β) := pos.mapM fun i => l[i]?

/-- `out[positions] = vals` for an array from `np.empty`. -/
def putAt {β : Type} (out : List (Option β)) : List Nat → List β → List (Option β)
  | p :: ps, v :: vs => putAt (out.set p (some v)) ps vs
  | _, _ => out

/-- The symmetry of a row's planes; the array it is stored into has the planes' old shape, so a changed shape raises. -/
def symRow [Zero α] (sym : Sym) (r : Row α) : Option (Row α) :=
  let d := sym.applyArr (⟨r.h, r.w, fun _ _ => ()⟩ : Grid Unit)
  if d.h ≠ r.h ∨ d.w ≠ r.w then none
  else match r.policy with
    | .flat v =>
      if v.length ≠ r.h * r.w + 1 then none
      else some { r with planes := r.planes.map (applyPlane sym r.h r.w),
                         policy := .flat (flat (sym.applyArr (unflat r.h r.w v.dropLast)) ++ v.drop (v.length - 1)) }
    | .plane g =>
      if (sym.applyArr g).h ≠ g.h ∨ (sym.applyArr g).w ≠ g.w then none
      else some { r with planes := r.planes.map (applyPlane sym r.h r.w), policy := .plane (sym.applyArr g) }

/-- The loop over the symmetries (dataset/decoder.py:596-606). -/
def symLoop [Zero α] (rows : List (Row α)) (idxs : List Nat) :
    Nat → List Sym → List (Option (Row α)) → Option (List (Option (Row α)))
  | _, [], out => some out
  | k, sym :: syms, out =>
    match (takeAt rows (positionsOf k 0 idxs)).bind (·.mapM (symRow sym)) with
    | none => none
    | some vals => symLoop rows idxs (k + 1) syms (putAt out (positionsOf k 0 idxs) vals)

/-- The flat policy test before the loop (dataset/decoder.py:579-589): only the common width is compared. -/
def flatOk (h w : Nat) (rows : List (Row α)) : Bool :=
  rows.all fun r => match r.policy with
    | .flat v => v.length == h * w + 1
    | .plane _ => true

/-- The symmetry block, given the drawing function (dataset/decoder.py:547-620). -/
def vecSym [Zero α] (c : Cfg α) (draw : Nat → Option (List Nat)) (rows : List (Row α)) : Option (List (Row α)) :=
  match c.kind, rows with
  | none, _ => some rows
  | some _, [] => none
  | some k, r :: _ =>
    match available r.h r.w k with
    | none => none
    | some choices =>
      match draw choices.length with
      | none => none
      | some idxs =>
        if flatOk r.h r.w rows then
          (symLoop rows idxs 0 choices (List.replicate rows.length none)).bind fun out => out.mapM id
        else none

/-- `_post_process_vectorized` (dataset/decoder.py:516-620). -/
def vecPost [Zero α] (c : Cfg α) (draw : Nat → Option (List Nat)) (rows : List (Row α)) : Option (List (Row α)) :=
  (vecSide c rows).bind (vecSym c draw)

/-- The draw for reference lists (dataset/decoder.py:566-577). -/
def drawKeys (c : Cfg α) (keys : List SampleKey) (n : Nat) : Option (List Nat) :=
  uniformBelowForKeysV2 c.H n c.seed "symmetry" c.epoch keys 0

/-! ### Batches from one file (dataset/decoder.py:783-891; `refs` of one path: the multi-path branch is never reached, as both callers group by path) -/

/-- `all(ref.address == (first + offset,))`. -/
def contiguous : Nat → List Nat → Bool
  | _, [] => true
  | f, i :: is => i == f && contiguous (f + 1) is

/-- `arrays[key][selector]`: a slice (which truncates) or an index array (which raises). -/
def gatherCol {β : Type} (col : List β) (idx : List Nat) : Option (List β) :=
  match idx with
  | [] => some []
  | f :: _ => if contiguous f idx then some ((col.drop f).take idx.length) else takeAt col idx

/-- A column, or a default per reference. -/
def gather {β : Type} (col : Option (List β)) (dflt : β) (idx : List Nat) : Option (List β) :=
  match col with
  | none => some (List.replicate idx.length dflt)
  | some l => gatherCol l idx

/-- Rows from columns; columns of unequal length are refused (by the later validation). -/
def zipRows (bhw : List (Nat × Nat)) (h w : Nat) : List (List (Nat → Nat → α)) → List (List α) → List (List α) →
    List (Policy α) → Option (List (Row α))
  | p :: ps, s :: ss, v :: vs, q :: qs =>
    match bhw with
    | b :: bs => (zipRows bs h w ps ss vs qs).map fun rows => ⟨b.1, b.2, h, w, p, s, v, q⟩ :: rows
    | [] => none
  | [], [], [], [] => if bhw = [] then some [] else none
  | _, _, _, _ => none

/-- `_decode_loaded_batch` for references into one file. -/
def loadedBatch [Zero α] (c : Cfg α) (a : Arrays α) (refs : List Ref) : Option (List (Row α)) :=
  match refs with
  | [] => none
  | r :: _ =>
    let idx := refs.map Ref.row
    match gatherCol a.bf idx, gather a.gf [0] idx, gatherCol a.vt idx, gather a.pt (defaultPolicy c.hasPass r.bh r.bw) idx with
    | some bf, some gf, some vt, some pt =>
      match pt.mapM (dropPass c.hasPass r.bh r.bw) with
      | none => none
      | some pt' =>
        (zipRows (refs.map fun r => (r.bh, r.bw)) a.h a.w bf gf vt pt').bind (vecPost c (drawKeys c (refs.map Ref.key)))
    | _, _, _, _ => none

/-! ### Batches from several files -/

/-- `dict.fromkeys(...)`: first occurrences in order. -/
def distinct {β : Type} [DecidableEq β] : List β → List β
  | [] => []
  | x :: xs => x :: (distinct xs).filter (· ≠ x)

/-- The loop over the files of a batch, the same in `_decode_grouped_batch` (dataset/decoder.py:747-781, keys are paths) and in
`decode_packed_batch` (dataset/decoder.py:650-702, keys are file indices): `group k` holds the rows of file `k`, the schema of the first group is
compared with that of every later one, and the rows go to the positions of the key. -/
def assemble {κ : Type} [DecidableEq κ] (keys : List κ) (group : κ → Option (List (Row α))) :
    List κ → Option Shape → List (Option (Row α)) → Option (List (Option (Row α)))
  | [], _, out => some out
  | k :: ks, schema, out =>
    match group k with
    | some (g :: gs) =>
      match schema with
      | some s => if g.shape = s then assemble keys group ks schema (putAt out (positionsOf k 0 keys) (g :: gs)) else none
      | none => assemble keys group ks (some g.shape) (putAt out (positionsOf k 0 keys) (g :: gs))
    | _ => none

/-- `_decode_grouped_batch` (dataset/decoder.py:747-781). -/
def groupedBatch [Zero α] (c : Cfg α) (refs : List Ref) (paths : List String) : Option (List (Row α)) :=
  (assemble (refs.map Ref.path) (fun path => (c.load path).bind fun a => loadedBatch c a (refs.filter fun r => r.path = path)) paths none
    (List.replicate refs.length none)).bind fun out => out.mapM id

/-- The common part of `decode_batch` and `decode_batches`. -/
def flatBatch [Zero α] (c : Cfg α) (refs : List Ref) : Option (List (Row α)) :=
  match distinct (refs.map Ref.path) with
  | [p] => (c.load p).bind fun a => loadedBatch c a refs
  | paths => groupedBatch c refs paths

/-- `decode_batch` (dataset/decoder.py:622-633) without fixed board size. -/
def decodeBatch [Zero α] (c : Cfg α) (refs : List Ref) : Option (List (Row α)) :=
  match refs with
  | [] => none
  | _ => flatBatch c refs

/-- `flat[offset:next_offset]` for every batch (dataset/decoder.py:733-745). -/
def splitBatches {β : Type} (rows : List β) : List Nat → List (List β)
  | [] => []
  | n :: ns => rows.take n :: splitBatches (rows.drop n) ns

/-- `decode_batches` (dataset/decoder.py:716-745) without fixed board size. -/
def decodeBatches [Zero α] (c : Cfg α) (batches : List (List Ref)) : Option (List (List (Row α))) :=
  if batches = [] ∨ batches.any (·.isEmpty) then none
  else
    match distinct (batches.filterMap fun b => b.head?.map fun r => (r.bh, r.bw)) with
    | [_] => (flatBatch c batches.flatten).map fun rows => splitBatches rows (batches.map List.length)
    | _ => batches.mapM (decodeBatch c)

/-- `_materialize_refs` (dataset/npz_source.py:562-573): the vectorised path, or stacked single samples for a fixed board size. -/
def materializeRefs [Zero α] (c : Cfg α) (refs : List Ref) : Option (List (Row α)) :=
  match c.fixedSize with
  | none => decodeBatch c refs
  | some _ => (refs.mapM (decodeOne c)).bind stack

/-! ### Packed requests (dataset/decoder.py:635-714, dataset/npz_source.py:92-130, 524-560) -/

/-- `_PackedDenseDecodeBatch`: the files (path, content digest) and, per row, a file index and a row; the board size of the first row's file. -/
structure Request where
  files : List (String × List UInt8)
  rows : List (Nat × Nat)
  bh : Nat
  bw : Nat

/-- The canonical key of a packed row (dataset/npz_source.py:117-127). -/
def Request.key (q : Request) (r : Nat × Nat) : SampleKey :=
  ⟨"root", (q.files.getD r.1 ("", [])).2, "npz-row", [(r.2 : Int)]⟩

/-- The draw for packed rows (dataset/decoder.py:552-565). -/
def drawPacked (c : Cfg α) (q : Request) (n : Nat) : Option (List Nat) :=
  if n &&& (n - 1) = 0 then
    uniformBelowForPackedRowsV2 c.H n c.seed "symmetry" c.epoch (q.files.map (·.2))
      (q.rows.map fun r => (r.1, UInt64.ofNat r.2)) 0
  else drawKeys c (q.rows.map q.key) n

/-- `selected` (dataset/decoder.py:656-661): index arrays, no slices. -/
def selected {β : Type} (col : Option (List β)) (dflt : β) (idx : List Nat) : Option (List β) :=
  match col with
  | none => some (List.replicate idx.length dflt)
  | some l => takeAt l idx

/-- One file's rows of a packed request (dataset/decoder.py:652-681). -/
def packedGroup [Zero α] (c : Cfg α) (a : Arrays α) (h w : Nat) (idx : List Nat) : Option (List (Row α)) :=
  match takeAt a.bf idx, selected a.gf [0] idx, takeAt a.vt idx, selected a.pt (defaultPolicy c.hasPass h w) idx with
  | some bf, some gf, some vt, some pt => zipRows (List.replicate idx.length (h, w)) a.h a.w bf gf vt pt
  | _, _, _, _ => none

/-- The rows of one used file, before the pass entry is dropped (dataset/decoder.py:650-681). -/
def packedRows [Zero α] (c : Cfg α) (q : Request) (f : Nat) : Option (List (Row α)) :=
  (q.files[f]?).bind fun file => (c.load file.1).bind fun a =>
    packedGroup c a q.bh q.bw ((q.rows.filter fun r => r.1 = f).map (·.2))

/-- `sorted(np.unique(file_indices), key=count)`: any order of the used files; the count order is an insertion sort. -/
def usedFiles (q : Request) : List Nat :=
  (distinct (q.rows.map (·.1))).foldr (fun f l =>
    l.takeWhile (fun g => (q.rows.map (·.1)).count g < (q.rows.map (·.1)).count f) ++
      f :: l.dropWhile (fun g => (q.rows.map (·.1)).count g < (q.rows.map (·.1)).count f)) []

/-- `decode_packed_batch` (dataset/decoder.py:635-714) without fixed board size. -/
def decodePacked [Zero α] (c : Cfg α) (q : Request) : Option (List (Row α)) :=
  match q.rows with
  | [] => none
  | _ =>
    match (assemble (q.rows.map (·.1)) (packedRows c q) (usedFiles q) none (List.replicate q.rows.length none)).bind (·.mapM id) with
    | none => none
    | some rows =>
      match rows.mapM (fun r => (dropPass c.hasPass q.bh q.bw r.policy).map fun p => { r with policy := p }) with
      | none => none
      | some rows' => vecPost c (drawPacked c q) rows'

end Verif.Decode
