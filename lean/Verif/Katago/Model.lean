/-
Model of the KataGo datasets (dataset/katago.py, dataset/decoder.py:121-192, 894-1024).

A file is the list of its rows (raw format) or a set of columns (processed format).  Numbers are exact
rationals, dtype conversions are left out.  The arrays of a raw file have a common number of rows, the
planes of a row a common number of bytes.  Filter conditions are arbitrary functions of the rows; the
symmetry index is a parameter (its draw is C03/C44).  Errors are `none`.
-/
import Verif.Decode.Model
import Mathlib.Data.Rat.Defs
import Mathlib.Data.Rat.Floor
import Mathlib.Data.Nat.Sqrt

namespace Verif.Katago
open Verif.Board Verif.Decode

/-! ### Raw rows -/

/-- One row of `binaryInputNCHWPacked`, `globalInputNC`, `globalTargetsNC`, `policyTargetsNCMove`. -/
structure RawRow where
  planes : List (List Nat)
  glob : List ℚ
  targ : List ℚ
  pol : List (List ℚ)

/-- Bit `k` of `np.unpackbits(bytes, bitorder="big")`. -/
def bitAt (bytes : List Nat) (k : Nat) : Nat := bytes.getD (k / 8) 0 / 2 ^ (7 - k % 8) % 2

/-- `int(np.sqrt(n_bytes * 8))` (dataset/katago.py:151). -/
def sideOf (bytes : List Nat) : Nat := Nat.sqrt (bytes.length * 8)

/-- dataset/katago.py:149-160 `_unpack_board_feature`, one plane of side `b`. -/
def unpackPlane (b : Nat) (bytes : List Nat) : Nat → Nat → ℚ := fun y x => bitAt bytes (y * b + x)

/-- dataset/katago.py:138-147 `_unpack_global_feature`. -/
def unpackSide (glob : List ℚ) : Option (List ℚ) :=
  if glob.length = 1 then some glob
  else (glob[5]?).map fun k => [if k > 0 then 1 else -1]

/-- dataset/katago.py:162-167 `_unpack_global_target`. -/
def unpackValue (td : Nat) (targ : List ℚ) : Option (List ℚ) :=
  [td * 4 + 0, td * 4 + 1, td * 4 + 2].mapM fun i => targ[i]?

/-- dataset/katago.py:169-182 `_unpack_policy_target` of channel 0. -/
def unpackPolicy (hasPass : Bool) (cells : List ℚ) : Option (Policy ℚ) :=
  let b := Nat.sqrt (cells.length - 1)
  if b * b + 1 ≠ cells.length then none
  else
    let v := cells.take (b * b + if hasPass then 1 else 0)
    let u := v.map fun p => p / (v.sum + 1 / 1000000000)
    some (if hasPass then .flat u else .plane (unflat b b u))

/-- `np.sum(board_mask[0, :])`, `np.sum(board_mask[:, 0])` (dataset/katago.py:216-219). -/
def maskWidth (b : Nat) (bytes : List Nat) : Nat := ((List.range b).map fun x => bitAt bytes (0 * b + x)).sum
def maskHeight (b : Nat) (bytes : List Nat) : Nat := ((List.range b).map fun y => bitAt bytes (y * b + 0)).sum

/-- Options of `KatagoNumpyDataset` (dataset/katago.py:74-101). `c` holds side, size, pass and symmetry. -/
structure Opts where
  c : Cfg ℚ
  boardsizes : List (Nat × Nat)
  filterStm : Option Int
  cond : Option (List RawRow → Option (List Bool))
  td : Nat

/-- dataset/katago.py:208-227: one row. -/
def unpackRow (o : Opts) (r : RawRow) : Option (Row ℚ) :=
  match r.planes[0]?, r.planes[1]?, r.planes[2]?, unpackSide r.glob, unpackValue o.td r.targ,
      (r.pol[0]?).bind (unpackPolicy o.c.hasPass) with
  | some mask, some own, some opp, some stm, some value, some policy =>
    let b := sideOf mask
    if b = 0 then none
    else some
      { bh := maskHeight b mask, bw := maskWidth b mask, h := b, w := b
        planes := [unpackPlane b own, unpackPlane b opp], stm := stm, value := value, policy := policy }
  | _, _, _, _, _, _ => none

/-- dataset/katago.py:191-200: the `filter_stm` condition of a row. -/
def keepStm (f : Int) (r : RawRow) : Option Bool :=
  if r.glob.length = 1 then (r.glob[0]?).map fun k => decide (k = (f : ℚ))
  else (r.glob[5]?).map fun k => if f = 1 then decide (k > 0) else decide (k < 0)

/-- dataset/katago.py:191-207: both filters. -/
def filterRows (o : Opts) (rows : List RawRow) : Option (List RawRow) :=
  let afterStm := match o.filterStm with
    | none => some rows
    | some f => (rows.mapM (keepStm f)).map fun m => maskGet m rows
  afterStm.bind fun rows =>
    match o.cond with
    | none => some rows
    | some cond => (cond rows).map fun m => maskGet m rows

/-- dataset/katago.py:105-117: the rows of one file with an accepted board size. -/
def loadFile (o : Opts) (rows : List RawRow) : Option (List (Row ℚ)) :=
  ((filterRows o rows).bind fun rows => rows.mapM (unpackRow o)).map fun l =>
    l.filter fun r => decide ((r.bh, r.bw) ∈ o.boardsizes)

/-- dataset/katago.py:103-136 `KatagoNumpyDataset.__init__`: files concatenated; arrays of different
shapes cannot be, and no row at all is an error. -/
def loadRaw (o : Opts) (files : List (List RawRow)) : Option (List (Row ℚ)) :=
  (files.mapM (loadFile o)).bind fun l => stack l.flatten

/-- dataset/katago.py:232-243 `__getitem__`. -/
def rawItem (o : Opts) (rows : List (Row ℚ)) (i sym : Nat) : Option (Row ℚ) :=
  (rows[i]?).bind (postOne o.c sym)

/-- dataset/katago.py:318-327: the dataset of one file of the streaming variant. -/
def Opts.still (o : Opts) : Opts := { o with c := { o.c with kind := none } }

/-- dataset/decoder.py:992-1024 `NpzRowRecordDecoder.decode_one` with the loader and `prepare_row` of
dataset/katago.py:318-334. -/
def rawStream (o : Opts) (file : List RawRow) (i sym : Nat) : Option (Row ℚ) :=
  (loadRaw o.still [file]).bind fun rows =>
    if i < rows.length then
      (rawItem o.still rows i 0).bind fun r =>
        match o.c.kind with
        | none => some r
        | some k => postOne { o.c with fixedSide := false, fixedSize := none, kind := some k } sym r
    else none

/-! ### Processed files -/

/-- Columns `bf`, `gf`, `vt`, `pt` of a file. -/
abbrev File := Arrays ℚ

/-- Options of `ProcessedKatagoNumpyDataset` / `ProcessedNpzDecoder`. A condition sees the four columns. -/
structure POpts where
  c : Cfg ℚ
  boardsizes : List (Nat × Nat)
  filterStm : Option Int
  cond : Option (File → Option (List Bool))
  boardChannels : Option (List Nat)
  stmChannel : Option Nat
  valueChannels : Option (List Nat)

/-- `value[selected]` for every column. -/
def selectRows (m : List Bool) (a : File) : File :=
  { a with bf := maskGet m a.bf, gf := a.gf.map (maskGet m), vt := maskGet m a.vt, pt := a.pt.map (maskGet m) }

/-- `gf[:, 0] == filter_stm`. -/
def stmMask (f : Int) (a : File) : Option (List Bool) :=
  a.gf.bind fun g => g.mapM fun r => (r[0]?).map fun k => decide (k = (f : ℚ))

/-- `a[:, channels]`. -/
def pick {β : Type} (channels : List Nat) (r : List β) : Option (List β) := channels.mapM fun k => r[k]?

/-- dataset/katago.py:485-496, dataset/decoder.py:180-190: channel selection. -/
def channels (o : POpts) (a : File) : Option File :=
  let bf := match o.boardChannels with
    | none => some a.bf
    | some ks => a.bf.mapM (pick ks)
  let gf := match o.stmChannel with
    | none => some a.gf
    | some k => a.gf.bind fun g => (g.mapM (pick [k])).map some
  let vt := match o.valueChannels with
    | none => some a.vt
    | some ks => a.vt.mapM (pick ks)
  match bf, gf, vt with
  | some bf, some gf, some vt => some { a with bf := bf, gf := gf, vt := vt }
  | _, _, _ => none

/-- All columns have `n` rows. -/
def lengthsOk (n : Nat) (a : File) : Bool :=
  decide (a.bf.length = n) && decide (a.vt.length = n)
    && (match a.gf with | none => true | some g => decide (g.length = n))
    && (match a.pt with | none => true | some p => decide (p.length = n))

/-- dataset/katago.py:430-443: the files kept by the map-style dataset; an empty column is an error. -/
def acceptFile (o : POpts) (a : File) : Option (List File) :=
  if (a.h, a.w) ∉ o.boardsizes then some []
  else if a.bf.isEmpty || a.vt.isEmpty || a.gf.elim false List.isEmpty || a.pt.elim false List.isEmpty then none
  else some [a]

/-- `np.concatenate` of an optional column: files without it contribute nothing. -/
def joinOpt {β : Type} (cols : List (Option (List β))) : Option (List β) :=
  if cols.all (·.isNone) then none else some (cols.filterMap id).flatten

/-- dataset/katago.py:445-468: concatenation; equal board sizes, equal row counts. -/
def joinFiles (files : List File) : Option File :=
  match files with
  | [] => none
  | f :: _ =>
    if files.any fun g => decide (g.h ≠ f.h ∨ g.w ≠ f.w) then none
    else
      let a : File :=
        { h := f.h, w := f.w, bf := (files.map (·.bf)).flatten, gf := joinOpt (files.map (·.gf))
          vt := (files.map (·.vt)).flatten, pt := joinOpt (files.map (·.pt)) }
      if lengthsOk a.bf.length a then some a else none

/-- dataset/katago.py:470-496: filters one after the other, then channels. -/
def mapFilters (o : POpts) (a : File) : Option File :=
  let a1 := match o.filterStm with
    | none => some a
    | some f => (stmMask f a).map fun m => selectRows m a
  let a2 := a1.bind fun a => match o.cond with
    | none => some a
    | some cond => (cond a).map fun m => selectRows m a
  a2.bind (channels o)

/-- dataset/katago.py:408-496 `ProcessedKatagoNumpyDataset.__init__`. -/
def loadMap (o : POpts) (files : List File) : Option File :=
  ((files.mapM (acceptFile o)).bind fun l => joinFiles l.flatten).bind (mapFilters o)

/-- dataset/katago.py:502-528 `_prepare_data`, `pt[:-1].reshape` as in the decoder, then `__getitem__`. -/
def mapItem (o : POpts) (a : File) (i sym : Nat) : Option (Row ℚ) :=
  (rawRow o.c a i).bind (postOne o.c sym)

/-- dataset/decoder.py:160-178: both masks of the unfiltered file combined. -/
def streamMask (o : POpts) (a : File) : Option (Option (List Bool)) :=
  let m1 := match o.filterStm with
    | none => some none
    | some f => (stmMask f a).map some
  m1.bind fun m1 =>
    match o.cond with
    | none => some m1
    | some cond => (cond a).map fun m => some (match m1 with
      | none => m
      | some m1 => List.zipWith (· && ·) m1 m)

/-- `arrays[key][mask]` if there is a mask. -/
def applyMask (m : Option (List Bool)) (a : File) : File :=
  match m with
  | none => a
  | some m => selectRows m a

/-- dataset/decoder.py:121-192 `_load_uncached`. -/
def loadStream (o : POpts) (a : File) : Option File :=
  if a.bf.isEmpty || !lengthsOk a.bf.length a then none
  else if (a.h, a.w) ∉ o.boardsizes then
    some { a with bf := [], gf := a.gf.map fun _ => [], vt := [], pt := a.pt.map fun _ => [] }
  else
    (streamMask o a).bind fun m => channels o (applyMask m a)

/-- dataset/decoder.py:459-514 `decode_one` of row `i` of a loaded file. -/
def streamItem (o : POpts) (a : File) (i sym : Nat) : Option (Row ℚ) :=
  (rawRow o.c a i).bind (postOne o.c sym)

end Verif.Katago
