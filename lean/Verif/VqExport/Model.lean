/-
Model of the vector-quantised feature layer of Mix9s-VQ in evaluation mode and of its export:

* `model/mixnet.py:655-670` (`Mix9sNet.get_feature` up to the integer features), `852-950`
  (`_quantize_line_feature`), `952-972` (`do_feature_quantization`)
* `model/vq.py:923-953, 983-1005` (`VectorQuantize.forward` in evaluation mode), `1184-1219`
* `model/serialization/mixnet.py:2155-2249` (`_export_map_table`, `_export_feature_codebook`),
  `2269-2309` (`write_features_compressed`, `write_feature_index`)

Simplifications.  Exact rational arithmetic.  The nearest-code search is any function of a vector (it covers
cosine search, `use_simvq` and the accelerated search); `codes` are the vectors of the `codebook` property.
`rotation_trick` is off (its value is the subject of C94).  The clamp of `_export_map_table` is applied to the
finished table instead of to every row written into it; the rows that are never written are zero, which the
clamp keeps.  Printing is left out.  The straight-through sum of `VectorQuantize.forward` is left out: only the
indices (export) or the detached vectors (network, which adds its own) are used.
-/
import Verif.Mapping.Props97
import Verif.Vq.Props77b
import Verif.Export.Props51

namespace Verif.VqExport

open Verif.LineEnc (Board totalNumEncoding usedCodes)
open Verif.Mapping (Mapping exportTable boardFeature)
open Verif.Vq (Codebook Entry EvalRank group globalLayer bincount)
open Verif.Quant (clampQ fakeQuant)
open Verif.Export (quantFeature packBytes)

/-- A `ProductVectorQuantize`: `size` vectors of length `dim` in every codebook.  `mask` is the entry mask left
behind by the last evaluation forward (vq.py:654-658). -/
structure Layer where
  initialized : Bool
  size : Nat
  dim : Nat
  books : List Codebook
  mask : Option (List Bool)

/-- model/mixnet.py:664 and model/serialization/mixnet.py:2176 -/
def clampFeature (x : List ℚ) : List ℚ := x.map fun v => clampQ v (-511 / 32) (511 / 32)

/-! ### The network -/

/-- One row of the batch: the board and `data["line_encoding"]`. -/
structure Sample where
  board : Board
  codes : Nat → Nat → Nat → Nat

/-- model/mixnet.py:659-664, 865-867: the entries of a sample for the directions of one layer (`[0, 1]` or
`[2, 3]`): line encoding and clamped feature, in the order direction, row, column. -/
def sampleEntries (m : Mapping ℚ) (dirs : List Nat) (s : Sample) : List Entry :=
  dirs.flatMap fun d => (List.range s.board.H).flatMap fun y => (List.range s.board.W).map fun x =>
    ((s.codes d y x : Int), clampFeature (boardFeature m s.board d y x))

/-- One process: its samples, `is_real`, `_collect_eval_stats`. -/
structure Proc where
  samples : List Sample
  real : List Bool
  collecting : Bool

def Proc.rank (m : Mapping ℚ) (dirs : List Nat) (p : Proc) : EvalRank :=
  ⟨p.samples.map (sampleEntries m dirs), p.real, p.collecting⟩

/-- model/mixnet.py:947 `feature + (feature_vq_target - feature).detach()` -/
def straight (x t : List ℚ) : List ℚ := List.zipWith (fun a b => a + (b - a)) x t

/-- model/mixnet.py:669-670: the clamp and the quantisation of the network. -/
def finish (x : List ℚ) : List ℚ :=
  x.map fun v => fakeQuant (clampQ v (-16) (511 / 32)) (scale := 32) (numBits := some 16)

/-- model/mixnet.py:664-670 with 852-950: the quantised integer features of every entry of every process, for
one layer.  An uninitialised layer passes its input through (vq.py:950-953). -/
def networkLayer (distributed : Bool) (V : Layer) (m : Mapping ℚ) (dirs : List Nat) (procs : List Proc) :
    Except String (List (List (List ℚ))) :=
  let ranks := procs.map (Proc.rank m dirs)
  if V.initialized = false then .ok (ranks.map fun r => r.entries.map fun e => finish (straight e.2 e.2))
  else
    match globalLayer distributed V.dim V.books.zipIdx ranks with
    | .error e => .error e
    | .ok outs => .ok ((ranks.zip outs).map fun ro =>
        (ro.1.entries.zip ro.2.1).map fun et => finish (straight et.1.2 et.2))

/-! ### The export -/

/-- vq.py:1007-1013: a mask must fit the entries -/
def Layer.maskFits (V : Layer) (n : Nat) : Bool :=
  match V.mask with
  | none => true
  | some mask => decide (mask.length = n)

/-- vq.py:923-997, 1184-1214: the indices of the vectors `xs`; `info` is `None` for an uninitialised layer, and
subscripting it raises. -/
def vqIndices (V : Layer) (xs : List (List ℚ)) : Except String (List (List Nat)) :=
  if V.initialized = false then .error "TypeError: 'NoneType' object is not subscriptable"
  else if V.maskFits xs.length = false then
    .error "evaluation VQ mask must contain one flag per quantizer entry"
  else .ok (xs.map fun x => V.books.zipIdx.map fun qg => qg.1.nearest (group V.dim qg.2 x))

/-- model/serialization/mixnet.py:2187-2249 `_export_feature_codebook`: the integer codebooks and the index of
every line encoding. -/
def exportCodebook (V : Layer) (m : Mapping ℚ) (batch L : Nat) :
    Except String (List (List (List Int)) × List (List Nat)) :=
  if V.books.all (fun q => decide (q.codes.length = V.size)) = false then .error "AssertionError"
  else
    let quant := V.books.map fun q => q.codes.map fun r => r.map quantFeature
    let featureMap := (List.range (totalNumEncoding L)).map fun v => clampFeature (exportTable m batch L v)
    match vqIndices V featureMap with
    | .error e => .error e
    | .ok index =>
      let used := usedCodes L
      let index := index.zipIdx.map fun rv =>
        if rv.2 ∈ used then rv.1 else List.replicate V.books.length 0
      if 65536 < V.size then .error "assume uint16 for codebook index now"
      else if index.any (fun r => r.any fun i => decide (V.size ≤ i)) = true then
        .error "feature index should be < codebook_size"
      else
        let index := index.map fun r => r.map fun i => i % 65536
        let books := quant.zipIdx.map fun bg =>
          let count := bincount V.size (index.map fun r => r.getD bg.2 0)
          bg.1.zipIdx.map fun rc => if count.getD rc.2 0 = 0 then rc.1.map (fun _ => 0) else rc.1
        .ok (books, index)

/-- model/serialization/mixnet.py:2271-2297 with `feature_codebook.reshape(-1)` -/
def codebookBytes (books : List (List (List Int))) : List Nat := packBytes 10 books.flatten.flatten

/-- model/serialization/mixnet.py:2303-2305: `uint16`, little-endian -/
def indexBytes (index : List (List Nat)) : List Nat := index.flatten.flatMap fun i => [i % 256, i / 256 % 256]

end Verif.VqExport
