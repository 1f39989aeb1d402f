import Mathlib.Algebra.BigOperators.Group.Finset.Basic
import Verif.Export.Tables

/-
Model of `dataset/pipeline/line_encoding_cpp/line_encoding.cpp`.

Simplifications.  Accumulation loops `for (i) code += f(i)` are finite sums.  The additions of
`uint32_t` codes are natural-number additions: every partial sum is at most the final code and
`C56_codes_fit` shows that all codes fit, so no wrap-around can occur.  64-bit keys are natural
numbers; shifts drop the bits above bit 63.  The numpy argument checks (dtype, contiguity, shapes)
are not modelled; the size checks are.
-/
namespace Verif.LineEnc

open Finset

/-- `uint64_t` left shift. -/
def shl (v n : Nat) : Nat := (v <<< n) % 2 ^ 64

/-- `rotate_right` (line_encoding.cpp:229-235); `shamt` is a possibly negative `int`, `& 63` is the
remainder modulo 64. -/
def rotateRight (x : Nat) (shamt : Int) : Nat :=
  let s := (shamt % 64).toNat
  let s' := ((-(s : Int)) % 64).toNat
  (x >>> s) ||| shl x s'

/-- `digit` of a two-bit cell state (line_encoding.cpp:137-139). -/
def digitOf (state : Nat) : Nat := if state = 1 then 1 else if state = 2 then 2 else 0

/-- `num_chunks` (line_encoding.cpp:126). -/
def numChunks (length : Nat) : Nat := (length + 6 - 1) / 6

/-- `chunk_lut[chunk][value]` (line_encoding.cpp:127-144); indices at or beyond `length` end the loop,
and all later ones are beyond it too. -/
def chunkLut (length chunk value : Nat) : Nat :=
  ∑ offset ∈ range 6,
    if chunk * 6 + offset ≥ length then 0
    else digitOf ((value >>> (2 * offset)) &&& 3) * 3 ^ (length - 1 - (chunk * 6 + offset))

/-- `get_boarder_encoding` (line_encoding.cpp:158-191). -/
def borderEncoding (length left right : Nat) : Nat :=
  let half := length / 2
  if left = half ∧ right = half then 0
  else if right = half then
    let leftDist := half - left
    2 * 3 ^ length + ∑ i ∈ range (leftDist - 1), 3 ^ (length - (i + 1))
  else
    let leftDist := half - left
    let rightDist := half - right
    let rightTwos := min leftDist rightDist
    let leftTwos := min leftDist (rightDist - 1)
    3 ^ length
      + ∑ i ∈ range rightTwos, 2 * 3 ^ i
      + ∑ i ∈ range leftTwos, 2 * 3 ^ (length - 1 - i)
      + ∑ i ∈ range (rightDist - 1 - rightTwos), 3 ^ (rightTwos + i)
      + ∑ i ∈ range (leftDist - 1 - leftTwos), 3 ^ (length - 1 - (leftTwos + i))

/-- `encode_contiguous` (line_encoding.cpp:32-39). -/
def encodeContiguous (length key left right : Nat) : Nat :=
  let key := key &&& (2 ^ (2 * length) - 1)
  borderEncoding length left right
    + ∑ chunk ∈ range (numChunks length), chunkLut length chunk ((key >>> (12 * chunk)) &&& 0xfff)

/-- `max_encoding` (line_encoding.cpp:77-86). -/
def maxEncoding (length : Nat) : Nat :=
  let half := length / 2
  2 * 3 ^ length + ∑ i ∈ range (half + 1), 2 * 3 ^ i
    + ∑ i ∈ range (length - (half + 2)), 3 ^ (half + 2 + i)

/-- `get_total_num_encoding` (line_encoding.cpp:254-258). -/
def totalNumEncoding (length : Nat) : Nat := maxEncoding length + 1

/-- `validate_line_length` (line_encoding.cpp:200-211): odd, positive, at most
17 (compressed) or 15 (raw). -/
def validLength (length : Nat) (raw : Bool) : Bool :=
  decide (1 ≤ length) && decide (length % 2 = 1) && decide (length ≤ if raw then 15 else 17)

/-- `fill_usage_flags_recursive` (line_encoding.cpp:103-120): the codes marked when line cells
`lineIdx, …, lineIdx + n - 1` are still open. -/
def usageCodes : Nat → Nat → Nat → List Nat
  | 0, _, code => [code]
  | n + 1, lineIdx, code =>
      usageCodes n (lineIdx + 1) code ++ usageCodes n (lineIdx + 1) (code + 3 ^ lineIdx)
        ++ usageCodes n (lineIdx + 1) (code + 2 * 3 ^ lineIdx)

/-- `fill_usage_flags` (line_encoding.cpp:42-56): all codes whose flag is set to 1. -/
def usedCodes (length : Nat) : List Nat :=
  let half := length / 2
  (List.range (half + 1)).flatMap fun left =>
    (List.range (half + 1)).flatMap fun right =>
      usageCodes (half + left + 1 - (half - right)) (half - right)
        (borderEncoding length left right)

/-- Two cell bits of a stone pair (line_encoding.cpp:294-295, 486-489). -/
def cellBits (isSelf isOppo : Bool) : Nat := if isSelf then 1 else if isOppo then 2 else 3

/-- Bit key of one input line (line_encoding.cpp:482-491); `line` holds 0/1/2. -/
def lineKey (line : List Nat) : Nat :=
  (List.range line.length).foldl
    (fun key x => key ||| shl (cellBits (line.getD x 0 = 1) (line.getD x 0 = 2)) (2 * x)) 0

/-- `transform_lines_impl` for one line (line_encoding.cpp:471-503) with the length check of
`transform_lines_to_line_encoding` (line_encoding.cpp:521-526); `none` is the raised exception. -/
def transformLine (length : Nat) (line : List Nat) : Option (List Nat) :=
  if validLength length false ∧ line.length ≤ 32 - length / 2 then
    let half := length / 2
    let key := lineKey line
    some ((List.range line.length).map fun (x : Nat) =>
      encodeContiguous length (rotateRight key (2 * ((x : Int) - half)))
        (min half x) (min half (line.length - 1 - x)))
  else none

/-- A board: own and opponent stones at (y, x). -/
structure Board where
  H : Nat
  W : Nat
  self : Nat → Nat → Bool
  oppo : Nat → Nat → Bool

/-- The four arrays of bit keys (line_encoding.cpp:287-290). -/
structure Keys where
  k0 : Nat → Nat
  k1 : Nat → Nat
  k2 : Nat → Nat
  k3 : Nat → Nat

/-- `arr[i] |= v`. -/
def orAt (arr : Nat → Nat) (i v : Nat) : Nat → Nat := fun j => if j = i then arr j ||| v else arr j

/-- `set_bit_key` (line_encoding.cpp:292-301), `MAX_BOARD_SIZE = 32`. -/
def setBitKey (b : Board) (k : Keys) (p : Nat × Nat) : Keys :=
  let y := p.1
  let x := p.2
  let bits := cellBits (b.self y x) (b.oppo y x)
  { k0 := orAt k.k0 y (shl bits (2 * x))
    k1 := orAt k.k1 x (shl bits (2 * y))
    k2 := orAt k.k2 (x + y) (shl bits (2 * x))
    k3 := orAt k.k3 (32 - 1 - x + y) (shl bits (2 * x)) }

/-- Row-major cells (line_encoding.cpp:304-305). -/
def boardCells (b : Board) : List (Nat × Nat) :=
  (List.range b.H).flatMap fun y => (List.range b.W).map fun x => (y, x)

/-- All bit keys of a board (line_encoding.cpp:303-310). -/
def boardKeys (b : Board) : Keys :=
  (boardCells b).foldl (setBitKey b) ⟨fun _ => 0, fun _ => 0, fun _ => 0, fun _ => 0⟩

/-- Bit key rotated to the window of direction `d` at (y, x) (line_encoding.cpp:319-322). -/
def windowKey (half : Nat) (k : Keys) (d y x : Nat) : Nat :=
  match d with
  | 0 => rotateRight (k.k0 y) (2 * ((x : Int) - half))
  | 1 => rotateRight (k.k1 x) (2 * ((y : Int) - half))
  | 2 => rotateRight (k.k2 (x + y)) (2 * ((x : Int) - half))
  | _ => rotateRight (k.k3 (32 - 1 - x + y)) (2 * ((x : Int) - half))

/-- Distances to the walls, `left0 … left3` (line_encoding.cpp:323-330). -/
def leftDist (half : Nat) (b : Board) (d y x : Nat) : Nat :=
  match d with
  | 0 => min half x
  | 1 => min half y
  | 2 => min half (min x (b.H - 1 - y))
  | _ => min half (min x y)

/-- Distances to the walls, `right0 … right3` (line_encoding.cpp:323-330). -/
def rightDist (half : Nat) (b : Board) (d y x : Nat) : Nat :=
  match d with
  | 0 => min half (b.W - 1 - x)
  | 1 => min half (b.H - 1 - y)
  | 2 => min half (min (b.W - 1 - x) y)
  | _ => min half (min (b.W - 1 - x) (b.H - 1 - y))

/-- `transform_board_to_line_encoding` (line_encoding.cpp:276-347, 389-425): value written for
direction `d` at (y, x); `none` is the raised exception (line length or board size). -/
def transformBoard (length : Nat) (raw : Bool) (b : Board) : Option (Nat → Nat → Nat → Nat) :=
  let half := length / 2
  if validLength length raw ∧ b.H ≤ 32 - half ∧ b.W ≤ 32 - half then
    let keys := boardKeys b
    some fun d y x =>
      let key := windowKey half keys d y x
      if raw then key &&& (2 ^ (2 * length) - 1)
      else encodeContiguous length key (leftDist half b d y x) (rightDist half b d y x)
  else none

/-- `LineEncodingPipeline.line_encoding_total_num` (dataset/pipeline/line_encoding.py:32). -/
def pipelineTotal (length : Nat) (raw : Bool) : Nat := if raw then 4 ^ length else totalNumEncoding length

/-- All assignments `feature_map[idxs[i, x]] = map_table[i, x]` of the Mix9/Mix9S/Mix10 exports in
program order, as (row, line, x) (model/serialization/mixnet.py:1602-1607, 2210-2215, 2493-2498); an
exception in the transform contributes nothing (`C56_feature_map` shows there is none). -/
def featureWrites (L : Nat) : List (Nat × List Nat × Nat) :=
  ((List.range L).reverse.map (· + 1)).flatMap fun l =>
    (Export.base3Permutation l).flatMap fun line =>
      ((transformLine L line).getD []).zipIdx.map fun cx => (cx.1, line, cx.2)

/-- The exported table before quantisation; `f line x` is the network's feature of position `x` on
`line` (`map_table`), `zero` the initial `np.zeros` row. -/
def featureTable {α : Type} (L : Nat) (f : List Nat → Nat → α) (zero : α) : Nat → α :=
  (featureWrites L).foldl (fun t w => fun i => if i = w.1 then f w.2.1 w.2.2 else t i) (fun _ => zero)

end Verif.LineEnc
