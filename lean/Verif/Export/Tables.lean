/-
Model of the pattern enumerations behind the exported lookup tables, and of the byte packings used
when those tables are written.
-/
namespace Verif.Export

/-- `x1[:, i] = v` on a copy of `x` (mixnet.py:15-17). -/
def setColumn (i v : Nat) (rows : List (List Nat)) : List (List Nat) :=
  rows.map (·.set i v)

/-- `generate_base3_permutation` (mixnet.py:12-20): starting from one all-zero row, every column `i`
in order replaces `x` by `concatenate((x, x with column i = 1, x with column i = 2))`. -/
def base3Permutation (length : Nat) : List (List Nat) :=
  (List.range length).foldl
    (fun x i => x ++ setColumn i 1 x ++ setColumn i 2 x)
    [List.replicate length 0]

/-- The `while True` loop of `_index_to_ladder_chunk` (flatnet.py:20-25): remainders of repeated
division by 3, least significant first; at least one digit is produced. -/
def ladderDigits (index : Nat) : List Nat :=
  if h : index / 3 = 0 then [index % 3] else (index % 3) :: ladderDigits (index / 3)
termination_by index
decreasing_by omega

/-- `_index_to_ladder_chunk` (flatnet.py:19-29): digits most significant first, zeros inserted in
front up to ten digits. -/
def ladderChunk (index : Nat) : List Nat :=
  let chunk := (ladderDigits index).reverse
  (List.range (10 - chunk.length)).foldl (fun c _ => 0 :: c) chunk

/-- `lower_triangle_index` (flatnet.py:34). -/
def lowerTriangle : List Nat := [0, 4, 5, 8, 9, 10, 12, 13, 14, 15]

/-- A two-plane input: plane, row, column to cell value (a tensor of shape `(2, H, W)`). -/
abbrev Planes := Nat → Nat → Nat → Nat

/-- Item assignment `inputs[c][y][x] = v`. -/
def Planes.write (p : Planes) (c y x v : Nat) : Planes :=
  fun c' y' x' => if c' = c ∧ y' = y ∧ x' = x then v else p c' y' x'

/-- Loop body of `_make_ladder_mapping_input` (flatnet.py:36-39). -/
def ladderStep (chunk : List Nat) (p : Planes) (i : Nat) : Planes :=
  let y := lowerTriangle.getD i 0 / 4
  let x := lowerTriangle.getD i 0 % 4
  if chunk.getD i 0 > 0 then p.write (chunk.getD i 0 - 1) y x 1 else p

/-- `_make_ladder_mapping_input` (flatnet.py:32-40). -/
def ladderInput (chunk : List Nat) : Planes :=
  (List.range 10).foldl (ladderStep chunk) (fun _ _ _ => 0)

/-- Loop body of `_make_base3_mapping_input` for one batch element `index`
(flatnet.py:58-61). -/
def base3Step (width index : Nat) (p : Planes) (i : Nat) : Planes :=
  let digit := index / 3 ^ i % 3
  (p.write 0 (i / width) (i % width) (if digit = 1 then 1 else 0)).write
    1 (i / width) (i % width) (if digit = 2 then 1 else 0)

/-- One batch element of `_make_base3_mapping_input` (flatnet.py:43-62).  The tensor dimension over
`indices` is the `List.map` in `base3Batch`; int32 arithmetic is exact because every caller has
`3 ** (height * width) ≤ 3 ** 16 < 2 ** 31`. -/
def base3Input (height width index : Nat) : Planes :=
  (List.range (height * width)).foldl (base3Step width index) (fun _ _ _ => 0)

/-- `_make_base3_mapping_input(start_idx, end_idx, …)`: one input per index in
`arange(start_idx, end_idx)` (flatnet.py:52). -/
def base3Batch (height width startIdx endIdx : Nat) : List Planes :=
  ((List.range (endIdx - startIdx)).map (startIdx + ·)).map (base3Input height width)

/-- The batched export loop (flatnet.py:406-411, 413-418, 531-539): for every `i_start` in
`range(0, total, batch_size)` evaluate the mapping on `[i_start, min(i_start + batch_size, total))`
and concatenate.  `mapping` is the network, applied elementwise over the batch dimension. -/
def exportTable {α : Type} (mapping : Planes → α) (height width total batch : Nat) : List α :=
  ((List.range ((total + batch - 1) / batch)).map (· * batch)).flatMap fun s =>
    (base3Batch height width s (min (s + batch) total)).map mapping

/-- The v4 export loop (flatnet.py:661-671): a zero table whose slice `[i_start, i_end)` is assigned
per batch. -/
def exportTableInPlace {α : Type} (mapping : Planes → α) (zero : α)
    (height width total batch : Nat) : List α :=
  ((List.range ((total + batch - 1) / batch)).map (· * batch)).foldl
    (fun t s =>
      let e := min (s + batch) total
      t.take s ++ (base3Batch height width s e).map mapping ++ t.drop e)
    (List.replicate total zero)

/-- Signed 8-bit wrap-around, as numpy `int8` arithmetic. -/
def wrap8 (x : Int) : Int := (x + 128) % 256 - 128

/-- Byte of an `int8`/`uint8` value in `tobytes()`. -/
def byteOf (x : Int) : Nat := (x % 256).toNat

/-- 4-bit packing of a feature pair (flatnet.py:452-457, 574-579): both features get an offset of 8,
are checked to be in `[0, 15]` (`assert`; `none` is the failing assertion), and the byte is
`left_shift(hi, 4) | lo` in `int8` arithmetic, written by `tobytes()`. -/
def packInt4 (lo hi : Int) : Option Nat :=
  let l := wrap8 (lo + 8)
  let h := wrap8 (hi + 8)
  if 0 ≤ l ∧ l ≤ 15 ∧ 0 ≤ h ∧ h ≤ 15 then
    some (byteOf (wrap8 (h * 16)) ||| byteOf l)
  else none

/-- `mapping[:, 0::2]` and `mapping[:, 1::2]` zipped: feature pairs of one row (an odd last feature
makes the shapes differ and `bitwise_or` raises: `none`). -/
def packInt4Row : List Int → Option (List Nat)
  | [] => some []
  | [_] => none
  | lo :: hi :: rest =>
      (packInt4 lo hi).bind fun b => (packInt4Row rest).map (b :: ·)

/-- `(mapping3x4[0].astype(np.int16) + 128).astype("<u1").tobytes()` for one value
(flatnet.py:585-586). -/
def packBiased (x : Int) : Nat := byteOf (x + 128)

/-- `aligned_write` (utils/misc_utils.py:144-147): the buffer followed by zero padding. -/
def alignedWrite (out buffer : List Nat) (alignment : Nat) : List Nat :=
  let padding := (alignment - buffer.length % alignment) % alignment
  (out ++ buffer) ++ List.replicate padding 0

/-- Index of a line suffix, `np.matmul(lines[:, r:], pow3[: L - r])` for one row
(mixnet.py:136, 142, 152). -/
def dotPow3 (cells : List Nat) (e : Nat) : Nat :=
  match cells with
  | [] => 0
  | c :: cs => c * 3 ^ e + dotPow3 cs (e + 1)

/-- `pow3[a:b].sum()` with `pow3 = 3 ** arange(L + 1)`. -/
def sumPow3 (a b : Nat) : Nat := ((List.range (b - a)).map fun i => 3 ^ (a + i)).sum

/-- Row of the Mix6/7/8 feature table for a line whose window is cut by the border on the right of
the array (`r` cells missing), mixnet.py:135-136; `cells` = `lines[i, r:]`. -/
def mix6IndexR (L r : Nat) (cells : List Nat) : Nat :=
  dotPow3 cells 0 + sumPow3 (L + 1 - r) (L + 1)

/-- Row for a line cut on the other side (`l` cells missing), mixnet.py:141-142;
`cells` = `lines[i, : L - l]`. -/
def mix6IndexL (L l : Nat) (cells : List Nat) : Nat :=
  dotPow3 cells l + 2 * 3 ^ L + sumPow3 0 (l - 1)

/-- Row for a line cut on both sides, mixnet.py:147-152; `cells` is a full line of length
`L - l - r`. -/
def mix6IndexLR (L l r : Nat) (cells : List Nat) : Nat :=
  dotPow3 cells l + (3 * 3 ^ L + sumPow3 0 (l - 1) + sumPow3 (L + 1 - r) L)

/-- All assignments `feature_map[idx[i]] = map_table[:, i, centre]` of the Mix6 export, in program
order, as (row, line, centre) (mixnet.py:135-156; `L // 2 ± …` is the centre).  In the third loop
`lines` is re-bound to the shorter lines. -/
def mix6Writes (L : Nat) : List (Nat × List Nat × Nat) :=
  ((List.range ((L + 1) / 2)).flatMap fun r =>
    (base3Permutation L).map fun line => (mix6IndexR L r (line.drop r), line, L / 2 + r))
  ++ (((List.range ((L + 1) / 2 - 1)).map (· + 1)).flatMap fun l =>
    (base3Permutation L).map fun line => (mix6IndexL L l (line.take (L - l)), line, L / 2 - l))
  ++ (((List.range ((L + 1) / 2 - 1)).map (· + 1)).flatMap fun l =>
    ((List.range ((L + 1) / 2 - 1)).map (· + 1)).flatMap fun r =>
      (base3Permutation (L - l - r)).map fun line => (mix6IndexLR L l r line, line, L / 2 - l))

/-- The finished table: zeros (mixnet.py:131), then the assignments in order; `f line c` is the
network's feature vector of `line` at position `c` (`map_table[:, i, c]`). -/
def mix6Table {α : Type} (L : Nat) (f : List Nat → Nat → α) (zero : α) : Nat → α :=
  (mix6Writes L).foldl (fun t w => fun i => if i = w.1 then f w.2.1 w.2.2 else t i) (fun _ => zero)

end Verif.Export
