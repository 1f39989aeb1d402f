/-
Model of `serialize` of the flat networks: model/serialization/flatnet.py:215-248 (ladder v1), 320-353
(ladder v2), 433-474 (square v2), 554-600 (square v3), 669-704 (square v4), 789-828 (square v4 VQ),
with the default scales (`s_weight = s_output = 128`, `s_input = 256`).

Simplifications: a numpy array handed to `tobytes()` is the list of its entries in C order; a failed
assertion is `none`; `tqdm`, histograms and the device are not modelled.
-/
import Verif.Flat.Model
import Verif.Quant.Layout
import Verif.Utils.Props63

namespace Verif.Flat

open Verif.Quant (Lin ILin Write writeBytes rowMajor linWrites Vec)

instance (s : ℚ) (o i : Nat) (l : Lin) : Decidable (truncCheck s o i l) := by
  unfold truncCheck; infer_instance

instance (s : ℚ) (o i : Nat) (l : Lin) : Decidable (roundCheck s o i l) := by
  unfold roundCheck; infer_instance

/-- The checks of `_export_ladder_value` (model/serialization/flatnet.py:83-90). -/
def ladderChecks (noDraw : Bool) (V : Nat) (l1 l2 l3 l4 : Lin) : Prop :=
  truncCheck 128 32 V l1 ∧ truncCheck 128 32 32 l2 ∧ truncCheck 128 32 32 l3
    ∧ truncCheck 128 (valueRows noDraw) 32 l4

instance (nd : Bool) (V : Nat) (l1 l2 l3 l4 : Lin) : Decidable (ladderChecks nd V l1 l2 l3 l4) := by
  unfold ladderChecks; infer_instance

/-- The layers of the ladder networks (model/serialization/flatnet.py:229-248, 334-353). -/
def ladderLayers (noDraw : Bool) (V : Nat) (l1 l2 l3 l4 : Lin) : List Write :=
  linWrites 32 V (exportLin 128 l1) ++ linWrites 32 32 (exportLin 128 l2)
    ++ linWrites 32 32 (exportLin 128 l3)
    ++ linWrites (valueRows noDraw + padCount noDraw) 32 (exportLin 128 (padRows (valueRows noDraw) l4))

/-- A ladder table: the loop over all `3**10` indices, `D = dim_policy + dim_value` columns. -/
def ladderTable (m : List Conv) (D : Nat) : Write := (1, rowMajor (3 ^ 10) D (ladderRow m))

/-- A file written with `o.write(...)`. -/
def plainFile (ws : List Write) : List Nat := ws.flatMap writeBytes

/-- A file written with `aligned_write(out, ..., alignment=32)`. -/
def alignedFile (ws : List Write) : List Nat := Verif.Utils.writeAll [] 32 (ws.map writeBytes)

/-- model/serialization/flatnet.py:215-248. -/
def ladderFile1 (m : List Conv) (noDraw : Bool) (P V : Nat) (l1 l2 l3 l4 : Lin) : Option (List Nat) :=
  if ladderChecks noDraw V l1 l2 l3 l4 then
    some (plainFile ([ladderTable m (P + V)] ++ ladderLayers noDraw V l1 l2 l3 l4))
  else none

/-- model/serialization/flatnet.py:320-353. -/
def ladderFile2 (m1 m2 : List Conv) (noDraw : Bool) (P V : Nat) (l1 l2 l3 l4 : Lin) : Option (List Nat) :=
  if ladderChecks noDraw V l1 l2 l3 l4 then
    some (plainFile ([ladderTable m1 (P + V), ladderTable m2 (P + V)] ++ ladderLayers noDraw V l1 l2 l3 l4))
  else none

/-- The layers of the square networks, `n` inputs and `h` hidden units
(model/serialization/flatnet.py:460-474, 586-600, 683-704, 811-828). -/
def squareLayers (noDraw : Bool) (n h : Nat) (l1 l2 l3 : Lin) : List Write :=
  linWrites h n (exportLin 256 l1) ++ linWrites 32 h (exportLin 128 l2)
    ++ linWrites (valueRows noDraw + padCount noDraw) 32 (exportLin 128 (padRows (valueRows noDraw) l3))

/-- The entries of an `h` by `w` table in C order, computed in batches of any size. -/
def squareEntries (q : ℚ → Int) (h w F batch : Nat) (m : List Conv) : List Int :=
  (batched (3 ^ (h * w)) batch fun i => (List.range F).map (squareRow q h w m i)).flatten

/-- model/serialization/flatnet.py:445-453, 566-574: int4 entries, two per byte: the even column in the
low half (numpy's int8 shift wraps, only the byte is written). -/
def packPair (even odd : Int) : Int :=
  (((odd + 8).toNat <<< 4 ||| (even + 8).toNat) % 256 : Nat)

/-- The packed rows: `F / 2` bytes per row (`F` is even). -/
def packedEntries (h w F batch : Nat) (m : List Conv) : List Int :=
  (batched (3 ^ (h * w)) batch fun i => (List.range (F / 2)).map fun k =>
    packPair (squareRow table4 h w m i (2 * k)) (squareRow table4 h w m i (2 * k + 1))).flatten

/-- model/serialization/flatnet.py:433-474.  `batch` is 4096 in the code. -/
def squareFile2 (batch : Nat) (int4 noDraw : Bool) (F : Nat) (m44 m43 : List Conv) (l1 l2 l3 : Lin) :
    Option (List Nat) :=
  if roundCheck 256 32 (F * 4) l1 then
    some (plainFile ([(1, if int4 then packedEntries 4 4 F batch m44 else squareEntries table8 4 4 F batch m44),
      (1, squareEntries table8 4 3 F batch m43)] ++ squareLayers noDraw (F * 4) 32 l1 l2 l3))
  else none

/-- model/serialization/flatnet.py:563-584: the three tables of v3; the int8 corners are stored with an
offset of 128. -/
def v3Tables (batch : Nat) (int4 : Bool) (F : Nat) (mc1 mc2 mm : List Conv) : List Write :=
  if int4 then
    [(1, packedEntries 3 4 F batch mc1), (1, packedEntries 3 4 F batch mc2),
     (1, packedEntries 3 4 F batch mm)]
  else
    [(1, (squareEntries table8 3 4 F batch mc1).map (· + 128)),
     (1, (squareEntries table8 3 4 F batch mc2).map (· + 128)),
     (1, squareEntries table8 3 4 F batch mm)]

/-- model/serialization/flatnet.py:554-600. -/
def squareFile3 (batch : Nat) (int4 noDraw : Bool) (F : Nat) (mc1 mc2 mm : List Conv) (l1 l2 l3 : Lin) :
    Option (List Nat) :=
  if roundCheck 256 64 (F * 4) l1 then
    some (plainFile (v3Tables batch int4 F mc1 mc2 mm ++ squareLayers noDraw (F * 4) 64 l1 l2 l3))
  else none

/-- model/serialization/flatnet.py:669-704: the three tables are one array. -/
def squareFile4 (batch : Nat) (noDraw : Bool) (F : Nat) (m : Nat → List Conv) (l1 l2 l3 : Lin) :
    Option (List Nat) :=
  if roundCheck 256 32 F l1 then
    some (alignedFile ((1, (List.range 3).flatMap fun j => squareEntries tableV4 4 4 F batch (m j))
      :: squareLayers noDraw F 32 l1 l2 l3))
  else none

/-- model/serialization/flatnet.py:741-828: code numbers (`uint16`) and codes.  Both assertions on the
codes (743, 769-772) are tested. -/
def squareFile4Vq (batch : Nat) (noDraw : Bool) (F codes : Nat) (pick : Nat → Vec → Nat)
    (code : Nat → Nat → Vec) (m : Nat → List Conv) (l1 l2 l3 : Lin) : Option (List Nat) :=
  if codes ≤ 2 ^ 16 ∧ (∀ j < 3, ∀ i < 3 ^ (4 * 4), codeRow (pick j) (m j) i < codes)
      ∧ roundCheck 256 32 F l1 then
    some (alignedFile (
      (2, (List.range 3).flatMap fun j => batched (3 ^ (4 * 4)) batch fun i => (codeRow (pick j) (m j) i : Int))
      :: (1, (List.range 3).flatMap fun j => rowMajor codes F fun k c => tableCode (code j k c))
      :: squareLayers noDraw F 32 l1 l2 l3))
  else none

end Verif.Flat
