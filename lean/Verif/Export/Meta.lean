/-
Model of the export metadata: rule and board-size masks, ONNX model version, binary header, and the
file operations of `export_serialization` / `export_onnx`.
-/
namespace Verif.Export

/-- `rules_to_mask` (model/serialization/__init__.py:6-15). -/
def rulesToMask (rules : List String) : Nat :=
  let m := 0
  let m := if rules.contains "freestyle" then m ||| 1 else m
  let m := if rules.contains "standard" then m ||| 2 else m
  if rules.contains "renju" then m ||| 4 else m

/-- `boardsizes_to_mask` (model/serialization/__init__.py:18-24); `none` is the failing assert. -/
def boardsizesToMask (sizes : List Int) : Option Nat :=
  sizes.foldlM (fun (m : Nat) (s : Int) => if 1 ≤ s ∧ s ≤ 32 then some (m ||| (1 <<< (s - 1).toNat)) else none) 0

/-- `make_onnx_model_version` (export.py:186-191); `none` is a failing assert. -/
def makeVersion (io : Int) (rules : List String) (sizes : List Int) : Option Nat :=
  if 0 < io ∧ io ≤ 0x7FFF then
    (boardsizesToMask sizes).map fun bm => (io.toNat <<< 48 ||| rulesToMask rules <<< 32) ||| bm
  else none

/-- `parse_onnx_model_version` (export.py:194-214). -/
def parseVersion (v : Nat) : Nat × List String × List Nat :=
  let io := (v >>> 48) &&& 0xFFFF
  let ruleMask := (v >>> 32) &&& 0xFFFF
  let sizeMask := v &&& 0xFFFFFFFF
  let rules := []
  let rules := if ruleMask &&& 1 ≠ 0 then rules ++ ["freestyle"] else rules
  let rules := if ruleMask &&& 2 ≠ 0 then rules ++ ["standard"] else rules
  let rules := if ruleMask &&& 4 ≠ 0 then rules ++ ["renju"] else rules
  let sizes := (List.range 32).foldl
    (fun acc i => if sizeMask &&& (1 <<< i) ≠ 0 then acc ++ [i + 1] else acc) []
  (io, rules, sizes)

/-- The rule-related keys of `export_args`; a value that is not a list is `Sum.inl`. -/
structure RuleArgs where
  rule : Option String
  ruleList : Option (Unit ⊕ List String)
  rules : Option (Unit ⊕ List String)

/-- `isinstance(rules, list)` assertion (model/serialization/__init__.py:88, 91). -/
def asList {α : Type} : Unit ⊕ List α → Option (List α)
  | .inl _ => none
  | .inr l => some l

/-- Key selection of `get_rules_from_args` (model/serialization/__init__.py:84-101); `none` is a
raised exception. -/
def selectRules (a : RuleArgs) : Option (List String) :=
  match a.rule, a.ruleList, a.rules with
  | some r, _, _ => some [r]
  | none, some l, _ => asList l
  | none, none, some l => asList l
  | none, none, none => none

/-- `get_rules_from_args` (model/serialization/__init__.py:84-107). -/
def getRules (a : RuleArgs) : Option (List String) :=
  (selectRules a).bind fun rules =>
    if rules.length = 0 then none
    else if rules.all (["freestyle", "standard", "renju"].contains ·) then some rules
    else none

/-- The board-size keys of `export_args`; a value that is not an `int` is `Sum.inl`. -/
structure SizeArgs where
  boardSize : Option (Unit ⊕ Int)
  minSize : Option Int
  maxSize : Option Int
  sizeList : Option (Unit ⊕ List (Unit ⊕ Int))
  sizes : Option (Unit ⊕ List (Unit ⊕ Int))

/-- `list(range(lo, hi + 1))`. -/
def intRange (lo hi : Int) : List Int := (List.range (hi + 1 - lo).toNat).map fun (i : Nat) => lo + i

/-- Key selection of `get_boardsizes_from_args` (model/serialization/__init__.py:111-129). -/
def selectSizes (a : SizeArgs) : Option (List (Unit ⊕ Int)) :=
  match a.boardSize with
  | some s => some [s]
  | none =>
    match a.minSize, a.maxSize with
    | some lo, some hi => some ((intRange lo hi).map .inr)
    | _, _ =>
      match a.sizeList, a.sizes with
      | some l, _ => asList l
      | none, some l => asList l
      | none, none => some ((intRange 1 32).map .inr)

/-- The per-element check (model/serialization/__init__.py:130-134). -/
def checkSize : Unit ⊕ Int → Option Int
  | .inl _ => none
  | .inr s => if 1 ≤ s ∧ s ≤ 32 then some s else none

/-- `get_boardsizes_from_args` (model/serialization/__init__.py:110-135). -/
def getSizes (a : SizeArgs) : Option (List Int) :=
  (selectSizes a).bind fun l => l.mapM checkSize

/-- `n.to_bytes(4, byteorder="little", signed=False)`: raises when `n` needs more than 4 bytes. -/
def le4 (n : Nat) : Option (List Nat) :=
  if n < 2 ^ 32 then some [n % 256, n / 256 % 256, n / 65536 % 256, n / 16777216 % 256] else none

/-- `& 0xFFFFFFFF` on a Python integer. -/
def mask32 (n : Int) : Nat := (n % (2 ^ 32 : Int)).toNat

/-- Header of a binary weight file (export.py:305-326); `description` is the utf-8 encoded text. -/
def header (magic : Nat) (archHash : Int) (ruleMask sizeMask : Nat) (description : List Nat) :
    Option (List Nat) :=
  (le4 magic).bind fun m =>
  (le4 (mask32 archHash)).bind fun a =>
  (le4 (mask32 ruleMask)).bind fun r =>
  (le4 (mask32 sizeMask)).bind fun s =>
  (le4 description.length).map fun n => m ++ a ++ r ++ s ++ n ++ description

/-! ### File operations of an export -/

/-- Contents of the target path and of `target + ".tmp"` (`none`: no such file). -/
structure Files where
  target : Option (List Nat)
  tmp : Option (List Nat)
deriving DecidableEq

/-- One file operation. -/
inductive FileOp where
  | openTmp
  | writeTmp (chunk : List Nat)
  | replace
  | writeTarget (whole : List Nat)

/-- Effect of an operation: `open(…, "w")` truncates, `write` appends, `os.replace` renames. -/
def FileOp.run (f : Files) : FileOp → Files
  | .openTmp => { f with tmp := some [] }
  | .writeTmp c => { f with tmp := some (f.tmp.getD [] ++ c) }
  | .replace => { target := f.tmp, tmp := none }
  | .writeTarget w => { f with target := some w }

/-- `export_serialization` (export.py:302-338): open the temporary file, write header and serializer
chunks, and, only when no write raised, `os.replace`.  `failAfter = some k` means the serializer
raises after `k` chunks.  Simplification: lz4 framing is part of the chunks. -/
def serializationOps (chunks : List (List Nat)) (failAfter : Option Nat) : List FileOp :=
  match failAfter with
  | some k => .openTmp :: (chunks.take k).map .writeTmp
  | none => .openTmp :: chunks.map .writeTmp ++ [.replace]

/-- `export_onnx` (export.py:231-260): the model is written straight to the target, optionally
rewritten by onnxslim, and rewritten once more with the metadata. -/
def onnxOps (plain : List Nat) (slimmed : Option (List Nat)) (final : List Nat) : List FileOp :=
  .writeTarget plain :: (slimmed.toList.map .writeTarget) ++ [.writeTarget final]

/-- Files after the process was killed having executed `n` operations. -/
def crashAfter (f : Files) (ops : List FileOp) (n : Nat) : Files :=
  (ops.take n).foldl FileOp.run f

end Verif.Export
