import Verif.Loss.Model

/-!
Specification for C76: batches as lists of rows. A schema says what every row holds; a rank has some rows, each
real or padding; `batchOf` is the tensors that the loss functions receive for them.
-/

namespace Verif.Loss

open Verif.Stats Verif.Total

/-- Everything the losses read about one row. `aux i j` is the `j`-th input of the `i`-th auxiliary loss. -/
structure Row where
  value : List ℚ
  policy : List ℚ
  boardMask : List ℚ
  valueTarget : List ℚ
  policyTarget : List ℚ
  forbidden : List ℚ
  teacherValue : List ℚ
  teacherPolicy : List ℚ
  aux : Nat → Nat → List ℚ

/-- A rank's share: the number of the rank and its rows that count. -/
abbrev Part := Nat × List Row

/-- The predefined auxiliary losses; a VQ loss comes with the statistics of its slots. `flat` says whether the
value and target of an uncertainty loss have one dimension. -/
inductive AuxKind where
  | valueLoss (cols : Nat)
  | policyLoss (cols : Nat)
  | uncertainty (flat : Bool) (cols : Nat)
  | relUncertainty (flat : Bool) (cols : Nat)
  | policyReg (cols : Nat)
  | vq (slots : List (Slot Part))

/-- What the rows hold. -/
structure Schema where
  valueCols : Nat
  valueTargetCols : Nat
  cells : Nat
  teacherValueCols : Nat
  hasMask : Bool
  hasTeacher : Bool
  aux : List (String × AuxKind)

/-- a column of the rows, as a tensor with two dimensions -/
def matOf (cols : Nat) (f : Row → List ℚ) (rows : List Row) : Mat := ⟨cols, rows.map f⟩

/-- a column of the rows, as a tensor with one dimension -/
def vecOf (f : Row → List ℚ) (rows : List Row) : List ℚ := rows.map (fun r => (f r).getD 0 0)

def valOf (flat : Bool) (cols : Nat) (f : Row → List ℚ) (rows : List Row) : Val :=
  if flat then .one (vecOf f rows) else .two (matOf cols f rows)

/-- the auxiliary loss of some rows: `part` is what the VQ layer counts, `vqValue` the loss it reports -/
def auxOf (part : Part) (vqValue : String → ℚ) (rows : List Row) (i : Nat) (name : String) (k : AuxKind) : Aux :=
  match k with
  | .valueLoss c => .valueLoss (matOf c (fun r => r.aux i 0) rows)
  | .policyLoss c => .policyLoss (matOf c (fun r => r.aux i 0) rows)
  | .uncertainty flat c =>
    .uncertainty (vecOf (fun r => r.aux i 0) rows) (valOf flat c (fun r => r.aux i 1) rows)
      (valOf flat c (fun r => r.aux i 2) rows)
  | .relUncertainty flat c =>
    .relUncertainty (vecOf (fun r => r.aux i 0) rows) (valOf flat c (fun r => r.aux i 1) rows)
      (valOf flat c (fun r => r.aux i 2) rows) (valOf flat c (fun r => r.aux i 3) rows)
  | .policyReg c => .policyReg (matOf c (fun r => r.aux i 0) rows)
  | .vq slots => .vq (vqValue name) (slots.map (fun s => s.raw part))

/-- the auxiliary losses, numbered from `i` -/
def auxesOf (part : Part) (vqValue : String → ℚ) (rows : List Row) : Nat → List (String × AuxKind) → List (String × Aux)
  | _, [] => []
  | i, (name, k) :: rest => (name, auxOf part vqValue rows i name k) :: auxesOf part vqValue rows (i + 1) rest

/-- The tensors of some rows. -/
def batchOf (sc : Schema) (part : Part) (vqValue : String → ℚ) (rows : List Row) (isReal : Option (List Bool)) :
    Batch :=
  { isReal := isReal
    value := matOf sc.valueCols Row.value rows
    policy := matOf sc.cells Row.policy rows
    boardMask := if sc.hasMask then some (matOf sc.cells Row.boardMask rows) else none
    valueTarget := matOf sc.valueTargetCols Row.valueTarget rows
    policyTarget := matOf sc.cells Row.policyTarget rows
    forbidden := matOf sc.cells Row.forbidden rows
    teacher := if sc.hasTeacher then some (matOf sc.teacherValueCols Row.teacherValue rows,
      matOf sc.cells Row.teacherPolicy rows) else none
    aux := auxesOf part vqValue rows 0 sc.aux }

/-- One rank of a global validation batch: rows, real or padding. -/
structure Rank where
  id : Nat
  rows : List (Row × Bool)

/-- the rows that count -/
def Rank.real (r : Rank) : List Row := (r.rows.filter (fun x => x.2)).map (fun x => x.1)

def Rank.part (r : Rank) : Part := (r.id, r.real)

/-- the validation batch of a rank, with its `is_real` flags -/
def Rank.batch (sc : Schema) (vqValue : String → ℚ) (r : Rank) : Batch :=
  batchOf sc r.part vqValue (r.rows.map (fun x => x.1)) (some (r.rows.map (fun x => x.2)))

/-- the real rows of the ranks that count (a rank that repeats rows to keep step does not) -/
def realRows (ranks : List (Rank × Bool)) : List Row := (ranks.filter (fun r => r.2)).flatMap (fun r => r.1.real)

/-- the parts of the ranks that count -/
def countedParts (ranks : List (Rank × Bool)) : List Part := (ranks.filter (fun r => r.2)).map (fun r => r.1.part)

/-- the rows' board masks are binary and leave at least one cell -/
def maskOk (mask : Option (Row → List ℚ)) (rows : List Row) : Prop :=
  match mask with
  | none => True
  | some f => (∀ r ∈ rows, ∀ b ∈ f r, b = 0 ∨ b = 1) ∧ ∃ r ∈ rows, ∃ b ∈ f r, b ≠ 0

/-- the schema of an auxiliary loss fits, and a VQ loss reports the value of its statistics over all parts -/
def AuxOk (log : ℚ → ℚ) (cells : Nat) (parts : List Part) (vqValue : String → ℚ) (name : String) :
    AuxKind → Prop
  | .policyLoss c => c = cells
  | .policyReg c => c = cells
  | .vq slots => (Head.vq slots).wellNamed ∧ (Head.vq slots).nonEmpty parts ∧
      vqValue name = (Head.vq slots).value log parts
  | _ => True

/-- there are rows that count, cells, and a cell on the board -/
def RowsOk (cells : Nat) (mask : Option (Row → List ℚ)) (rows : List Row) : Prop :=
  rows ≠ [] ∧ 0 < cells ∧ maskOk mask rows

/-- the board masks of the rows, if there are any -/
def Schema.mask (sc : Schema) : Option (Row → List ℚ) := if sc.hasMask then some Row.boardMask else none

end Verif.Loss
