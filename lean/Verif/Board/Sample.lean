import Verif.Board.Sym

/-!
# Model of `SamplePostProcessor.process_sample` (`utils/data_utils.py:153-320`) and its use by the binary datasets

Elements are of any type with a zero.  Fields that are passed through unchanged are left out.
-/
namespace Verif.Board

/-- `policy_target`: a plane, or a flat vector with the pass move last. -/
inductive Policy (α : Type _)
  | plane (g : Grid α)
  | flat (v : List α)

structure Sample (α : Type _) where
  bh : Nat                          -- `board_size`: height and width of the logical board
  bw : Nat
  h : Nat                           -- shape of the planes of `board_input`
  w : Nat
  planes : List (Nat → Nat → α)     -- `board_input[c][y][x]`
  stm : Int
  value : List α
  policy : Policy α
  sparse : Option (List (Grid α))
  position : Option (List Move)
  moves : Option (List Move)        -- what `position_string` and `last_move` are computed from (lines 311-318)

variable {α : Type _}

/-- `np.flip(board_input, axis=0)`, the value permutation and `np.take` (lines 195-211); `none` on an index error. -/
def sideSwap (s : Sample α) : Option (Sample α) :=
  match s.value with
  | a :: b :: rest =>
    let s1 := { s with planes := s.planes.reverse, value := b :: a :: rest }
    match s.sparse with
    | none => some s1
    | some sp => ([4, 5, 6, 7, 0, 1, 2, 3, 9, 8, 11, 10].mapM (fun i => sp[i]?)).map fun sp' => { s1 with sparse := some sp' }
  | _ => none

def fixSide (fixed : Bool) (s : Sample α) : Option (Sample α) :=
  if fixed && decide (s.stm > 0) then sideSwap s else some s

/-- `v[:-1].reshape((h, w))` and back (lines 246-251). -/
def unflat [Zero α] (h w : Nat) (v : List α) : Grid α := ⟨h, w, fun y x => v.getD (y * w + x) 0⟩
def flat (g : Grid α) : List α := (List.range (g.h * g.w)).map fun k => g.at' (k / g.w) (k % g.w)

/-- The symmetry of the policy (lines 238-253). -/
def symPolicy [Zero α] (sym : Sym) (s : Sample α) : Option (Policy α) :=
  match s.policy with
  | .flat v =>
    if v.length ≠ s.bh * s.bw + 1 then none
    else some (.flat (flat (sym.applyArr (unflat s.bh s.bw v.dropLast)) ++ v.drop (v.length - 1)))
  | .plane g => some (.plane (sym.applyArr g))

def applyPlane (sym : Sym) (h w : Nat) (p : Nat → Nat → α) : Nat → Nat → α := (sym.applyArr (⟨h, w, p⟩ : Grid α)).at'

/-- Lines 213-259, with the index already chosen (by the caller or by the hash fallback). -/
def augment [Zero α] (k : Option Kind) (idx : Nat) (s : Sample α) : Option (Sample α) :=
  match k with
  | none => some s
  | some k =>
    match (available s.bh s.bw k).bind (·[idx]?) with
    | none => none
    | some sym =>
      match symPolicy sym s, s.position.elim (some none) (fun p => (p.mapM (sym.applyMove s.bh s.bw)).map some) with
      | some pol, some pos => some { s with
          h := (sym.applyArr (⟨s.h, s.w, fun _ _ => ()⟩ : Grid Unit)).h
          w := (sym.applyArr (⟨s.h, s.w, fun _ _ => ()⟩ : Grid Unit)).w
          planes := s.planes.map (applyPlane sym s.h s.w)
          policy := pol
          sparse := s.sparse.map (·.map sym.applyArr)
          position := pos }
      | _, _ => none

/-- `np.pad` of the two spatial axes at their ends; a negative width raises. -/
def padGrid [Zero α] (ph pw : Nat) (g : Grid α) : Option (Grid α) :=
  if ph < g.h ∨ pw < g.w then none else some ⟨ph, pw, fun y x => if y < g.h ∧ x < g.w then g.at' y x else 0⟩

def padPolicy [Zero α] (ph pw : Nat) (s : Sample α) : Option (Policy α) :=
  match s.policy with
  | .flat v =>
    if v.length ≠ s.bh * s.bw + 1 then none
    else (padGrid ph pw (unflat s.h s.w v.dropLast)).map fun g => .flat (flat g ++ v.drop (v.length - 1))
  | .plane g => (padGrid ph pw g).map .plane

/-- Lines 261-309. -/
def pad [Zero α] (size : Option (Nat × Nat)) (s : Sample α) : Option (Sample α) :=
  match size with
  | none => some s
  | some (ph, pw) =>
    match (s.planes.mapM fun p => (padGrid ph pw (⟨s.h, s.w, p⟩ : Grid α)).map (·.at')), padPolicy ph pw s,
        s.sparse.elim (some none) (fun sp => (sp.mapM (padGrid ph pw)).map some) with
    | some planes, some pol, some sp => if ph < s.h ∨ pw < s.w then none else some { s with h := ph, w := pw, planes := planes, policy := pol, sparse := sp }
    | _, _, _ => none

/-- Lines 311-322: drop the extra fields, turn the position into its derived fields. -/
def finish (dropExtra : Bool) (s : Sample α) : Sample α :=
  if dropExtra then { s with sparse := none, position := none, moves := none }
  else match s.position with
    | none => s
    | some p => { s with position := none, moves := some p }

/-- `process_sample` (lines 156-322) after `validate_field_dict`. -/
def process [Zero α] (fixedSide : Bool) (size : Option (Nat × Nat)) (k : Option Kind) (idx : Nat) (dropExtra : Bool) (s : Sample α) :
    Option (Sample α) :=
  (fixSide fixedSide s).bind fun s => (augment k idx s).bind fun s => (pad size s).map (finish dropExtra)

/-- How the binary datasets materialise a sample (packed_binary.py:279-299, 469-476, simple_binary.py:152-170): the reader post-processes it
without augmentation, then the augmentation is a second post-processing. -/
def materialize [Zero α] (fixedSide : Bool) (size : Option (Nat × Nat)) (k : Option Kind) (idx : Nat) (dropExtra : Bool) (s : Sample α) :
    Option (Sample α) :=
  (process fixedSide size none 0 dropExtra s).bind fun s => if k = none then some s else process false none k idx false s

end Verif.Board
