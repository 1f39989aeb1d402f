import Verif.Collate.Props104c

/-!
# C104: concrete cases
-/
namespace Verif.Collate
open Verif.Pipe (Spec Collate Transform)

/-- Contents: a list of rows of integers; one list is enough for these cases. -/
inductive Tree
  | leaf (l : List Int)
  | node (l : List Tree)

mutual
def Tree.same : Tree → Tree → Bool
  | .leaf a, .leaf b => decide (a = b)
  | .node a, .node b => Tree.sames a b
  | _, _ => false
def Tree.sames : List Tree → List Tree → Bool
  | [], [] => true
  | a :: l, b :: m => Tree.same a b && Tree.sames l m
  | _, _ => false
end

mutual
theorem Tree.same_symm : (a b : Tree) → a.same b = b.same a
  | .leaf a, .leaf b => by simp only [Tree.same]; exact decide_eq_decide.mpr eq_comm
  | .node a, .node b => by simp only [Tree.same]; exact Tree.sames_symm a b
  | .leaf _, .node _ => rfl
  | .node _, .leaf _ => rfl
theorem Tree.sames_symm : (a b : List Tree) → Tree.sames a b = Tree.sames b a
  | [], [] => rfl
  | [], _ :: _ => rfl
  | _ :: _, [] => rfl
  | a :: l, b :: m => by simp only [Tree.sames]; rw [Tree.same_symm a b, Tree.sames_symm l m]
end

/-- A library: numpy's promotion of equal kinds keeps the kind; mixed ones become floats. -/
def lib : Lib Tree where
  eq := Tree.same
  ints := fun t => match t with
    | .leaf l => l
    | .node _ => []
  stack := .node
  rows := fun t => match t with
    | .leaf l => l.map fun i => .leaf [i]
    | .node l => l
  promote := fun l => match l with
    | [] => 'f'
    | c :: l => if l.all (fun d => decide (d = c)) then c else 'f'

/-- The laws asked for are met. -/
theorem lib_laws : Laws lib where
  rows_stack := fun _ => rfl
  promote_same := by
    intro k l hl h
    cases l with
    | nil => exact absurd rfl hl
    | cons c l =>
      have hc : c = k := h c List.mem_cons_self
      subst hc
      have : l.all (fun d => decide (d = c)) = true := List.all_eq_true.mpr fun d hd => by simpa using h d (List.mem_cons_of_mem _ hd)
      show (if l.all (fun d => decide (d = c)) = true then c else 'f') = c
      rw [if_pos this]
  symm := Tree.same_symm

def arr (k : Char) (shape : List Nat) (l : List Int) : Val Tree := ⟨.numeric, k, k, shape, .leaf l⟩

/-- A sample of a 2×3 board in a 4×4 plane. -/
def sampleA : Dict Tree :=
  [("board_size", arr 'i' [2] [2, 3]), ("board_input", arr 'i' [2, 4, 4] [1, 0]), ("stm_input", arr 'f' [] [1]),
   ("value_target", arr 'f' [3] [1, 0, 0]), ("policy_target", arr 'f' [7] [0, 1, 0]), ("sparse_feature_dim", arr 'i' [1] [12])]

/-- Another one, its fields in another order. -/
def sampleB : Dict Tree :=
  [("board_input", arr 'i' [2, 4, 4] [0, 1]), ("board_size", arr 'i' [2] [2, 3]), ("stm_input", arr 'f' [] [-1]),
   ("policy_target", arr 'f' [7] [0, 0, 1]), ("value_target", arr 'f' [3] [0, 1, 0]), ("sparse_feature_dim", arr 'i' [1] [12])]

def isOk {B : Type} : Except String B → Bool
  | .ok _ => true
  | .error _ => false

/-- Replace one field. -/
def put (d : Dict Tree) (k : String) (v : Val Tree) : Dict Tree := d.map fun e => if e.1 = k then (k, v) else e

example : validateSample lib coreSpecs sampleA = .ok () := by decide +kernel
example : isOk (collate lib coreSpecs true [sampleA, sampleB]) = true := by decide +kernel

/-- The batch, as values. -/
def batchAB : Option (Dict Tree) :=
  match collate lib coreSpecs true [sampleA, sampleB] with
  | .ok o => stackedDict o
  | .error _ => none

example : batchAB.map (fun d => d.map fun e => (e.1, e.2.shape)) = some
    [("board_size", [2, 2]), ("board_input", [2, 2, 4, 4]), ("stm_input", [2]), ("value_target", [2, 3]), ("policy_target", [2, 7]),
     ("sparse_feature_dim", [2, 1])] := by decide +kernel

example : batchAB.map (fun d => validateBatch lib coreSpecs d) = some (.ok ()) := by decide +kernel

/-- `C104_collated` applies to these two samples: its hypotheses hold. -/
theorem C104_example : ∃ out d, collate lib coreSpecs true [sampleA, sampleB] = .ok out ∧ stackedDict out = some d
    ∧ BatchOf lib [sampleA, sampleB] d ∧ validateBatch lib coreSpecs d = .ok () := by
  have hb : batchAB.isSome = true := by decide +kernel
  unfold batchAB at hb
  cases h : collate lib coreSpecs true [sampleA, sampleB] with
  | error e => rw [h] at hb; simp at hb
  | ok out =>
    rw [h] at hb
    obtain ⟨d, hd⟩ := Option.isSome_iff_exists.mp hb
    have hd' : stackedDict out = some d := hd
    refine ⟨out, d, rfl, hd', ?_⟩
    have gm : ∀ s : Dict Tree, ∀ k v, get s k = some v → (k, v) ∈ s := by
      intro s k v hg
      unfold get at hg
      cases hf : s.find? (fun e => decide (e.1 = k)) with
      | none => rw [hf] at hg; simp at hg
      | some e =>
        rw [hf] at hg
        have h1 := List.find?_some hf
        have h2 := List.mem_of_find?_eq_some hf
        obtain ⟨a, b⟩ := e
        simp at hg h1
        subst hg h1
        exact h2
    have kinds : ∀ s ∈ [sampleA, sampleB], ∀ k v, (k, v) ∈ s → v.kind = (if k ∈ ["board_size", "board_input", "sparse_feature_dim"] then 'i' else 'f')
        ∧ ∃ l, v.body = .leaf l := by
      intro s hs k v hv
      simp only [List.mem_cons, List.not_mem_nil, or_false] at hs
      rcases hs with rfl | rfl
      · simp only [sampleA, List.mem_cons, Prod.mk.injEq, List.not_mem_nil, or_false] at hv
        rcases hv with ⟨rfl, rfl⟩ | ⟨rfl, rfl⟩ | ⟨rfl, rfl⟩ | ⟨rfl, rfl⟩ | ⟨rfl, rfl⟩ | ⟨rfl, rfl⟩ <;> exact ⟨by decide, _, rfl⟩
      · simp only [sampleB, List.mem_cons, Prod.mk.injEq, List.not_mem_nil, or_false] at hv
        rcases hv with ⟨rfl, rfl⟩ | ⟨rfl, rfl⟩ | ⟨rfl, rfl⟩ | ⟨rfl, rfl⟩ | ⟨rfl, rfl⟩ | ⟨rfl, rfl⟩ <;> exact ⟨by decide, _, rfl⟩
    refine C104_collated lib lib_laws coreSpecs C104_core_plain.1 C104_core_plain.2 _ ?_ out h d hd' ?_ ?_
    · intro s hs
      simp only [List.mem_cons, List.not_mem_nil, or_false] at hs
      rcases hs with rfl | rfl <;> decide
    · intro k s hs t ht v w hv hw
      rw [(kinds s hs k v (gm s k v hv)).1, (kinds t ht k w (gm t k w hw)).1]
    · intro k t _ _ s hs v hv
      obtain ⟨_, l, hl⟩ := kinds s hs k v (gm s k v hv)
      rw [hl]
      exact decide_eq_true rfl

/-! ### Refused -/

example : isOk (validateSample lib coreSpecs (put sampleA "stm_input" (arr 'i' [] [1]))) = true := by decide +kernel
example : isOk (validateSample lib coreSpecs (put sampleA "value_target" (arr 'i' [3] [1, 0, 0]))) = false := by decide +kernel
example : isOk (validateSample lib coreSpecs (put sampleA "board_input" (arr 'i' [2, 1, 4] [1, 0]))) = false := by decide +kernel
example : isOk (validateSample lib coreSpecs (put sampleA "board_input" (arr 'i' [2, 4, 2] [1, 0]))) = false := by decide +kernel
example : isOk (validateSample lib coreSpecs (put sampleA "board_input" (arr 'i' [2, 2, 3] [1, 0]))) = true := by decide +kernel
example : isOk (validateSample lib coreSpecs (put sampleA "board_input" (arr 'i' [4] [1, 0]))) = false := by decide +kernel
example : isOk (validateSample lib coreSpecs (put sampleA "value_target" (arr 'f' [] [1]))) = false := by decide +kernel
example : isOk (validateSample lib coreSpecs (put sampleA "board_size" (arr 'i' [3] [2, 3, 1]))) = false := by decide +kernel
example : isOk (validateSample lib coreSpecs (("move", arr 'i' [] [0]) :: sampleA)) = false := by decide +kernel
example : isOk (validateSample lib coreSpecs (sampleA.drop 1)) = false := by decide +kernel
example : isOk (validateSample lib coreSpecs (sampleA.take 4)) = false := by decide +kernel
example : isOk (collate lib coreSpecs true ([] : List (Dict Tree))) = false := by decide +kernel
/-- the shared field differs -/
example : isOk (collate lib coreSpecs true [sampleA, put sampleB "sparse_feature_dim" (arr 'i' [1] [13])]) = false := by decide +kernel
/-- a policy for 6 points, 7 with pass, 16, 17, the plane; not 8 -/
example : [[6], [7], [16], [17], [2, 3], [8], [3, 2], [4, 4], []].map (fun sh => isOk (collate lib coreSpecs true
    [put sampleA "policy_target" (arr 'f' sh [])])) = [true, true, true, true, true, false, false, false, false] := by decide +kernel
/-- shapes that cannot be stacked -/
example : isOk (collate lib coreSpecs true [sampleA, put sampleB "policy_target" (arr 'f' [6] [])]) = false := by decide +kernel
/-- fields that do not agree -/
example : isOk (collate lib coreSpecs true [sampleA, sampleB.take 5]) = false := by decide +kernel
/-- an undeclared field, without validation, is collated -/
example : isOk (collate lib coreSpecs false [("move", arr 'i' [] [0]) :: sampleA]) = true := by decide +kernel

/-! ### An empty move list

`_field_dtype_kind` gives a list the kind `O` (core.py:222-229), `np.asarray([]).dtype.kind` is `f`: the sample is valid, and cannot be
collated. -/

/-- A move list: an empty list becomes a float array, a list of pairs of numbers an integer array. -/
def moves (k : Char) (shape : List Nat) : Val Tree := ⟨.other, 'O', k, shape, .leaf []⟩

/-- **C104.** (witness) A valid sample whose move list is empty is refused by the collation. -/
theorem C104_empty_moves : validateSample lib coreSpecs (("position", moves 'f' [0]) :: sampleA) = .ok ()
    ∧ isOk (collate lib coreSpecs true [("position", moves 'f' [0]) :: sampleA]) = false
    ∧ validateSample lib coreSpecs (("position", moves 'O' [1]) :: sampleA) = .ok ()
    ∧ isOk (collate lib coreSpecs true [("position", moves 'O' [1]) :: sampleA]) = true := by
  refine ⟨?_, ?_, ?_, ?_⟩ <;> decide +kernel

/-! ### Files -/

/-- `a` and `b` are hard links, `l` links to `c`; on `/fat` there are no inodes and case does not matter. -/
def disk : Fs where
  real := fun p => if p = "l" then "c" else p
  stat := fun p => if p = "a" ∨ p = "b" then some (1, 7) else if p = "c" then some (1, 8) else if p = "d" then some (2, 7)
    else if p = "/fat/X" ∨ p = "/fat/x" ∨ p = "/fat/y" then some (3, 0) else none
  fold := fun p => if p = "/fat/X" then "/fat/x" else p

def verdict : Except Rejected (List String) → Option (List String) × List (List String)
  | .ok l => (some l, [])
  | .error .missing => (none, [])
  | .error (.duplicates g) => (none, g)

example : verdict (rejectDuplicates disk ["a", "l", "d", "/fat/x", "/fat/y"]) = (some ["a", "c", "d", "/fat/x", "/fat/y"], []) := by decide +kernel
example : verdict (rejectDuplicates disk ["a", "l", "b", "d", "c", "/fat/x", "/fat/X"]) = (none, [["a", "b"], ["l", "c"], ["/fat/x", "/fat/X"]]) := by
  decide +kernel
example : verdict (rejectDuplicates disk ["a", "a"]) = (none, [["a", "a"]]) := by decide +kernel
example : verdict (rejectDuplicates disk ["a", "z"]) = (none, []) := by decide +kernel

end Verif.Collate
