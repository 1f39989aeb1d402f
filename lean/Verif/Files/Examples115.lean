import Verif.Files.Props115


/-!
# Concrete cases for C115
-/
namespace Verif.Files.Examples115

open Verif.Files

/-- A directory as listed: files 5, 2 (odd names are not accepted), subdirectory 1 with files 8, 4 and subdirectory 0 with file 6. -/
def e : Ent Nat := .file 5 (.dir 1 (.file 8 (.file 4 .nil)) (.file 2 (.dir 0 (.file 6 .nil) .nil)))

/-- The same listed otherwise, with an empty directory. -/
def e' : Ent Nat := .dir 7 .nil (.dir 0 (.file 6 .nil) (.file 2 (.file 5 (.dir 1 (.file 4 (.file 8 .nil)) .nil))))

def ok (n : Nat) : Bool := decide (n % 2 = 0)

theorem distinct : Distinct e ∧ Distinct e' := by
  constructor <;> simp [e, e', Distinct, names]

example : fileList ok (fun p : Nat => if p = 0 then .dir e else .file) [9, 0] =
    some [(9, []), (0, [2]), (0, [0, 6]), (0, [1, 4]), (0, [1, 8])] := by decide +kernel

theorem same (q : List Nat) : IsFile e q ↔ IsFile e' q := by
  constructor
  · intro h
    cases h with
    | here => exact .pastDir _ _ _ _ (.pastDir _ _ _ _ (.pastFile _ _ _ (.here _ _)))
    | pastFile _ _ _ h =>
      cases h with
      | inside _ _ _ p h => exact .pastDir _ _ _ _ (.pastDir _ _ _ _ (.pastFile _ _ _ (.pastFile _ _ _ (.inside _ _ _ _ (by
          cases h with
          | here => exact .pastFile _ _ _ (.here _ _)
          | pastFile _ _ _ h => cases h with
            | here => exact .here _ _
            | pastFile _ _ _ h => cases h)))))
      | pastDir _ _ _ _ h =>
        cases h with
        | here => exact .pastDir _ _ _ _ (.pastDir _ _ _ _ (.here _ _))
        | pastFile _ _ _ h =>
          cases h with
          | inside _ _ _ p h => exact .pastDir _ _ _ _ (.inside _ _ _ _ h)
          | pastDir _ _ _ _ h => cases h
  · intro h
    cases h with
    | inside _ _ _ p h => cases h
    | pastDir _ _ _ _ h =>
      cases h with
      | inside _ _ _ p h => exact .pastFile _ _ _ (.pastDir _ _ _ _ (.pastFile _ _ _ (.inside _ _ _ _ h)))
      | pastDir _ _ _ _ h =>
        cases h with
        | here => exact .pastFile _ _ _ (.pastDir _ _ _ _ (.here _ _))
        | pastFile _ _ _ h =>
          cases h with
          | here => exact .here _ _
          | pastFile _ _ _ h =>
            cases h with
            | inside _ _ _ p h => exact .pastFile _ _ _ (.inside _ _ _ _ (by
                cases h with
                | here => exact .pastFile _ _ _ (.here _ _)
                | pastFile _ _ _ h => cases h with
                  | here => exact .here _ _
                  | pastFile _ _ _ h => cases h))
            | pastDir _ _ _ _ h => cases h

example : fileList ok (fun _ : Unit => .dir e) [()] = fileList ok (fun _ : Unit => .dir e') [()] :=
  C115_deterministic ok _ _ [()] fun _ _ => Or.inr (Or.inr ⟨e, e', rfl, rfl, distinct.1, distinct.2, same⟩)

example := C115_contents ok (fun p : Nat => if p = 0 then .dir e else .file) [9, 0]
example : fileList ok (fun p : Nat => if p = 0 then .dir e else .missing) [0, 9] = none :=
  (C115_contents ok _ _).1.mpr ⟨9, by decide, rfl⟩

end Verif.Files.Examples115
