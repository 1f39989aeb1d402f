import Verif.Tuned.Props111

/-! # C111 on concrete runs -/
namespace Verif.Tuned

/-- Limits that rise, then fall to one. -/
def limE (n : Nat) : Settings := if n < 3 then ⟨4, 2⟩ else if n < 6 then ⟨9, 3⟩ else ⟨1, 1⟩

def decE (l : List Nat) : Except String (List Nat) := .ok (l.map fun a => a * a)
def badE (l : List Nat) : Except String (List Nat) := if l.contains 6 = true then .error "bad record" else .ok (l.map fun a => a * a)

example : ∀ n, 1 ≤ (limE n).batches := by
  intro n
  unfold limE
  split_ifs <;> decide

example : (run limE decE (List.range 13)).1.out = (List.range 13).map (fun a => (a, a * a)) := by decide +kernel
example : (run limE decE (List.range 13)).1.depths = [(0, 2, 2), (0, 4, 2), (2, 4, 2), (4, 5, 3), (4, 8, 3), (4, 9, 1)] ∧
    (run limE decE (List.range 13)).1.maxQueued = 9 := by decide +kernel
example : (run limE decE (List.range 13)).1.submitted = 13 := by decide +kernel

/-- A failing chunk: what is before it is published. -/
example : (run limE badE (List.range 13)).2 = some "bad record" ∧ (run limE badE (List.range 13)).1.out = [(0, 0), (1, 1), (2, 4), (3, 9), (4, 16), (5, 25)] := by
  decide +kernel

/-- The limit must be positive: with zero the stream ends at once and nothing is said. -/
example : (run (fun _ => ⟨0, 1⟩) decE [1, 2]).2 = none ∧ (run (fun _ => ⟨0, 1⟩) decE [1, 2]).1.out = [] := by decide +kernel

end Verif.Tuned
