import Verif.Pipe.Props102b
import Verif.Pipe.Props102c

/-! # C102: concrete cases -/
namespace Verif.Pipe
open Verif.Canon

/-! ## Python's integers, booleans and `None` -/

inductive Sc | none | bool (b : Bool) | int (n : Int)

def pySc : Scalars Sc where
  ty := fun s => match s with | .none => "NoneType" | .bool _ => "bool" | .int _ => "int"
  repr := fun s => match s with
    | .none => codes "None"
    | .bool true => codes "True"
    | .bool false => codes "False"
    | .int (.ofNat n) => digits n
    | .int (.negSucc n) => 45 :: digits (n + 1)

theorem starts_nodigit (u : List Nat) (h : Starts u) : ∀ c r, u = c :: r → ¬ (48 ≤ c ∧ c ≤ 57) := by
  intro c r hu
  have h1 := h c r hu
  have : ∀ c ∈ codes "taldsbifN", ¬ (48 ≤ c ∧ c ≤ 57) := by decide
  exact this c h1

theorem digits_cons (n : Nat) : ∃ c t, digits n = c :: t ∧ 48 ≤ c := by
  cases h : digits n with
  | nil => exact absurd h (digits_ne_nil n)
  | cons c t => exact ⟨c, t, rfl, (digits_range n c (by simp [h])).1⟩

/-- The hypothesis of `C102_digest` holds of real scalars. -/
theorem pySc_printed : Printed pySc where
  names := by intro s; cases s <;> simp [pySc]
  exact := by
    intro a b hty u u' hu hu' h
    cases a with
    | none =>
      cases b with
      | none => exact ⟨rfl, List.append_cancel_left h⟩
      | bool b => exact absurd hty (by simp [pySc])
      | int n => exact absurd hty (by simp [pySc])
    | bool b =>
      cases b <;> cases ‹Sc› with
      | none => exact absurd hty (by simp [pySc])
      | int n => exact absurd hty (by simp [pySc])
      | bool c =>
        cases c <;> first
          | exact ⟨rfl, List.append_cancel_left h⟩
          | (exfalso; have h1 := congrArg List.head? h; revert h1; show ¬ (some _ = some _); decide)
    | int n =>
      cases b with
      | none => exact absurd hty (by simp [pySc])
      | bool b => exact absurd hty (by simp [pySc])
      | int m =>
        cases n with
        | ofNat n =>
          cases m with
          | ofNat m =>
            obtain ⟨h1, h2⟩ := digits_then n m u u' (starts_nodigit u hu) (starts_nodigit u' hu') h
            exact ⟨by rw [h1], h2⟩
          | negSucc m =>
            exfalso
            obtain ⟨c, t, h1, h2⟩ := digits_cons n
            have h' : digits n ++ u = 45 :: digits (m + 1) ++ u' := h
            rw [h1] at h'
            simp only [List.cons_append, List.cons.injEq] at h'
            omega
        | negSucc n =>
          cases m with
          | ofNat m =>
            exfalso
            obtain ⟨c, t, h1, h2⟩ := digits_cons m
            have h' : 45 :: digits (n + 1) ++ u = digits m ++ u' := h
            rw [h1] at h'
            simp only [List.cons_append, List.cons.injEq] at h'
            omega
          | negSucc m =>
            have h' : 45 :: digits (n + 1) ++ u = 45 :: digits (m + 1) ++ u' := h
            simp only [List.cons_append, List.cons.injEq, true_and] at h'
            obtain ⟨h1, h2⟩ := digits_then _ _ u u' (starts_nodigit u hu) (starts_nodigit u' hu') h'
            have : n = m := by omega
            exact ⟨by rw [this], h2⟩

/-- Move lists of different grouping are told apart, and so are shapes with the same bytes. -/
example : feed pySc (.seq false [.seq true [.scalar (.int 1)], .scalar (.int 2)]) ≠ feed pySc (.seq false [.seq true [.scalar (.int 1), .scalar (.int 2)]]) := by
  intro h
  have := C102_digest pySc pySc_printed (fun _ => 1) _ _
    (Plain.seq _ _ (by decide) (by
      intro v hv
      simp only [List.mem_cons, List.not_mem_nil, or_false] at hv
      rcases hv with rfl | rfl
      · exact Plain.seq _ _ (by decide) (by intro v hv; simp only [List.mem_cons, List.not_mem_nil, or_false] at hv; subst hv; exact Plain.scalar _)
      · exact Plain.scalar _))
    (Plain.seq _ _ (by decide) (by
      intro v hv
      simp only [List.mem_cons, List.not_mem_nil, or_false] at hv
      subst hv
      exact Plain.seq _ _ (by decide) (by
        intro v hv
        simp only [List.mem_cons, List.not_mem_nil, or_false] at hv
        rcases hv with rfl | rfl <;> exact Plain.scalar _))) h
  simp at this

example : feed pySc (.arr false (codes "int8") [2, 3] [1, 2, 3, 4, 5, 6]) ≠ feed pySc (.arr false (codes "int8") [6] [1, 2, 3, 4, 5, 6]) := by
  intro h
  have := C102_digest pySc pySc_printed (fun _ => 1) _ _ (Plain.arr _ _ _ _ (by decide) rfl) (Plain.arr _ _ _ _ (by decide) rfl) h
  simp at this

/-- The finding, on a concrete field. -/
example : feed pySc (.dict [(.scalar (.int 0), .dict [(.scalar (.int 1), .scalar .none)])]) =
    feed pySc (.dict [(.scalar (.int 0), .dict []), (.scalar (.int 1), .scalar .none)]) := (C102_digest_dicts pySc _ _ _).1

/-! ## A chain -/

def exExt : Ext Nat (List Nat × Nat) where
  rows := ⟨fun a b => decide (a = b), fun a => (a, a)⟩
  digest := fun f => (f.rows, f.shape.length)
  sha := fun b => (b.data.toList.map UInt8.toNat, 0)
  lib := ⟨fun _ => 0, fun _ => [], fun _ => none, fun _ => none⟩

def boardSpec : Spec := ⟨"board_input", true, false, some (1, 2), some 0, .stack, ['i'], .plain⟩
def policySpec : Spec := ⟨"policy", true, false, none, none, .stack, ['f'], .boardPolicy⟩

/-- Counts batches: state `k`, returns `k + 1`, and adds a policy field. -/
def counter : Pipe Nat Unit Unit where
  id := "count".toList
  version := 1
  inputs := [boardSpec]
  outputs := [policySpec]
  stateful := true
  initial := .int 0
  signature := fun _ => .str "v1".toList
  run := fun _ d s _ => match s with
    | .int k => .ok ⟨d ++ [("policy", ⟨'f', [2, 9], false, [0, 0]⟩)], .int (k + 1), s, ()⟩
    | _ => .error "state"

/-- A pipeline that overwrites a field in place. -/
def vandal : Pipe Nat Unit Unit where
  id := "vandal".toList
  version := 1
  inputs := []
  outputs := []
  stateful := false
  initial := .null
  signature := fun _ => .null
  run := fun _ d s _ => .ok ⟨d.map fun e => (e.1, { e.2 with rows := e.2.rows.map (· + 1) }), .null, s, ()⟩

def exBatch : Data Nat := [("board_size", ⟨'i', [2, 2], false, [3, 3]⟩), ("board_input", ⟨'i', [2, 2, 3, 3], false, [7, 8]⟩)]

theorem ex_buildable : Buildable [counter] [()] where
  ids := by decide
  versions := by intro p hp; simp only [List.mem_singleton] at hp; subst hp; decide
  outputs := by intro p hp; simp only [List.mem_singleton] at hp; subst hp; decide
  disjoint := by simp
  signatures := by intro p hp; simp only [List.zip_cons_cons, List.zip_nil_right, List.mem_singleton] at hp; subst hp; exact Encodable.str _
  initial := by intro p hp _; simp only [List.mem_singleton] at hp; subst hp; exact Encodable.int _ (by decide) (by decide)

theorem ex_boards : Boards exExt.rows exBatch 2 [(3, 3), (3, 3)] := ⟨_, rfl, rfl, rfl⟩

theorem ex_input : AllFit exExt.rows exBatch 2 [boardSpec] := by
  rw [← C102_checks]; decide +kernel

/-- The chain is built, accepts a batch with its first state and adds the declared field. -/
example : ∃ c, make exExt [counter] [()] = .ok c ∧ ∃ blob', prepare exExt c [()] exBatch 2 () none =
    .ok (exBatch ++ [("policy", ⟨'f', [2, 9], false, [0, 0]⟩)], blob', [()]) := by
  obtain ⟨c, hc⟩ := (C102_build exExt [counter] [()] rfl).2 ex_buildable
  refine ⟨c, hc, (C102_accepts exExt [counter] [()] [()] rfl rfl c hc exBatch 2 () none _ _).2 ?_⟩
  obtain ⟨b, hb⟩ := (C07_accepts exExt.lib (.str "v1".toList)).2 (Encodable.str _)
  obtain ⟨b0, hb0⟩ := (C07_accepts exExt.lib (.int 0)).2 (Encodable.int 0 (by decide) (by decide))
  have hinit := C102_initial exExt [counter] [()] rfl c hc (by intro p hp; simp only [List.mem_singleton] at hp; subst hp; exact PyVal.int _)
  refine ⟨[.int 0], [⟨exBatch ++ [("policy", ⟨'f', [2, 9], false, [0, 0]⟩)], .int 1, .int 0, ()⟩], hinit, .cons ⟨b, b, hb, hb, rfl⟩ .nil, ?_, ?_, rfl⟩
  · refine .cons rfl ?_ (.nil _)
    refine ⟨ex_input, by rw [← C102_checks]; decide +kernel, ?_, ?_, ?_, fun _ => ⟨b0, hb0, hb0⟩, ⟨b, hb, hb⟩⟩
    · intro o ho
      simp only [counter, List.mem_singleton] at ho
      subst ho
      rfl
    · intro k f hk hd
      obtain ⟨e, he, rfl⟩ := (get_isSome_iff _ k).1 ⟨f, hk⟩
      simp only [exBatch, List.cons_append, List.nil_append, List.mem_cons, List.not_mem_nil, or_false] at he
      rcases he with rfl | rfl | rfl
      · exact absurd hd (by decide)
      · exact absurd hd (by decide)
      · exact ⟨policySpec, by simp [counter], rfl⟩
    · intro k f hk
      obtain ⟨e, he, rfl⟩ := (get_isSome_iff _ k).1 ⟨f, hk⟩
      simp only [exBatch, List.mem_cons, List.not_mem_nil, or_false] at he
      rcases he with rfl | rfl
      · exact ⟨f, hk, rfl⟩
      · exact ⟨f, hk, rfl⟩
  · intro s hs
    simp only [keptStates, keptState, counter, if_true, List.mem_singleton] at hs
    subst hs
    exact Encodable.int _ (by decide) (by decide)

/-- The overwriting pipeline is never accepted on this batch, whatever blob and chain. -/
example (c : Composer Nat Unit Unit (List Nat × Nat)) (hc : make exExt [vandal] [()] = .ok c) (blob : Option ByteArray) (d' : Data Nat) (b : ByteArray)
    (hs : List Unit) : prepare exExt c [()] exBatch 2 () blob ≠ .ok (d', b, hs) := by
  intro h
  obtain ⟨states, outs, h1, h2, -⟩ := C102_state exExt [vandal] [()] [()] rfl rfl c hc exBatch 2 () blob d' b hs h
  cases h2 with
  | cons hrun hclean hrest =>
    obtain ⟨g, hg, he⟩ := hclean.kept "board_input" _ rfl
    injection hrun with hrun
    subst hrun
    have hg' : some (⟨'i', [2, 2, 3, 3], false, [8, 9]⟩ : Field Nat) = some g := hg
    injection hg' with hg'
    subst hg'
    revert he
    decide

end Verif.Pipe
