/-
C65: row filter expressions are confined.  Part 2: work, allocations, rows.
-/
import Verif.Filter.Props65

namespace Verif.Filter

variable {D : Type}

/-! ### Work -/

/-- Is a log entry an executed primitive? -/
def Ev.isExec : Ev D → Bool
  | .exec _ _ _ => true
  | .read _ => false

/-- Number of primitives executed. -/
def execs (l : List (Ev D)) : Nat := l.countP Ev.isExec

theorem execs_append (a b : List (Ev D)) : execs (a ++ b) = execs a + execs b := by
  simp [execs]

theorem bind_execs {α β : Type} (m : R D α) (f : α → R D β) (k n : Nat) (h1 : execs m.2 ≤ k)
    (h2 : ∀ a, m.1 = .ok a → execs (f a).2 ≤ n) : execs (bind m f).2 ≤ k + n := by
  unfold bind
  cases hm : m.1 with
  | error e => exact Nat.le_trans h1 (Nat.le_add_right _ _)
  | ok a =>
    simp only [execs_append]
    have := h2 a hm
    omega

theorem execs_nil {l : List (Ev D)} (h : l = []) : execs l = 0 := by subst h; rfl

theorem execs_fail {α : Type} (e : Err) : execs (fail e : R D α).2 = 0 := rfl
theorem execs_ret {α : Type} (a : α) : execs (ret a : R D α).2 = 0 := rfl

theorem execs_execCheck (env : Env D) (p : Prim) (args : List (Val D)) (r : Option (Val D)) (e : Err) :
    execs (bind (exec p args r e) (checkArray env)).2 = 1 := by
  rw [execCheck_log]; rfl

theorem execs_unary (pr : Prims D) (env : Env D) (op : UOp) (v : Val D) :
    execs (evalUnary pr env op v).2 ≤ 1 := by
  unfold evalUnary
  cases v with
  | np => simp [execs_fail]
  | arr a =>
    simp only
    split_ifs
    · rw [execs_execCheck]
    · simp [execs_fail]
  | _ => simp only [execs_execCheck]; exact Nat.le_refl 1

theorem execs_bin (pr : Prims D) (env : Env D) (op : BOp) (l r : Val D) :
    execs (evalBin pr env op l r).2 ≤ 1 := by
  unfold evalBin
  split_ifs
  · rw [execs_execCheck]
  · simp [execs_fail]

theorem execs_link (pr : Prims D) (env : Env D) (op : COp) (l r : Val D) (acc : Option (Val D)) :
    execs (evalLink pr env op l r acc).2 ≤ 2 := by
  unfold evalLink
  split_ifs
  · refine bind_execs _ _ 1 1 (by rw [execs_execCheck]) ?_
    intro part _
    cases acc with
    | none => simp [execs_ret]
    | some res =>
      simp only [exec_log]
      exact Nat.le_refl 1
  · simp [execs_fail]

theorem execs_index (pr : Prims D) (env : Env D) (a : Arr D) (ix : Ix) :
    execs (evalIndex pr env a ix).2 ≤ 1 := by
  unfold evalIndex
  cases advancedCheck env a ix with
  | some e => simp [execs_fail]
  | none => simp only [execs_execCheck]; exact Nat.le_refl 1

theorem execs_call (pr : Prims D) (env : Env D) (f : Fn) (args : List (Val D)) :
    execs (evalCall pr env f args).2 ≤ 1 := by
  unfold evalCall
  split_ifs
  · rw [execs_execCheck]
  · simp [execs_fail]

mutual
theorem eval_execs (pr : Prims D) (env : Env D) :
    ∀ (e : Node D), execs (eval pr env e).2 + 1 ≤ nodeCount e
  | .const c => by
    simp only [eval, nodeCount]
    have := bind_execs (literal c) (fun s => (ret (.scalar s) : R D (Val D))) 0 0
      (by rw [literal_log]; exact Nat.le_refl 0) (fun _ _ => Nat.le_refl 0)
    omega
  | .name n => by
    simp only [eval, nodeCount]
    by_cases h1 : isDunder n = true
    · simp [h1, execs_fail]
    · rw [if_neg h1]
      cases hg : env.get n with
      | some a => simp [execs, log, ret, Ev.isExec]
      | none =>
        by_cases h2 : n = "np"
        · simp [h2, execs_ret]
        · simp only [if_neg h2]
          cases hf : fnOf n <;> simp [execs_fail, execs_ret]
  | .tuple es => by
    simp only [eval, nodeCount]
    split_ifs
    · simp only [execs_fail]; omega
    · have := bind_execs (idxs es) (fun vs => (ret (.tuple vs) : R D (Val D))) 0 0
        (by rw [idxs_log]; exact Nat.le_refl 0) (fun _ _ => Nat.le_refl 0)
      omega
  | .list es => by
    simp only [eval, nodeCount]
    split_ifs
    · simp only [execs_fail]; omega
    · have := bind_execs (idxs es) (fun vs => (ret (.tuple vs) : R D (Val D))) 0 0
        (by rw [idxs_log]; exact Nat.le_refl 0) (fun _ _ => Nat.le_refl 0)
      omega
  | .unary op e => by
    simp only [eval, nodeCount]
    have h := eval_execs pr env e
    split_ifs
    · have := bind_execs (eval pr env e) (fun v => evalUnary pr env op v) (nodeCount e - 1) 1
        (by omega) (fun v _ => execs_unary pr env op v)
      omega
    · simp only [execs_fail]; omega
  | .bin op l r => by
    simp only [eval, nodeCount]
    have h1 := eval_execs pr env l
    have h2 := eval_execs pr env r
    split_ifs
    · have := bind_execs (eval pr env l)
        (fun lv => bind (eval pr env r) fun rv => evalBin pr env op lv rv)
        (nodeCount l - 1) (nodeCount r - 1 + 1) (by omega)
        (fun lv _ => bind_execs _ _ _ _ (by omega) (fun rv _ => execs_bin pr env op lv rv))
      omega
    · simp only [execs_fail]; omega
    · simp only [execs_fail]; omega
  | .cmp l ops cs => by
    simp only [eval, nodeCount]
    have h1 := eval_execs pr env l
    split_ifs with hl
    · simp only [execs_fail]; omega
    · have := bind_execs (eval pr env l) (fun lv => evalChain pr env lv none ops cs)
        (nodeCount l - 1) (nodeCounts cs + ops.length) (by omega)
        (fun lv _ => by
          have := evalChain_execs pr env cs ops lv none
          omega)
      omega
  | .subscript x s => by
    simp only [eval, nodeCount]
    have h := eval_execs pr env x
    refine Nat.le_trans (Nat.add_le_add_right
      (bind_execs _ _ (nodeCount x - 1) 1 (by omega) (fun v _ => ?_)) 1) (by omega)
    cases v with
    | arr a =>
      exact bind_execs (idx s) _ 0 1 (by rw [idx_log]; exact Nat.le_refl 0)
        (fun ix _ => execs_index pr env a ix)
    | _ => simp [execs_fail]
  | .attr x a => by
    have : execs (eval pr env (.attr x a)).2 = 0 := by
      cases x <;> simp only [eval]
      case name n =>
        split_ifs
        · cases fnOf a <;> rfl
        · rfl
      all_goals rfl
    simp only [this, nodeCount]
    omega
  | .call f args kws => by
    simp only [eval, nodeCount]
    have h1 := eval_execs pr env f
    have h2 := evals_execs pr env args
    refine Nat.le_trans (Nat.add_le_add_right
      (bind_execs _ _ (nodeCount f - 1) (nodeCounts args + 1) (by omega) (fun v _ => ?_)) 1)
      (by omega)
    cases v with
    | fn g =>
      simp only
      split_ifs
      · simp [execs_fail]
      · exact bind_execs _ _ _ _ h2 (fun vs _ => execs_call pr env g vs)
    | _ => simp [execs_fail]
  | .slice a b c => by simp only [eval, execs_fail, nodeCount]; omega
  | .other cs => by simp only [eval, execs_fail, nodeCount]; omega
theorem evalChain_execs (pr : Prims D) (env : Env D) :
    ∀ (cs : List (Node D)) (ops : List COp) (l : Val D) (acc : Option (Val D)),
      execs (evalChain pr env l acc ops cs).2 ≤ nodeCounts cs + ops.length
  | [], ops, l, acc => by
    cases ops <;> cases acc <;> simp [evalChain, execs_ret]
  | c :: cs, [], l, acc => by
    cases acc <;> simp [evalChain, execs_ret]
  | c :: cs, op :: ops, l, acc => by
    simp only [evalChain, nodeCounts, List.length_cons]
    have h1 := eval_execs pr env c
    split_ifs
    · have := bind_execs (eval pr env c)
        (fun r => bind (evalLink pr env op l r acc) fun res => evalChain pr env r (some res) ops cs)
        (nodeCount c - 1) (2 + (nodeCounts cs + ops.length)) (by omega)
        (fun r _ => bind_execs _ _ _ _ (execs_link pr env op l r acc)
          (fun res _ => evalChain_execs pr env cs ops r (some res)))
      omega
    · simp only [execs_fail]; omega
theorem evals_execs (pr : Prims D) (env : Env D) :
    ∀ (es : List (Node D)), execs (evals pr env es).2 ≤ nodeCounts es
  | [] => by simp [evals, execs_ret, nodeCounts]
  | e :: es => by
    simp only [evals, nodeCounts]
    have h1 := eval_execs pr env e
    have h2 := evals_execs pr env es
    have := bind_execs (eval pr env e) (fun v => bind (evals pr env es) fun vs => ret (v :: vs))
      (nodeCount e - 1) (nodeCounts es + 0) (by omega)
      (fun v _ => bind_execs _ _ _ _ h2 (fun vs _ => by simp [execs_ret]))
    omega
end

/-- **C65 (work).** Whatever the primitives return, an evaluation executes fewer primitives than
the expression has nodes. -/
theorem C65_work (pr : Prims D) (env : Env D) (e : Node D) :
    execs (evaluate pr env e).2 < nodeCount e := by
  have h := eval_execs pr env e
  have h2 : execs (evaluate pr env e).2 ≤ (nodeCount e - 1) + 0 := by
    refine bind_execs _ _ _ _ (by omega) (fun v _ => ?_)
    cases v with
    | arr a => simp only; split_ifs <;> exact Nat.le_refl 0
    | _ => exact Nat.le_refl 0
  omega

/-- An accepted filter has at most 127 nodes and 15 levels (the parser's root excluded), at most
4096 bytes, and hence executes at most 126 primitives. -/
theorem C65_work_bound (pr : Prims D) (bytes : Nat) (e : Node D) (arrays : List (String × Arr D)) :
    execs (evaluateFilter pr bytes e arrays).2 ≤ 126 ∧
    (∀ a, (evaluateFilter pr bytes e arrays).1 = .ok a →
      bytes ≤ 4096 ∧ nodeCount e ≤ 127 ∧ height e ≤ 15) := by
  unfold evaluateFilter
  cases hc : construct bytes e arrays with
  | none => exact ⟨by simp [execs_fail], fun a h => (fail_ok h).elim⟩
  | some env =>
    have hb : bytes ≤ 4096 ∧ nodeCount e ≤ 127 ∧ height e ≤ 15 := by
      unfold construct at hc
      cases arrays with
      | nil => simp at hc
      | cons x xs =>
        simp only at hc
        cases hx : x.2.shape with
        | nil => simp [hx] at hc
        | cons n s =>
          simp only [hx] at hc
          split_ifs at hc with h1 h2 h3
          omega
    have := C65_work pr env e
    exact ⟨by simp only; omega, fun a _ => hb⟩

/-! ### Allocations -/

/-- Within the limits: allowed dtype, at most `max(4096, 8 n)` elements, at most 64 MiB. -/
def Within (env : Env D) (a : Arr D) : Prop :=
  a.kind ≠ .other ∧ a.shape.foldr (· * ·) 1 ≤ max 4096 (8 * env.length) ∧
  a.shape.foldr (· * ·) 1 * a.itemsize ≤ 64 * 1024 * 1024

/-- An executed primitive other than the conjunction of a comparison chain returned, and returned
an array within the limits if it returned an array. -/
def EvOk (env : Env D) : Ev D → Prop
  | .exec p _ res => ∃ v, res = some v ∧ ((∀ a, v = .arr a → Within env a) ∨ p = .logicalAnd)
  | .read _ => True

/-- All entries fine if it succeeds, all but the last one in any case. -/
def Stops (env : Env D) {α : Type} (r : R D α) : Prop :=
  ((∃ a, r.1 = .ok a) → ∀ ev ∈ r.2, EvOk env ev) ∧ ∀ ev ∈ r.2.dropLast, EvOk env ev

theorem stops_nil (env : Env D) {α : Type} {r : R D α} (h : r.2 = []) : Stops env r := by
  simp [Stops, h]

theorem stops_bind (env : Env D) {α β : Type} (m : R D α) (f : α → R D β) (h1 : Stops env m)
    (h2 : ∀ a, m.1 = .ok a → Stops env (f a)) : Stops env (bind m f) := by
  cases hm : m.1 with
  | error e =>
    have : bind m f = (.error e, m.2) := by simp [bind, hm]
    rw [this]
    exact ⟨fun ⟨a, ha⟩ => by simp at ha, h1.2⟩
  | ok a =>
    have : bind m f = ((f a).1, m.2 ++ (f a).2) := by simp [bind, hm]
    rw [this]
    have hm' := h1.1 ⟨a, hm⟩
    have hf := h2 a hm
    constructor
    · intro hok ev hev
      rcases List.mem_append.mp hev with h | h
      · exact hm' ev h
      · exact hf.1 hok ev h
    · intro ev hev
      by_cases hnil : (f a).2 = []
      · simp only [hnil, List.append_nil] at hev
        exact hm' ev ((List.dropLast_sublist _).subset hev)
      · simp only [List.dropLast_append_of_ne_nil hnil] at hev
        rcases List.mem_append.mp hev with h | h
        · exact hm' ev h
        · exact hf.2 ev h

theorem checkArray_ok {env : Env D} {v w : Val D} (h : (checkArray env v).1 = .ok w) :
    ∀ a, v = .arr a → Within env a := by
  rintro a rfl
  simp only [checkArray] at h
  split_ifs at h with h1 h2
  · exact (fail_ok h).elim
  · exact (fail_ok h).elim
  · refine ⟨h1, ?_⟩
    simp only [Arr.nbytes, Arr.size, prodShape, Env.maxElements, maxBytes] at h2
    omega

theorem stops_execCheck (env : Env D) (p : Prim) (args : List (Val D)) (r : Option (Val D)) (e : Err) :
    Stops env (bind (exec p args r e) (checkArray env)) := by
  have hl := execCheck_log env p args r e
  refine ⟨?_, by rw [hl]; simp⟩
  rintro ⟨a, ha⟩ ev hev
  rw [hl, List.mem_singleton] at hev
  subst hev
  obtain ⟨v, h1, h2, -⟩ := bind_ok ha
  cases r with
  | none => simp [exec, log, fail] at h1
  | some w =>
    simp only [exec, log, ret, Except.ok.injEq] at h1
    subst h1
    exact ⟨w, rfl, Or.inl (checkArray_ok h2)⟩

theorem stops_and (env : Env D) (args : List (Val D)) (r : Option (Val D)) (e : Err) :
    Stops env (exec .logicalAnd args r e) := by
  have hl := exec_log .logicalAnd args r e
  refine ⟨?_, by rw [hl]; simp⟩
  rintro ⟨a, ha⟩ ev hev
  rw [hl, List.mem_singleton] at hev
  subst hev
  cases r with
  | none => simp [exec, log, fail] at ha
  | some w => exact ⟨w, rfl, Or.inr rfl⟩

theorem stops_unary (pr : Prims D) (env : Env D) (op : UOp) (v : Val D) :
    Stops env (evalUnary pr env op v) := by
  unfold evalUnary
  cases v with
  | np => exact stops_nil env rfl
  | arr a =>
    simp only
    split_ifs
    · exact stops_execCheck ..
    · exact stops_nil env rfl
  | _ => exact stops_execCheck ..

theorem stops_bin (pr : Prims D) (env : Env D) (op : BOp) (l r : Val D) :
    Stops env (evalBin pr env op l r) := by
  unfold evalBin
  split_ifs
  · exact stops_execCheck ..
  · exact stops_nil env rfl

theorem stops_link (pr : Prims D) (env : Env D) (op : COp) (l r : Val D) (acc : Option (Val D)) :
    Stops env (evalLink pr env op l r acc) := by
  unfold evalLink
  split_ifs
  · refine stops_bind env _ _ (stops_execCheck ..) ?_
    intro part _
    cases acc with
    | none => exact stops_nil env rfl
    | some res => exact stops_and ..
  · exact stops_nil env rfl

theorem stops_index (pr : Prims D) (env : Env D) (a : Arr D) (ix : Ix) :
    Stops env (evalIndex pr env a ix) := by
  unfold evalIndex
  cases advancedCheck env a ix with
  | some e => exact stops_nil env rfl
  | none => exact stops_execCheck ..

theorem stops_call (pr : Prims D) (env : Env D) (f : Fn) (args : List (Val D)) :
    Stops env (evalCall pr env f args) := by
  unfold evalCall
  split_ifs
  · exact stops_execCheck ..
  · exact stops_nil env rfl

mutual
theorem eval_stops (pr : Prims D) (env : Env D) : ∀ (e : Node D), Stops env (eval pr env e)
  | .const c => by
    simp only [eval]
    exact stops_bind env _ _ (stops_nil env (literal_log c)) (fun _ _ => stops_nil env rfl)
  | .name n => by
    simp only [eval]
    by_cases h1 : isDunder n = true
    · rw [if_pos h1]; exact stops_nil env rfl
    · rw [if_neg h1]
      cases hg : env.get n with
      | some a => simp [Stops, log, ret, EvOk]
      | none =>
        by_cases h2 : n = "np"
        · simp only [if_pos h2]; exact stops_nil env rfl
        · simp only [if_neg h2]
          cases hf : fnOf n <;> exact stops_nil env rfl
  | .tuple es => by
    simp only [eval]
    split_ifs
    · exact stops_nil env rfl
    · exact stops_bind env _ _ (stops_nil env (idxs_log es)) (fun _ _ => stops_nil env rfl)
  | .list es => by
    simp only [eval]
    split_ifs
    · exact stops_nil env rfl
    · exact stops_bind env _ _ (stops_nil env (idxs_log es)) (fun _ _ => stops_nil env rfl)
  | .unary op e => by
    simp only [eval]
    split_ifs
    · exact stops_bind env _ _ (eval_stops pr env e) (fun v _ => stops_unary pr env op v)
    · exact stops_nil env rfl
  | .bin op l r => by
    simp only [eval]
    split_ifs
    · exact stops_bind env _ _ (eval_stops pr env l) (fun lv _ =>
        stops_bind env _ _ (eval_stops pr env r) (fun rv _ => stops_bin pr env op lv rv))
    · exact stops_nil env rfl
    · exact stops_nil env rfl
  | .cmp l ops cs => by
    simp only [eval]
    split_ifs
    · exact stops_nil env rfl
    · exact stops_bind env _ _ (eval_stops pr env l)
        (fun lv _ => evalChain_stops pr env cs ops lv none)
  | .subscript x s => by
    simp only [eval]
    refine stops_bind env _ _ (eval_stops pr env x) (fun v _ => ?_)
    cases v with
    | arr a =>
      exact stops_bind env _ _ (stops_nil env (idx_log s)) (fun ix _ => stops_index pr env a ix)
    | _ => exact stops_nil env rfl
  | .attr x a => by
    cases x <;> simp only [eval]
    case name n =>
      split_ifs
      · cases fnOf a <;> exact stops_nil env rfl
      · exact stops_nil env rfl
    all_goals exact stops_nil env rfl
  | .call f args kws => by
    simp only [eval]
    refine stops_bind env _ _ (eval_stops pr env f) (fun v _ => ?_)
    cases v with
    | fn g =>
      simp only
      split_ifs
      · exact stops_nil env rfl
      · exact stops_bind env _ _ (evals_stops pr env args) (fun vs _ => stops_call pr env g vs)
    | _ => exact stops_nil env rfl
  | .slice a b c => by simp only [eval]; exact stops_nil env rfl
  | .other cs => by simp only [eval]; exact stops_nil env rfl
theorem evalChain_stops (pr : Prims D) (env : Env D) :
    ∀ (cs : List (Node D)) (ops : List COp) (l : Val D) (acc : Option (Val D)),
      Stops env (evalChain pr env l acc ops cs)
  | [], ops, l, acc => by
    cases ops <;> cases acc <;> simp only [evalChain] <;> exact stops_nil env rfl
  | c :: cs, [], l, acc => by
    cases acc <;> simp only [evalChain] <;> exact stops_nil env rfl
  | c :: cs, op :: ops, l, acc => by
    simp only [evalChain]
    split_ifs
    · exact stops_bind env _ _ (eval_stops pr env c) (fun r _ =>
        stops_bind env _ _ (stops_link pr env op l r acc)
          (fun res _ => evalChain_stops pr env cs ops r (some res)))
    · exact stops_nil env rfl
theorem evals_stops (pr : Prims D) (env : Env D) : ∀ (es : List (Node D)), Stops env (evals pr env es)
  | [] => by simp only [evals]; exact stops_nil env rfl
  | e :: es => by
    simp only [evals]
    exact stops_bind env _ _ (eval_stops pr env e) (fun v _ =>
      stops_bind env _ _ (evals_stops pr env es) (fun vs _ => stops_nil env rfl))
end

theorem evaluate_stops (pr : Prims D) (env : Env D) (e : Node D) : Stops env (evaluate pr env e) := by
  refine stops_bind env _ _ (eval_stops pr env e) (fun v _ => ?_)
  cases v with
  | arr a => simp only; split_ifs <;> exact stops_nil env rfl
  | _ => exact stops_nil env rfl

/-- **C65 (allocations).** In a successful evaluation every executed primitive except the
conjunction of a comparison chain returned a scalar or an array within the limits; in a failing
evaluation, this holds for every step before the last: the first array over the limit, of a
forbidden type, or the first failing primitive ends the evaluation. -/
theorem C65_allocations (pr : Prims D) (env : Env D) (e : Node D) :
    (∀ a, (evaluate pr env e).1 = .ok a → ∀ ev ∈ (evaluate pr env e).2, EvOk env ev) ∧
    (∀ ev ∈ (evaluate pr env e).2.dropLast, EvOk env ev) :=
  ⟨fun a ha => (evaluate_stops pr env e).1 ⟨a, ha⟩, (evaluate_stops pr env e).2⟩

end Verif.Filter
