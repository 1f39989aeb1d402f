/-
C65: row filter expressions are confined.  Part 3: allocation before execution, gaps of the checks,
and the rows kept by `filter_data_by_condition`.
-/
import Verif.Filter.Props65b

namespace Verif.Filter

variable {D : Type}

/-! ### Everything logged comes from one of the primitive steps -/

section all
variable (pr : Prims D) (env : Env D) (P : Ev D → Prop) (hr : ∀ n, P (.read n))
  (hu : ∀ op v, unaryAllowed op = true → ∀ ev ∈ (evalUnary pr env op v).2, P ev)
  (hb : ∀ op l r, binaryAllowed op = true → ∀ ev ∈ (evalBin pr env op l r).2, P ev)
  (hl : ∀ op l r acc, compareAllowed op = true → ∀ ev ∈ (evalLink pr env op l r acc).2, P ev)
  (hi : ∀ a ix, ∀ ev ∈ (evalIndex pr env a ix).2, P ev)
  (hc : ∀ f vs, ∀ ev ∈ (evalCall pr env f vs).2, P ev)
include hr hu hb hl hi hc

theorem all_nil {α : Type} {r : R D α} (h : r.2 = []) : ∀ ev ∈ r.2, P ev := by simp [h]

mutual
theorem eval_all : ∀ (e : Node D), ∀ ev ∈ (eval pr env e).2, P ev
  | .const c => by
    simp only [eval]
    exact bind_all P _ _ (by simp [literal_log]) (by simp [ret])
  | .name n => by
    simp only [eval]
    by_cases h1 : isDunder n = true
    · simp [h1, fail]
    · rw [if_neg h1]
      cases hg : env.get n with
      | some a => simpa [log, ret] using hr n
      | none =>
        by_cases h2 : n = "np"
        · simp [h2, ret]
        · simp only [if_neg h2]
          cases hf : fnOf n <;> simp [ret, fail]
  | .tuple es => by
    simp only [eval]
    split_ifs
    · simp [fail]
    · exact bind_all P _ _ (by simp [idxs_log]) (by simp [ret])
  | .list es => by
    simp only [eval]
    split_ifs
    · simp [fail]
    · exact bind_all P _ _ (by simp [idxs_log]) (by simp [ret])
  | .unary op e => by
    simp only [eval]
    split_ifs with ho
    · exact bind_all P _ _ (eval_all e) (fun v _ => hu op v ho)
    · simp [fail]
  | .bin op l r => by
    simp only [eval]
    split_ifs with ho
    · exact bind_all P _ _ (eval_all l) (fun lv _ =>
        bind_all P _ _ (eval_all r) (fun rv _ => hb op lv rv ho))
    · simp [fail]
    · simp [fail]
  | .cmp l ops cs => by
    simp only [eval]
    split_ifs
    · simp [fail]
    · exact bind_all P _ _ (eval_all l) (fun lv _ => evalChain_all cs ops lv none)
  | .subscript x s => by
    simp only [eval]
    refine bind_all P _ _ (eval_all x) (fun v _ => ?_)
    cases v with
    | arr a => exact bind_all P _ _ (by simp [idx_log]) (fun ix _ => hi a ix)
    | _ => simp [fail]
  | .attr x a => by
    cases x <;> simp only [eval]
    case name n =>
      split_ifs
      · cases fnOf a <;> simp [ret, fail]
      · simp [fail]
    all_goals simp [fail]
  | .call f args kws => by
    simp only [eval]
    refine bind_all P _ _ (eval_all f) (fun v _ => ?_)
    cases v with
    | fn g =>
      simp only
      split_ifs
      · simp [fail]
      · exact bind_all P _ _ (evals_all args) (fun vs _ => hc g vs)
    | _ => simp [fail]
  | .slice a b c => by simp [eval, fail]
  | .other cs => by simp [eval, fail]
theorem evalChain_all : ∀ (cs : List (Node D)) (ops : List COp) (l : Val D) (acc : Option (Val D)),
      ∀ ev ∈ (evalChain pr env l acc ops cs).2, P ev
  | [], ops, l, acc => by
    cases ops <;> cases acc <;> simp [evalChain, ret]
  | c :: cs, [], l, acc => by
    cases acc <;> simp [evalChain, ret]
  | c :: cs, op :: ops, l, acc => by
    simp only [evalChain]
    split_ifs with ho
    · exact bind_all P _ _ (eval_all c) (fun r _ =>
        bind_all P _ _ (hl op l r acc ho) (fun res _ => evalChain_all cs ops r (some res)))
    · simp [fail]
theorem evals_all : ∀ (es : List (Node D)), ∀ ev ∈ (evals pr env es).2, P ev
  | [] => by simp [evals, ret]
  | e :: es => by
    simp only [evals]
    exact bind_all P _ _ (eval_all e) (fun v _ =>
      bind_all P _ _ (evals_all es) (fun vs _ => by simp [ret]))
end

theorem evaluate_all (e : Node D) : ∀ ev ∈ (evaluate pr env e).2, P ev := by
  refine bind_all P _ _ (eval_all pr env P hr hu hb hl hi hc e) (fun v _ => ?_)
  cases v with
  | arr a => simp only; split_ifs <;> simp [ret, fail]
  | _ => simp [fail]

end all

/-! ### Only whitelisted operators are executed -/

/-- Whitelisted operators (functions are whitelisted by type: `Fn` has the six of them). -/
def PrimOk : Ev D → Prop
  | .exec p _ _ => match p with
    | .unary op => op = .uadd ∨ op = .usub ∨ op = .invert
    | .binary op => op ∈ [BOp.add, .sub, .mult, .div, .floorDiv, .mod, .pow, .bitAnd, .bitOr, .bitXor]
    | .compare op => op ∈ [COp.eq, .notEq, .lt, .ltE, .gt, .gtE]
    | _ => True
  | .read _ => True

/-- **C65 (execution).** Also in evaluations that fail, only whitelisted operators and functions
are executed. -/
theorem C65_executes_whitelisted (pr : Prims D) (env : Env D) (e : Node D) :
    ∀ ev ∈ (evaluate pr env e).2, PrimOk ev := by
  refine evaluate_all pr env PrimOk (fun _ => trivial) ?_ ?_ ?_ ?_ ?_ e
  · intro op v ho ev hev
    have hop : op = .uadd ∨ op = .usub ∨ op = .invert := by
      cases op <;> simp_all [unaryAllowed]
    unfold evalUnary at hev
    cases v with
    | np => simp [fail] at hev
    | arr a =>
      simp only at hev
      split_ifs at hev with h1
      · rw [execCheck_log, List.mem_singleton] at hev
        subst hev
        exact hop
      · simp [fail] at hev
    | _ =>
      simp only [execCheck_log, List.mem_singleton] at hev
      subst hev
      exact hop
  · intro op l r ho ev hev
    unfold evalBin at hev
    split_ifs at hev with h1
    · rw [execCheck_log, List.mem_singleton] at hev
      subst hev
      cases op <;> simp_all [binaryAllowed, PrimOk]
    · simp [fail] at hev
  · intro op l r acc ho ev hev
    unfold evalLink at hev
    split_ifs at hev with h1
    · rcases bind_log _ _ _ hev with hev | ⟨part, _, hev⟩
      · rw [execCheck_log, List.mem_singleton] at hev
        subst hev
        cases op <;> simp_all [compareAllowed, PrimOk]
      · cases acc with
        | none => simp [ret] at hev
        | some res =>
          simp only [exec_log, List.mem_singleton] at hev
          subst hev
          trivial
    · simp [fail] at hev
  · intro a ix ev hev
    unfold evalIndex at hev
    cases hc : advancedCheck env a ix with
    | some e => simp [hc, fail] at hev
    | none =>
      simp only [hc, execCheck_log, List.mem_singleton] at hev
      subst hev
      trivial
  · intro f vs ev hev
    unfold evalCall at hev
    split_ifs at hev with h1
    · rw [execCheck_log, List.mem_singleton] at hev
      subst hev
      trivial
    · simp [fail] at hev

/-! ### Allocation before execution -/

/-- No tuple (and no module) among operands. -/
def plainArgs (vs : List (Val D)) : Prop :=
  ∀ v ∈ vs, match v with
    | .tuple _ => False
    | _ => True

/-- NumPy's elementwise rule for the operators and functions: an array result has the shape the
operand arrays broadcast to. -/
structure Elementwise (pr : Prims D) : Prop where
  unary : ∀ op v a, plainArgs [v] → pr.unary op v = some (.arr a) →
    broadcastAll ((arraysOf [v]).map Arr.shape) = some a.shape
  binary : ∀ op l r a, plainArgs [l, r] → pr.binary op l r = some (.arr a) →
    broadcastAll ((arraysOf [l, r]).map Arr.shape) = some a.shape
  compare : ∀ op l r a, plainArgs [l, r] → pr.compare op l r = some (.arr a) →
    broadcastAll ((arraysOf [l, r]).map Arr.shape) = some a.shape
  call : ∀ f vs a, plainArgs vs → pr.call f vs = some (.arr a) →
    broadcastAll ((arraysOf vs).map Arr.shape) = some a.shape

/-- The element count of the result of an operator, comparison or function call without tuple
operands is within the limit. -/
def PreOk (env : Env D) : Ev D → Prop
  | .exec p args res => match p with
    | .index _ => True
    | .logicalAnd => True
    | _ => plainArgs args → ∀ a, res = some (.arr a) →
      a.shape.foldr (· * ·) 1 ≤ max 4096 (8 * env.length)
  | .read _ => True

theorem brev_nil (s : List Nat) : brev s [] = some s := by cases s <;> simp [brev]

theorem broadcast_one (s : List Nat) : broadcastAll [s] = some s := by
  simp [broadcastAll, broadcast2, brev_nil]

theorem allocOk_size {env : Env D} {s : List Nat} {n : Nat} (h : allocOk env s n = true) :
    s.foldr (· * ·) 1 ≤ max 4096 (8 * env.length) := by
  simp only [allocOk, Bool.not_eq_true', Bool.or_eq_false_iff] at h
  have h1 := of_decide_eq_false h.1
  simp only [prodShape, Env.maxElements] at h1
  omega

theorem broadcastOk_size {env : Env D} {vs : List (Val D)} (h : broadcastOk env vs = true)
    {shape : List Nat} (hs : broadcastAll ((arraysOf vs).map Arr.shape) = some shape) :
    shape.foldr (· * ·) 1 ≤ max 4096 (8 * env.length) := by
  unfold broadcastOk at h
  cases ha : arraysOf vs with
  | nil =>
    simp only [ha, List.map_nil, broadcastAll, Option.some.injEq] at hs
    subst hs
    simp only [List.foldr_nil]
    omega
  | cons x xs =>
    rw [ha] at hs
    simp only [ha, hs] at h
    exact allocOk_size h

/-- **C65 (allocation before execution).** With NumPy's elementwise rule: also in evaluations that
fail, no operator, comparison or function call without tuple operands is executed whose result would
have more elements than the limit. -/
theorem C65_checked_before_execution (pr : Prims D) (hpr : Elementwise pr) (env : Env D) (e : Node D) :
    ∀ ev ∈ (evaluate pr env e).2, PreOk env ev := by
  refine evaluate_all pr env (PreOk env) (fun _ => trivial) ?_ ?_ ?_ ?_ ?_ e
  · intro op v _ ev hev
    unfold evalUnary at hev
    cases v with
    | np => simp [fail] at hev
    | arr a =>
      simp only at hev
      split_ifs at hev with h1
      · rw [execCheck_log, List.mem_singleton] at hev
        subst hev
        intro hp b hb
        have := hpr.unary op _ b hp hb
        simp only [arraysOf, List.map_cons, List.map_nil, broadcast_one, Option.some.injEq] at this
        rw [← this]
        exact allocOk_size h1
      · simp [fail] at hev
    | scalar s =>
      simp only [execCheck_log, List.mem_singleton] at hev
      subst hev
      intro hp b hb
      have := hpr.unary op _ b hp hb
      simp only [arraysOf, List.map_nil, broadcastAll, Option.some.injEq] at this
      rw [← this]
      simp only [List.foldr_nil]
      omega
    | tuple s =>
      simp only [execCheck_log, List.mem_singleton] at hev
      subst hev
      intro hp
      exact absurd (hp (.tuple s) (by simp)) (by simp)
    | fn s =>
      simp only [execCheck_log, List.mem_singleton] at hev
      subst hev
      intro hp b hb
      have := hpr.unary op _ b hp hb
      simp only [arraysOf, List.map_nil, broadcastAll, Option.some.injEq] at this
      rw [← this]
      simp only [List.foldr_nil]
      omega
  · intro op l r _ ev hev
    unfold evalBin at hev
    split_ifs at hev with h1
    · rw [execCheck_log, List.mem_singleton] at hev
      subst hev
      intro hp b hb
      exact broadcastOk_size h1 (hpr.binary op l r b hp hb)
    · simp [fail] at hev
  · intro op l r acc _ ev hev
    unfold evalLink at hev
    split_ifs at hev with h1
    · rcases bind_log _ _ _ hev with hev | ⟨part, _, hev⟩
      · rw [execCheck_log, List.mem_singleton] at hev
        subst hev
        intro hp b hb
        exact broadcastOk_size h1 (hpr.compare op l r b hp hb)
      · cases acc with
        | none => simp [ret] at hev
        | some res =>
          simp only [exec_log, List.mem_singleton] at hev
          subst hev
          trivial
    · simp [fail] at hev
  · intro a ix ev hev
    unfold evalIndex at hev
    cases hc : advancedCheck env a ix with
    | some e => simp [hc, fail] at hev
    | none =>
      simp only [hc, execCheck_log, List.mem_singleton] at hev
      subst hev
      trivial
  · intro f vs ev hev
    unfold evalCall at hev
    split_ifs at hev with h1
    · rw [execCheck_log, List.mem_singleton] at hev
      subst hev
      intro hp b hb
      exact broadcastOk_size h1 (hpr.call f vs b hp hb)
    · simp [fail] at hev

/-! ### A concrete instance: NumPy at the level of shapes -/

/-- Primitives that compute shapes and dtypes only. -/
def shapeOnly : Prims Unit where
  unary _ v := match v with
    | .arr a => some (.arr a)
    | .scalar s => some (.scalar s)
    | _ => none
  binary _ l r := match arraysOf [l, r] with
    | [] => some (.scalar (.npy ()))
    | a :: as => (broadcastAll ((a :: as).map Arr.shape)).map fun s => .arr ⟨a.kind, a.itemsize, s, ()⟩
  compare _ l r := match arraysOf [l, r] with
    | [] => some (.scalar (.bool true))
    | a :: as => (broadcastAll ((a :: as).map Arr.shape)).map fun s => .arr ⟨.b, 1, s, ()⟩
  logicalAnd l r := match arraysOf [l, r] with
    | [] => some (.scalar (.bool true))
    | a :: as => (broadcastAll ((a :: as).map Arr.shape)).map fun s => .arr ⟨.b, 1, s, ()⟩
  index a ix := match ix, a.shape with
    | .int _, _ :: s => some (.arr ⟨a.kind, a.itemsize, s, ()⟩)
    | _, _ => none
  call _ vs := match arraysOf vs with
    | [] => some (.scalar (.bool true))
    | a :: as => (broadcastAll ((a :: as).map Arr.shape)).map fun s => .arr ⟨.b, 1, s, ()⟩

theorem shapeOnly_elementwise : Elementwise shapeOnly where
  unary op v a _ h := by
    cases v <;> simp [shapeOnly] at h
    subst h
    simp [arraysOf, broadcast_one]
  binary op l r a _ h := by
    simp only [shapeOnly] at h
    split at h
    · simp at h
    · rename_i x xs hx
      rw [hx]
      cases hb : broadcastAll ((x :: xs).map Arr.shape) with
      | none => simp only [hb, Option.map_none] at h; cases h
      | some s =>
        simp only [hb, Option.map_some, Option.some.injEq, Val.arr.injEq] at h
        rw [← h]
  compare op l r a _ h := by
    simp only [shapeOnly] at h
    split at h
    · simp at h
    · rename_i x xs hx
      rw [hx]
      cases hb : broadcastAll ((x :: xs).map Arr.shape) with
      | none => simp only [hb, Option.map_none] at h; cases h
      | some s =>
        simp only [hb, Option.map_some, Option.some.injEq, Val.arr.injEq] at h
        rw [← h]
  call f vs a _ h := by
    simp only [shapeOnly] at h
    split at h
    · simp at h
    · rename_i x xs hx
      rw [hx]
      cases hb : broadcastAll ((x :: xs).map Arr.shape) with
      | none => simp only [hb, Option.map_none] at h; cases h
      | some s =>
        simp only [hb, Option.map_some, Option.some.injEq, Val.arr.injEq] at h
        rw [← h]

/-- `ply` with 100 rows, `board` with shape (100, 1). -/
def demo : List (String × Arr Unit) :=
  [("ply", ⟨.i, 4, [100], ()⟩), ("board", ⟨.i, 1, [100, 1], ()⟩)]

/-- `(ply + 1 > 3) & np.isfinite(ply)`. -/
def demoExpr : Node Unit :=
  .bin .bitAnd (.cmp (.bin .add (.name "ply") (.const (.int 1))) [.gt] [.const (.int 3)])
    (.call (.attr (.name "np") "isfinite") [.name "ply"] [])

/-- The theorems above are not vacuous: this filter is accepted and evaluated. -/
example : (evaluateFilter shapeOnly 34 demoExpr demo).1 = .ok ⟨.b, 1, [100], ()⟩ := by
  decide +kernel

/-- Dunder names, attributes, `in`, keyword arguments are refused. -/
example :
    (evaluateFilter shapeOnly 20 (.cmp (.name "ply") [.in] [.name "ply"]) demo).1 = .error .value ∧
    (evaluateFilter shapeOnly 20 (.name "__import__") demo).1 = .error .value ∧
    (evaluateFilter shapeOnly 20 (.attr (.name "ply") "tofile") demo).1 = .error .value ∧
    (evaluateFilter shapeOnly 20 (.call (.name "abs") [.name "ply"] [.name "ply"]) demo).1
      = .error .value := by decide +kernel

/-! ### Gaps of the checks in the code -/

/-- `(board < 1 < ply)[0]`. -/
def chainExpr : Node Unit :=
  .subscript (.cmp (.name "board") [.lt, .lt] [.const (.int 1), .name "ply"]) (.const (.int 0))

/-- **Gap.** The conjunction of a chained comparison is not checked: with arrays of shapes (100, 1)
and (100,) an accepted filter builds an array of 10000 elements, over the limit of 4096. -/
theorem C65_chain_unchecked :
    (evaluateFilter shapeOnly 18 chainExpr demo).1 = .ok ⟨.b, 1, [100], ()⟩ ∧
    (∃ args a, Ev.exec .logicalAnd args (some (.arr a)) ∈ (evaluateFilter shapeOnly 18 chainExpr demo).2
      ∧ a.shape = [100, 100]) ∧
    ¬ (100 * 100 ≤ max 4096 (8 * 100)) := by
  refine ⟨by decide +kernel, ?_, by decide⟩
  have : (evaluateFilter shapeOnly 18 chainExpr demo).2.any (fun ev => match ev with
      | .exec .logicalAnd _ (some (.arr a)) => decide (a.shape = [100, 100])
      | _ => false) = true := by decide +kernel
  obtain ⟨ev, hmem, hp⟩ := List.any_eq_true.mp this
  split at hp
  · exact ⟨_, _, hmem, of_decide_eq_true hp⟩
  · simp at hp

/-- `logical_not(ply > 3, mask)`. -/
def surplusExpr : Node Unit :=
  .call (.name "logical_not") [.cmp (.name "ply") [.gt] [.const (.int 3)], .name "mask"] []

/-- Inputs `mask` (boolean) and `ply`. -/
def surplusData : List (String × Arr Unit) :=
  [("mask", ⟨.b, 1, [100], ()⟩), ("ply", ⟨.i, 4, [100], ()⟩)]

/-- **Gap.** Calls are not checked for surplus arguments: `logical_not(ply > 3, mask)` is accepted
and executed with the input array `mask` in the position of the ufunc's output argument, which NumPy
overwrites. -/
theorem C65_surplus_argument :
    (∃ a, (evaluateFilter shapeOnly 30 surplusExpr surplusData).1 = .ok a) ∧
    ∃ x y res, Ev.exec (.call .logicalNot) [x, y] res ∈
      (evaluateFilter shapeOnly 30 surplusExpr surplusData).2 := by
  refine ⟨⟨⟨.b, 1, [100], ()⟩, by decide +kernel⟩, ?_⟩
  have : (evaluateFilter shapeOnly 30 surplusExpr surplusData).2.any (fun ev => match ev with
      | .exec (.call .logicalNot) [_, _] _ => true
      | _ => false) = true := by decide +kernel
  obtain ⟨ev, hmem, hp⟩ := List.any_eq_true.mp this
  split at hp
  · exact ⟨_, _, _, hmem⟩
  · simp at hp

/-- **Gap.** `-np` fails with a `TypeError` of the allocation test, not a `ValueError`. -/
theorem C65_raw_error :
    (evaluateFilter shapeOnly 3 (.unary .usub (.name "np")) demo).1 = .error .rawUnary := by
  decide +kernel

/-! ### Rows kept -/

/-- The rows whose mask entry is true. -/
def kept {α : Type} (mask : List Bool) (rows : List α) : List α :=
  ((rows.zip mask).filter (fun x => x.2)).map (fun x => x.1)

theorem selectRows_shift {α : Type} (x : α) (rows : List α) (mask : List Bool) (i : Nat) :
    selectRows (x :: rows) (nonzero (i + 1) mask) = selectRows rows (nonzero i mask) := by
  induction mask generalizing i with
  | nil => rfl
  | cons b m ih =>
    cases b with
    | false => simpa [nonzero] using ih (i + 1)
    | true => simp [nonzero, selectRows, ih (i + 1)]

theorem selectRows_kept {α : Type} (mask : List Bool) (rows : List α)
    (h : mask.length ≤ rows.length) : selectRows rows (nonzero 0 mask) = some (kept mask rows) := by
  induction mask generalizing rows with
  | nil => simp [nonzero, selectRows, kept]
  | cons b m ih =>
    cases rows with
    | nil => simp at h
    | cons x rows =>
      have := ih rows (by simpa using h)
      cases b with
      | false => simpa [nonzero, selectRows_shift, kept] using this
      | true => simp [nonzero, selectRows, selectRows_shift, this, kept]

theorem kept_length {α : Type} (mask : List Bool) (rows : List α) (h : mask.length ≤ rows.length) :
    (kept mask rows).length = mask.count true := by
  induction mask generalizing rows with
  | nil => simp [kept]
  | cons b m ih =>
    cases rows with
    | nil => simp at h
    | cons x rows =>
      have := ih rows (by simpa using h)
      unfold kept at *
      cases b <;> simp_all

/-- **C65 (rows).** When every field has at least as many rows as the mask, filtering keeps in every
field exactly the rows at the true positions, in order, keeps the fields, and returns the number of
true entries. -/
theorem C65_rows_kept {α : Type} (mask : List Bool) (data : List (String × List α)) (hne : data ≠ [])
    (h : ∀ f ∈ data, mask.length ≤ f.2.length) :
    filterData mask data =
      (data.map (fun f => (f.1, kept mask f.2)), some (mask.count true)) := by
  have hs : selectAll (nonzero 0 mask) data = (data.map (fun f => (f.1, kept mask f.2)), true) := by
    clear hne
    induction data with
    | nil => rfl
    | cons f d ih =>
      obtain ⟨k, rows⟩ := f
      have h1 := selectRows_kept mask rows (h (k, rows) (by simp))
      have h2 := ih (fun g hg => h g (by simp [hg]))
      simp [selectAll, h1, h2]
  cases data with
  | nil => exact absurd rfl hne
  | cons f d =>
    simp only [filterData, hs, List.map_cons, List.head?_cons, Option.map_some, if_true]
    rw [kept_length mask f.2 (h f (by simp))]

/-- All fields of one row are kept or dropped together: with equal lengths, position `j` of the
result comes from the same source row in every field. -/
theorem C65_rows_aligned {α : Type} (mask : List Bool) :
    ∃ pos : List Nat, pos.length = mask.count true ∧ pos.Pairwise (· < ·) ∧
      (∀ i, i ∈ pos ↔ mask[i]? = some true) ∧
      ∀ rows : List α, mask.length ≤ rows.length →
        (kept mask rows).map some = pos.map (fun i => rows[i]?) := by
  have hmem : ∀ (m : List Bool) (k i : Nat), i ∈ nonzero k m ↔ k ≤ i ∧ m[i - k]? = some true := by
    intro m
    induction m with
    | nil => simp [nonzero]
    | cons b m ih =>
      intro k i
      have key : (i ∈ nonzero (k + 1) m) ↔ (k < i ∧ (b :: m)[i - k]? = some true) := by
        rw [ih]
        constructor
        · rintro ⟨h1, h2⟩
          refine ⟨h1, ?_⟩
          have : i - k = (i - (k + 1)) + 1 := by omega
          rw [this, List.getElem?_cons_succ]
          exact h2
        · rintro ⟨h1, h2⟩
          refine ⟨h1, ?_⟩
          have : i - k = (i - (k + 1)) + 1 := by omega
          rw [this, List.getElem?_cons_succ] at h2
          exact h2
      cases b with
      | false =>
        simp only [nonzero, key]
        constructor
        · rintro ⟨h1, h2⟩
          exact ⟨Nat.le_of_lt h1, h2⟩
        · rintro ⟨h1, h2⟩
          refine ⟨?_, h2⟩
          by_contra hc
          have : i = k := by omega
          subst this
          simp at h2
      | true =>
        simp only [nonzero, List.mem_cons, key]
        constructor
        · rintro (h1 | ⟨h1, h2⟩)
          · subst h1
            simp
          · exact ⟨Nat.le_of_lt h1, h2⟩
        · rintro ⟨h1, h2⟩
          rcases Nat.lt_or_ge k i with h | h
          · exact Or.inr ⟨h, h2⟩
          · exact Or.inl (by omega)
  have hsort : ∀ (m : List Bool) (k : Nat), (nonzero k m).Pairwise (· < ·) := by
    intro m
    induction m with
    | nil => intro k; exact List.Pairwise.nil
    | cons b m ih =>
      intro k
      cases b with
      | false => exact ih (k + 1)
      | true =>
        refine List.Pairwise.cons ?_ (ih (k + 1))
        intro i hi
        have := (hmem m (k + 1) i).mp hi
        omega
  have hlen : ∀ (m : List Bool) (k : Nat), (nonzero k m).length = m.count true := by
    intro m
    induction m with
    | nil => intro k; rfl
    | cons b m ih =>
      intro k
      cases b <;> simp [nonzero, ih]
  refine ⟨nonzero 0 mask, hlen mask 0, hsort mask 0, ?_, ?_⟩
  · intro i
    rw [hmem]
    simp
  · intro rows h
    have := selectRows_kept mask rows h
    generalize nonzero 0 mask = sel at this
    generalize kept mask rows = out at this
    induction sel generalizing out with
    | nil =>
      simp only [selectRows, Option.some.injEq] at this
      subst this
      rfl
    | cons i is ih =>
      simp only [selectRows] at this
      cases hx : rows[i]? with
      | none => simp [hx] at this
      | some x =>
        cases hs : selectRows rows is with
        | none => simp [hx, hs] at this
        | some xs =>
          simp only [hx, hs, Option.some.injEq] at this
          subst this
          simp [hx, ih xs hs]

/-- A field shorter than the mask makes the filter raise after earlier fields were filtered
already. -/
theorem C65_rows_partial_update :
    filterData [false, true] [("a", [1, 2]), ("b", [7])] = ([("a", [2]), ("b", [7])], none) := by
  decide

example : filterData [true, false, true] [("x", [10, 20, 30]), ("y", [1, 2, 3])]
    = ([("x", [10, 30]), ("y", [1, 3])], some 2) := by decide

end Verif.Filter
