/-
C65: row filter expressions are confined.  Part 1: result, syntax, inputs.
-/
import Verif.Filter.Lemmas

namespace Verif.Filter

variable {D : Type}

/-! ### Specification -/

/-- Literal constants a filter may contain. -/
def ConstOk : Const D → Prop
  | .none => True
  | .bool _ => True
  | .int i => -(2 ^ 63) ≤ i ∧ i < 2 ^ 63
  | .flt _ finite => finite = true
  | _ => False

/-- The six callable functions. -/
def fnNames : List String :=
  ["abs", "isfinite", "isnan", "logical_and", "logical_or", "logical_not"]

mutual
/-- Literal indices: integers (possibly negated), `...`, slices, tuples and integer lists of at
most 64 items. -/
def IndexOk : Node D → Prop
  | .const .ellipsis => True
  | .const (.int i) => -(2 ^ 63) ≤ i ∧ i < 2 ^ 63
  | .unary .usub e => IndexOk e
  | .slice a b c => IndexOkOpt a ∧ IndexOkOpt b ∧ IndexOkOpt c
  | .tuple es => es.length ≤ 64 ∧ IndexOkAll es
  | .list es => es.length ≤ 64 ∧ IndexOkAll es
  | _ => False
def IndexOkAll : List (Node D) → Prop
  | [] => True
  | e :: es => IndexOk e ∧ IndexOkAll es
def IndexOkOpt : Option (Node D) → Prop
  | none => True
  | some e => IndexOk e
end

mutual
/-- The whitelisted language, given the names of the input arrays. -/
def Allowed (declared : String → Prop) : Node D → Prop
  | .const c => ConstOk c
  | .name id => id.startsWith "__" = false ∧ (declared id ∨ id = "np" ∨ id ∈ fnNames)
  | .tuple es => es.length ≤ 64 ∧ IndexOkAll es
  | .list es => es.length ≤ 64 ∧ IndexOkAll es
  | .unary op e => (op = .uadd ∨ op = .usub ∨ op = .invert) ∧ Allowed declared e
  | .bin op l r =>
    (op ∈ [BOp.add, .sub, .mult, .div, .floorDiv, .mod, .pow, .bitAnd, .bitOr, .bitXor]) ∧
    (op = .pow → ∃ i, r = .const (.int i) ∧ 0 ≤ i ∧ i ≤ 8) ∧
    Allowed declared l ∧ Allowed declared r
  | .cmp l ops cs =>
    ops.length = cs.length ∧ (∀ op ∈ ops, op ∈ [COp.eq, .notEq, .lt, .ltE, .gt, .gtE]) ∧
    Allowed declared l ∧ AllowedAll declared cs
  | .subscript v s => Allowed declared v ∧ IndexOk s
  | .attr v a => v = .name "np" ∧ a ∈ fnNames
  | .call f args kws => kws = [] ∧ Allowed declared f ∧ AllowedAll declared args
  | _ => False
def AllowedAll (declared : String → Prop) : List (Node D) → Prop
  | [] => True
  | e :: es => Allowed declared e ∧ AllowedAll declared es
end

mutual
/-- Names occurring in an expression. -/
def mentions : Node D → List String
  | .const _ => []
  | .name id => [id]
  | .tuple es => mentionsAll es
  | .list es => mentionsAll es
  | .unary _ e => mentions e
  | .bin _ l r => mentions l ++ mentions r
  | .cmp l _ cs => mentions l ++ mentionsAll cs
  | .subscript v s => mentions v ++ mentions s
  | .slice a b c => mentionsOpt a ++ mentionsOpt b ++ mentionsOpt c
  | .attr v _ => mentions v
  | .call f args kws => mentions f ++ mentionsAll args ++ mentionsAll kws
  | .other cs => mentionsAll cs
def mentionsAll : List (Node D) → List String
  | [] => []
  | e :: es => mentions e ++ mentionsAll es
def mentionsOpt : Option (Node D) → List String
  | none => []
  | some e => mentions e
end

/-! ### Result -/

/-- **C65 (result).** A filter evaluation that does not raise returns a boolean vector with one
entry per row. -/
theorem C65_result (pr : Prims D) (env : Env D) (e : Node D) (a : Arr D)
    (h : (evaluate pr env e).1 = .ok a) : a.kind = .b ∧ a.shape = [env.length] := by
  obtain ⟨v, -, h2, -⟩ := bind_ok h
  cases v with
  | arr x =>
    simp only at h2
    split_ifs at h2 with h3 h4
    · exact (fail_ok h2).elim
    · exact (fail_ok h2).elim
    · have := ret_ok h2
      subst this
      exact ⟨by simpa using h3, by simpa using h4⟩
  | scalar _ => exact (fail_ok h2).elim
  | tuple _ => exact (fail_ok h2).elim
  | np => exact (fail_ok h2).elim
  | fn _ => exact (fail_ok h2).elim

/-- The length is the first array's number of rows. -/
theorem C65_result_rows (pr : Prims D) (bytes : Nat) (e : Node D) (name : String) (x : Arr D)
    (rest : List (String × Arr D)) (a : Arr D)
    (h : (evaluateFilter pr bytes e ((name, x) :: rest)).1 = .ok a) :
    ∃ n s, x.shape = n :: s ∧ a.kind = .b ∧ a.shape = [n] := by
  unfold evaluateFilter at h
  cases hc : construct bytes e ((name, x) :: rest) with
  | none =>
    simp only [hc] at h
    exact (fail_ok h).elim
  | some env =>
    simp only [hc] at h
    have hr := C65_result pr env e a h
    unfold construct at hc
    cases hx : x.shape with
    | nil => simp [hx] at hc
    | cons n s =>
      simp only [hx] at hc
      split_ifs at hc
      simp only [Option.some.injEq] at hc
      subst hc
      exact ⟨n, s, rfl, hr.1, hr.2⟩

/-! ### Syntax -/

theorem literal_ok {c : Const D} {s : Scalar D} (h : (literal c).1 = .ok s) : ConstOk c := by
  cases c <;> simp only [literal] at h <;> simp only [ConstOk]
  case int i =>
    split_ifs at h with h1
    · exact h1
    · exact (fail_ok h).elim
  case flt d f =>
    split_ifs at h with h1
    · exact h1
    · exact (fail_ok h).elim
  all_goals exact fail_ok h

theorem fnOf_some {s : String} {f : Fn} (h : fnOf s = some f) : s ∈ fnNames := by
  unfold fnOf at h
  unfold fnNames
  split at h <;> simp_all

mutual
theorem idx_ok : ∀ (e : Node D) (v : Ix), (idx e).1 = .ok v → IndexOk e
  | .const c, v, h => by
    cases c with
    | ellipsis => simp [IndexOk]
    | int i =>
      simp only [idx] at h
      obtain ⟨s, h1, -, -⟩ := bind_ok h
      exact literal_ok h1
    | none =>
      simp only [idx] at h
      obtain ⟨s, h1, h2, -⟩ := bind_ok h
      simp only [literal, ret, Except.ok.injEq] at h1
      subst h1
      exact (fail_ok h2).elim
    | bool b =>
      simp only [idx] at h
      obtain ⟨s, h1, h2, -⟩ := bind_ok h
      simp only [literal, ret, Except.ok.injEq] at h1
      subst h1
      exact (fail_ok h2).elim
    | flt d f =>
      simp only [idx] at h
      obtain ⟨s, h1, h2, -⟩ := bind_ok h
      simp only [literal] at h1
      split_ifs at h1
      · have := ret_ok h1
        subst this
        exact (fail_ok h2).elim
      · exact (fail_ok h1).elim
    | other =>
      simp only [idx] at h
      obtain ⟨s, h1, h2, -⟩ := bind_ok h
      exact (fail_ok h1).elim
  | .name _, v, h => by simp only [idx] at h; exact (fail_ok h).elim
  | .tuple es, v, h => by
    simp only [idx] at h
    split_ifs at h with h1
    · exact (fail_ok h).elim
    · obtain ⟨vs, h2, -, -⟩ := bind_ok h
      exact ⟨by simpa [maxLiteralItems] using h1, idxs_ok es vs h2⟩
  | .list es, v, h => by
    simp only [idx] at h
    split_ifs at h with h1
    · exact (fail_ok h).elim
    · obtain ⟨vs, h2, -, -⟩ := bind_ok h
      exact ⟨by simpa [maxLiteralItems] using h1, idxs_ok es vs h2⟩
  | .unary op e, v, h => by
    cases op with
    | usub =>
      simp only [idx] at h
      obtain ⟨w, h1, -, -⟩ := bind_ok h
      simp only [IndexOk]
      exact idx_ok e w h1
    | uadd => simp only [idx] at h; exact (fail_ok h).elim
    | invert => simp only [idx] at h; exact (fail_ok h).elim
    | not => simp only [idx] at h; exact (fail_ok h).elim
  | .bin _ _ _, v, h => by simp only [idx] at h; exact (fail_ok h).elim
  | .cmp _ _ _, v, h => by simp only [idx] at h; exact (fail_ok h).elim
  | .subscript _ _, v, h => by simp only [idx] at h; exact (fail_ok h).elim
  | .slice a b c, v, h => by
    simp only [idx] at h
    obtain ⟨x, h1, h, -⟩ := bind_ok h
    obtain ⟨y, h2, h, -⟩ := bind_ok h
    obtain ⟨z, h3, h, -⟩ := bind_ok h
    exact ⟨idxOpt_ok a x h1, idxOpt_ok b y h2, idxOpt_ok c z h3⟩
  | .attr _ _, v, h => by simp only [idx] at h; exact (fail_ok h).elim
  | .call _ _ _, v, h => by simp only [idx] at h; exact (fail_ok h).elim
  | .other _, v, h => by simp only [idx] at h; exact (fail_ok h).elim
theorem idxs_ok : ∀ (es : List (Node D)) (vs : List Ix), (idxs es).1 = .ok vs → IndexOkAll es
  | [], _, _ => by simp [IndexOkAll]
  | e :: es, vs, h => by
    simp only [idxs] at h
    obtain ⟨x, h1, h, -⟩ := bind_ok h
    obtain ⟨y, h2, h, -⟩ := bind_ok h
    exact ⟨idx_ok e x h1, idxs_ok es y h2⟩
theorem idxOpt_ok : ∀ (e : Option (Node D)) (v : Option Ix), (idxOpt e).1 = .ok v → IndexOkOpt e
  | none, _, _ => by simp [IndexOkOpt]
  | some e, v, h => by
    simp only [idxOpt] at h
    obtain ⟨x, h1, h, -⟩ := bind_ok h
    exact idx_ok e x h1
end

/-- The declared input arrays. -/
def Env.declares (env : Env D) (id : String) : Prop := ∃ a, env.get id = some a

mutual
theorem eval_allowed (pr : Prims D) (env : Env D) :
    ∀ (e : Node D) (v : Val D), (eval pr env e).1 = .ok v → Allowed env.declares e
  | .const c, v, h => by
    simp only [eval] at h
    obtain ⟨s, h1, -, -⟩ := bind_ok h
    exact literal_ok h1
  | .name id, v, h => by
    simp only [eval] at h
    simp only [Allowed]
    by_cases h1 : isDunder id = true
    · simp only [h1, if_true] at h
      exact (fail_ok h).elim
    · refine ⟨by simpa [isDunder] using h1, ?_⟩
      rw [if_neg h1] at h
      cases hg : env.get id with
      | some a => exact Or.inl ⟨a, hg⟩
      | none =>
        simp only [hg] at h
        by_cases h2 : id = "np"
        · exact Or.inr (Or.inl h2)
        · rw [if_neg h2] at h
          cases hf : fnOf id with
          | none =>
            simp only [hf] at h
            exact (fail_ok h).elim
          | some f => exact Or.inr (Or.inr (fnOf_some hf))
  | .tuple es, v, h => by
    simp only [eval] at h
    split_ifs at h with h1
    · exact (fail_ok h).elim
    · obtain ⟨vs, h2, -, -⟩ := bind_ok h
      exact ⟨by simpa [maxLiteralItems] using h1, idxs_ok es vs h2⟩
  | .list es, v, h => by
    simp only [eval] at h
    split_ifs at h with h1
    · exact (fail_ok h).elim
    · obtain ⟨vs, h2, -, -⟩ := bind_ok h
      exact ⟨by simpa [maxLiteralItems] using h1, idxs_ok es vs h2⟩
  | .unary op e, v, h => by
    simp only [eval] at h
    split_ifs at h with h1
    · obtain ⟨w, h2, -, -⟩ := bind_ok h
      refine ⟨?_, eval_allowed pr env e w h2⟩
      cases op <;> simp_all [unaryAllowed]
    · exact (fail_ok h).elim
  | .bin op l r, v, h => by
    simp only [eval] at h
    split_ifs at h with h1 h2
    · obtain ⟨lv, h3, h, -⟩ := bind_ok h
      obtain ⟨rv, h4, h, -⟩ := bind_ok h
      refine ⟨?_, ?_, eval_allowed pr env l lv h3, eval_allowed pr env r rv h4⟩
      · cases op <;> simp_all [binaryAllowed]
      · rintro rfl
        unfold powOk at h2
        split at h2
        · split at h2
          · exact ⟨_, rfl, by simpa using h2⟩
          · simp at h2
        · rename_i hne
          exact absurd rfl hne
    · exact (fail_ok h).elim
    · exact (fail_ok h).elim
  | .cmp l ops cs, v, h => by
    simp only [eval] at h
    split_ifs at h with h1
    · exact (fail_ok h).elim
    · obtain ⟨lv, h2, h, -⟩ := bind_ok h
      have hlen : ops.length = cs.length := by simpa using h1
      have := evalChain_allowed pr env cs ops lv none v hlen h
      exact ⟨hlen, this.1, eval_allowed pr env l lv h2, this.2⟩
  | .subscript x s, v, h => by
    simp only [eval] at h
    obtain ⟨xv, h1, h, -⟩ := bind_ok h
    cases xv with
    | arr a =>
      simp only at h
      obtain ⟨ix, h2, -, -⟩ := bind_ok h
      exact ⟨eval_allowed pr env x _ h1, idx_ok s ix h2⟩
    | scalar _ => exact (fail_ok h).elim
    | tuple _ => exact (fail_ok h).elim
    | np => exact (fail_ok h).elim
    | fn _ => exact (fail_ok h).elim
  | .attr x a, v, h => by
    cases x with
    | name id =>
      simp only [eval] at h
      split_ifs at h with h1
      · cases hf : fnOf a with
        | none =>
          simp only [hf] at h
          exact (fail_ok h).elim
        | some f => exact ⟨by rw [h1], fnOf_some hf⟩
      · exact (fail_ok h).elim
    | const _ => simp only [eval] at h; exact (fail_ok h).elim
    | tuple _ => simp only [eval] at h; exact (fail_ok h).elim
    | list _ => simp only [eval] at h; exact (fail_ok h).elim
    | unary _ _ => simp only [eval] at h; exact (fail_ok h).elim
    | bin _ _ _ => simp only [eval] at h; exact (fail_ok h).elim
    | cmp _ _ _ => simp only [eval] at h; exact (fail_ok h).elim
    | subscript _ _ => simp only [eval] at h; exact (fail_ok h).elim
    | slice _ _ _ => simp only [eval] at h; exact (fail_ok h).elim
    | attr _ _ => simp only [eval] at h; exact (fail_ok h).elim
    | call _ _ _ => simp only [eval] at h; exact (fail_ok h).elim
    | other _ => simp only [eval] at h; exact (fail_ok h).elim
  | .call f args kws, v, h => by
    simp only [eval] at h
    obtain ⟨fv, h1, h, -⟩ := bind_ok h
    cases fv with
    | fn g =>
      simp only at h
      split_ifs at h with h2
      · exact (fail_ok h).elim
      · obtain ⟨vs, h3, -, -⟩ := bind_ok h
        exact ⟨by simpa using h2, eval_allowed pr env f _ h1, evals_allowed pr env args vs h3⟩
    | arr _ => exact (fail_ok h).elim
    | scalar _ => exact (fail_ok h).elim
    | tuple _ => exact (fail_ok h).elim
    | np => exact (fail_ok h).elim
  | .slice _ _ _, v, h => by simp only [eval] at h; exact (fail_ok h).elim
  | .other _, v, h => by simp only [eval] at h; exact (fail_ok h).elim
theorem evalChain_allowed (pr : Prims D) (env : Env D) :
    ∀ (cs : List (Node D)) (ops : List COp) (l : Val D) (acc : Option (Val D)) (v : Val D),
      ops.length = cs.length → (evalChain pr env l acc ops cs).1 = .ok v →
      (∀ op ∈ ops, op ∈ [COp.eq, .notEq, .lt, .ltE, .gt, .gtE]) ∧ AllowedAll env.declares cs
  | [], ops, l, acc, v, hl, h => by
    cases ops with
    | nil => simp [AllowedAll]
    | cons _ _ => simp at hl
  | c :: cs, ops, l, acc, v, hl, h => by
    cases ops with
    | nil => simp at hl
    | cons op ops =>
      simp only [evalChain] at h
      split_ifs at h with h1
      · obtain ⟨r, h2, h, -⟩ := bind_ok h
        obtain ⟨res, h3, h, -⟩ := bind_ok h
        have := evalChain_allowed pr env cs ops r (some res) v (by simpa using hl) h
        refine ⟨?_, eval_allowed pr env c r h2, this.2⟩
        intro o ho
        rcases List.mem_cons.mp ho with rfl | ho
        · cases o <;> simp_all [compareAllowed]
        · exact this.1 o ho
      · exact (fail_ok h).elim
theorem evals_allowed (pr : Prims D) (env : Env D) :
    ∀ (es : List (Node D)) (vs : List (Val D)), (evals pr env es).1 = .ok vs →
      AllowedAll env.declares es
  | [], _, _ => by simp [AllowedAll]
  | e :: es, vs, h => by
    simp only [evals] at h
    obtain ⟨x, h1, h, -⟩ := bind_ok h
    obtain ⟨y, h2, h, -⟩ := bind_ok h
    exact ⟨eval_allowed pr env e x h1, evals_allowed pr env es y h2⟩
end

/-- **C65 (whitelist).** Whatever the numeric primitives do: if a filter evaluation succeeds,
the *whole* expression is in the whitelisted language — forbidden syntax, names, operators,
attributes, keyword arguments or literals anywhere in the tree raise (no part is skipped by short
circuiting). -/
theorem C65_whitelist (pr : Prims D) (env : Env D) (e : Node D) (a : Arr D)
    (h : (evaluate pr env e).1 = .ok a) : Allowed env.declares e := by
  obtain ⟨v, h1, -, -⟩ := bind_ok h
  exact eval_allowed pr env e v h1

/-! ### Inputs -/

section congr
variable (pr : Prims D) (env env' : Env D) (hl : env.length = env'.length)
include hl

theorem maxElements_congr : env.maxElements = env'.maxElements := by
  simp [Env.maxElements, hl]

theorem checkArray_congr (v : Val D) : checkArray env v = checkArray env' v := by
  unfold checkArray
  rw [maxElements_congr env env' hl]

theorem allocOk_congr (s : List Nat) (n : Nat) : allocOk env s n = allocOk env' s n := by
  unfold allocOk
  rw [maxElements_congr env env' hl]

theorem broadcastOk_congr (vs : List (Val D)) : broadcastOk env vs = broadcastOk env' vs := by
  unfold broadcastOk
  simp only [allocOk_congr env env' hl]

theorem evalUnary_congr (op : UOp) (v : Val D) : evalUnary pr env op v = evalUnary pr env' op v := by
  have hc : checkArray env = checkArray env' := funext (checkArray_congr env env' hl)
  unfold evalUnary
  simp only [allocOk_congr env env' hl, hc]

theorem evalBin_congr (op : BOp) (l r : Val D) : evalBin pr env op l r = evalBin pr env' op l r := by
  have hc : checkArray env = checkArray env' := funext (checkArray_congr env env' hl)
  unfold evalBin
  rw [broadcastOk_congr env env' hl, hc]

theorem evalLink_congr (op : COp) (l r : Val D) (acc : Option (Val D)) :
    evalLink pr env op l r acc = evalLink pr env' op l r acc := by
  have hc : checkArray env = checkArray env' := funext (checkArray_congr env env' hl)
  unfold evalLink
  rw [broadcastOk_congr env env' hl, hc]

theorem evalIndex_congr (a : Arr D) (ix : Ix) : evalIndex pr env a ix = evalIndex pr env' a ix := by
  have hc : checkArray env = checkArray env' := funext (checkArray_congr env env' hl)
  unfold evalIndex advancedCheck
  simp only [allocOk_congr env env' hl, hc]

theorem evalCall_congr (f : Fn) (args : List (Val D)) :
    evalCall pr env f args = evalCall pr env' f args := by
  have hc : checkArray env = checkArray env' := funext (checkArray_congr env env' hl)
  unfold evalCall
  rw [broadcastOk_congr env env' hl, hc]

end congr

mutual
theorem eval_congr (pr : Prims D) (env env' : Env D) (hl : env.length = env'.length) :
    ∀ (e : Node D), (∀ id ∈ mentions e, env.get id = env'.get id) → eval pr env e = eval pr env' e
  | .const c, _ => by simp only [eval]
  | .name id, h => by
    have := h id (by simp [mentions])
    simp only [eval, this]
  | .tuple es, _ => by simp only [eval]
  | .list es, _ => by simp only [eval]
  | .unary op e, h => by
    have := eval_congr pr env env' hl e (fun id hid => h id (by simpa [mentions] using hid))
    simp only [eval, this, evalUnary_congr pr env env' hl]
  | .bin op l r, h => by
    have h1 := eval_congr pr env env' hl l (fun id hid => h id (by simp [mentions, hid]))
    have h2 := eval_congr pr env env' hl r (fun id hid => h id (by simp [mentions, hid]))
    simp only [eval, h1, h2, evalBin_congr pr env env' hl]
  | .cmp l ops cs, h => by
    have h1 := eval_congr pr env env' hl l (fun id hid => h id (by simp [mentions, hid]))
    simp only [eval, h1]
    split_ifs
    · rfl
    · congr 1
      funext lv
      exact evalChain_congr pr env env' hl cs ops lv none
        (fun id hid => h id (by simp [mentions, hid]))
  | .subscript v s, h => by
    have h1 := eval_congr pr env env' hl v (fun id hid => h id (by simp [mentions, hid]))
    simp only [eval, h1, evalIndex_congr pr env env' hl]
  | .attr v a, _ => by
    cases v <;> simp only [eval]
  | .call f args kws, h => by
    have h1 := eval_congr pr env env' hl f (fun id hid => h id (by simp [mentions, hid]))
    have h2 := evals_congr pr env env' hl args (fun id hid => h id (by simp [mentions, hid]))
    simp only [eval, h1, h2, evalCall_congr pr env env' hl]
  | .slice _ _ _, _ => by simp only [eval]
  | .other _, _ => by simp only [eval]
theorem evalChain_congr (pr : Prims D) (env env' : Env D) (hl : env.length = env'.length) :
    ∀ (cs : List (Node D)) (ops : List COp) (l : Val D) (acc : Option (Val D)),
      (∀ id ∈ mentionsAll cs, env.get id = env'.get id) →
      evalChain pr env l acc ops cs = evalChain pr env' l acc ops cs
  | [], ops, l, acc, _ => by cases ops <;> simp only [evalChain]
  | c :: cs, [], l, acc, _ => by simp only [evalChain]
  | c :: cs, op :: ops, l, acc, h => by
    have h1 := eval_congr pr env env' hl c (fun id hid => h id (by simp [mentionsAll, hid]))
    have h2 := fun r acc => evalChain_congr pr env env' hl cs ops r acc
      (fun id hid => h id (by simp [mentionsAll, hid]))
    simp only [evalChain, h1, h2, evalLink_congr pr env env' hl]
theorem evals_congr (pr : Prims D) (env env' : Env D) (hl : env.length = env'.length) :
    ∀ (es : List (Node D)), (∀ id ∈ mentionsAll es, env.get id = env'.get id) →
      evals pr env es = evals pr env' es
  | [], _ => by simp only [evals]
  | e :: es, h => by
    have h1 := eval_congr pr env env' hl e (fun id hid => h id (by simp [mentionsAll, hid]))
    have h2 := evals_congr pr env env' hl es (fun id hid => h id (by simp [mentionsAll, hid]))
    simp only [evals, h1, h2]
end

/-- **C65 (only the mentioned inputs matter).** Two sets of input arrays with the same number of
rows that agree on every name occurring in the expression give the same outcome: same mask or same
error, and the same operations executed. -/
theorem C65_depends_only_on_mentioned (pr : Prims D) (env env' : Env D) (e : Node D)
    (hl : env.length = env'.length) (h : ∀ id ∈ mentions e, env.get id = env'.get id) :
    evaluate pr env e = evaluate pr env' e := by
  unfold evaluate
  rw [eval_congr pr env env' hl e h, hl]

/-! Primitive steps read no input. -/

theorem exec_log (p : Prim) (args : List (Val D)) (r : Option (Val D)) (e : Err) :
    (exec p args r e).2 = [.exec p args r] := by
  unfold exec log
  cases r <;> rfl

theorem checkArray_log (env : Env D) (v : Val D) : (checkArray env v).2 = [] := by
  unfold checkArray
  cases v with
  | arr a => simp only; split_ifs <;> rfl
  | _ => rfl

theorem execCheck_log (env : Env D) (p : Prim) (args : List (Val D)) (r : Option (Val D)) (e : Err) :
    (bind (exec p args r e) (checkArray env)).2 = [.exec p args r] := by
  unfold bind
  cases r with
  | none => simp [exec, log, fail]
  | some v => simp [exec, log, ret, checkArray_log]

theorem noRead_unary (pr : Prims D) (env : Env D) (op : UOp) (v : Val D) (id : String)
    (h : Ev.read id ∈ (evalUnary pr env op v).2) : False := by
  unfold evalUnary at h
  cases v with
  | np => simp [fail] at h
  | arr a =>
    simp only at h
    split_ifs at h
    · rw [execCheck_log] at h; simp at h
    · simp [fail] at h
  | _ => simp only [execCheck_log] at h; simp at h

theorem noRead_bin (pr : Prims D) (env : Env D) (op : BOp) (l r : Val D) (id : String)
    (h : Ev.read id ∈ (evalBin pr env op l r).2) : False := by
  unfold evalBin at h
  split_ifs at h
  · rw [execCheck_log] at h; simp at h
  · simp [fail] at h

theorem noRead_link (pr : Prims D) (env : Env D) (op : COp) (l r : Val D) (acc : Option (Val D))
    (id : String) (h : Ev.read id ∈ (evalLink pr env op l r acc).2) : False := by
  unfold evalLink at h
  split_ifs at h
  · rcases bind_log _ _ _ h with h | ⟨part, _, h⟩
    · rw [execCheck_log] at h; simp at h
    · cases acc with
      | none => simp [ret] at h
      | some res => simp only [exec_log] at h; simp at h
  · simp [fail] at h

theorem noRead_index (pr : Prims D) (env : Env D) (a : Arr D) (ix : Ix) (id : String)
    (h : Ev.read id ∈ (evalIndex pr env a ix).2) : False := by
  unfold evalIndex at h
  cases hc : advancedCheck env a ix with
  | some e => simp [hc, fail] at h
  | none =>
    simp only [hc] at h
    rw [execCheck_log] at h; simp at h

theorem noRead_call (pr : Prims D) (env : Env D) (f : Fn) (args : List (Val D)) (id : String)
    (h : Ev.read id ∈ (evalCall pr env f args).2) : False := by
  unfold evalCall at h
  split_ifs at h
  · rw [execCheck_log] at h; simp at h
  · simp [fail] at h

mutual
theorem eval_reads (pr : Prims D) (env : Env D) :
    ∀ (e : Node D) (id : String), Ev.read id ∈ (eval pr env e).2 →
      id ∈ mentions e ∧ env.declares id
  | .const c, id, h => by
    simp only [eval] at h
    rcases bind_log _ _ _ h with h | ⟨_, _, h⟩
    · rw [literal_log] at h
      simp at h
    · simp [ret] at h
  | .name n, id, h => by
    simp only [eval] at h
    by_cases h1 : isDunder n = true
    · simp [h1, fail] at h
    · rw [if_neg h1] at h
      cases hg : env.get n with
      | some a =>
        simp only [hg, log, ret, List.mem_singleton, Ev.read.injEq] at h
        subst h
        exact ⟨by simp [mentions], a, hg⟩
      | none =>
        simp only [hg] at h
        by_cases h2 : n = "np"
        · simp [h2, ret] at h
        · rw [if_neg h2] at h
          cases hf : fnOf n <;> simp [hf, ret, fail] at h
  | .tuple es, id, h => by
    simp only [eval] at h
    split_ifs at h
    · simp [fail] at h
    · rcases bind_log _ _ _ h with h | ⟨_, _, h⟩
      · rw [idxs_log] at h
        simp at h
      · simp [ret] at h
  | .list es, id, h => by
    simp only [eval] at h
    split_ifs at h
    · simp [fail] at h
    · rcases bind_log _ _ _ h with h | ⟨_, _, h⟩
      · rw [idxs_log] at h
        simp at h
      · simp [ret] at h
  | .unary op e, id, h => by
    simp only [eval] at h
    split_ifs at h
    · rcases bind_log _ _ _ h with h | ⟨v, _, h⟩
      · have := eval_reads pr env e id h
        simpa [mentions] using this
      · exact (noRead_unary pr env op v id h).elim
    · simp [fail] at h
  | .bin op l r, id, h => by
    simp only [eval] at h
    split_ifs at h
    · rcases bind_log _ _ _ h with h | ⟨lv, _, h⟩
      · have := eval_reads pr env l id h
        exact ⟨by simp [mentions, this.1], this.2⟩
      · rcases bind_log _ _ _ h with h | ⟨rv, _, h⟩
        · have := eval_reads pr env r id h
          exact ⟨by simp [mentions, this.1], this.2⟩
        · exact (noRead_bin pr env op lv rv id h).elim
    · simp [fail] at h
    · simp [fail] at h
  | .cmp l ops cs, id, h => by
    simp only [eval] at h
    split_ifs at h
    · simp [fail] at h
    · rcases bind_log _ _ _ h with h | ⟨lv, _, h⟩
      · have := eval_reads pr env l id h
        exact ⟨by simp [mentions, this.1], this.2⟩
      · have := evalChain_reads pr env cs ops lv none id h
        exact ⟨by simp [mentions, this.1], this.2⟩
  | .subscript x s, id, h => by
    simp only [eval] at h
    rcases bind_log _ _ _ h with h | ⟨v, _, h⟩
    · have := eval_reads pr env x id h
      exact ⟨by simp [mentions, this.1], this.2⟩
    · cases v with
      | arr a =>
        simp only at h
        rcases bind_log _ _ _ h with h | ⟨ix, _, h⟩
        · rw [idx_log] at h
          simp at h
        · exact (noRead_index pr env a ix id h).elim
      | scalar _ => simp [fail] at h
      | tuple _ => simp [fail] at h
      | np => simp [fail] at h
      | fn _ => simp [fail] at h
  | .attr x a, id, h => by
    exfalso
    cases x <;> simp only [eval] at h
    case name n =>
      split_ifs at h
      · cases hf : fnOf a <;> simp [hf, ret, fail] at h
      · simp [fail] at h
    all_goals simp [fail] at h
  | .call f args kws, id, h => by
    simp only [eval] at h
    rcases bind_log _ _ _ h with h | ⟨fv, _, h⟩
    · have := eval_reads pr env f id h
      exact ⟨by simp [mentions, this.1], this.2⟩
    · cases fv with
      | fn g =>
        simp only at h
        split_ifs at h
        · simp [fail] at h
        · rcases bind_log _ _ _ h with h | ⟨vs, _, h⟩
          · have := evals_reads pr env args id h
            exact ⟨by simp [mentions, this.1], this.2⟩
          · exact (noRead_call pr env g vs id h).elim
      | arr _ => simp [fail] at h
      | scalar _ => simp [fail] at h
      | tuple _ => simp [fail] at h
      | np => simp [fail] at h
  | .slice _ _ _, id, h => by simp [eval, fail] at h
  | .other _, id, h => by simp [eval, fail] at h
theorem evalChain_reads (pr : Prims D) (env : Env D) :
    ∀ (cs : List (Node D)) (ops : List COp) (l : Val D) (acc : Option (Val D)) (id : String),
      Ev.read id ∈ (evalChain pr env l acc ops cs).2 → id ∈ mentionsAll cs ∧ env.declares id
  | [], ops, l, acc, id, h => by
    exfalso
    cases ops <;> cases acc <;> simp [evalChain, ret] at h
  | c :: cs, [], l, acc, id, h => by
    exfalso
    cases acc <;> simp [evalChain, ret] at h
  | c :: cs, op :: ops, l, acc, id, h => by
    simp only [evalChain] at h
    split_ifs at h
    · rcases bind_log _ _ _ h with h | ⟨r, _, h⟩
      · have := eval_reads pr env c id h
        exact ⟨by simp [mentionsAll, this.1], this.2⟩
      · rcases bind_log _ _ _ h with h | ⟨res, _, h⟩
        · exact (noRead_link pr env op l r acc id h).elim
        · have := evalChain_reads pr env cs ops r (some res) id h
          exact ⟨by simp [mentionsAll, this.1], this.2⟩
    · simp [fail] at h
theorem evals_reads (pr : Prims D) (env : Env D) :
    ∀ (es : List (Node D)) (id : String), Ev.read id ∈ (evals pr env es).2 →
      id ∈ mentionsAll es ∧ env.declares id
  | [], id, h => by simp [evals, ret] at h
  | e :: es, id, h => by
    simp only [evals] at h
    rcases bind_log _ _ _ h with h | ⟨v, _, h⟩
    · have := eval_reads pr env e id h
      exact ⟨by simp [mentionsAll, this.1], this.2⟩
    · rcases bind_log _ _ _ h with h | ⟨vs, _, h⟩
      · have := evals_reads pr env es id h
        exact ⟨by simp [mentionsAll, this.1], this.2⟩
      · simp [ret] at h
end

/-- **C65 (reads).** Every input array read is declared and occurs in the expression, also in
evaluations that fail. -/
theorem C65_reads (pr : Prims D) (env : Env D) (e : Node D) (id : String)
    (h : Ev.read id ∈ (evaluate pr env e).2) : id ∈ mentions e ∧ env.declares id := by
  unfold evaluate at h
  rcases bind_log _ _ _ h with h | ⟨v, _, h⟩
  · exact eval_reads pr env e id h
  · cases v with
    | arr a =>
      simp only at h
      split_ifs at h <;> simp [ret, fail] at h
    | _ => simp [fail] at h

end Verif.Filter
