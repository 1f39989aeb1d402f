/-
Model of dataset/filter.py (`SafeFilterEvaluator`) and utils/data_utils.py:441-456
(`filter_data_by_condition`).

The numeric primitives (NumPy operators, ufuncs and indexing) are opaque: `Prims` is an arbitrary
record of functions. Array contents have an arbitrary type `D`. Every primitive call is recorded in
a log, so that theorems can speak about what was executed and allocated.

Simplification: primitives are functions, they do not write into their arguments. A NumPy ufunc
called with a surplus positional argument uses it as `out` and writes into it; the evaluator does
not check the number of arguments (theorem `C65_surplus_argument` shows such a call is executed).
For expressions whose calls have no surplus arguments the simplification is exact.
-/
import Mathlib.Data.List.Basic

namespace Verif.Filter

/-! ### Syntax: what `ast.parse(expression, mode="eval")` can return -/

/-- `ast.Constant` values. -/
inductive Const (D : Type) where
  | none
  | bool (b : Bool)
  | int (i : Int)
  | flt (d : D) (finite : Bool)
  | ellipsis
  | other                        -- str, bytes, complex
deriving DecidableEq

inductive UOp where
  | uadd | usub | invert | not
deriving DecidableEq, Repr

inductive BOp where
  | add | sub | mult | div | floorDiv | mod | pow | bitAnd | bitOr | bitXor
  | lshift | rshift | matMult
deriving DecidableEq, Repr

inductive COp where
  | eq | notEq | lt | ltE | gt | gtE
  | is | isNot | in | notIn
deriving DecidableEq, Repr

/-- The syntax tree. `other` stands for every node class the evaluator has no case for (BoolOp,
IfExp, Lambda, comprehensions, Starred, JoinedStr, Dict, Set, Await, NamedExpr, ...), with its
child expressions. -/
inductive Node (D : Type) where
  | const (c : Const D)
  | name (id : String)
  | tuple (elts : List (Node D))
  | list (elts : List (Node D))
  | unary (op : UOp) (operand : Node D)
  | bin (op : BOp) (left right : Node D)
  | cmp (left : Node D) (ops : List COp) (comparators : List (Node D))
  | subscript (value slice : Node D)
  | slice (lower upper step : Option (Node D))
  | attr (value : Node D) (attr : String)
  | call (func : Node D) (args : List (Node D)) (keywords : List (Node D))
  | other (children : List (Node D))

/-! ### Values -/

/-- NumPy dtype kinds; `_ALLOWED_DTYPES = frozenset("biuf")` (dataset/filter.py:47). -/
inductive Kind where
  | b | i | u | f | other
deriving DecidableEq, Repr

/-- An `ndarray`: dtype kind and item size, shape, contents. -/
structure Arr (D : Type) where
  kind : Kind
  itemsize : Nat
  shape : List Nat
  data : D
deriving DecidableEq

def prodShape (s : List Nat) : Nat := s.foldr (· * ·) 1

def Arr.size {D : Type} (a : Arr D) : Nat := prodShape a.shape
def Arr.nbytes {D : Type} (a : Arr D) : Nat := a.size * a.itemsize

/-- The whitelisted functions (dataset/filter.py:17-24). -/
inductive Fn where
  | abs | isfinite | isnan | logicalAnd | logicalOr | logicalNot
deriving DecidableEq, Repr

/-- Python scalars and NumPy scalars. -/
inductive Scalar (D : Type) where
  | none
  | bool (b : Bool)
  | int (i : Int)
  | flt (d : D)
  | npy (d : D)
deriving DecidableEq

/-- Results of `_index_literal` (dataset/filter.py:286-316). -/
inductive Ix where
  | int (i : Int)
  | ellipsis
  | slice (lower upper step : Option Ix)
  | tuple (items : List Ix)
  | list (items : List Int)

inductive Val (D : Type) where
  | arr (a : Arr D)
  | scalar (s : Scalar D)
  | tuple (items : List Ix)
  | np
  | fn (f : Fn)

/-- How an evaluation fails: a `ValueError` made by the evaluator, or an exception of a primitive
that is not converted, with its place. -/
inductive Err where
  | value                    -- ValueError with the evaluator's message
  | rawUnary                 -- dataset/filter.py:151-156
  | rawCompare               -- dataset/filter.py:187
  | rawLogicalAnd            -- dataset/filter.py:188
  | rawIndexNeg              -- dataset/filter.py:298: `-value` for an ellipsis, list, tuple or slice
  | rawZeroDim               -- dataset/filter.py:199: `value.shape[0]` of a 0-d array
  | rawMembership            -- dataset/filter.py:219: `ndarray not in _FUNCTIONS.values()`
deriving DecidableEq, Repr

/-- Primitive calls. -/
inductive Prim where
  | unary (op : UOp)
  | binary (op : BOp)
  | compare (op : COp)
  | logicalAnd              -- the `np.logical_and(result, part)` of a chained comparison
  | index (ix : Ix)
  | call (f : Fn)

/-- Log entries: an input array was read; a primitive was executed with arguments and returned a
value or raised. -/
inductive Ev (D : Type) where
  | read (name : String)
  | exec (p : Prim) (args : List (Val D)) (res : Option (Val D))

/-- The numeric primitives; `none` means the call raised. -/
structure Prims (D : Type) where
  unary : UOp → Val D → Option (Val D)
  binary : BOp → Val D → Val D → Option (Val D)
  compare : COp → Val D → Val D → Option (Val D)
  logicalAnd : Val D → Val D → Option (Val D)
  index : Arr D → Ix → Option (Val D)
  call : Fn → List (Val D) → Option (Val D)

/-! ### The evaluator's result: a value or an error, and the log -/

abbrev R (D : Type) (α : Type) := Except Err α × List (Ev D)

def ret {D α : Type} (a : α) : R D α := (.ok a, [])
def fail {D α : Type} (e : Err) : R D α := (.error e, [])
def log {D α : Type} (ev : Ev D) (r : R D α) : R D α := (r.1, ev :: r.2)

def bind {D α β : Type} (m : R D α) (f : α → R D β) : R D β :=
  match m.1 with
  | .error e => (.error e, m.2)
  | .ok a => ((f a).1, m.2 ++ (f a).2)

/-! ### Evaluator state -/

/-- `SafeFilterEvaluator` fields: the input arrays in order, and `length = len(first array)`
(dataset/filter.py:51-60). -/
structure Env (D : Type) where
  arrays : List (String × Arr D)
  length : Nat

def Env.get {D : Type} (env : Env D) (id : String) : Option (Arr D) := env.arrays.lookup id

/-- dataset/filter.py:60. -/
def Env.maxElements {D : Type} (env : Env D) : Nat := max 4096 (8 * env.length)

def maxBytes : Nat := 64 * 1024 * 1024
def maxLiteralItems : Nat := 64

def isDunder (s : String) : Bool := s.startsWith "__"

/-- dataset/filter.py:17-24 as a lookup. -/
def fnOf : String → Option Fn
  | "abs" => some .abs
  | "isfinite" => some .isfinite
  | "isnan" => some .isnan
  | "logical_and" => some .logicalAnd
  | "logical_or" => some .logicalOr
  | "logical_not" => some .logicalNot
  | _ => none

/-- `_UNARY` (dataset/filter.py:25). -/
def unaryAllowed : UOp → Bool
  | .not => false
  | _ => true

/-- `_BINARY` (dataset/filter.py:26-37). -/
def binaryAllowed : BOp → Bool
  | .lshift | .rshift | .matMult => false
  | _ => true

/-- `_COMPARE` (dataset/filter.py:38-45). -/
def compareAllowed : COp → Bool
  | .is | .isNot | .in | .notIn => false
  | _ => true

/-- dataset/filter.py:85-99 `_check_array` (`allocated=True`): scalars, tuples etc. pass. -/
def checkArray {D : Type} (env : Env D) (v : Val D) : R D (Val D) :=
  match v with
  | .arr a =>
    if a.kind = .other then fail .value
    else if a.size > env.maxElements ∨ a.nbytes > maxBytes then fail .value
    else ret v
  | _ => ret v

/-- dataset/filter.py:261-269 `_check_result_allocation`: whether it passes. -/
def allocOk {D : Type} (env : Env D) (shape : List Nat) (itemsize : Nat) : Bool :=
  !(decide (prodShape shape > env.maxElements) || decide (prodShape shape * itemsize > maxBytes))

/-- One dimension of `np.broadcast_shapes`. -/
def bdim (a b : Nat) : Option Nat :=
  if a = b then some a else if a = 1 then some b else if b = 1 then some a else none

/-- `np.broadcast_shapes` of two reversed shapes. -/
def brev : List Nat → List Nat → Option (List Nat)
  | [], t => some t
  | s, [] => some s
  | a :: s, b :: t =>
    match bdim a b, brev s t with
    | some d, some r => some (d :: r)
    | _, _ => none

/-- `np.broadcast_shapes(a, b)`. -/
def broadcast2 (a b : List Nat) : Option (List Nat) := (brev a.reverse b.reverse).map List.reverse

/-- `np.broadcast_shapes(*shapes)`. -/
def broadcastAll : List (List Nat) → Option (List Nat)
  | [] => some []
  | s :: ss => match broadcastAll ss with
    | none => none
    | some t => broadcast2 s t

/-- The arrays among some values. -/
def arraysOf {D : Type} : List (Val D) → List (Arr D)
  | [] => []
  | .arr a :: vs => a :: arraysOf vs
  | _ :: vs => arraysOf vs

/-- `max(arg.dtype.itemsize ...)`. -/
def maxItemsize {D : Type} (as : List (Arr D)) : Nat := (as.map Arr.itemsize).foldr max 0

/-- dataset/filter.py:241-259 `_check_broadcast` and 224-236 (the same test in calls): no arrays,
or broadcastable with an allowed result size. -/
def broadcastOk {D : Type} (env : Env D) (vs : List (Val D)) : Bool :=
  match arraysOf vs with
  | [] => true
  | as => match broadcastAll (as.map Arr.shape) with
    | none => false
    | some shape => allocOk env shape (maxItemsize as)

/-- dataset/filter.py:121-133 `_literal`. -/
def literal {D : Type} : Const D → R D (Scalar D)
  | .none => ret .none
  | .bool b => ret (.bool b)
  | .int i => if -(2 ^ 63) ≤ i ∧ i < 2 ^ 63 then ret (.int i) else fail .value
  | .flt d finite => if finite then ret (.flt d) else fail .value
  | .ellipsis => fail .value
  | .other => fail .value

/-- `sum(value is Ellipsis for value in values)`. -/
def ellipsisCount : List Ix → Nat
  | [] => 0
  | .ellipsis :: xs => ellipsisCount xs + 1
  | _ :: xs => ellipsisCount xs

/-- `all(isinstance(value, int) for value in values)` and the resulting list. -/
def allInts : List Ix → Option (List Int)
  | [] => some []
  | .int i :: xs => (allInts xs).map (i :: ·)
  | _ :: _ => none

mutual
/-- dataset/filter.py:286-316 `_index_literal`. -/
def idx {D : Type} : Node D → R D Ix
  | .const .ellipsis => ret .ellipsis
  | .const c => bind (literal c) fun s =>
      match s with
      | .int i => ret (.int i)
      | _ => fail .value
  | .unary op e =>
    match op with
    | .usub => bind (idx e) fun v =>
        match v with
        | .int i => ret (.int (-i))
        | _ => fail .rawIndexNeg
    | _ => fail .value
  | .slice lo up st =>
    bind (idxOpt lo) fun a => bind (idxOpt up) fun b => bind (idxOpt st) fun c =>
      ret (.slice a b c)
  | .tuple elts =>
    if elts.length > maxLiteralItems then fail .value
    else bind (idxs elts) fun vs =>
      if ellipsisCount vs > 1 then fail .value else ret (.tuple vs)
  | .list elts =>
    if elts.length > maxLiteralItems then fail .value
    else bind (idxs elts) fun vs =>
      if ellipsisCount vs > 1 then fail .value
      else match allInts vs with
        | none => fail .value
        | some is => ret (.list is)
  | _ => fail .value

/-- `tuple(self._index_literal(item) for item in node.elts)`. -/
def idxs {D : Type} : List (Node D) → R D (List Ix)
  | [] => ret []
  | e :: es => bind (idx e) fun v => bind (idxs es) fun vs => ret (v :: vs)

/-- `None if node.lower is None else self._index_literal(node.lower)`. -/
def idxOpt {D : Type} : Option (Node D) → R D (Option Ix)
  | none => ret none
  | some e => bind (idx e) fun v => ret (some v)
end

/-- Items that are lists (dataset/filter.py:271-284). -/
def listItems : List Ix → List (List Int)
  | [] => []
  | .list l :: xs => l :: listItems xs
  | _ :: xs => listItems xs

/-- dataset/filter.py:271-277 `_contains_advanced_index`. -/
def isAdvanced : Ix → Bool
  | .list _ => true
  | .tuple items => !(listItems items).isEmpty
  | _ => false

/-- dataset/filter.py:279-287 `_advanced_index_count`. -/
def advancedCount : Ix → Nat
  | .list l => l.length
  | .tuple items => ((listItems items).map List.length).foldr max 0
  | _ => 0

/-- dataset/filter.py:195-203: the allocation test before advanced indexing; `none`: passes. -/
def advancedCheck {D : Type} (env : Env D) (a : Arr D) (ix : Ix) : Option Err :=
  if isAdvanced ix then
    match a.shape with
    | [] => some .rawZeroDim
    | d :: _ =>
      if allocOk env [max 1 (advancedCount ix) * max 1 (a.size / max 1 d)] a.itemsize then none
      else some .value
  else none

/-- The exponent test (dataset/filter.py:158-165). -/
def powOk {D : Type} (op : BOp) (right : Node D) : Bool :=
  match op with
  | .pow => match right with
    | .const (.int i) => decide (0 ≤ i ∧ i ≤ 8)
    | _ => false
  | _ => true

/-- Run a primitive: log it, convert a raised exception to `e`. -/
def exec {D : Type} (p : Prim) (args : List (Val D)) (r : Option (Val D)) (e : Err) : R D (Val D) :=
  log (.exec p args r) (match r with
    | none => fail e
    | some v => ret v)

/-- dataset/filter.py:149-156: the unary operator on an evaluated operand. The module `np` has an
attribute `shape` that is a function, so `math.prod` raises for it. -/
def evalUnary {D : Type} (pr : Prims D) (env : Env D) (op : UOp) (v : Val D) : R D (Val D) :=
  match v with
  | .np => fail .rawUnary
  | .arr a =>
    if allocOk env a.shape a.itemsize then
      bind (exec (.unary op) [v] (pr.unary op v) .rawUnary) (checkArray env)
    else fail .value
  | _ => bind (exec (.unary op) [v] (pr.unary op v) .rawUnary) (checkArray env)

/-- dataset/filter.py:166-173. -/
def evalBin {D : Type} (pr : Prims D) (env : Env D) (op : BOp) (l r : Val D) : R D (Val D) :=
  if broadcastOk env [l, r] then
    bind (exec (.binary op) [l, r] (pr.binary op l r) .value) (checkArray env)
  else fail .value

/-- dataset/filter.py:184-189: one link of a comparison chain; `acc` is the `result` so far. The
conjunction is not checked. -/
def evalLink {D : Type} (pr : Prims D) (env : Env D) (op : COp) (l r : Val D) (acc : Option (Val D)) :
    R D (Val D) :=
  if broadcastOk env [l, r] then
    bind (bind (exec (.compare op) [l, r] (pr.compare op l r) .rawCompare) (checkArray env)) fun part =>
      match acc with
      | none => ret part
      | some res => exec .logicalAnd [res, part] (pr.logicalAnd res part) .rawLogicalAnd
  else fail .value

/-- dataset/filter.py:191-209. -/
def evalIndex {D : Type} (pr : Prims D) (env : Env D) (a : Arr D) (ix : Ix) : R D (Val D) :=
  match advancedCheck env a ix with
  | some e => fail e
  | none => bind (exec (.index ix) [.arr a] (pr.index a ix) .value) (checkArray env)

/-- dataset/filter.py:218-239 after the function has been evaluated and accepted. -/
def evalCall {D : Type} (pr : Prims D) (env : Env D) (f : Fn) (args : List (Val D)) : R D (Val D) :=
  if broadcastOk env args then
    bind (exec (.call f) args (pr.call f args) .value) (checkArray env)
  else fail .value

mutual
/-- dataset/filter.py:135-240 `_eval`. -/
def eval {D : Type} (pr : Prims D) (env : Env D) : Node D → R D (Val D)
  | .const c => bind (literal c) fun s => ret (.scalar s)
  | .name id =>
    if isDunder id then fail .value
    else match env.get id with
      | some a => log (.read id) (ret (.arr a))
      | none =>
        if id = "np" then ret .np
        else match fnOf id with
          | some f => ret (.fn f)
          | none => fail .value
  | .tuple elts =>
    if elts.length > maxLiteralItems then fail .value
    else bind (idxs elts) fun vs => ret (.tuple vs)
  | .list elts =>
    if elts.length > maxLiteralItems then fail .value
    else bind (idxs elts) fun vs => ret (.tuple vs)
  | .unary op e =>
    if unaryAllowed op then bind (eval pr env e) fun v => evalUnary pr env op v
    else fail .value
  | .bin op l r =>
    if binaryAllowed op then
      if powOk op r then
        bind (eval pr env l) fun lv => bind (eval pr env r) fun rv => evalBin pr env op lv rv
      else fail .value
    else fail .value
  | .cmp left ops comps =>
    if ops.length ≠ comps.length then fail .value
    else bind (eval pr env left) fun lv => evalChain pr env lv none ops comps
  | .subscript value slice =>
    bind (eval pr env value) fun v =>
      match v with
      | .arr a => bind (idx slice) fun ix => evalIndex pr env a ix
      | _ => fail .value
  | .attr value attr =>
    match value with
    | .name id =>
      if id = "np" then
        match fnOf attr with
        | some f => ret (.fn f)
        | none => fail .value
      else fail .value
    | _ => fail .value
  | .call func args keywords =>
    bind (eval pr env func) fun fv =>
      match fv with
      | .fn f =>
        if keywords ≠ [] then fail .value
        else bind (evals pr env args) fun vs => evalCall pr env f vs
      | .arr _ => fail .rawMembership
      | _ => fail .value
  | .slice _ _ _ => fail .value
  | .other _ => fail .value

/-- dataset/filter.py:178-190: the loop over `zip(node.ops, node.comparators)`. -/
def evalChain {D : Type} (pr : Prims D) (env : Env D) (l : Val D) (acc : Option (Val D)) :
    List COp → List (Node D) → R D (Val D)
  | op :: ops, e :: es =>
    if compareAllowed op then
      bind (eval pr env e) fun r =>
        bind (evalLink pr env op l r acc) fun res => evalChain pr env r (some res) ops es
    else fail .value
  | _, _ => match acc with
    | some v => ret v
    | none => ret (.scalar .none)      -- `result` is still None

/-- `[self._eval(arg) for arg in node.args]`. -/
def evals {D : Type} (pr : Prims D) (env : Env D) : List (Node D) → R D (List (Val D))
  | [] => ret []
  | e :: es => bind (eval pr env e) fun v => bind (evals pr env es) fun vs => ret (v :: vs)
end

/-! ### Construction: size and depth limits -/

mutual
/-- Number of `ast.walk` nodes of an expression, including operator and context nodes. -/
def nodeCount {D : Type} : Node D → Nat
  | .const _ => 1
  | .name _ => 2
  | .tuple es => 2 + nodeCounts es
  | .list es => 2 + nodeCounts es
  | .unary _ e => 2 + nodeCount e
  | .bin _ l r => 2 + nodeCount l + nodeCount r
  | .cmp l ops cs => 1 + nodeCount l + ops.length + nodeCounts cs
  | .subscript v s => 2 + nodeCount v + nodeCount s
  | .slice a b c => 1 + nodeCountOpt a + nodeCountOpt b + nodeCountOpt c
  | .attr v _ => 2 + nodeCount v
  | .call f args kws => 1 + nodeCount f + nodeCounts args + kws.length + nodeCounts kws
  | .other cs => 1 + nodeCounts cs
def nodeCounts {D : Type} : List (Node D) → Nat
  | [] => 0
  | e :: es => nodeCount e + nodeCounts es
def nodeCountOpt {D : Type} : Option (Node D) → Nat
  | none => 0
  | some e => nodeCount e
end

mutual
/-- Height in AST levels, including operator and context nodes (`_check_depth`,
dataset/filter.py:79-83). -/
def height {D : Type} : Node D → Nat
  | .const _ => 1
  | .name _ => 2
  | .tuple es => 1 + max 1 (heights es)
  | .list es => 1 + max 1 (heights es)
  | .unary _ e => 1 + max 1 (height e)
  | .bin _ l r => 1 + max 1 (max (height l) (height r))
  | .cmp l _ cs => 1 + max 1 (max (height l) (heights cs))
  | .subscript v s => 1 + max 1 (max (height v) (height s))
  | .slice a b c => 1 + max (heightOpt a) (max (heightOpt b) (heightOpt c))
  | .attr v _ => 1 + max 1 (height v)
  | .call f args kws => 1 + max (height f) (max (heights args) (if kws = [] then 0 else 1 + heights kws))
  | .other cs => 1 + heights cs
def heights {D : Type} : List (Node D) → Nat
  | [] => 0
  | e :: es => max (height e) (heights es)
def heightOpt {D : Type} : Option (Node D) → Nat
  | none => 0
  | some e => height e
end

/-- dataset/filter.py:50-76 `__init__` after parsing (`exprBytes`: UTF-8 length): at least one
array with at least one dimension (`len` of the first), the size and depth limits (counting the
`Expression` root), no forbidden input name, no unsupported dtype. -/
def construct {D : Type} (exprBytes : Nat) (tree : Node D) (arrays : List (String × Arr D)) :
    Option (Env D) :=
  match arrays with
  | [] => none
  | (_, a) :: _ =>
    match a.shape with
    | [] => none
    | n :: _ =>
      if exprBytes > 4096 then none
      else if 1 + nodeCount tree > 128 then none
      else if 1 + height tree > 16 then none
      else if arrays.any (fun x => isDunder x.1 || decide (x.2.kind = .other)) then none
      else some ⟨arrays, n⟩

/-- dataset/filter.py:101-119 `evaluate`. The three final tests. -/
def evaluate {D : Type} (pr : Prims D) (env : Env D) (tree : Node D) : R D (Arr D) :=
  bind (eval pr env tree) fun v =>
    match v with
    | .arr a =>
      if a.kind ≠ .b then fail .value
      else if a.shape ≠ [env.length] then fail .value
      else ret a
    | _ => fail .value

/-- dataset/filter.py:319-320 `evaluate_filter_condition`. -/
def evaluateFilter {D : Type} (pr : Prims D) (exprBytes : Nat) (tree : Node D)
    (arrays : List (String × Arr D)) : R D (Arr D) :=
  match construct exprBytes tree arrays with
  | none => fail .value
  | some env => evaluate pr env tree

/-! ### utils/data_utils.py:441-456 `filter_data_by_condition` -/

/-- `np.nonzero(condition)[0]` (utils/data_utils.py:451), counting from `i`. -/
def nonzero : Nat → List Bool → List Nat
  | _, [] => []
  | i, true :: m => i :: nonzero (i + 1) m
  | i, false :: m => nonzero (i + 1) m

/-- `data_dict[k][selected_indices, ...]` (utils/data_utils.py:453); `none`: IndexError. -/
def selectRows {α : Type} (rows : List α) : List Nat → Option (List α)
  | [] => some []
  | i :: is => match rows[i]?, selectRows rows is with
    | some x, some xs => some (x :: xs)
    | _, _ => none

/-- The loop over the keys (utils/data_utils.py:452-453): the dictionary afterwards, and whether it
finished. -/
def selectAll {α : Type} (sel : List Nat) : List (String × List α) → List (String × List α) × Bool
  | [] => ([], true)
  | (k, rows) :: d => match selectRows rows sel with
    | none => ((k, rows) :: d, false)
    | some rows' => ((k, rows') :: (selectAll sel d).1, (selectAll sel d).2)

/-- utils/data_utils.py:441-456 after the evaluation of the condition: the dictionary and the
returned length (`none`: an exception). -/
def filterData {α : Type} (mask : List Bool) (data : List (String × List α)) :
    List (String × List α) × Option Nat :=
  let r := selectAll (nonzero 0 mask) data
  (r.1, if r.2 then r.1.head?.map (fun x => x.2.length) else none)

end Verif.Filter
