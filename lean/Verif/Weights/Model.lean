import Mathlib.Data.List.Basic

/-!
# Model of loading weights into a model (`utils/training_utils.py:1292-1306`, `trainer/base.py:1719-1737`, `model/flatnet.py:356-387`, `model/vq.py:454-485`)

A module is its own tensors (parameters and persistent buffers, in registration order) and its named submodules. `Module.state_dict` and
`Module.load_state_dict` are torch's, modelled from torch 2's source, which is not in /repo. A key is the list of its dot-separated parts;
inside a submodule torch keeps the full key and passes the prefix, here the prefix is removed. Tensors are not shared between modules.
-/
namespace Verif.Weights

structure Tensor (D : Type) where
  size : List Nat
  data : List D
deriving DecidableEq

/-- What a module does in `_load_from_state_dict` besides torch's: nothing, `FlatLadder7x7NNUEv3`, or `VectorQuantize` with its host-side
cache `_inited_python`. -/
inductive Kind
  | plain
  | ladder
  | quantizer (inited : Option Bool)
deriving DecidableEq

mutual
inductive Mod (D : Type)
  | mk (kind : Kind) (params : List (String × Tensor D)) (kids : Kids D)
/-- `_modules`, in order. -/
inductive Kids (D : Type)
  | nil
  | cons (name : String) (m : Mod D) (rest : Kids D)
end

abbrev Key := List String
/-- A state dictionary, in order. -/
abbrev Dict (D : Type) := List (Key × Tensor D)

variable {D : Type}

def Kids.toList : Kids D → List (String × Mod D)
  | .nil => []
  | .cons n m r => (n, m) :: r.toList

def Mod.kids : Mod D → Kids D
  | .mk _ _ ks => ks

mutual
/-- torch: `state_dict()`: the module's own tensors, then the submodules' under their names. -/
def Mod.dict : Mod D → Dict D
  | .mk _ ps ks => ps.map (fun p => ([p.1], p.2)) ++ ks.dict
def Kids.dict : Kids D → Dict D
  | .nil => []
  | .cons n m r => m.dict.map (fun e => (n :: e.1, e.2)) ++ r.dict
end

/-- `d[k]`, if present. -/
def look (d : Dict D) (k : Key) : Option (Tensor D) := (d.find? fun e => decide (e.1 = k)).map Prod.snd

def strip (name : String) (e : Key × Tensor D) : Option (Key × Tensor D) :=
  match e.1 with
  | [] => none
  | n :: r => if n = name ∧ r ≠ [] then some (r, e.2) else none

/-- torch: `{k: v for k, v in local_state_dict.items() if k.startswith(child_prefix)}`. -/
def sub (d : Dict D) (name : String) : Dict D := d.filterMap (strip name)

/-- torch: the value copied into a tensor: a one-dimensional one is indexed for a zero-dimensional tensor; the shapes must agree. -/
def copied (p v : Tensor D) : Option (Tensor D) :=
  if p.size = [] ∧ v.size.length = 1 ∧ v.data ≠ [] then some ⟨[], v.data.take 1⟩
  else if v.size = p.size then some v
  else none

structure Out where
  missing : List Key
  unexpected : List Key
  errors : List Key

/-- torch: the loop over `local_state.items()` in `_load_from_state_dict`: new tensors, missing keys, keys of a wrong shape. -/
def loadParams (d : Dict D) : List (String × Tensor D) → List (String × Tensor D) × List Key × List Key
  | [] => ([], [], [])
  | p :: ps =>
    let r := loadParams d ps
    match look d [p.1] with
    | none => (p :: r.1, [p.1] :: r.2.1, r.2.2)
    | some v =>
      match copied p.2 v with
      | none => (p :: r.1, r.2.1, [p.1] :: r.2.2)
      | some t => ((p.1, t) :: r.1, r.2.1, r.2.2)

/-- torch: the test of the strict loop in `_load_from_state_dict`: keys below no submodule, or naming no own tensor. -/
def isUnexpected (own subs : List String) (k : Key) : Bool :=
  match k with
  | [] => true
  | [n] => !own.contains n
  | n :: _ => !subs.contains n

/-- `mapping_index.isdigit()` and `int(mapping_index)` (ASCII digits; Python's `isdigit` admits others, of which `int` rejects some). -/
def parseIndex (s : List Char) : Option Nat :=
  if s ≠ [] ∧ s.all Char.isDigit = true then some (s.foldl (fun a c => 10 * a + (c.toNat - 48)) 0) else none

def kConvs : String := "convs"

/-- `len(self.convs)`. -/
def numConvs (ks : Kids D) : Nat :=
  match ks.toList.find? (fun e => decide (e.1 = kConvs)) with
  | none => 0
  | some e => e.2.kids.toList.length

/-- The condition at model/flatnet.py:371-377 for one key. -/
def isLegacy (n : Nat) (k : Key) : Bool :=
  match k with
  | a :: s :: _ =>
    if a = kConvs then
      match parseIndex s.toList with
      | none => false
      | some i => decide (n ≤ i ∧ i < 25)
    else false
  | _ => false

/-- What the override does before torch's loading (model/flatnet.py:366-378). -/
def beforeLoad (kind : Kind) (ks : Kids D) (d : Dict D) : Dict D :=
  match kind with
  | .ladder => d.filter fun e => !isLegacy (numConvs ks) e.1
  | _ => d

/-- What the override does after (model/vq.py:474-478): the cached flag is forgotten. -/
def afterLoad (kind : Kind) : Kind :=
  match kind with
  | .quantizer _ => .quantizer none
  | k => k

mutual
/-- torch: the recursive `load` of `load_state_dict`. -/
def Mod.load : Mod D → Dict D → Mod D × Out
  | .mk kind ps ks, d0 =>
    let d := beforeLoad kind ks d0
    let l := loadParams d ps
    let r := ks.load d
    (.mk (afterLoad kind) l.1 r.1,
      ⟨l.2.1 ++ r.2.missing, (d.map Prod.fst).filter (isUnexpected (ps.map Prod.fst) (ks.toList.map Prod.fst)) ++ r.2.unexpected, l.2.2 ++ r.2.errors⟩)
def Kids.load : Kids D → Dict D → Kids D × Out
  | .nil, _ => (.nil, ⟨[], [], []⟩)
  | .cons n m rest, d =>
    let a := m.load (sub d n)
    let b := rest.load d
    (.cons n a.1 b.1,
      ⟨a.2.missing.map (n :: ·) ++ b.2.missing, a.2.unexpected.map (n :: ·) ++ b.2.unexpected, a.2.errors.map (n :: ·) ++ b.2.errors⟩)
end

/-- torch: `load_state_dict(d, strict)`: the tensors are written before anything is raised. -/
def loadStateDict (strict : Bool) (m : Mod D) (d : Dict D) : Mod D × Except String (List Key × List Key) :=
  let r := m.load d
  if r.2.errors ≠ [] then (r.1, .error "size mismatch")
  else if strict = true ∧ (r.2.missing ≠ [] ∨ r.2.unexpected ≠ []) then (r.1, .error "missing or unexpected keys")
  else (r.1, .ok (r.2.missing, r.2.unexpected))

/-- The condition of `state_dict_drop_size_unmatched` for one item. -/
def keepSize (cur : Dict D) (e : Key × Tensor D) : Bool :=
  match look cur e.1 with
  | none => true
  | some p => decide (p.size = e.2.size)

/-- `state_dict_drop_size_unmatched` (training_utils.py:1292-1306). -/
def dropSizeUnmatched (m : Mod D) (d : Dict D) : Dict D := d.filter (keepSize m.dict)

/-- `_load_pretrained_weights` (base.py:1719-1737): the new model and the reported (missing, unexpected) keys. -/
def loadPretrained (m : Mod D) (d : Dict D) : Mod D × Except String (List Key × List Key) := loadStateDict false m (dropSizeUnmatched m d)

/-- `VectorQuantize.is_initialized` (vq.py:484-488): `inited.item()` of the tensor unless cached. -/
def isInitialized (truth : Tensor D → Bool) (m : Mod D) : Option Bool :=
  match m with
  | .mk (.quantizer (some b)) _ _ => some b
  | .mk (.quantizer none) ps _ => (ps.find? fun p => decide (p.1 = "inited")).map fun p => truth p.2
  | _ => none

end Verif.Weights
