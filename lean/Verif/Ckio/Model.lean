import Mathlib.Data.List.Basic

/-!
# Model of the checkpoint file functions (`utils/file_utils.py:6-18, 47-126`)

`D` is the content of a dict, `O` any other value, `toStr` its `str(…)` (`none`: it raises). `torch.save` then `torch.load` give the value back.
Permissions, disk space and crashes (C37) are not modelled.
-/
namespace Verif.Ckio

abbrev Str := List Char

/-- A value of a checkpoint: a dict, a string or something else. -/
inductive Val (D O : Type)
  | dict (d : D)
  | str (s : Str)
  | other (o : O)

variable {D O : Type}

/-- A Python dict: keys in insertion order. -/
abbrev Dict (D O : Type) := List (Str × Val D O)

/-- `d[k] = v`. -/
def put (d : Dict D O) (k : Str) (v : Val D O) : Dict D O :=
  if d.any (fun e => decide (e.1 = k)) = true then d.map fun e => if e.1 = k then (k, v) else e else d ++ [(k, v)]

/-- The files. -/
abbrev Fs (D O : Type) := Str → Option (Dict D O)

inductive Err
  | noDir
  | type
  | notFound
  | noModel
deriving DecidableEq

/-- `os.path.dirname`, up to trailing slashes. -/
def dirname (p : Str) : Str := (p.reverse.dropWhile fun c => c != '/').reverse

/-- `os.path.splitext(p)[1]` is not empty. -/
def hasExt (p : Str) : Bool :=
  match (p.reverse.takeWhile fun c => c != '/').dropWhile fun c => c != '.' with
  | [] => false
  | _ :: before => before.any fun c => c != '.'

/-- The key "model". -/
def kModel : Str := ['m', 'o', 'd', 'e', 'l']

def ext : Str := ['.', 'p', 't']
def tmpExt : Str := ['.', 't', 'm', 'p']

/-- `isinstance(v, dict)`, `isinstance(v, str)`. -/
def isDict : Val D O → Bool
  | .dict _ => true
  | _ => false
def isStr : Val D O → Bool
  | .str _ => true
  | _ => false

/-- Lines 106-111 and 113-117: the entries put one by one, each checked before. -/
def putAll (ok : Val D O → Bool) : Dict D O → Dict D O → Except Err (Dict D O)
  | d, [] => .ok d
  | d, (k, v) :: r => if ok v = false then .error .type else putAll ok (put d k v) r

/-- Lines 119-121: the file written. -/
def target (p : Str) : Str := if hasExt p = false then p ++ ext else p

/-- `state_dict` (lines 106-117). -/
def content (m : D) (extras : Dict D O) (md : Option (Dict D O)) : Except Err (Dict D O) :=
  match putAll isDict [(kModel, .dict m)] extras with
  | .error e => .error e
  | .ok d =>
    match md with
    | none => .ok d
    | some md => putAll isStr d md

/-- Lines 124-126: `torch.save` to the temporary path, `os.replace`. -/
def write (fs : Fs D O) (p : Str) (d : Dict D O) : Fs D O :=
  fun q => if q = p then some d else if q = p ++ tmpExt then none else fs q

/-- `save_torch_ckpt` (lines 104-126). `make_dir` (lines 6-18) creates the directory, which fails for an empty name. -/
def save (fs : Fs D O) (p : Str) (m : D) (extras : Dict D O) (md : Option (Dict D O)) : Fs D O × Option Err :=
  if dirname p = [] then (fs, some .noDir)
  else
    match content m extras md with
    | .error e => (fs, some e)
    | .ok d => (write fs (target p) d, none)

/-- `str(v)` of a metadata value (lines 75-84). -/
def strOf (toStr : O → Option Str) : Val D O → Option Str
  | .dict _ => none
  | .str s => some s
  | .other o => toStr o

/-- Lines 73-84: one metadata entry. -/
def metaOf (toStr : O → Option Str) (e : Str × Val D O) : Option (Str × Str) := (strOf toStr e.2).map fun s => (e.1, s)

/-- Line 70: one dict entry. -/
def extraOf (e : Str × Val D O) : Option (Str × D) :=
  match e.2 with
  | .dict d => some (e.1, d)
  | _ => none

/-- `ckpt_state_dict.pop("model")`. -/
def popModel (d : Dict D O) : Option (Val D O) := (d.find? fun e => decide (e.1 = kModel)).map (·.2)

/-- `load_torch_ckpt` (lines 61-86). -/
def load (toStr : O → Option Str) (fs : Fs D O) (p : Str) : Except Err (Val D O × List (Str × D) × List (Str × Str)) :=
  match fs p with
  | none => .error .notFound
  | some d =>
    match popModel d with
    | none => .error .noModel
    | some m =>
      let rest := d.filter fun e => !decide (e.1 = kModel)
      .ok (m, rest.filterMap extraOf, rest.filterMap (metaOf toStr))

end Verif.Ckio
