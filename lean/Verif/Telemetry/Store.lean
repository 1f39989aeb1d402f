import Mathlib.Data.List.Sort

/-
Model of `PipelineProfileStore` (dataset/telemetry.py:548-621).

A directory is a list of named files in the order in which `glob` returns them (any order).  A file's
content is a valid record, or anything else (unreadable, unparsable, or rejected by `_valid`).  Strings
are lists of characters.
-/
namespace Verif.Telemetry

abbrev Str := List Char

/-- A record accepted by `_valid` (telemetry.py:556-563); `body` is everything else in it. -/
structure Rec where
  exactKey : Str
  compatibleKey : Str
  body : Nat
deriving DecidableEq, Repr

inductive Content where
  | record (r : Rec)
  | junk
deriving DecidableEq, Repr

/-- A file of the cache directory: `<stem>.json`, or another name (temporary files among them). -/
inductive FName where
  | json (stem : Str)
  | other (name : Str)
deriving DecidableEq, Repr

structure PFile where
  name : FName
  mtime : Int
  content : Content
deriving DecidableEq, Repr

abbrev Dir := List PFile

/-- `len(path.stem) == 64 and all(c in "0123456789abcdef" …)` (telemetry.py:568-570). -/
def isKey (stem : Str) : Bool := stem.length == 64 && stem.all (fun c => "0123456789abcdef".toList.contains c)

/-- Whether `_profile_paths` lists the file. -/
def isProfile : FName → Bool
  | .json stem => isKey stem
  | .other _ => false

/-- `_profile_paths` (telemetry.py:565-571). -/
def profilePaths (d : Dir) : List PFile := d.filter (isProfile ·.name)

/-- `sorted(…, key=mtime, reverse=True)` (telemetry.py:579-585, 611-615). -/
def newestFirst (l : List PFile) : List PFile := l.insertionSort (fun a b => b.mtime ≤ a.mtime)

/-- A file by name. -/
def lookup (d : Dir) (n : FName) : Option PFile := d.find? (·.name = n)

inductive ReuseMode where
  | off | exact | compatible
deriving DecidableEq, Repr

inductive Kind where
  | exact | compatible
deriving DecidableEq, Repr

/-- The loop body of `load` on one candidate (telemetry.py:586-596). -/
def accept (exact compatible : Str) (reuse : ReuseMode) (f : PFile) : Option (Rec × Kind) :=
  match f.content with
  | .junk => none
  | .record r =>
      if r.exactKey = exact then some (r, .exact)
      else if reuse = .compatible ∧ r.compatibleKey = compatible then some (r, .compatible)
      else none

/-- `load` (telemetry.py:573-597); `none` for the directory means it does not exist.  A path that does
not exist raises `OSError` on reading and is skipped. -/
def load (d : Option Dir) (exact compatible : Str) (reuse : ReuseMode) : Option (Rec × Kind) :=
  match d with
  | none => none
  | some d =>
      if reuse = .off then none
      else
        let found := lookup d (.json exact)
        let candidates := found.toList ++
          (if reuse = .compatible ∧ found = none then newestFirst (profilePaths d) else [])
        candidates.findSome? (accept exact compatible reuse)

/-- File operations of `save`. -/
inductive FsOp where
  /-- writing the temporary file has begun: its content is incomplete -/
  | begin (tmp : Str) (now : Int)
  /-- the temporary file is complete -/
  | write (tmp : Str) (now : Int) (r : Rec)
  /-- `os.replace(temporary, destination)` -/
  | replace (tmp : Str) (stem : Str)
  /-- `expired.unlink()`; a missing file is ignored -/
  | unlink (n : FName)
deriving DecidableEq, Repr

/-- Put a file in the directory. -/
def put (d : Dir) (f : PFile) : Dir := d.filter (·.name ≠ f.name) ++ [f]

def fsStep (d : Dir) : FsOp → Dir
  | .begin tmp now => put d ⟨.other tmp, now, .junk⟩
  | .write tmp now r => put d ⟨.other tmp, now, .record r⟩
  | .replace tmp stem =>
      match lookup d (.other tmp) with
      | some f => put (d.filter (·.name ≠ .other tmp)) { f with name := .json stem }
      | none => d
  | .unlink n => d.filter (·.name ≠ n)

def fsRun (d : Dir) (ops : List FsOp) : Dir := ops.foldl fsStep d

/-- The writing half of `save` (telemetry.py:603-610). -/
def writeOps (tmp : Str) (now : Int) (r : Rec) : List FsOp :=
  [.begin tmp now, .write tmp now r, .replace tmp r.exactKey]

/-- The pruning half (telemetry.py:611-621) on the directory it finds. -/
def pruneOps (maxEntries : Nat) (d : Dir) : List FsOp :=
  ((newestFirst (profilePaths d)).drop maxEntries).map fun f => .unlink f.name

/-- `save` of a valid record, as the operations it performs (telemetry.py:599-621).  An invalid record is
rejected before anything is written. -/
def saveOps (maxEntries : Nat) (tmp : Str) (now : Int) (r : Rec) (d : Dir) : List FsOp :=
  writeOps tmp now r ++ pruneOps maxEntries (fsRun d (writeOps tmp now r))

/-- The directory after `save`. -/
def save (maxEntries : Nat) (tmp : Str) (now : Int) (r : Rec) (d : Dir) : Dir :=
  fsRun d (saveOps maxEntries tmp now r d)

end Verif.Telemetry
