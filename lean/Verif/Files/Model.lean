import Mathlib.Data.List.Sort
import Mathlib.Order.Defs.LinearOrder

/-!
# Model of the data file list (`utils/file_utils.py:21-44`)

File names are elements of any linear order (Python orders strings by code points). A directory is its listing in whatever order the operating system
gives it. Symbolic links and directories that cannot be read are not modelled.
-/
namespace Verif.Files

/-- The entries of a directory. -/
inductive Ent (N : Type)
  | nil
  | file (n : N) (rest : Ent N)
  | dir (n : N) (sub : Ent N) (rest : Ent N)

variable {N P : Type} [LinearOrder N]

/-- Lines 36-41 for one directory: the accepted files in sorted order, then `os.walk` goes on into the sorted subdirectories. The subdirectories come with
their own results. -/
def assemble (ok : N → Bool) (r : List N × List (N × List (List N))) : List (List N) :=
  ((r.1.insertionSort (· ≤ ·)).filter ok).map (fun n => [n]) ++
    (r.2.insertionSort fun a b => a.1 ≤ b.1).flatMap fun d => d.2.map fun q => d.1 :: q

/-- The listing of a directory as `os.walk` gives it: files, and subdirectories with their results. -/
def scan (ok : N → Bool) : Ent N → List N × List (N × List (List N))
  | .nil => ([], [])
  | .file n r => (n :: (scan ok r).1, (scan ok r).2)
  | .dir n s r => ((scan ok r).1, (n, assemble ok (scan ok s)) :: (scan ok r).2)

/-- What a path is. -/
inductive Kind (N : Type)
  | file
  | dir (e : Ent N)
  | missing

/-- One path (lines 31-43): the files found, as the path and the names below it; `none` raises `IOError`. -/
def ofPath (ok : N → Bool) (p : P) : Kind N → Option (List (P × List N))
  | .file => some [(p, [])]
  | .dir e => some ((assemble ok (scan ok e)).map fun q => (p, q))
  | .missing => none

/-- `make_file_list` (lines 21-44). -/
def fileList (ok : N → Bool) (kind : P → Kind N) : List P → Option (List (P × List N))
  | [] => some []
  | p :: ps =>
    match ofPath ok p (kind p) with
    | none => none
    | some l => (fileList ok kind ps).map fun r => l ++ r

end Verif.Files
