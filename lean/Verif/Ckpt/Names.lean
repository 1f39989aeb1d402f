import Mathlib.Data.List.Basic
import Mathlib.Data.Nat.Digits.Defs

/-!
# Model of checkpoint file names (`utils/file_utils.py:129-179`, `trainer/base.py:1420-1424`)

Names are lists of (ASCII) characters.
-/
namespace Verif.Ckpt

abbrev Name := List Char

/-- `os.path.splitext(name)[0]`: the part before the last dot, unless only dots precede it. -/
def rootOf (n : Name) : Name :=
  match n.reverse.dropWhile (· ≠ '.') with
  | [] => n
  | _ :: before => if before.all (· == '.') then n else before.reverse

/-- `name.split("_")`. -/
def splitU : Name → List Name
  | [] => [[]]
  | ch :: r =>
    if ch = '_' then [] :: splitU r
    else match splitU r with
      | [] => [[ch]]
      | p :: ps => (ch :: p) :: ps

/-- `part.isdigit()` for ASCII text. -/
def isDigits (p : Name) : Bool := !p.isEmpty && p.all Char.isDigit

/-- `int(part)`. -/
def toInt (p : Name) : Nat := p.foldl (fun a ch => 10 * a + (ch.toNat - 48)) 0

/-- `get_iteration_from_ckpt_filename` (lines 165-179). -/
def iterationOf (n : Name) : Option Nat := ((splitU (rootOf n)).reverse.find? isDigits).map toInt

/-- `f"{i:07d}"`. -/
def fmt7 (i : Nat) : Name :=
  let d := (Nat.digits 10 i).reverse.map fun k => Char.ofNat (48 + k)
  List.replicate (7 - d.length) '0' ++ d

/-- `_state_path` (base.py:1423-1424), file name only. -/
def stateName (i : Nat) : Name := "state_".toList ++ fmt7 i ++ ".pt".toList

/-- `_model_ckpt_path` (base.py:1420-1421), file name only. -/
def modelName (m : Name) (i : Nat) : Name := "ckpt_".toList ++ m ++ '_' :: fmt7 i ++ ".pt".toList

/-- `sort_key` (lines 155-157): compared lexicographically; the common directory prefix is dropped from the path. -/
def keyLt (a b : Name) : Bool :=
  let ka := iterationOf a
  let kb := iterationOf b
  if ka.isSome ≠ kb.isSome then kb.isSome
  else if ka.getD 0 ≠ kb.getD 0 then decide (ka.getD 0 < kb.getD 0)
  else decide (a < b)

/-- `sort(key=…)` then `[-1]`: the last element none of the others exceeds. -/
def lastMax : List Name → Option Name
  | [] => none
  | x :: xs => some (xs.foldl (fun best y => if keyLt y best then best else y) x)

/-- `find_latest_ckpt` (lines 129-162) on a directory listing of (name, is a file); `none` also when the directory is missing. -/
def findLatest (listing : List (Name × Bool)) (pre : Name) (exts : List Name) : Option Name :=
  lastMax ((listing.filter fun e => e.2 && pre.isPrefixOf e.1 && exts.any fun x => x.isSuffixOf e.1).map (·.1))

end Verif.Ckpt
