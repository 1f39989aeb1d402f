import Verif.Ckpt.Names

/-!
# Model of the VQ runtime sidecar files: their names and how they are published (`trainer/base.py:117-128, 1262-1385`)

Names are lists of characters, file contents lists of bytes, and the checkpoint directory a map from names to the content of
the regular file with that name.
-/
namespace Verif.Sidecar
open Verif.Ckpt (Name toInt fmt7)

abbrev Bytes := List UInt8

/-- The `[0-9]` class. -/
def isDec (c : Char) : Bool := c.isDigit

/-- The `[0-9a-f]` class. -/
def isHex (c : Char) : Bool := c.isDigit || (decide ('a' ≤ c) && decide (c ≤ 'f'))

/-- The first character of a group is not `0` (`[1-9]` for a group of digits). -/
def noZero : Name → Bool
  | [] => false
  | c :: _ => decide (c ≠ '0')

/-- `(?:[0-9]{7}|[1-9][0-9]{7,})` on a maximal run of digits (base.py:118, 123). -/
def iterOk (d : Name) : Bool := decide (d.length = 7) || (decide (8 ≤ d.length) && noZero d)

/-- `(?:0|[1-9][0-9]*)` on a maximal run of digits (base.py:120, 125-126). -/
def natOk (d : Name) : Bool := decide (d = ['0']) || noZero d

/-- `[0-9a-f]{32}` on a whole string (base.py:119, 1225, 2398). -/
def hexOk (k : Nat) (g : Name) : Bool := decide (g.length = k) && g.all isHex

/-- Drop a literal prefix. -/
def dropLit : Name → Name → Option Name
  | [], n => some n
  | _ :: _, [] => none
  | c :: p, d :: n => if c = d then dropLit p n else none

/-- `_RUNTIME_SIDECAR_RE.fullmatch(name)` (base.py:117-121): the three groups. A group of digits is always followed by a
character that is not a digit, so matching the maximal run is the only way to match. -/
def matchSidecar (n : Name) : Option (Name × Name × Name) :=
  match dropLit "runtime_".toList n with
  | none => none
  | some n1 =>
    let it := n1.takeWhile isDec
    let n2 := n1.dropWhile isDec
    if iterOk it = false then none else
    match dropLit ['_'] n2 with
    | none => none
    | some n3 =>
      let g := n3.take 32
      if hexOk 32 g = false then none else
      match dropLit "_rank_".toList (n3.drop 32) with
      | none => none
      | some n4 =>
        let r := n4.takeWhile isDec
        if natOk r = false then none else
        if n4.dropWhile isDec = ".pt".toList then some (it, g, r) else none

/-- `str(n)` for a natural number. -/
def str (n : Nat) : Name := if n = 0 then ['0'] else (Nat.digits 10 n).reverse.map fun k => Char.ofNat (48 + k)

/-- The name formatted at base.py:1264-1266. -/
def sidecarName (iteration : Nat) (generation : Name) (rank : Nat) : Name :=
  "runtime_".toList ++ fmt7 iteration ++ "_".toList ++ generation ++ "_rank_".toList ++ str rank ++ ".pt".toList

/-- The three conditions of lines 1269-1272 on the groups. -/
def groupsAre (m : Option (Name × Name × Name)) (iteration : Nat) (generation : Name) (rank : Nat) : Bool :=
  match m with
  | none => false
  | some (i, g, r) => decide (toInt i = iteration) && decide (toInt r = rank) && decide (g = generation)

/-- `_runtime_basename` (base.py:1262-1275). -/
def runtimeBasename (iteration : Nat) (generation : Name) (rank : Nat) : Except String Name :=
  if groupsAre (matchSidecar (sidecarName iteration generation rank)) iteration generation rank = false then
    .error "invalid runtime sidecar basename"
  else .ok (sidecarName iteration generation rank)

/-- `temp_basename` (base.py:1320-1323). -/
def tempName (iteration : Nat) (generation : Name) (rank pid : Nat) (nonce : Name) : Name :=
  ".runtime-tmp_".toList ++ fmt7 iteration ++ "_".toList ++ generation ++ "_rank_".toList ++ str rank ++ "_".toList ++ str pid ++
    "_".toList ++ nonce ++ ".pt".toList

/-- The checkpoint directory. -/
abbrev Dir := Name → Option Bytes

def Dir.set (d : Dir) (n : Name) (b : Bytes) : Dir := fun k => if k = n then some b else d k

def Dir.unset (d : Dir) (n : Name) : Dir := fun k => if k = n then none else d k

/-- What an operating-system call may do besides succeeding: which call raises. -/
inductive Fault
  | none
  /-- `torch.save`, `flush` or `fsync` raises (disk full, …). -/
  | save
  /-- `os.link` raises for a reason other than an existing target. -/
  | link
  /-- the first `os.unlink` raises; the one in the `finally` block then succeeds. -/
  | unlink
deriving DecidableEq

/-- The outcome of publishing: every directory state a crash could leave (in order), the error if one is raised, and the directory
when the code is done. -/
structure Published where
  seen : List Dir
  error : Option String
  dir : Dir

/-- Lines 1332-1362 of `_write_vq_runtime_sidecar`: create the temporary file exclusively, write and sync it, hard-link it to the final
name (which fails when that name exists), unlink the temporary name; the `finally` block removes the temporary name on an error.
`mids` are the contents the temporary file goes through while it is being written. -/
def publish (d : Dir) (temp final : Name) (mids : List Bytes) (bytes : Bytes) (fault : Fault) : Published :=
  if (d temp).isSome then ⟨[d], some "temporary file exists", d⟩ else
  let writing := [d, d.set temp []] ++ mids.map (d.set temp)
  if fault = .save then ⟨writing ++ [d.unset temp], some "write failed", d.unset temp⟩ else
  let written := d.set temp bytes
  if (d final).isSome ∨ fault = .link ∨ final = temp then ⟨writing ++ [written, written.unset temp], some "link failed", written.unset temp⟩ else
  let linked := written.set final bytes
  let done := linked.unset temp
  ⟨writing ++ [written, linked, done], if fault = .unlink then some "unlink failed" else none, done⟩

end Verif.Sidecar
