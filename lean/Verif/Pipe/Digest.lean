import Mathlib.Data.List.Basic

/-!
# The stream behind the field digest (`_field_value_digest`, `dataset/core.py:1480-1512`)

The digest is SHA-256 of a byte stream; this is the stream. Bytes are numbers. Scalars (`str`, `bytes`, `int`, `float`, `bool`, `None`) are
a type tag and a printed form. Object arrays and objects of other types are not modelled.
-/
namespace Verif.Pipe

/-- ASCII text as bytes. -/
def codes (s : String) : List Nat := s.toList.map Char.toNat

/-- `str(n)`. -/
def digits (n : Nat) : List Nat := (Nat.toDigits 10 n).map Char.toNat

/-- A value of a field. `S` are the scalars. Dictionaries are listed in sorted key order. -/
inductive FV (S : Type) where
  | arr (tensor : Bool) (dtype : List Nat) (shape : List Nat) (bytes : List Nat)
  | seq (tuple : Bool) (items : List (FV S))
  | dict (entries : List (FV S × FV S))
  | scalar (s : S)

/-- Scalars: the type name and `repr`. -/
structure Scalars (S : Type) where
  ty : S → String
  repr : S → List Nat

/-- `repr(shape)`: `()`, `(3,)`, `(2, 3)`. -/
def shapeBody : List Nat → List Nat
  | [] => []
  | [n] => digits n
  | n :: m :: r => digits n ++ codes ", " ++ shapeBody (m :: r)

def shapeRepr : List Nat → List Nat
  | [n] => codes "(" ++ digits n ++ codes ",)"
  | l => codes "(" ++ shapeBody l ++ codes ")"

/-- `n.to_bytes(k, "little")`. -/
def littleEndian : Nat → Nat → List Nat
  | 0, _ => []
  | k + 1, n => n % 256 :: littleEndian k (n / 256)

def arrTag (tensor : Bool) : List Nat := if tensor then codes "tensor" ++ [0] else codes "array" ++ [0]

def seqTag (tuple : Bool) : List Nat := if tuple then codes "tuple" ++ [0] else codes "list" ++ [0]

mutual
/-- `update` (core.py:1483-1509). -/
def feed {S : Type} (sc : Scalars S) : FV S → List Nat
  | .arr t dt sh bs => arrTag t ++ dt ++ shapeRepr sh ++ bs
  | .seq t l => seqTag t ++ littleEndian 8 l.length ++ feedAll sc l
  | .dict l => codes "dict" ++ [0] ++ feedEntries sc l
  | .scalar s => codes (sc.ty s) ++ [0] ++ sc.repr s

def feedAll {S : Type} (sc : Scalars S) : List (FV S) → List Nat
  | [] => []
  | v :: l => feed sc v ++ feedAll sc l

def feedEntries {S : Type} (sc : Scalars S) : List (FV S × FV S) → List Nat
  | [] => []
  | (k, v) :: l => feed sc k ++ feed sc v ++ feedEntries sc l
end

end Verif.Pipe
