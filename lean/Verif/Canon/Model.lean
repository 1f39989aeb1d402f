import Mathlib.Data.List.Sort
import Mathlib.Data.List.Lex
import Mathlib.Data.Char

/-
Model of the canonical pipeline-state encoding, /repo/dataset/core.py:694-813, together with the part
of Python's `json` module it relies on (`json.dumps(..., sort_keys=True, separators=(",", ":"),
ensure_ascii=False)` and `json.loads`), down to the UTF-8 bytes of the blob.

Python `str` is modelled as a list of Unicode scalar values (`Char`); a Python string holding a lone
surrogate cannot be encoded to UTF-8 at all and is outside the model. Recursion-depth limits are not
modelled. Conversions that only occur on non-canonical text (decimal float literals, `int()` of a
string or float inside a tensor shape) are parameters (`PyLib`), so every theorem holds whatever they
return.
-/

namespace Verif.Canon

abbrev Str := List Char

/-- What `json.loads` returns / `json.dumps` is given. A float is its 64 bits. Object entries are in
Python insertion order. -/
inductive J where
  | null
  | bool (b : Bool)
  | int (n : Int)
  | float (bits : BitVec 64)
  | str (s : Str)
  | arr (xs : List J)
  | obj (kvs : List (Str × J))

/-- dataset/core.py:694-709 the supported tensor dtypes (in the order of the table). -/
inductive DType where
  | bool | uint8 | uint16 | uint32 | uint64 | int8 | int16 | int32 | int64
  | float16 | float32 | float64 | bfloat16
  deriving DecidableEq, Repr

/-- dataset/core.py:694-709 `_TENSOR_DTYPES`. -/
def DType.name : DType → Str
  | .bool => "bool".toList | .uint8 => "uint8".toList | .uint16 => "uint16".toList
  | .uint32 => "uint32".toList | .uint64 => "uint64".toList | .int8 => "int8".toList
  | .int16 => "int16".toList | .int32 => "int32".toList | .int64 => "int64".toList
  | .float16 => "float16".toList | .float32 => "float32".toList | .float64 => "float64".toList
  | .bfloat16 => "bfloat16".toList

def DType.all : List DType :=
  [.bool, .uint8, .uint16, .uint32, .uint64, .int8, .int16, .int32, .int64,
   .float16, .float32, .float64, .bfloat16]

/-- dataset/core.py:710 `_TENSOR_DTYPES_BY_NAME.get`. -/
def DType.byName (s : Str) : Option DType := DType.all.find? (fun d => d.name == s)

/-- Bytes per element (numpy item size; bfloat16 goes through uint16). -/
def DType.size : DType → Nat
  | .bool | .uint8 | .int8 => 1
  | .uint16 | .int16 | .float16 | .bfloat16 => 2
  | .uint32 | .int32 | .float32 => 4
  | .uint64 | .int64 | .float64 => 8

/-- A tensor: the attributes the encoder looks at. `dtype = none` is a dtype outside the table;
`data` are the element bytes in C order, little endian. -/
structure Tensor where
  requiresGrad : Bool
  denseCpu : Bool
  dtype : Option DType
  shape : List Nat
  data : List UInt8
  deriving DecidableEq

/-- A dictionary key: a string or anything else. -/
inductive Key where
  | str (s : Str)
  | other (n : Nat)
  deriving DecidableEq

/-- Python values offered to the encoder. `seq false` is a list, `seq true` a tuple; `other` is any
unsupported object. Dictionary entries are in insertion order. -/
inductive Val where
  | null
  | bool (b : Bool)
  | int (n : Int)
  | float (bits : BitVec 64)
  | str (s : Str)
  | bytes (bs : List UInt8)
  | seq (isTuple : Bool) (xs : List Val)
  | dict (kvs : List (Key × Val))
  | tensor (t : Tensor)
  | other (n : Nat)

/-! ### Hexadecimal -/

/-- `bytes.hex()`: one lower-case digit. -/
def hexDigit (n : Nat) : Char :=
  if n < 10 then Char.ofNat (48 + n) else Char.ofNat (87 + n)

/-- `bytes.hex()`. -/
def toHex : List UInt8 → Str
  | [] => []
  | b :: r => hexDigit (b.toNat / 16) :: hexDigit (b.toNat % 16) :: toHex r

/-- Value of a hexadecimal digit, either case. -/
def hexVal (c : Char) : Option Nat :=
  if 48 ≤ c.toNat ∧ c.toNat ≤ 57 then some (c.toNat - 48)
  else if 97 ≤ c.toNat ∧ c.toNat ≤ 102 then some (c.toNat - 87)
  else if 65 ≤ c.toNat ∧ c.toNat ≤ 70 then some (c.toNat - 55)
  else none

/-- ASCII white space skipped by `bytes.fromhex`. -/
def isHexSpace (c : Char) : Bool := c.toNat = 32 || (9 ≤ c.toNat && c.toNat ≤ 13)

/-- `bytes.fromhex`: pairs of digits, white space allowed between pairs. -/
def fromHex : Str → Option (List UInt8)
  | [] => some []
  | c :: r =>
    if isHexSpace c then fromHex r
    else match r with
      | [] => none
      | d :: r' =>
        match hexVal c with
        | none => none
        | some a =>
          match hexVal d with
          | none => none
          | some b => (fromHex r').map (UInt8.ofNat (a * 16 + b) :: ·)

/-- `text.lower() != text` for text that may be hexadecimal: no upper-case letter. Only ASCII upper
case is modelled; any other letter makes `fromhex` fail anyway. -/
def isLower (s : Str) : Bool := s.all (fun c => !(65 ≤ c.toNat && c.toNat ≤ 90))

/-- `struct.pack(">d", value)`: the 64 bits, most significant byte first. -/
def packF64 (b : BitVec 64) : List UInt8 :=
  (List.range 8).map (fun i => UInt8.ofNat (b.toNat / 256 ^ (7 - i)))

/-- `struct.unpack(">d", data)`; fails unless there are exactly eight bytes. -/
def unpackF64 (bs : List UInt8) : Option (BitVec 64) :=
  if bs.length = 8 then some (BitVec.ofNat 64 (bs.foldl (fun acc b => acc * 256 + b.toNat) 0)) else none

/-- `math.isfinite`: the exponent field is not all ones. -/
def isFinite (b : BitVec 64) : Bool := b.toNat / 2 ^ 52 % 2048 ≠ 2047

/-! ### Encoding a value -/

def tagBytes : Str := "$bytes".toList
def tagF64 : Str := "$f64".toList
def tagTensor : Str := "$tensor".toList

/-- dataset/core.py:733, 804 the reserved tags. -/
def reserved (s : Str) : Bool := s == tagBytes || s == tagF64 || s == tagTensor

/-- Entry order of `sorted(value)` / `sort_keys=True`: by key, code point order. -/
def keyLe {α : Type} (a b : Str × α) : Bool := decide (a.1 ≤ b.1)

/-- `sorted` by key. -/
def sortKeys {α : Type} (kvs : List (Str × α)) : List (Str × α) :=
  kvs.insertionSort (fun a b => keyLe a b = true)

/-- dataset/core.py:737-758 the tensor branch of `_canonical_pipeline_value`. -/
def canonTensor (t : Tensor) : Except String J :=
  if t.requiresGrad then .error "pipeline tensors must not require gradients"
  else if ¬ t.denseCpu then .error "pipeline tensors must be dense strided CPU tensors"
  else match t.dtype with
    | none => .error "unsupported pipeline tensor dtype"
    | some d => .ok (.obj [(tagTensor, .obj [
        ("dtype".toList, .str d.name),
        ("shape".toList, .arr (t.shape.map (fun n : Nat => J.int (Int.ofNat n)))),
        ("data_le".toList, .str (toHex t.data))])])

mutual
/-- dataset/core.py:714-759 `_canonical_pipeline_value`. The dictionary branch canonicalises the
values in sorted key order; an error of any of them is an error either way. -/
def canon : Val → Except String J
  | .null => .ok .null
  | .bool b => .ok (.bool b)
  | .str s => .ok (.str s)
  | .int n =>
    if -(2:Int)^63 ≤ n ∧ n < (2:Int)^63 then .ok (.int n)
    else .error "pipeline integer is outside signed 64-bit range"
  | .float b =>
    if isFinite b then .ok (.obj [(tagF64, .str (toHex (packF64 b)))])
    else .error "pipeline floats must be finite"
  | .bytes bs => .ok (.obj [(tagBytes, .str (toHex bs))])
  | .seq _ xs => (canonList xs).map J.arr
  | .dict kvs => (canonDict kvs).map (fun m => J.obj (sortKeys m))
  | .tensor t => canonTensor t
  | .other _ => .error "unsupported pipeline state value"

/-- dataset/core.py:728 the list comprehension over a list or tuple. -/
def canonList : List Val → Except String (List J)
  | [] => .ok []
  | v :: r =>
    match canon v, canonList r with
    | .ok j, .ok js => .ok (j :: js)
    | _, _ => .error "unsupported item"

/-- dataset/core.py:729-735 the dictionary branch: key checks and values. -/
def canonDict : List (Key × Val) → Except String (List (Str × J))
  | [] => .ok []
  | (k, v) :: r =>
    match k with
    | .other _ => .error "pipeline state dictionaries require string keys"
    | .str s =>
      if reserved s then .error "pipeline state collides with a reserved tag"
      else match canon v, canonDict r with
        | .ok j, .ok m => .ok ((s, j) :: m)
        | _, _ => .error "unsupported entry"
end

/-! ### json.dumps -/

/-- `json` escape of one character with `ensure_ascii=False` (json/encoder.py ESCAPE, ESCAPE_DCT). -/
def escapeChar (c : Char) : Str :=
  if c = '"' then ['\\', '"']
  else if c = '\\' then ['\\', '\\']
  else if c = '\n' then ['\\', 'n']
  else if c = '\r' then ['\\', 'r']
  else if c = '\t' then ['\\', 't']
  else if c.toNat = 12 then ['\\', 'f']
  else if c.toNat = 8 then ['\\', 'b']
  else if c.toNat < 32 then
    ['\\', 'u', '0', '0', hexDigit (c.toNat / 16), hexDigit (c.toNat % 16)]
  else [c]

/-- A JSON string literal. -/
def quote (s : Str) : Str := '"' :: (s.flatMap escapeChar ++ ['"'])

/-- `int.__repr__`. -/
def printInt : Int → Str
  | .ofNat n => Nat.toDigits 10 n
  | .negSucc n => '-' :: Nat.toDigits 10 (n + 1)

/-- Parameters: library behaviour reached only by text that is not canonical. -/
structure PyLib where
  /-- decimal literal with fraction or exponent, and `NaN`/`Infinity`/`-Infinity` -/
  parseFloat : Str → BitVec 64
  /-- `float.__repr__` (never reached from the encoder) -/
  reprFloat : BitVec 64 → Str
  /-- `int(x)` for a float -/
  truncFloat : BitVec 64 → Option Int
  /-- `int(x)` for a string -/
  intOfStr : Str → Option Int

mutual
/-- `json.dumps(..., sort_keys=True, separators=(",", ":"), ensure_ascii=False)`. -/
def dumps (lib : PyLib) : J → Str
  | .null => "null".toList
  | .bool true => "true".toList
  | .bool false => "false".toList
  | .int n => printInt n
  | .float b => lib.reprFloat b
  | .str s => quote s
  | .arr xs => '[' :: (dumpsList lib xs ++ [']'])
  | .obj kvs => '{' :: (joinEntries (sortKeys (dumpsEntries lib kvs)) ++ ['}'])

/-- items of an array, separated by commas -/
def dumpsList (lib : PyLib) : List J → Str
  | [] => []
  | [x] => dumps lib x
  | x :: y :: r => dumps lib x ++ ',' :: dumpsList lib (y :: r)

/-- printed values of an object, with their keys -/
def dumpsEntries (lib : PyLib) : List (Str × J) → List (Str × Str)
  | [] => []
  | (k, v) :: r => (k, dumps lib v) :: dumpsEntries lib r

/-- `"key":value` items separated by commas -/
def joinEntries : List (Str × Str) → Str
  | [] => []
  | [(k, v)] => quote k ++ ':' :: v
  | (k, v) :: q :: r => quote k ++ ':' :: (v ++ ',' :: joinEntries (q :: r))
end

/-- dataset/core.py:762-764 `canonical_pipeline_state_bytes`. -/
noncomputable def encode (lib : PyLib) (v : Val) : Except String ByteArray :=
  (canon v).map (fun j => (dumps lib j).utf8Encode)

/-! ### json.loads -/

/-- JSON white space. -/
def isWs (c : Char) : Bool := c = ' ' || c = '\t' || c = '\n' || c = '\r'

def skipWs : Str → Str
  | [] => []
  | c :: r => if isWs c then skipWs r else c :: r

/-- four hexadecimal digits of a `\u` escape -/
def hex4 (a b c d : Char) : Option Nat :=
  match hexVal a, hexVal b, hexVal c, hexVal d with
  | some a, some b, some c, some d => some (((a * 16 + b) * 16 + c) * 16 + d)
  | _, _, _, _ => none

/-- one-character escapes (json/decoder.py BACKSLASH) -/
def simpleEscape (e : Char) : Option Char :=
  if e = '"' then some '"' else if e = '\\' then some '\\' else if e = '/' then some '/'
  else if e = 'b' then some (Char.ofNat 8) else if e = 'f' then some (Char.ofNat 12)
  else if e = 'n' then some '\n' else if e = 'r' then some '\r' else if e = 't' then some '\t'
  else none

/-- json/decoder.py `scanstring` (strict): text after the opening quote; result and rest after the
closing quote. A lone surrogate escape fails here (in Python it yields a string that cannot be
re-encoded, so the blob is rejected as well). -/
def scanString : Str → Option (Str × Str)
  | [] => none
  | c :: r =>
    if c = '"' then some ([], r)
    else if c = '\\' then
      match r with
      | [] => none
      | e :: r1 =>
        if e = 'u' then
          match r1 with
          | a :: b :: c2 :: d :: r2 =>
            match hex4 a b c2 d with
            | none => none
            | some n =>
              if 0xD800 ≤ n ∧ n ≤ 0xDBFF then
                match r2 with
                | '\\' :: 'u' :: a' :: b' :: c' :: d' :: r3 =>
                  match hex4 a' b' c' d' with
                  | none => none
                  | some m =>
                    if 0xDC00 ≤ m ∧ m ≤ 0xDFFF then
                      (scanString r3).map (fun p =>
                        (Char.ofNat (0x10000 + (n - 0xD800) * 1024 + (m - 0xDC00)) :: p.1, p.2))
                    else none
                | _ => none
              else if 0xDC00 ≤ n ∧ n ≤ 0xDFFF then none
              else (scanString r2).map (fun p => (Char.ofNat n :: p.1, p.2))
          | _ => none
        else
          match simpleEscape e with
          | none => none
          | some x => (scanString r1).map (fun p => (x :: p.1, p.2))
    else if c.toNat < 32 then none
    else (scanString r).map (fun p => (c :: p.1, p.2))
termination_by structural s => s

/-- the longest prefix of ASCII digits -/
def takeDigits : Str → Str × Str
  | [] => ([], [])
  | c :: r => if c.isDigit then ((c :: (takeDigits r).1), (takeDigits r).2) else ([], c :: r)

/-- integer part: `0|[1-9]\d*` -/
def scanNat : Str → Option (Str × Str)
  | [] => none
  | c :: r =>
    if c = '0' then some (['0'], r)
    else if c.isDigit then some (c :: (takeDigits r).1, (takeDigits r).2)
    else none

/-- `(\.\d+)?` -/
def scanFrac (s : Str) : Str × Str :=
  match s with
  | '.' :: r => if (takeDigits r).1 = [] then ([], s) else ('.' :: (takeDigits r).1, (takeDigits r).2)
  | _ => ([], s)

/-- `([eE][-+]?\d+)?` -/
def scanExp (s : Str) : Str × Str :=
  match s with
  | e :: r =>
    if e = 'e' ∨ e = 'E' then
      match r with
      | sg :: r' =>
        if sg = '-' ∨ sg = '+' then
          if (takeDigits r').1 = [] then ([], s)
          else (e :: sg :: (takeDigits r').1, (takeDigits r').2)
        else if (takeDigits r).1 = [] then ([], s) else (e :: (takeDigits r).1, (takeDigits r).2)
      | [] => ([], s)
    else ([], s)
  | [] => ([], s)

/-- leading minus sign -/
def isNeg : Str → Bool
  | '-' :: _ => true
  | _ => false

/-- json/scanner.py NUMBER_RE and `_scan_once`: a number. -/
def scanNumber (lib : PyLib) (s : Str) : Option (J × Str) :=
  let neg := isNeg s
  let body := if neg then s.tail else s
  match scanNat body with
  | none => none
  | some (ds, r1) =>
    let fr := scanFrac r1
    let ex := scanExp fr.2
    if fr.1 = [] ∧ ex.1 = [] then
      let n : Nat := Nat.ofDigitChars 10 ds 0
      some (.int (if neg then -(n : Int) else n), ex.2)
    else some (.float (lib.parseFloat ((if neg then ['-'] else []) ++ ds ++ fr.1 ++ ex.1)), ex.2)

/-- Python `d[k] = v`: an existing key keeps its position. -/
def dictSet {α : Type} (k : Str) (v : α) : List (Str × α) → List (Str × α)
  | [] => [(k, v)]
  | (k', v') :: r => if k' = k then (k', v) :: r else (k', v') :: dictSet k v r

/-- literal keyword -/
def keyword (lib : PyLib) (s : Str) : Option (J × Str) :=
  match s with
  | 'n' :: 'u' :: 'l' :: 'l' :: r => some (.null, r)
  | 't' :: 'r' :: 'u' :: 'e' :: r => some (.bool true, r)
  | 'f' :: 'a' :: 'l' :: 's' :: 'e' :: r => some (.bool false, r)
  | 'N' :: 'a' :: 'N' :: r => some (.float (lib.parseFloat "NaN".toList), r)
  | 'I' :: 'n' :: 'f' :: 'i' :: 'n' :: 'i' :: 't' :: 'y' :: r =>
    some (.float (lib.parseFloat "Infinity".toList), r)
  | '-' :: 'I' :: 'n' :: 'f' :: 'i' :: 'n' :: 'i' :: 't' :: 'y' :: r =>
    some (.float (lib.parseFloat "-Infinity".toList), r)
  | _ => none

mutual
/-- json/scanner.py `scan_once`. `fuel` bounds the recursion; it is set to the length of the text,
which every nested call shortens. -/
def scanVal (lib : PyLib) : Nat → Str → Option (J × Str)
  | 0, _ => none
  | fuel + 1, s =>
    match s with
    | [] => none
    | c :: r =>
      if c = '"' then (scanString r).map (fun p => (.str p.1, p.2))
      else if c = '{' then
        match skipWs r with
        | '}' :: r' => some (.obj [], r')
        | r' => (scanEntries lib fuel [] r').map (fun p => (.obj p.1, p.2))
      else if c = '[' then
        match skipWs r with
        | ']' :: r' => some (.arr [], r')
        | r' => (scanItems lib fuel r').map (fun p => (.arr p.1, p.2))
      else match keyword lib (c :: r) with
        | some p => some p
        | none => scanNumber lib (c :: r)

/-- json/decoder.py `JSONArray` after the opening bracket and white space. -/
def scanItems (lib : PyLib) : Nat → Str → Option (List J × Str)
  | 0, _ => none
  | fuel + 1, s =>
    match scanVal lib fuel s with
    | none => none
    | some (j, r) =>
      match skipWs r with
      | ']' :: r' => some ([j], r')
      | ',' :: r' => (scanItems lib fuel (skipWs r')).map (fun p => (j :: p.1, p.2))
      | _ => none

/-- json/decoder.py `JSONObject` after the opening brace and white space; `acc` is the dictionary
built so far. -/
def scanEntries (lib : PyLib) : Nat → List (Str × J) → Str → Option (List (Str × J) × Str)
  | 0, _, _ => none
  | fuel + 1, acc, s =>
    match s with
    | '"' :: r =>
      match scanString r with
      | none => none
      | some (k, r1) =>
        match skipWs r1 with
        | ':' :: r2 =>
          match scanVal lib fuel (skipWs r2) with
          | none => none
          | some (j, r3) =>
            match skipWs r3 with
            | '}' :: r4 => some (dictSet k j acc, r4)
            | ',' :: r4 => scanEntries lib fuel (dictSet k j acc) (skipWs r4)
            | _ => none
        | _ => none
    | _ => none
end

/-- `json.loads`. -/
def loads (lib : PyLib) (s : Str) : Option J :=
  match scanVal lib (s.length + 1) (skipWs s) with
  | none => none
  | some (j, r) => if skipWs r = [] then some j else none

/-! ### Decoding a value -/

/-- `int(dim)`. -/
def pyInt (lib : PyLib) : J → Option Int
  | .int n => some n
  | .bool b => some (if b then 1 else 0)
  | .float b => lib.truncFloat b
  | .str s => lib.intOfStr s
  | _ => none

/-- iterating `state["shape"]`. -/
def pyIter : J → Option (List J)
  | .arr xs => some xs
  | .str s => some (s.map (fun c => J.str [c]))
  | .obj kvs => some (kvs.map (fun kv => J.str kv.1))
  | _ => none

/-- `value[key]` on a dictionary. -/
def lookupJ (k : Str) : List (Str × J) → Option J
  | [] => none
  | (k', v) :: r => if k' = k then some v else lookupJ k r

/-- `[f(x) for x in xs]` where `f` may raise. -/
def mapOpt {α β : Type} (f : α → Option β) : List α → Option (List β)
  | [] => some []
  | x :: r =>
    match f x, mapOpt f r with
    | some y, some ys => some (y :: ys)
    | _, _ => none

/-- `set(mapping) == {names}` for a dictionary (whose keys are distinct). -/
def keySetIs (kvs : List (Str × J)) (names : List Str) : Bool :=
  kvs.all (fun kv => names.contains kv.1) && names.all (fun n => kvs.any (fun kv => kv.1 == n))

/-- dataset/core.py:784-803 the `$tensor` branch. -/
def decodeTensor (lib : PyLib) (state : J) : Except String Tensor :=
  match state with
  | .obj m =>
    if ¬ keySetIs m ["dtype".toList, "shape".toList, "data_le".toList] then
      .error "invalid canonical tensor tag"
    else
      match lookupJ "dtype".toList m, lookupJ "shape".toList m, lookupJ "data_le".toList m with
      | some (.str dn), some sh, some (.str dl) =>
        match DType.byName dn with
        | none => .error "unsupported canonical tensor dtype"
        | some d =>
          match (pyIter sh).bind (mapOpt (pyInt lib)) with
          | none => .error "invalid shape"
          | some dims =>
            if dims.any (fun n => n < 0) then .error "dimensions must be non-negative"
            else match fromHex dl with
              | none => .error "invalid hex"
              | some data =>
                if data.length % d.size ≠ 0 then .error "buffer size must be a multiple of element size"
                else if data.length / d.size ≠ (dims.map Int.toNat).prod then
                  .error "canonical tensor has wrong number of elements"
                else .ok ⟨false, true, some d, dims.map Int.toNat, data⟩
      | _, _, _ => .error "invalid tensor fields"
  | _ => .error "invalid canonical tensor tag"

mutual
/-- dataset/core.py:767-806 `_decode_pipeline_value`. -/
def decodeVal (lib : PyLib) : J → Except String Val
  | .null => .ok .null
  | .bool b => .ok (.bool b)
  | .int n => .ok (.int n)
  | .float b => .ok (.float b)
  | .str s => .ok (.str s)
  | .arr xs => (decodeList lib xs).map (Val.seq true)
  | .obj kvs =>
    if keySetIs kvs [tagBytes] then
      match lookupJ tagBytes kvs with
      | some (.str text) =>
        if text.length % 2 ≠ 0 ∨ isLower text = false then .error "invalid canonical bytes tag"
        else match fromHex text with
          | none => .error "invalid hex"
          | some bs => .ok (.bytes bs)
      | _ => .error "invalid canonical bytes tag"
    else if keySetIs kvs [tagF64] then
      match lookupJ tagF64 kvs with
      | some (.str text) =>
        if text.length ≠ 16 ∨ isLower text = false then .error "invalid canonical float tag"
        else match (fromHex text).bind unpackF64 with
          | none => .error "invalid hex"
          | some b => if isFinite b then .ok (.float b) else .error "canonical float must be finite"
      | _ => .error "invalid canonical float tag"
    else if keySetIs kvs [tagTensor] then
      match lookupJ tagTensor kvs with
      | some st => (decodeTensor lib st).map Val.tensor
      | none => .error "unreachable"
    else if kvs.any (fun kv => reserved kv.1) then .error "invalid or colliding canonical pipeline tag"
    else (decodeEntries lib kvs).map Val.dict

def decodeList (lib : PyLib) : List J → Except String (List Val)
  | [] => .ok []
  | j :: r =>
    match decodeVal lib j, decodeList lib r with
    | .ok v, .ok vs => .ok (v :: vs)
    | _, _ => .error "invalid item"

def decodeEntries (lib : PyLib) : List (Str × J) → Except String (List (Key × Val))
  | [] => .ok []
  | (k, j) :: r =>
    match decodeVal lib j, decodeEntries lib r with
    | .ok v, .ok m => .ok ((.str k, v) :: m)
    | _, _ => .error "invalid entry"
end

/-- dataset/core.py:809-813 `decode_canonical_pipeline_state`: parse, decode, re-encode, compare. -/
noncomputable def decode (lib : PyLib) (blob : ByteArray) : Except String Val :=
  match blob.utf8Decode? with
  | none => .error "invalid utf-8"
  | some text =>
    match loads lib text.toList with
    | none => .error "invalid JSON"
    | some j =>
      match decodeVal lib j with
      | .error e => .error e
      | .ok v =>
        match encode lib v with
        | .error e => .error e
        | .ok blob' => if blob' ≠ blob then .error "pipeline state is not in canonical form" else .ok v

end Verif.Canon
