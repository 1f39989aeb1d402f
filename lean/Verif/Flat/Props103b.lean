/-
C103: the bytes.  An engine that reads the documented struct gets the value of the trained network.
-/
import Verif.Flat.File
import Verif.Flat.Props103
import Verif.Quant.Props86

namespace Verif.Flat

open Verif.Export (roundEven)
open Verif.Quant (Vec Lin ILin Write writeBytes intBytes rowMajor linWrites vecList clampZ)
open Verif.Quant.Engine (affine)
open Verif.Utils (memberOffset readAt writeAll roundUp)
open Finset

/-! ### Specification: reading a C struct -/

namespace Engine

/-- A member of a struct: size of an element and number of elements. -/
abbrev Member := Nat × Nat

/-- Offset of member `k` of a struct whose members are all `alignas(align)` (1: packed). -/
def start (align : Nat) (ms : List Member) (k : Nat) : Nat := memberOffset align (ms.map fun m => m.1 * m.2) k

/-- Element `j` of member `k`, unsigned. -/
def unsigned (file : List Nat) (align : Nat) (ms : List Member) (k j : Nat) : Nat :=
  Verif.Quant.Doc.readNat file (start align ms k + (ms.getD k (0, 0)).1 * j) (ms.getD k (0, 0)).1

/-- Element `j` of member `k`, signed. -/
def signed (file : List Nat) (align : Nat) (ms : List Member) (k j : Nat) : Int :=
  Verif.Quant.Doc.readInt file (start align ms k + (ms.getD k (0, 0)).1 * j) (ms.getD k (0, 0)).1

/-- The layer stored in members `k` (`int8_t weight[..][inp]`) and `k + 1` (`int32_t bias[..]`). -/
def layer (file : List Nat) (align : Nat) (ms : List Member) (k inp : Nat) : ILin where
  w := fun o i => signed file align ms k (o * inp + i)
  b := fun o => signed file align ms (k + 1) o

/-- `struct FlatLadder7x7NNUEv1Weight` with `D` columns in the mapping
(model/serialization/flatnet.py:163-179; for v2, 257-273, `maps = 2`). -/
def ladderStruct (maps D V : Nat) : List Member :=
  List.replicate maps (1, 59049 * D)
    ++ [(1, 32 * V), (4, 32), (1, 32 * 32), (4, 32), (1, 32 * 32), (4, 32), (1, 4 * 32), (4, 4)]

/-- The `l1 .. l3` members of the square networks. -/
def squareLayers (n h : Nat) : List Member :=
  [(1, h * n), (4, h), (1, 32 * h), (4, 32), (1, 4 * 32), (4, 4)]

/-- `struct FlatSquare7x7NNUEv2Weight` (361-377). -/
def square2Struct (int4 : Bool) (F : Nat) : List Member :=
  [(1, 43046721 * if int4 then F / 2 else F), (1, 531441 * F)] ++ squareLayers (F * 4) 32

/-- `struct FlatSquare7x7NNUEv3Weight` (482-499). -/
def square3Struct (int4 : Bool) (F : Nat) : List Member :=
  List.replicate 3 (1, 531441 * if int4 then F / 2 else F) ++ squareLayers (F * 4) 64

/-- `struct FlatSquare7x7NNUEv4Weight` (608-623), every member `alignas(32)`. -/
def square4Struct (F : Nat) : List Member := (1, 3 * 43046721 * F) :: squareLayers F 32

/-- `struct FlatSquare7x7NNUEv4VQWeight` (708-724), every member `alignas(32)`. -/
def square4VqStruct (F codes : Nat) : List Member :=
  (2, 3 * 43046721) :: (1, 3 * codes * F) :: squareLayers F 32

/-- The signed 4-bit number in half `c % 2` of a byte (even columns in the low half). -/
def nibble (byte c : Nat) : Int := (if c % 2 = 0 then (byte % 16 : Nat) else (byte / 16 : Nat)) - 8

end Engine

/-! ### Reading back a list of writes -/

/-- The struct a list of writes stands for. -/
def members (ws : List Write) : List Engine.Member := ws.map fun w => (w.1, w.2.length)

theorem flatMap_length (n : Nat) (xs : List Int) : (xs.flatMap (intBytes n)).length = n * xs.length := by
  simp [List.length_flatMap, Verif.Quant.intBytes_length, Nat.mul_comm]

theorem readNat_drop (f : List Nat) (off i n : Nat) :
    Verif.Quant.Doc.readNat (f.drop off) i n = Verif.Quant.Doc.readNat f (off + i) n := by
  induction n generalizing i with
  | zero => rfl
  | succ n ih =>
    simp only [Verif.Quant.Doc.readNat]
    rw [ih, List.getD_eq_getElem?_getD, List.getElem?_drop, ← List.getD_eq_getElem?_getD, Nat.add_assoc]

theorem readNat_readAt (f : List Nat) (off len i n : Nat) (h : i + n ≤ (readAt f off len).length) :
    Verif.Quant.Doc.readNat (readAt f off len) i n = Verif.Quant.Doc.readNat f (off + i) n := by
  rw [← readNat_drop]
  unfold readAt at h ⊢
  conv_rhs => rw [← List.take_append_drop len (f.drop off)]
  exact (Verif.Quant.readNat_prefix _ _ _ _ h).symm

theorem readNat_list (n : Nat) (xs : List Int) (j : Nat) (z : Int) (hj : xs[j]? = some z) :
    Verif.Quant.Doc.readNat (xs.flatMap (intBytes n)) (n * j) n = (z % (256 ^ n : Nat)).toNat := by
  induction xs generalizing j with
  | nil => simp at hj
  | cons x xs ih =>
    rw [List.flatMap_cons]
    cases j with
    | zero =>
      simp only [List.getElem?_cons_zero, Option.some.injEq] at hj
      subst hj
      rw [Nat.mul_zero, Verif.Quant.readNat_prefix _ _ _ _ (by rw [Verif.Quant.intBytes_length]; omega)]
      have hd := Verif.Quant.readNat_digits ((x % (256 ^ n : Nat)).toNat) n n le_rfl
      rw [Nat.sub_self, pow_zero, Nat.div_one] at hd
      unfold intBytes
      rw [hd]
      have hpos : (0 : Int) < ((256 ^ n : Nat) : Int) := by positivity
      have := Int.emod_nonneg x hpos.ne'
      have := Int.emod_lt_of_pos x hpos
      exact Nat.mod_eq_of_lt (by omega)
    | succ j =>
      rw [List.getElem?_cons_succ] at hj
      have e : n * (j + 1) = (intBytes n x).length + n * j := by
        rw [Verif.Quant.intBytes_length, Nat.mul_succ, Nat.add_comm]
      rw [e, Verif.Quant.readNat_append]
      exact ih j hj

theorem plain_aligned (out : List Nat) (bs : List (List Nat)) : writeAll out 1 bs = out ++ bs.flatten := by
  induction bs generalizing out with
  | nil => simp [writeAll]
  | cons b bs ih =>
    rw [writeAll, ih]
    simp [Verif.Export.alignedWrite, Nat.mod_one]

theorem plainFile_eq (ws : List Write) : plainFile ws = writeAll [] 1 (ws.map writeBytes) := by
  rw [plain_aligned, List.nil_append]
  unfold plainFile
  rw [List.flatMap_def]

theorem read_unsigned (al : Nat) (hal : 0 < al) (ws : List Write) (k n : Nat) (xs : List Int)
    (hk : ws[k]? = some (n, xs)) (j : Nat) (z : Int) (hj : xs[j]? = some z) :
    Engine.unsigned (writeAll [] al (ws.map writeBytes)) al (members ws) k j = (z % (256 ^ n : Nat)).toNat := by
  have hb : (ws.map writeBytes)[k]? = some (xs.flatMap (intBytes n)) := by
    rw [List.getElem?_map, hk]; rfl
  have hr := Verif.Utils.C63_read_back [] al _ hal k _ hb
  rw [List.length_nil, Nat.zero_add] at hr
  have hms : (ws.map writeBytes).map List.length = (members ws).map fun m => m.1 * m.2 := by
    unfold members
    rw [List.map_map, List.map_map]
    exact List.map_congr_left fun w _ => flatMap_length w.1 w.2
  rw [hms] at hr
  have hm : (members ws).getD k (0, 0) = (n, xs.length) := by
    rw [List.getD_eq_getElem?_getD]
    unfold members
    rw [List.getElem?_map, hk]; rfl
  unfold Engine.unsigned Engine.start
  rw [hm]
  have hjl : j < xs.length := by
    by_contra hc
    rw [List.getElem?_eq_none (by omega)] at hj
    exact absurd hj (by simp)
  rw [← readNat_list n xs j z hj]
  rw [← readNat_readAt _ _ (xs.flatMap (intBytes n)).length, hr]
  rw [hr, flatMap_length]
  calc n * j + n = n * (j + 1) := by ring
    _ ≤ n * xs.length := Nat.mul_le_mul_left _ hjl

theorem read_signed (al : Nat) (hal : 0 < al) (ws : List Write) (k n : Nat) (hn : 0 < n) (xs : List Int)
    (hk : ws[k]? = some (n, xs)) (j : Nat) (z : Int) (hj : xs[j]? = some z)
    (h1 : -((256 ^ n : Nat) : Int) / 2 ≤ z) (h2 : z < ((256 ^ n : Nat) : Int) / 2) :
    Engine.signed (writeAll [] al (ws.map writeBytes)) al (members ws) k j = z := by
  have hu := read_unsigned al hal ws k n xs hk j z hj
  have hl := Verif.Quant.readInt_list n hn xs j z hj h1 h2
  have hl2 := readNat_list n xs j z hj
  have hm : (members ws).getD k (0, 0) = (n, xs.length) := by
    rw [List.getD_eq_getElem?_getD]
    unfold members
    rw [List.getElem?_map, hk]; rfl
  unfold Engine.unsigned at hu
  unfold Engine.signed Verif.Quant.Doc.readInt
  unfold Verif.Quant.Doc.readInt at hl
  simp only at hl ⊢
  rw [hu, hm]
  rw [hl2] at hl
  exact hl

/-! ### Batches -/

/-- Computing the rows in batches of any size yields every row once, in order. -/
theorem C103_batches {α : Type} (N batch : Nat) (hb : 0 < batch) (f : Nat → α) :
    batched N batch f = (List.range N).map f := by
  have key : ∀ q, (List.range q).flatMap (fun k =>
      (List.range' (k * batch) (min (k * batch + batch) N - k * batch)).map f)
      = (List.range (min (q * batch) N)).map f := by
    intro q
    induction q with
    | zero => simp
    | succ q ih =>
      rw [List.range_succ, List.flatMap_append, ih]
      simp only [List.flatMap_cons, List.flatMap_nil, List.append_nil]
      rw [← List.map_append, Nat.succ_mul]
      congr 1
      rw [List.range_eq_range', List.range_eq_range']
      rcases Nat.le_total (q * batch) N with h | h
      · rw [Nat.min_eq_left h]
        have := List.range'_append_1 (s := 0) (m := q * batch) (n := min (q * batch + batch) N - q * batch)
        rw [Nat.zero_add] at this
        rw [this]
        congr 1
        omega
      · rw [Nat.min_eq_right h, Nat.min_eq_right (by omega : N ≤ q * batch + batch)]
        rw [Nat.sub_eq_zero_of_le h]
        simp
  unfold batched
  rw [key]
  congr 2
  apply Nat.min_eq_right
  have h1 := Nat.div_add_mod (N + batch - 1) batch
  have h2 := Nat.mod_lt (N + batch - 1) hb
  rw [Nat.mul_comm] at h1
  omega

theorem squareEntries_eq (q : ℚ → Int) (h w F batch : Nat) (hb : 0 < batch) (m : List Conv) :
    squareEntries q h w F batch m = rowMajor (3 ^ (h * w)) F (squareRow q h w m) := by
  unfold squareEntries rowMajor
  rw [C103_batches _ _ hb, List.flatMap_def]

theorem packedEntries_eq (h w F batch : Nat) (hb : 0 < batch) (m : List Conv) :
    packedEntries h w F batch m = rowMajor (3 ^ (h * w)) (F / 2) fun i k =>
      packPair (squareRow table4 h w m i (2 * k)) (squareRow table4 h w m i (2 * k + 1)) := by
  unfold packedEntries rowMajor
  rw [C103_batches _ _ hb, List.flatMap_def]

theorem rowMajor_length (r c : Nat) (a : Nat → Nat → Int) : (rowMajor r c a).length = r * c := by
  rw [Verif.Quant.rowMajor_eq]; simp

theorem rowMajor_get (r c : Nat) (a : Nat → Nat → Int) (i j : Nat) (hi : i < r) (hj : j < c) :
    (rowMajor r c a)[i * c + j]? = some (a i j) := by
  have hlt : i * c + j < r * c := by
    have : (i + 1) * c ≤ r * c := Nat.mul_le_mul_right _ hi
    rw [Nat.succ_mul] at this
    omega
  have hc : 0 < c := by omega
  rw [Verif.Quant.rowMajor_eq, List.getElem?_map, List.getElem?_range hlt]
  simp only [Option.map_some]
  rw [Nat.mul_comm i c, Nat.mul_add_div hc, Nat.mul_add_mod, Nat.div_eq_of_lt hj, Nat.mod_eq_of_lt hj,
    Nat.add_zero]

theorem vecList_get (n : Nat) (a : Nat → Int) (i : Nat) (hi : i < n) : (vecList n a)[i]? = some (a i) := by
  unfold vecList
  rw [List.getElem?_map, List.getElem?_range hi]; rfl

/-! ### Layers -/

/-- Two layers agree on `o` outputs and `i` inputs. -/
def SameLin (o i : Nat) (L L' : ILin) : Prop := ∀ r < o, (∀ c < i, L.w r c = L'.w r c) ∧ L.b r = L'.b r

theorem exportLin_range (s : ℚ) (L : Lin) (o i : Nat) :
    (-128 ≤ (exportLin s L).w o i ∧ (exportLin s L).w o i ≤ 127)
      ∧ (-(2 ^ 31) ≤ (exportLin s L).b o ∧ (exportLin s L).b o < 2 ^ 31) := by
  unfold exportLin clampZ
  simp only
  constructor <;> omega

/-- A layer written by `linWrites` is read back. -/
theorem layer_read (al : Nat) (hal : 0 < al) (ws : List Write) (k o i : Nat) (s : ℚ) (L : Lin)
    (h0 : ws[k]? = some (1, rowMajor o i (exportLin s L).w))
    (h1 : ws[k + 1]? = some (4, vecList o (exportLin s L).b)) :
    SameLin o i (Engine.layer (writeAll [] al (ws.map writeBytes)) al (members ws) k i) (exportLin s L) := by
  intro r hr
  constructor
  · intro c hc
    have := exportLin_range s L r c
    exact read_signed al hal ws k 1 (by norm_num) _ h0 _ _ (rowMajor_get o i _ r c hr hc)
      (by norm_num; omega) (by norm_num; omega)
  · have := exportLin_range s L r 0
    exact read_signed al hal ws (k + 1) 4 (by norm_num) _ h1 _ _ (vecList_get o _ r hr)
      (by norm_num; omega) (by norm_num; omega)

theorem affine_same (n o : Nat) (L L' : ILin) (x x' : Nat → Int) (h : SameLin o n L L')
    (hx : ∀ i < n, x i = x' i) (r : Nat) (hr : r < o) : affine n L x r = affine n L' x' r := by
  unfold affine
  rw [(h r hr).2]
  congr 1
  refine sum_congr rfl fun i hi => ?_
  have hi := mem_range.mp hi
  rw [hx i hi, (h r hr).1 i hi]

theorem ladderHead_same (V o : Nat) (l1 l2 l3 l4 l1' l2' l3' l4' : ILin) (f f' : Nat → Int)
    (h1 : SameLin 32 V l1 l1') (h2 : SameLin 32 32 l2 l2') (h3 : SameLin 32 32 l3 l3')
    (h4 : SameLin o 32 l4 l4') (hf : ∀ i < V, f i = f' i) (r : Nat) (hr : r < o) :
    Engine.ladderHead V l1 l2 l3 l4 f r = Engine.ladderHead V l1' l2' l3' l4' f' r := by
  unfold Engine.ladderHead
  refine affine_same _ _ _ _ _ _ h4 (fun i hi => ?_) r hr
  rw [affine_same _ _ _ _ _ _ h3 (fun i hi => ?_) i hi]
  rw [affine_same _ _ _ _ _ _ h2 (fun i hi => ?_) i hi]
  rw [affine_same _ _ _ _ _ _ h1 (fun i hi => ?_) i hi]
  rw [hf i hi]

theorem squareHead_same (n h o : Nat) (l1 l2 l3 l1' l2' l3' : ILin) (f f' : Nat → Int)
    (h1 : SameLin h n l1 l1') (h2 : SameLin 32 h l2 l2') (h3 : SameLin o 32 l3 l3')
    (hf : ∀ i < n, f i = f' i) (r : Nat) (hr : r < o) :
    Engine.squareHead n h l1 l2 l3 f r = Engine.squareHead n h l1' l2' l3' f' r := by
  unfold Engine.squareHead
  refine affine_same _ _ _ _ _ _ h3 (fun i hi => ?_) r hr
  rw [affine_same _ _ _ _ _ _ h2 (fun i hi => ?_) i hi]
  rw [affine_same _ _ _ _ _ _ h1 (fun i hi => ?_) i hi]
  rw [hf i hi]

theorem padRows_same (s : ℚ) (rows n i : Nat) (L : Lin) (h : n ≤ rows) :
    SameLin n i (exportLin s (padRows rows L)) (exportLin s L) := by
  intro r hr
  unfold exportLin padRows
  simp only [if_pos (lt_of_lt_of_le hr h)]
  exact ⟨fun _ _ => trivial, trivial⟩

theorem SameLin.trans {o i : Nat} {a b c : ILin} (h1 : SameLin o i a b) (h2 : SameLin o i b c) :
    SameLin o i a c := fun r hr =>
  ⟨fun x hx => ((h1 r hr).1 x hx).trans ((h2 r hr).1 x hx), (h1 r hr).2.trans (h2 r hr).2⟩

theorem SameLin.mono {o o' i : Nat} {a b : ILin} (h1 : SameLin o i a b) (h : o' ≤ o) : SameLin o' i a b :=
  fun r hr => h1 r (lt_of_lt_of_le hr h)

theorem rows_four (nd : Bool) : valueRows nd + padCount nd = 4 := by cases nd <;> rfl

theorem valueRows_le (nd : Bool) : valueRows nd ≤ 4 := by cases nd <;> decide

end Verif.Flat
