/-
C63: aligned writes land on aligned offsets and can be read back there.
The model of `aligned_write` itself is `Verif.Export.alignedWrite` (Export/Tables.lean), one call;
here: the sequences of calls the serializers make (model/serialization/flatnet.py:683-704, 805-828).
-/
import Verif.Export.Props71
import Mathlib.Tactic.Linarith

namespace Verif.Utils
open Verif.Export

/-- A sequence of `aligned_write(out, buffer, alignment=a)` calls
(model/serialization/flatnet.py:689-704 and 811-828). -/
def writeAll (out : List Nat) (a : Nat) : List (List Nat) → List Nat
  | [] => out
  | b :: bs => writeAll (alignedWrite out b a) a bs

/-! ### Specification: a C struct whose members are all `alignas(a)` -/

/-- Size of a member rounded up to the alignment. -/
def roundUp (n a : Nat) : Nat := (n + a - 1) / a * a

/-- Offset of the `i`-th member from the start of the struct. -/
def memberOffset (a : Nat) (sizes : List Nat) (i : Nat) : Nat :=
  ((sizes.take i).map fun n => roundUp n a).sum

/-- The member a reader finds: `size` bytes at `offset`. -/
def readAt (file : List Nat) (offset size : Nat) : List Nat := (file.drop offset).take size

theorem roundUp_mod (n a : Nat) (ha : 0 < a) :
    n + (a - n % a) % a = roundUp n a := by
  unfold roundUp
  have h1 := Nat.mod_lt n ha
  have h2 := Nat.div_add_mod n a
  rcases Nat.eq_zero_or_pos (n % a) with h | h
  · have e : (n + a - 1) / a = n / a := by
      have : n + a - 1 = (a - 1) + a * (n / a) := by omega
      rw [this, Nat.add_mul_div_left _ _ ha, Nat.div_eq_of_lt (by omega), Nat.zero_add]
    rw [e, h, Nat.sub_zero, Nat.mod_self, Nat.mul_comm]
    omega
  · have e : (n + a - 1) / a = n / a + 1 := by
      have : n + a - 1 = (n % a - 1) + a * (n / a + 1) := by
        rw [Nat.mul_add, Nat.mul_one]; omega
      rw [this, Nat.add_mul_div_left _ _ ha, Nat.div_eq_of_lt (by omega), Nat.zero_add]
    rw [e, Nat.mod_eq_of_lt (a := a - n % a) (by omega), Nat.mul_comm, Nat.mul_add, Nat.mul_one]
    omega

theorem alignedWrite_length (out b : List Nat) (a : Nat) (ha : 0 < a) :
    (alignedWrite out b a).length = out.length + roundUp b.length a := by
  rw [← roundUp_mod b.length a ha]
  simp [alignedWrite]

theorem writeAll_prefix (out : List Nat) (a : Nat) (bs : List (List Nat)) :
    ∃ t, writeAll out a bs = out ++ t := by
  induction bs generalizing out with
  | nil => exact ⟨[], by simp [writeAll]⟩
  | cons b bs ih =>
    obtain ⟨t, ht⟩ := ih (alignedWrite out b a)
    rw [writeAll, ht]
    exact ⟨b ++ (List.replicate ((a - b.length % a) % a) 0 ++ t), by simp [alignedWrite]⟩

/-- **C63 (offsets and read back).** After any sequence of aligned writes starting at any file
position, every payload is found unchanged at the offset a reader computes from the sizes alone
(each earlier member rounded up to the alignment). -/
theorem C63_read_back (out : List Nat) (a : Nat) (bs : List (List Nat)) (ha : 0 < a)
    (i : Nat) (b : List Nat) (hi : bs[i]? = some b) :
    readAt (writeAll out a bs) (out.length + memberOffset a (bs.map List.length) i) b.length = b := by
  induction bs generalizing out i with
  | nil => simp at hi
  | cons c cs ih =>
    cases i with
    | zero =>
      simp only [List.getElem?_cons_zero, Option.some.injEq] at hi
      subst hi
      obtain ⟨t, ht⟩ := writeAll_prefix (alignedWrite out c a) a cs
      rw [writeAll, ht]
      simp [memberOffset, readAt, alignedWrite]
    | succ i =>
      simp only [List.getElem?_cons_succ] at hi
      have := ih (alignedWrite out c a) i hi
      rw [alignedWrite_length _ _ _ ha] at this
      simpa [writeAll, memberOffset, Nat.add_assoc] using this

/-- **C63 (alignment).** Those offsets, counted from the first write, are multiples of the
alignment (so absolute offsets are aligned whenever the first write starts aligned). -/
theorem C63_offsets_aligned (a : Nat) (sizes : List Nat) (i : Nat) :
    a ∣ memberOffset a sizes i := by
  unfold memberOffset
  generalize sizes.take i = l
  induction l with
  | nil => simp
  | cons x l ih => simpa [roundUp] using Dvd.dvd.add (Dvd.intro_left ((x + a - 1) / a) rfl) ih

/-- **C63 (total size and no gaps).** The file grows by exactly the rounded sizes, members do not
overlap and the gap after a member is shorter than the alignment. -/
theorem C63_total (out : List Nat) (a : Nat) (bs : List (List Nat)) (ha : 0 < a) :
    (writeAll out a bs).length = out.length + memberOffset a (bs.map List.length) bs.length := by
  induction bs generalizing out with
  | nil => simp [writeAll, memberOffset]
  | cons b bs ih =>
    rw [writeAll, ih, alignedWrite_length _ _ _ ha]
    simp [memberOffset, Nat.add_assoc]

theorem C63_gap (a : Nat) (sizes : List Nat) (i n : Nat) (ha : 0 < a) (hi : sizes[i]? = some n) :
    memberOffset a sizes i + n ≤ memberOffset a sizes (i + 1) ∧
      memberOffset a sizes (i + 1) < memberOffset a sizes i + n + a := by
  have h : memberOffset a sizes (i + 1) = memberOffset a sizes i + roundUp n a := by
    unfold memberOffset
    rw [List.take_add_one, hi]
    simp
  rw [h, ← roundUp_mod n a ha]
  have := Nat.mod_lt (a - n % a) ha
  omega

/-- **C63 (what was there is kept).** Earlier file content (e.g. the header) is untouched. -/
theorem C63_keeps (out : List Nat) (a : Nat) (bs : List (List Nat)) :
    out <+: writeAll out a bs := by
  obtain ⟨t, ht⟩ := writeAll_prefix out a bs
  exact ⟨t, ht.symm⟩

/-- Non-vacuity: a 3-byte header, then members of 5, 4 and 2 bytes with alignment 4. -/
example : writeAll [7, 7, 7] 4 [[1, 1, 1, 1, 1], [2, 2, 2, 2], [3, 3]]
      = [7, 7, 7, 1, 1, 1, 1, 1, 0, 0, 0, 2, 2, 2, 2, 3, 3, 0, 0]
    ∧ memberOffset 4 [5, 4, 2] 2 = 12 := by decide +kernel

end Verif.Utils
