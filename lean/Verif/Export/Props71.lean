import Verif.Export.TablesLemmas
import Mathlib.Tactic.NormNum

/-
C71: the byte packings of the exported tables are lossless.
-/
namespace Verif.Export

/-- Reader of a packed byte: low nibble and high nibble, each minus 8. -/
def readInt4 (b : Nat) : Int × Int := ((b % 16 : Nat) - 8, (b / 16 : Nat) - 8)

theorem wrap8_id (x : Int) (h1 : -128 ≤ x) (h2 : x ≤ 127) : wrap8 x = x := by
  unfold wrap8; omega

theorem byteOf_wrap8 (x : Int) : byteOf (wrap8 x) = byteOf x := by
  unfold byteOf wrap8; congr 1; omega

theorem packInt4_eq (lo hi : Int) (hl : -8 ≤ lo ∧ lo ≤ 7) (hh : -8 ≤ hi ∧ hi ≤ 7) :
    packInt4 lo hi = some ((hi + 8).toNat * 16 + (lo + 8).toNat) := by
  unfold packInt4
  simp only
  rw [wrap8_id (lo + 8) (by omega) (by omega), wrap8_id (hi + 8) (by omega) (by omega),
    byteOf_wrap8, if_pos (by omega)]
  congr 1
  have h1 : byteOf ((hi + 8) * 16) = (hi + 8).toNat * 2 ^ 4 := by unfold byteOf; omega
  have h2 : byteOf (lo + 8) = (lo + 8).toNat := by unfold byteOf; omega
  rw [h1, h2, ← Nat.shiftLeft_eq, Nat.or_comm, or_shl _ _ _ (by omega)]
  omega

/-- **C71** (4-bit pairs).  A pair of features in `[-8, 7]` is packed into one byte from which both
are read back. -/
theorem C71_int4_pair (lo hi : Int) (hl : -8 ≤ lo ∧ lo ≤ 7) (hh : -8 ≤ hi ∧ hi ≤ 7) :
    ∃ b, packInt4 lo hi = some b ∧ b < 256 ∧ readInt4 b = (lo, hi) := by
  refine ⟨_, packInt4_eq lo hi hl hh, by omega, ?_⟩
  unfold readInt4
  ext <;> simp only <;> omega

/-- Reader of a packed row. -/
def readInt4Row (bs : List Nat) : List Int := bs.flatMap fun b => [(readInt4 b).1, (readInt4 b).2]

/-- **C71** (4-bit rows).  A row of an even number of features in `[-8, 7]` is written as half as
many bytes, and reading the nibbles back in order gives the row. -/
theorem C71_int4_row (row : List Int) (he : row.length % 2 = 0)
    (hr : ∀ x ∈ row, -8 ≤ x ∧ x ≤ 7) :
    ∃ bs, packInt4Row row = some bs ∧ 2 * bs.length = row.length ∧ (∀ b ∈ bs, b < 256)
      ∧ readInt4Row bs = row := by
  match row, he, hr with
  | [], _, _ => exact ⟨[], rfl, rfl, by simp, rfl⟩
  | [_], he, _ => simp at he
  | lo :: hi :: rest, he, hr =>
      obtain ⟨b, h1, h2, h3⟩ := C71_int4_pair lo hi (hr lo (by simp)) (hr hi (by simp))
      obtain ⟨bs, g1, g2, g3, g4⟩ := C71_int4_row rest
        (by simp only [List.length_cons] at he; omega) (fun x hx => hr x (by simp [hx]))
      refine ⟨b :: bs, ?_, ?_, ?_, ?_⟩
      · simp [packInt4Row, h1, g1]
      · simp only [List.length_cons]; omega
      · intro x hx
        rcases List.mem_cons.1 hx with rfl | hx
        · exact h2
        · exact g3 x hx
      · unfold readInt4Row at g4 ⊢
        rw [List.flatMap_cons, g4, h3]; rfl

/-- **C71** (rejection).  A feature outside `[-8, 7]` (within int8) is never packed: the assertion
fails. -/
theorem C71_int4_rejects (lo hi : Int) (hlo : -128 ≤ lo ∧ lo ≤ 127) (hhi : -128 ≤ hi ∧ hi ≤ 127)
    (hbad : ¬ (-8 ≤ lo ∧ lo ≤ 7 ∧ -8 ≤ hi ∧ hi ≤ 7)) : packInt4 lo hi = none := by
  unfold packInt4
  simp only
  rw [if_neg]
  unfold wrap8
  omega

/-- **C71** (biased bytes).  An int8 feature written with a bias of 128 is read back by subtracting
it. -/
theorem C71_biased (x : Int) (h : -128 ≤ x ∧ x ≤ 127) :
    packBiased x < 256 ∧ (packBiased x : Int) - 128 = x := by
  unfold packBiased byteOf
  constructor <;> omega

/-- **C71** (alignment).  An aligned write appends the buffer unchanged, followed by fewer than
`alignment` zero bytes, and the number of bytes appended is a multiple of the alignment; so when the
stream was aligned before, it is aligned after. -/
theorem C71_aligned (out buffer : List Nat) (alignment : Nat) (ha : 0 < alignment) :
    ∃ k, k < alignment ∧ alignedWrite out buffer alignment = out ++ buffer ++ List.replicate k 0
      ∧ (buffer.length + k) % alignment = 0 := by
  refine ⟨(alignment - buffer.length % alignment) % alignment, Nat.mod_lt _ ha, rfl, ?_⟩
  have h1 := Nat.mod_lt buffer.length ha
  rw [Nat.add_mod, Nat.mod_mod]
  generalize buffer.length % alignment = m at *
  rcases Nat.eq_zero_or_pos m with rfl | hm
  · simp
  · rw [Nat.mod_eq_of_lt (a := alignment - m) (by omega)]
    have : m + (alignment - m) = alignment := by omega
    rw [this, Nat.mod_self]

example : packInt4Row [-8, 7, 3, -1] = some [240, 123]
    ∧ readInt4Row [240, 123] = [-8, 7, 3, -1] := by decide +kernel
example : packInt4 8 0 = none ∧ packBiased (-128) = 0 ∧ packBiased 127 = 255 := by decide +kernel
example : alignedWrite [1] [5, 6, 7] 4 = [1, 5, 6, 7, 0] := by decide +kernel

end Verif.Export
