import Verif.Export.BitsLemmas
import Mathlib.Tactic.NormNum
import Mathlib.Tactic.Positivity

/-
C51: the compressed feature stream is lossless.

Specification side.  The file is read as one long little-endian bit string: feature `i` occupies the
bits `fb*i, …, fb*i + fb - 1` and is a two's complement number.
-/
namespace Verif.Export

/-- Number denoted by a little-endian byte string. -/
def leNat : List Nat → Nat
  | [] => 0
  | b :: bs => b + 256 * leNat bs

/-- Two's complement reading of an `fb`-bit field. -/
def signExtend (fb n : Nat) : Int :=
  if n < 2 ^ (fb - 1) then (n : Int) else (n : Int) - 2 ^ fb

/-- Reader: field number `i` of the stream. -/
def readFeature (fb : Nat) (bytes : List Nat) (i : Nat) : Int :=
  signExtend fb (leNat bytes / 2 ^ (fb * i) % 2 ^ fb)

theorem leNat_eq (bs : List Nat) : leNat bs = ofDigits 256 bs := by
  induction bs with
  | nil => rfl
  | cons b bs ih => simp [leNat, ofDigits, ih]

theorem signExtend_mask (fb : Nat) (h0 : 0 < fb) (h64 : fb ≤ 64) (x : Int)
    (hl : -(2 ^ (fb - 1) : Int) ≤ x) (hh : x < 2 ^ (fb - 1)) :
    signExtend fb (maskFeature fb x) = x := by
  have hm : (maskFeature fb x : Int) = x % 2 ^ fb := by
    unfold maskFeature
    rw [Nat.and_two_pow_sub_one_eq_mod]
    push_cast
    rw [Int.toNat_of_nonneg (Int.emod_nonneg _ (by norm_num))]
    apply Int.emod_emod_of_dvd
    exact pow_dvd_pow 2 h64
  have hp : (2 : Int) ^ fb = 2 * 2 ^ (fb - 1) := by
    rw [← pow_succ']; congr 1; omega
  have hpos : (0 : Int) < 2 ^ (fb - 1) := by positivity
  unfold signExtend
  have hcast : ((2 ^ (fb - 1) : Nat) : Int) = 2 ^ (fb - 1) := by push_cast; rfl
  by_cases hx : 0 ≤ x
  · have h1 : x % 2 ^ fb = x := Int.emod_eq_of_lt hx (by rw [hp]; linarith)
    rw [if_pos (by rw [← Int.ofNat_lt, hcast]; show (maskFeature fb x : Int) < _; rw [hm, h1]; exact hh), hm, h1]
  · have h1 : x % 2 ^ fb = x + 2 ^ fb := by
      rw [← Int.add_emod_right, Int.emod_eq_of_lt] <;> rw [hp] <;> linarith
    rw [if_neg (by rw [← Int.ofNat_lt, hcast]; show ¬ (maskFeature fb x : Int) < _; rw [hm, h1, hp]; linarith),
      hm, h1]
    ring

/-- **C51.**  For every field width up to 64 bits and every list of values representable in that
width, reading field `i` of the written byte stream gives back value `i`. -/
theorem C51_lossless (fb : Nat) (h0 : 0 < fb) (h64 : fb ≤ 64) (xs : List Int)
    (hx : ∀ x ∈ xs, -(2 ^ (fb - 1) : Int) ≤ x ∧ x < 2 ^ (fb - 1)) (i : Nat) (hi : i < xs.length) :
    readFeature fb (packBytes fb xs) i = xs[i] := by
  obtain ⟨hv, hlt, -⟩ := packWords_spec fb h0 h64 xs
  unfold readFeature packBytes
  rw [leNat_eq, ofDigits_bytes _ hlt, hv, pow_mul,
    ofDigits_digit (2 ^ fb) (by positivity) _
      (by intro d hd; obtain ⟨x, -, rfl⟩ := List.mem_map.1 hd; exact maskFeature_lt fb x) i
      (by simpa using hi)]
  rw [List.getElem_map]
  obtain ⟨h1, h2⟩ := hx _ (List.getElem_mem hi)
  exact signExtend_mask fb h0 h64 _ h1 h2

/-- **C51**, the width the exporters use: 10-bit features in `[-512, 511]`. -/
theorem C51_lossless_10 (xs : List Int) (hx : ∀ x ∈ xs, -512 ≤ x ∧ x ≤ 511) (i : Nat)
    (hi : i < xs.length) : readFeature 10 (packBytes 10 xs) i = xs[i] :=
  C51_lossless 10 (by norm_num) (by norm_num) xs
    (fun x h => by have := hx x h; constructor <;> norm_num <;> omega) i hi

/-- **C51**, size: the stream consists of bytes, exactly `ceil (fb * n / 64)` 64-bit words of them,
and every bit after the last feature is zero. -/
theorem C51_size (fb : Nat) (h0 : 0 < fb) (h64 : fb ≤ 64) (xs : List Int) :
    (packBytes fb xs).length = 8 * ((fb * xs.length + 63) / 64)
    ∧ (∀ b ∈ packBytes fb xs, b < 256)
    ∧ leNat (packBytes fb xs) < 2 ^ (fb * xs.length) := by
  obtain ⟨hv, hlt, hlen⟩ := packWords_spec fb h0 h64 xs
  refine ⟨?_, ?_, ?_⟩
  · rw [← hlen]; unfold packBytes
    induction packWords fb xs with
    | nil => rfl
    | cons w ws ih =>
        rw [List.flatMap_cons, List.length_append, ih]
        simp only [wordBytes, List.length_map, List.length_range, List.length_cons]; ring
  · intro b hb
    unfold packBytes at hb
    obtain ⟨w, -, hw⟩ := List.mem_flatMap.1 hb
    obtain ⟨j, -, rfl⟩ := List.mem_map.1 hw
    exact Nat.mod_lt _ (by norm_num)
  · unfold packBytes
    rw [leNat_eq, ofDigits_bytes _ hlt, hv, pow_mul]
    have := ofDigits_lt (2 ^ fb) (by positivity) (xs.map (maskFeature fb))
      (by intro d hd; obtain ⟨x, -, rfl⟩ := List.mem_map.1 hd; exact maskFeature_lt fb x)
    simpa using this

theorem roundEven_mono_bounds (q : ℚ) (a b : Int) (ha : (a : ℚ) ≤ q) (hb : q ≤ b) :
    a ≤ roundEven q ∧ roundEven q ≤ b := by
  have h1 : a ≤ ⌊q⌋ := Int.le_floor.2 ha
  have h2 : (⌊q⌋ : ℚ) ≤ q := Int.floor_le q
  have key : q - ⌊q⌋ ≠ 0 → ⌊q⌋ + 1 ≤ b := by
    intro hne
    have h3 : (⌊q⌋ : ℚ) < b := lt_of_lt_of_le (lt_of_le_of_ne h2 (fun h => hne (by linarith))) hb
    have : ⌊q⌋ < b := by exact_mod_cast h3
    omega
  have h4 : ⌊q⌋ ≤ b := by
    have : (⌊q⌋ : ℚ) ≤ b := le_trans h2 hb
    exact_mod_cast this
  unfold roundEven
  simp only
  split_ifs with c1 c2 c3
  · exact ⟨h1, h4⟩
  · exact ⟨by omega, key (by linarith)⟩
  · exact ⟨h1, h4⟩
  · exact ⟨by omega, key (by intro h; rw [h] at c1; norm_num at c1)⟩

/-- **C51**, the quantiser in front of the writer always produces values the writer can represent,
with an error of at most half a quantisation step for features inside the clipping range. -/
theorem C51_quantised_range (x : ℚ) :
    -512 ≤ quantFeature x ∧ quantFeature x ≤ 511
    ∧ (-16 ≤ x → x ≤ 511 / 32 → |(quantFeature x : ℚ) / 32 - x| ≤ 1 / 64) := by
  have hb := roundEven_mono_bounds (min (max x (-16)) (511 / 32) * 32) (-512) 511
    (by
      have : (-16 : ℚ) ≤ min (max x (-16)) (511 / 32) := le_min (le_max_right _ _) (by norm_num)
      push_cast; linarith)
    (by
      have : min (max x (-16)) (511 / 32) ≤ (511 / 32 : ℚ) := min_le_right _ _
      push_cast; linarith)
  refine ⟨hb.1, hb.2, ?_⟩
  intro hl hh
  unfold quantFeature
  rw [max_eq_left hl, min_eq_left hh]
  have h2 := Int.floor_le (x * 32)
  have h3 := Int.lt_floor_add_one (x * 32)
  unfold roundEven
  simp only
  rw [abs_le]
  split_ifs with c1 c2 c3 <;> push_cast <;> constructor <;> linarith

/-- Non-vacuity: seven 10-bit features spill over the first word; reading them back works. -/
example : packWords 10 [-512, 511, -1, 0, 1, 300, -300] =
      [4949457091065019904, 45]
    ∧ (List.range 7).map (readFeature 10 (packBytes 10 [-512, 511, -1, 0, 1, 300, -300]))
      = [-512, 511, -1, 0, 1, 300, -300] := by
  constructor <;> decide +kernel

/-- Non-vacuity: 32 features fill 5 words exactly, 33 need a sixth. -/
example : (packWords 10 (List.replicate 32 (-1))).length = 5
    ∧ (packWords 10 (List.replicate 33 (-1))).length = 6
    ∧ readFeature 10 (packBytes 10 (List.replicate 33 (-1))) 32 = -1 := by decide +kernel

end Verif.Export
