import Verif.Export.Bits
import Mathlib.Tactic.Ring
import Mathlib.Tactic.Linarith
import Mathlib.Algebra.Order.Ring.Nat

namespace Verif.Export

/-- Value of a digit list in base `b`, least significant first. -/
def ofDigits (b : Nat) : List Nat → Nat
  | [] => 0
  | d :: ds => d + b * ofDigits b ds

theorem ofDigits_append (b : Nat) (l r : List Nat) :
    ofDigits b (l ++ r) = ofDigits b l + b ^ l.length * ofDigits b r := by
  induction l with
  | nil => simp [ofDigits]
  | cons d ds ih => simp [ofDigits, ih, pow_succ]; ring

theorem ofDigits_lt (b : Nat) (_hb : 0 < b) (l : List Nat) (h : ∀ d ∈ l, d < b) :
    ofDigits b l < b ^ l.length := by
  induction l with
  | nil => simp [ofDigits]
  | cons d ds ih =>
      have h1 := h d (by simp)
      have h2 := ih (fun x hx => h x (by simp [hx]))
      simp only [ofDigits, List.length_cons, pow_succ]
      calc d + b * ofDigits b ds < b + b * ofDigits b ds := by omega
        _ = b * (ofDigits b ds + 1) := by ring
        _ ≤ b * b ^ ds.length := Nat.mul_le_mul_left _ h2
        _ = _ := by ring

theorem ofDigits_digit (b : Nat) (hb : 0 < b) (l : List Nat) (h : ∀ d ∈ l, d < b) (i : Nat)
    (hi : i < l.length) : ofDigits b l / b ^ i % b = l[i] := by
  induction l generalizing i with
  | nil => simp at hi
  | cons d ds ih =>
      have h1 := h d (by simp)
      have h2 : ∀ x ∈ ds, x < b := fun x hx => h x (by simp [hx])
      cases i with
      | zero => simp [ofDigits, Nat.add_mul_mod_self_left, Nat.mod_eq_of_lt h1]
      | succ k =>
          simp only [ofDigits, pow_succ]
          rw [Nat.mul_comm (b ^ k) b, ← Nat.div_div_eq_div_mul, Nat.add_mul_div_left _ _ hb,
            Nat.div_eq_of_lt h1, Nat.zero_add]
          simpa using ih h2 k (by simpa using hi)

theorem maskFeature_lt (fb : Nat) (x : Int) : maskFeature fb x < 2 ^ fb := by
  unfold maskFeature
  rw [Nat.and_two_pow_sub_one_eq_mod]
  exact Nat.mod_lt _ (by positivity)

theorem or_shl (w u t : Nat) (hw : w < 2 ^ u) : w ||| (t <<< u) = w + t * 2 ^ u := by
  rw [Nat.or_comm, Nat.shiftLeft_eq, Nat.mul_comm, ← Nat.two_pow_add_eq_or_of_lt hw, Nat.add_comm]

theorem shl64_eq (v u : Nat) (hu : u ≤ 64) : shl64 v u = (v % 2 ^ (64 - u)) * 2 ^ u := by
  unfold shl64
  rw [Nat.shiftLeft_eq]
  have : (2 : Nat) ^ 64 = 2 ^ (64 - u) * 2 ^ u := by rw [← pow_add]; congr 1; omega
  rw [this, Nat.mul_mod_mul_right]

/-- Loop invariant of the writer. -/
structure PInv (fb : Nat) (xs : List Int) (s : Packer) : Prop where
  word : s.word < 2 ^ s.used
  used : s.used ≤ 64
  pos : xs ≠ [] → 0 < s.used
  out : ∀ w ∈ s.out, w < 2 ^ 64
  bits : 64 * s.out.length + s.used = fb * xs.length
  val : ofDigits (2 ^ 64) s.out + (2 ^ 64) ^ s.out.length * s.word
          = ofDigits (2 ^ fb) (xs.map (maskFeature fb))

theorem packStep_inv (fb : Nat) (h0 : 0 < fb) (h64 : fb ≤ 64) (xs : List Int) (s : Packer) (x : Int)
    (h : PInv fb xs s) : PInv fb (xs ++ [x]) (packStep fb s x) := by
  obtain ⟨hw, hu, -, ho, hb, hv⟩ := h
  have hvlt := maskFeature_lt fb x
  set v := maskFeature fb x with hvdef
  have hword : s.word ||| shl64 v s.used = s.word + (v % 2 ^ (64 - s.used)) * 2 ^ s.used := by
    rw [shl64_eq _ _ hu, ← Nat.shiftLeft_eq, or_shl _ _ _ hw, Nat.shiftLeft_eq] <;> try rfl
  have hscale : (2 ^ fb : Nat) ^ xs.length = (2 ^ 64) ^ s.out.length * 2 ^ s.used := by
    rw [← pow_mul, ← pow_mul, ← pow_add, hb]
  have hval : ofDigits (2 ^ fb) ((xs ++ [x]).map (maskFeature fb))
      = ofDigits (2 ^ fb) (xs.map (maskFeature fb)) + (2 ^ fb) ^ xs.length * v := by
    rw [List.map_append, ofDigits_append]; simp [ofDigits, hvdef]
  unfold packStep
  rw [← hvdef]
  simp only
  by_cases hc : 64 - s.used ≥ fb
  · rw [if_pos hc, hword]
    have hm : v % 2 ^ (64 - s.used) = v :=
      Nat.mod_eq_of_lt (lt_of_lt_of_le hvlt (Nat.pow_le_pow_right (by norm_num) hc))
    rw [hm]
    refine ⟨?_, ?_, ?_, ho, ?_, ?_⟩
    · show s.word + v * 2 ^ s.used < 2 ^ (s.used + fb)
      rw [pow_add]
      nlinarith [Nat.mul_le_mul_right (2 ^ s.used) (Nat.succ_le_of_lt hvlt)]
    · show s.used + fb ≤ 64
      omega
    · intro _; show 0 < s.used + fb; omega
    · show 64 * s.out.length + (s.used + fb) = _
      simp only [List.length_append, List.length_singleton]
      rw [Nat.mul_add]; omega
    · show ofDigits (2 ^ 64) s.out + (2 ^ 64) ^ s.out.length * (s.word + v * 2 ^ s.used) = _
      rw [hval, ← hv, hscale]; ring
  · rw [if_neg hc, hword]
    have hsplit : v = (v % 2 ^ (64 - s.used)) + 2 ^ (64 - s.used) * (v / 2 ^ (64 - s.used)) :=
      (Nat.mod_add_div _ _).symm
    have hpow : (2 : Nat) ^ (64 - s.used) * 2 ^ s.used = 2 ^ 64 := by
      rw [← pow_add]; congr 1; omega
    refine ⟨?_, ?_, ?_, ?_, ?_, ?_⟩
    · show v >>> (64 - s.used) < 2 ^ (fb - (64 - s.used))
      rw [Nat.shiftRight_eq_div_pow, Nat.div_lt_iff_lt_mul (by positivity), ← pow_add]
      have : fb - (64 - s.used) + (64 - s.used) = fb := by omega
      rw [this]; exact hvlt
    · show fb - (64 - s.used) ≤ 64
      omega
    · intro _; show 0 < fb - (64 - s.used); omega
    · intro w hmem
      simp only [List.mem_append, List.mem_singleton] at hmem
      rcases hmem with hmem | rfl
      · exact ho w hmem
      · have := Nat.mod_lt v (show 0 < 2 ^ (64 - s.used) by positivity)
        nlinarith [Nat.mul_le_mul_right (2 ^ s.used) (Nat.succ_le_of_lt this)]
    · show 64 * (s.out ++ [_]).length + (fb - (64 - s.used)) = _
      simp only [List.length_append, List.length_singleton]
      rw [Nat.mul_add, Nat.mul_add]; omega
    · show ofDigits (2 ^ 64) (s.out ++ [_]) + (2 ^ 64) ^ (s.out ++ [_]).length
        * (v >>> (64 - s.used)) = _
      rw [hval, ← hv, hscale, ofDigits_append, Nat.shiftRight_eq_div_pow]
      simp only [List.length_append, List.length_singleton, ofDigits, Nat.mul_zero, Nat.add_zero]
      rw [pow_succ (2 ^ 64) s.out.length]
      generalize hP : (2 ^ 64 : Nat) ^ s.out.length = P
      generalize ofDigits (2 ^ 64) s.out = O
      rw [← hpow]
      generalize v / 2 ^ (64 - s.used) = q at *
      generalize v % 2 ^ (64 - s.used) = r at *
      rw [hsplit]; ring

theorem fold_inv (fb : Nat) (h0 : 0 < fb) (h64 : fb ≤ 64) (ys : List Int) :
    ∀ (xs : List Int) (s : Packer), PInv fb xs s → PInv fb (xs ++ ys) (ys.foldl (packStep fb) s) := by
  induction ys with
  | nil => intro xs s h; simpa using h
  | cons y ys ih =>
      intro xs s h
      have := ih (xs ++ [y]) _ (packStep_inv fb h0 h64 xs s y h)
      simpa using this

theorem pack_inv (fb : Nat) (h0 : 0 < fb) (h64 : fb ≤ 64) (xs : List Int) :
    PInv fb xs (xs.foldl (packStep fb) { word := 0, used := 0, out := [] }) := by
  have := fold_inv fb h0 h64 xs [] { word := 0, used := 0, out := [] }
    ⟨by norm_num, by norm_num, by simp, by simp, by simp, by simp [ofDigits]⟩
  simpa using this

theorem packWords_spec (fb : Nat) (h0 : 0 < fb) (h64 : fb ≤ 64) (xs : List Int) :
    ofDigits (2 ^ 64) (packWords fb xs) = ofDigits (2 ^ fb) (xs.map (maskFeature fb))
    ∧ (∀ w ∈ packWords fb xs, w < 2 ^ 64)
    ∧ (packWords fb xs).length = (fb * xs.length + 63) / 64 := by
  have h := pack_inv fb h0 h64 xs
  unfold packWords
  simp only
  generalize xs.foldl (packStep fb) { word := 0, used := 0, out := [] } = s at h
  obtain ⟨hw, hu, hp, ho, hb, hv⟩ := h
  by_cases hc : s.used > 0
  · rw [if_pos hc]
    refine ⟨?_, ?_, ?_⟩
    · rw [ofDigits_append, ← hv]; simp [ofDigits]
    · intro w hm
      simp only [List.mem_append, List.mem_singleton] at hm
      rcases hm with hm | rfl
      · exact ho w hm
      · exact lt_of_lt_of_le hw (Nat.pow_le_pow_right (by norm_num) hu)
    · simp only [List.length_append, List.length_singleton]; omega
  · rw [if_neg hc]
    have hz : s.used = 0 := by omega
    rw [hz] at hw hb
    have hw0 : s.word = 0 := by simpa using hw
    refine ⟨?_, ho, by omega⟩
    rw [← hv, hw0]; simp

theorem ofDigits_wordBytes (w : Nat) (h : w < 2 ^ 64) : ofDigits 256 (wordBytes w) = w := by
  have : wordBytes w = [w % 256, w / 256 % 256, w / 256 ^ 2 % 256, w / 256 ^ 3 % 256,
      w / 256 ^ 4 % 256, w / 256 ^ 5 % 256, w / 256 ^ 6 % 256, w / 256 ^ 7 % 256] := by
    simp [wordBytes, List.range, List.range.loop]
  rw [this]
  simp only [ofDigits]
  norm_num at h ⊢
  omega

theorem ofDigits_bytes (ws : List Nat) (h : ∀ w ∈ ws, w < 2 ^ 64) :
    ofDigits 256 (ws.flatMap wordBytes) = ofDigits (2 ^ 64) ws := by
  induction ws with
  | nil => rfl
  | cons w ws ih =>
      rw [List.flatMap_cons, ofDigits_append, ih (fun x hx => h x (by simp [hx])),
        ofDigits_wordBytes w (h w (by simp))]
      have : (wordBytes w).length = 8 := by simp [wordBytes]
      rw [this]
      simp only [ofDigits]
      norm_num

end Verif.Export
