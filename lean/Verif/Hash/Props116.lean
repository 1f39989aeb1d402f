import Verif.Hash.Model
import Mathlib.Tactic.Linarith
import Mathlib.Tactic.Ring
import Mathlib.Tactic.Push
import Mathlib.Tactic.ByContra
import Mathlib.Tactic.Positivity
import Mathlib.Algebra.Order.Ring.Abs
import Mathlib.Algebra.BigOperators.Fin
import Mathlib.Data.Nat.Lattice
import Mathlib.Data.Real.Archimedean

/-!
# C116: hashed features read one row of every sub-table, a row of their own when the hash is perfect, and bad input is refused
-/
namespace Verif.Hash

/-! ### Specification -/

/-- A layer that can be built and used. -/
structure Usable (c : Cfg) : Prop where
  level : 1 ≤ c.level
  subs : 1 ≤ c.subs
  divisor : 1 ≤ c.divisor

/-- An input of the right length with every level in `[0, level)`. -/
def Valid (c : Cfg) (x : List Int) : Prop := x.length = c.n ∧ ∀ a ∈ x, 0 ≤ a ∧ a < (c.level : Int)

/-- The key of a valid input: its value in base `level` if all inputs fit the table, else the sum of its hashes modulo the table size. -/
def key (c : Cfg) (hashs : Nat → Int → Int) (x : List Int) : Int :=
  if c.level ^ c.n ≤ 2 ^ c.logsize then ∑ i : Fin x.length, x.get i * (c.level : Int) ^ (i : Nat)
  else (∑ i : Fin x.length, hashs i (x.get i)) % (2 : Int) ^ c.logsize

/-! ### Auxiliary -/

theorem dot_sum (level : Nat) : ∀ (x : List Int) (i : Nat), dot level i x = ∑ j : Fin x.length, x.get j * (level : Int) ^ (i + (j : Nat))
  | [], _ => rfl
  | a :: r, i => by
    show a * (level : Int) ^ i + dot level (i + 1) r = ∑ j : Fin (r.length + 1), _
    rw [Fin.sum_univ_succ, dot_sum level r]
    congr 1
    refine Finset.sum_congr rfl fun j _ => ?_
    show _ = r.get j * (level : Int) ^ (i + ((j : Nat) + 1))
    rw [Nat.add_assoc, Nat.add_comm 1]

theorem hashSum_sum (hashs : Nat → Int → Int) : ∀ (x : List Int) (i : Nat), hashSum hashs i x = ∑ j : Fin x.length, hashs (i + (j : Nat)) (x.get j)
  | [], _ => rfl
  | a :: r, i => by
    show hashs i a + hashSum hashs (i + 1) r = ∑ j : Fin (r.length + 1), _
    rw [Fin.sum_univ_succ, hashSum_sum hashs r]
    congr 1
    refine Finset.sum_congr rfl fun j _ => ?_
    show _ = hashs (i + ((j : Nat) + 1)) (r.get j)
    rw [Nat.add_assoc, Nat.add_comm 1]

theorem index_key (c : Cfg) (hashs : Nat → Int → Int) (x : List Int) : index c hashs false x = some (key c hashs x) := by
  unfold index key
  by_cases hp : c.level ^ c.n ≤ 2 ^ c.logsize
  · have hpf : perfect c = true := decide_eq_true hp
    rw [if_pos hpf, if_neg (by decide), if_pos hp, dot_sum]
    simp only [Nat.zero_add]
  · have hpf : ¬ perfect c = true := fun h => hp (of_decide_eq_true h)
    rw [if_neg hpf, if_neg (by decide), if_neg hp, hashSum_sum]
    simp only [Nat.zero_add]


theorem invalid_iff (c : Cfg) (x : List Int) : invalid c x = false ↔ ∀ a ∈ x, 0 ≤ a ∧ a < (c.level : Int) := by
  unfold invalid
  rw [List.any_eq_false]
  constructor
  · intro h a ha
    have := h a ha
    simp only [Bool.or_eq_true, decide_eq_true_iff, not_or, not_lt, not_le] at this
    exact this
  · intro h a ha
    have := h a ha
    simp only [Bool.or_eq_true, decide_eq_true_iff, not_or, not_lt, not_le]
    exact this

/-- The same number by Horner's rule. -/
def horner (level : Nat) : List Int → Int
  | [] => 0
  | a :: r => a + (level : Int) * horner level r

theorem dot_horner (level : Nat) : ∀ (x : List Int) (i : Nat), dot level i x = (level : Int) ^ i * horner level x
  | [], i => by show (0 : Int) = _ * 0; ring
  | a :: r, i => by
    show a * (level : Int) ^ i + dot level (i + 1) r = (level : Int) ^ i * (a + (level : Int) * horner level r)
    rw [dot_horner level r]
    ring

theorem dot_zero (level : Nat) (x : List Int) : dot level 0 x = horner level x := by rw [dot_horner]; ring

theorem horner_range (level : Nat) : ∀ x : List Int, (∀ a ∈ x, 0 ≤ a ∧ a < (level : Int)) → 0 ≤ horner level x ∧ horner level x < (level : Int) ^ x.length
  | [], _ => by constructor <;> simp [horner]
  | a :: r, h => by
    obtain ⟨h1, h2⟩ := h a List.mem_cons_self
    obtain ⟨h3, h4⟩ := horner_range level r fun b hb => h b (List.mem_cons_of_mem _ hb)
    have hl : (0 : Int) ≤ (level : Int) := Int.natCast_nonneg _
    show 0 ≤ a + (level : Int) * horner level r ∧ a + (level : Int) * horner level r < (level : Int) ^ (r.length + 1)
    have h5 : (level : Int) * horner level r ≤ (level : Int) * ((level : Int) ^ r.length - 1) := mul_le_mul_of_nonneg_left (by linarith) hl
    refine ⟨add_nonneg h1 (mul_nonneg hl h3), ?_⟩
    rw [pow_succ]
    linarith

theorem horner_inj (level : Nat) : ∀ x y : List Int, x.length = y.length → (∀ a ∈ x, 0 ≤ a ∧ a < (level : Int)) → (∀ a ∈ y, 0 ≤ a ∧ a < (level : Int)) →
    horner level x = horner level y → x = y
  | [], [], _, _, _, _ => rfl
  | [], _ :: _, h, _, _, _ => by cases h
  | _ :: _, [], h, _, _, _ => by cases h
  | a :: r, b :: s, hl, hx, hy, h => by
    have h' : a + (level : Int) * horner level r = b + (level : Int) * horner level s := h
    obtain ⟨h1, h2⟩ := hx a List.mem_cons_self
    obtain ⟨h3, h4⟩ := hy b List.mem_cons_self
    have e1 : (a + (level : Int) * horner level r) % (level : Int) = a := by rw [Int.add_mul_emod_self_left, Int.emod_eq_of_lt h1 h2]
    have e2 : (b + (level : Int) * horner level s) % (level : Int) = b := by rw [Int.add_mul_emod_self_left, Int.emod_eq_of_lt h3 h4]
    have hab : a = b := by rw [← e1, ← e2, h']
    have hrs : horner level r = horner level s := by
      have : (level : Int) * horner level r = (level : Int) * horner level s := by linarith
      exact mul_left_cancel₀ (show (level : Int) ≠ 0 by omega) this
    rw [hab, horner_inj level r s (Nat.succ.inj hl) (fun c hc => hx c (List.mem_cons_of_mem _ hc)) (fun c hc => hy c (List.mem_cons_of_mem _ hc)) hrs]

theorem horner_surj (level : Nat) (hlv : 1 ≤ level) : ∀ (n : Nat) (v : Int), 0 ≤ v → v < (level : Int) ^ n →
    ∃ x : List Int, x.length = n ∧ (∀ a ∈ x, 0 ≤ a ∧ a < (level : Int)) ∧ horner level x = v
  | 0, v, h0, h1 => ⟨[], rfl, fun a h => absurd h List.not_mem_nil, by
      show (0 : Int) = v
      rw [pow_zero] at h1
      omega⟩
  | n + 1, v, h0, h1 => by
    have hl : (0 : Int) < (level : Int) := by exact_mod_cast hlv
    rw [pow_succ] at h1
    obtain ⟨x, h2, h3, h4⟩ := horner_surj level hlv n (v / (level : Int)) (Int.ediv_nonneg h0 hl.le) (Int.ediv_lt_of_lt_mul hl h1)
    refine ⟨v % (level : Int) :: x, by rw [List.length_cons, h2], ?_, ?_⟩
    · intro a ha
      rcases List.mem_cons.mp ha with rfl | ha
      · exact ⟨Int.emod_nonneg v hl.ne', Int.emod_lt_of_pos v hl⟩
      · exact h3 a ha
    · show v % (level : Int) + (level : Int) * horner level x = v
      rw [h4]
      exact Int.emod_add_mul_ediv v (level : Int)

theorem features_pos (c : Cfg) (hc : Usable c) : 0 < features c := by
  unfold features
  by_cases h : perfect c = true
  · rw [if_pos h]; exact Nat.pow_pos hc.level
  · rw [if_neg h]; exact Nat.pow_pos (by decide)

/-- The index of a valid input lies in the full table. -/
theorem index_valid (c : Cfg) (hashs : Nat → Int → Int) (x : List Int) (hx : Valid c x) :
    ∃ k : Nat, index c hashs (invalid c x) x = some (k : Int) ∧ k < features c ∧ (perfect c = true → (k : Int) = horner c.level x) := by
  have hinv := (invalid_iff c x).mpr hx.2
  rw [hinv]
  unfold index features
  by_cases hp : perfect c = true
  · rw [if_pos hp, if_neg (by decide), if_pos hp, dot_zero]
    obtain ⟨h1, h2⟩ := horner_range c.level x hx.2
    rw [hx.1] at h2
    refine ⟨(horner c.level x).toNat, by rw [Int.toNat_of_nonneg h1], ?_, fun _ => Int.toNat_of_nonneg h1⟩
    have : ((horner c.level x).toNat : Int) < ((c.level ^ c.n : Nat) : Int) := by
      rw [Int.toNat_of_nonneg h1]; push_cast; exact h2
    exact_mod_cast this
  · rw [if_neg hp, if_neg (by decide), if_neg hp]
    have hpos : (0 : Int) < 2 ^ c.logsize := by positivity
    have h1 := Int.emod_nonneg (hashSum hashs 0 x) hpos.ne'
    have h2 := Int.emod_lt_of_pos (hashSum hashs 0 x) hpos
    refine ⟨(hashSum hashs 0 x % 2 ^ c.logsize).toNat, by rw [Int.toNat_of_nonneg h1], ?_, fun h => absurd h hp⟩
    have : ((hashSum hashs 0 x % 2 ^ c.logsize).toNat : Int) < ((2 ^ c.logsize : Nat) : Int) := by
      rw [Int.toNat_of_nonneg h1]; push_cast; exact h2
    exact_mod_cast this

theorem offset_mono (c : Cfg) {i j : Nat} (h : i ≤ j) : offset c i ≤ offset c j := by
  induction j with
  | zero => rw [Nat.le_zero.mp h]
  | succ j ih =>
    rcases Nat.lt_or_ge i (j + 1) with h1 | h1
    · exact (ih (by omega)).trans (Nat.le_add_right _ _)
    · rw [Nat.le_antisymm h h1]

/-- Halving an index of the full table stays in the sub-table. -/
theorem sub_lt (c : Cfg) (hc : Usable c) {k : Nat} (hk : k < features c) (i : Nat) : k / c.divisor ^ i < subSize c i := by
  have hd : 0 < c.divisor ^ i := Nat.pow_pos hc.divisor
  unfold subSize
  rw [Nat.div_lt_iff_lt_mul hd]
  have h1 := Nat.div_add_mod (features c + c.divisor ^ i - 1) (c.divisor ^ i)
  have h2 := Nat.mod_lt (features c + c.divisor ^ i - 1) hd
  have h3 : (features c + c.divisor ^ i - 1) / c.divisor ^ i * c.divisor ^ i = c.divisor ^ i * ((features c + c.divisor ^ i - 1) / c.divisor ^ i) := Nat.mul_comm _ _
  omega

theorem rowsFrom_eq (c : Cfg) (hc : Usable c) {k : Nat} (hk : k < features c) : ∀ (left i : Nat), i + left = c.subs →
    rowsFrom c i left ((k / c.divisor ^ i : Nat) : Int) = some ((List.range' i left).map fun j => offset c j + k / c.divisor ^ j)
  | 0, i, _ => rfl
  | left + 1, i, h => by
    have hlt := sub_lt c hc hk i
    have hoff : offset c (i + 1) ≤ offset c c.subs := offset_mono c (by omega)
    have hstep : offset c (i + 1) = offset c i + subSize c i := rfl
    have hlook : lookup c (((k / c.divisor ^ i : Nat) : Int) + (offset c i : Int)) = some (offset c i + k / c.divisor ^ i) := by
      unfold lookup rowsTotal
      have hcast : ((k / c.divisor ^ i : Nat) : Int) + (offset c i : Int) = ((k / c.divisor ^ i + offset c i : Nat) : Int) := by push_cast; ring
      rw [hcast, if_pos ⟨Int.natCast_nonneg _, by
        have : k / c.divisor ^ i + offset c i < offset c c.subs := by omega
        exact_mod_cast this⟩, Int.toNat_natCast, Nat.add_comm]
    have hdiv : ((k / c.divisor ^ i : Nat) : Int) / (c.divisor : Int) = ((k / c.divisor ^ (i + 1) : Nat) : Int) := by
      rw [pow_succ, ← Nat.div_div_eq_div_mul]
      exact (Int.natCast_div _ _).symm
    show (match lookup c (((k / c.divisor ^ i : Nat) : Int) + (offset c i : Int)) with
      | none => none
      | some r => (rowsFrom c (i + 1) left (((k / c.divisor ^ i : Nat) : Int) / (c.divisor : Int))).map fun l => r :: l) = _
    rw [hlook, hdiv]
    simp only []
    rw [rowsFrom_eq c hc hk left (i + 1) (by omega)]
    rfl

theorem rowsOf_invalid (c : Cfg) (hc : Usable c) (hashs : Nat → Int → Int) (x : List Int) : rowsOf c hashs true x = none := by
  unfold rowsOf index
  by_cases hp : perfect c = true
  · rw [if_pos hp, if_pos rfl]
    simp only []
    obtain ⟨s, hs⟩ : ∃ s, c.subs = s + 1 := ⟨c.subs - 1, by have := hc.subs; omega⟩
    have hl : lookup c ((offset c c.subs : Int) + (offset c 0 : Int)) = none := by
      unfold lookup rowsTotal
      refine if_neg ?_
      show ¬ (0 ≤ (offset c c.subs : Int) + ((0 : Nat) : Int) ∧ (offset c c.subs : Int) + ((0 : Nat) : Int) < (offset c c.subs : Int))
      omega
    have : ∀ left, rowsFrom c 0 (left + 1) (offset c c.subs : Int) = none := by
      intro left
      show (match lookup c ((offset c c.subs : Int) + (offset c 0 : Int)) with
        | none => none
        | some r => (rowsFrom c (0 + 1) left ((offset c c.subs : Int) / (c.divisor : Int))).map fun l => r :: l) = none
      rw [hl]
    have h := this s
    rw [← hs] at h
    exact h
  · rw [if_neg hp, if_pos rfl]

/-! ### Theorems -/

/-- **C116 (rows).** A valid input reads one row of every sub-table — sub-tables lie one after the other and cover the embedding: in the first that of its
key, in sub-table `i` that of the key divided by `divisor ^ i`. -/
theorem C116_rows (c : Cfg) (hc : Usable c) (hashs : Nat → Int → Int) (x : List Int) (hx : Valid c x) :
    ∃ (l : List Nat) (k : Nat), rows c hashs x = some l ∧ l.length = c.subs ∧ (k : Int) = key c hashs x ∧
      ∀ i < c.subs, l[i]? = some (offset c i + k / c.divisor ^ i) ∧
        offset c i + k / c.divisor ^ i < offset c (i + 1) ∧ offset c (i + 1) ≤ rowsTotal c := by
  obtain ⟨k, hk, hlt, _⟩ := index_valid c hashs x hx
  have hinv := (invalid_iff c x).mpr hx.2
  have hkey : (k : Int) = key c hashs x := by
    rw [hinv, index_key] at hk
    exact (Option.some.inj hk).symm
  refine ⟨(List.range' 0 c.subs).map fun j => offset c j + k / c.divisor ^ j, k, ?_, by rw [List.length_map, List.length_range'], hkey, ?_⟩
  · have := rowsFrom_eq c hc hlt c.subs 0 (by omega)
    rw [pow_zero, Nat.div_one] at this
    unfold rows rowsOf
    rw [hk]
    exact this
  · intro i hi
    have hs := sub_lt c hc hlt i
    refine ⟨?_, ?_, offset_mono c (by omega)⟩
    · rw [List.getElem?_map, List.getElem?_range' hi]
      simp
    · show offset c i + k / c.divisor ^ i < offset c i + subSize c i
      omega

/-- **C116 (bad input).** An input with a level outside `[0, level)` is an error, whatever the layer. -/
theorem C116_refused (c : Cfg) (hc : Usable c) (hashs : Nat → Int → Int) (x : List Int) (hx : ∃ a ∈ x, a < 0 ∨ (c.level : Int) ≤ a) :
    rows c hashs x = none := by
  have hinv : invalid c x = true := by
    cases h : invalid c x with
    | true => rfl
    | false =>
      obtain ⟨a, ha, hb⟩ := hx
      have := (invalid_iff c x).mp h a ha
      omega
  unfold rows
  rw [hinv]
  exact rowsOf_invalid c hc hashs x

/-- **C116 (perfect hashing).** If all inputs fit the table, different inputs read different rows of the first sub-table, and every row of it is read by
some input: the hash is a bijection. -/
theorem C116_perfect (c : Cfg) (hc : Usable c) (hashs : Nat → Int → Int) (hp : c.level ^ c.n ≤ 2 ^ c.logsize) :
    (∀ x y, Valid c x → Valid c y → (rows c hashs x).map List.head? = (rows c hashs y).map List.head? → x = y) ∧
    ∀ r < c.level ^ c.n, ∃ x, Valid c x ∧ (rows c hashs x).map List.head? = some (some r) := by
  have hpf : perfect c = true := decide_eq_true hp
  have keyF : ∀ x, Valid c x → (rows c hashs x).map List.head? = some (some (horner c.level x).toNat) ∧ 0 ≤ horner c.level x := by
    intro x hx
    obtain ⟨k, hk, hlt, hh⟩ := index_valid c hashs x hx
    have hr := rowsFrom_eq c hc hlt c.subs 0 (by omega)
    rw [pow_zero, Nat.div_one] at hr
    obtain ⟨s, hs⟩ : ∃ s, c.subs = s + 1 := ⟨c.subs - 1, by have := hc.subs; omega⟩
    have hrows : rows c hashs x = some ((List.range' 0 c.subs).map fun j => offset c j + k / c.divisor ^ j) := by
      unfold rows rowsOf
      rw [hk]
      exact hr
    have hz : (horner c.level x).toNat = k := by rw [← hh hpf, Int.toNat_natCast]
    rw [hrows, hs, hz, ← hh hpf]
    refine ⟨?_, Int.natCast_nonneg _⟩
    show some (some (0 + k / c.divisor ^ 0)) = _
    rw [pow_zero, Nat.div_one, Nat.zero_add]
  constructor
  · intro x y hx hy h
    obtain ⟨h1, h2⟩ := keyF x hx
    obtain ⟨h3, h4⟩ := keyF y hy
    rw [h1, h3] at h
    have : (horner c.level x).toNat = (horner c.level y).toNat := Option.some.inj (Option.some.inj h)
    exact horner_inj c.level x y (hx.1.trans hy.1.symm) hx.2 hy.2 (by omega)
  · intro r hr
    obtain ⟨x, h1, h2, h3⟩ := horner_surj c.level hc.level c.n (r : Int) (Int.natCast_nonneg _) (by exact_mod_cast hr)
    refine ⟨x, ⟨h1, h2⟩, ?_⟩
    rw [(keyF x ⟨h1, h2⟩).1, h3, Int.toNat_natCast]

/-- **C116 (float input).** A float input with a value outside [0, 1] is an error — even if it would round to a level. Every other reads the rows of the
level vector next to `(level - 1) * x`, and the values `j / (level - 1)` those of the levels `j` themselves. -/
theorem C116_float (c : Cfg) (hc : Usable c) (hl : 2 ≤ c.level) (hashs : Nat → Int → Int) (rnd : ℝ → Int) (hr : ∀ v, |(rnd v : ℝ) - v| ≤ 1 / 2)
    (x : List ℝ) (hn : x.length = c.n) :
    ((∃ a ∈ x, a < 0 ∨ 1 < a) → floatRows c hashs rnd x = none) ∧
    ((∀ a ∈ x, 0 ≤ a ∧ a ≤ 1) → ∃ js, Valid c js ∧ List.Forall₂ (fun (j : Int) a => |(j : ℝ) - ((c.level : ℝ) - 1) * a| ≤ 1 / 2) js x ∧
      floatRows c hashs rnd x = rows c hashs js) ∧
    ∀ js : List Int, Valid c js → x = js.map (fun j : Int => (j : ℝ) / ((c.level : ℝ) - 1)) → floatRows c hashs rnd x = rows c hashs js := by
  have hl' : (1 : ℝ) ≤ (c.level : ℝ) - 1 := by
    have : (2 : ℝ) ≤ (c.level : ℝ) := by exact_mod_cast hl
    linarith
  have hfi : (∀ a ∈ x, 0 ≤ a ∧ a ≤ 1) → floatInvalid x = false := by
    intro hx
    unfold floatInvalid
    rw [List.any_eq_false]
    intro a ha
    rw [decide_eq_true (hx a ha)]
    decide
  refine ⟨?_, ?_, ?_⟩
  · rintro ⟨a, ha, hb⟩
    have hi : floatInvalid x = true := by
      unfold floatInvalid
      rw [List.any_eq_true]
      refine ⟨a, ha, ?_⟩
      have : ¬ (0 ≤ a ∧ a ≤ 1) := by
        rintro ⟨h0, h1⟩
        rcases hb with hb | hb <;> linarith
      rw [decide_eq_false this]
      rfl
    unfold floatRows
    rw [hi]
    exact rowsOf_invalid c hc hashs _
  · intro hx
    have hv : Valid c (levels c rnd x) := by
      refine ⟨by unfold levels; rw [List.length_map, hn], ?_⟩
      intro b hb
      obtain ⟨a, ha, rfl⟩ := List.mem_map.mp hb
      obtain ⟨h0, h1⟩ := hx a ha
      have hv0 : 0 ≤ ((c.level : ℝ) - 1) * a := mul_nonneg (by linarith) h0
      have hv1 : ((c.level : ℝ) - 1) * a ≤ (c.level : ℝ) - 1 := by nlinarith
      obtain ⟨h2, h3⟩ := abs_le.mp (hr (((c.level : ℝ) - 1) * a))
      constructor
      · have : (-1 : ℝ) < (rnd (((c.level : ℝ) - 1) * a) : ℝ) := by linarith
        have : (-1 : Int) < rnd (((c.level : ℝ) - 1) * a) := by exact_mod_cast this
        omega
      · have : (rnd (((c.level : ℝ) - 1) * a) : ℝ) < (c.level : ℝ) := by linarith
        exact_mod_cast this
    refine ⟨levels c rnd x, hv, ?_, ?_⟩
    · unfold levels
      rw [List.forall₂_map_left_iff]
      exact List.forall₂_same.mpr fun a _ => hr _
    · unfold floatRows rows
      rw [hfi hx, (invalid_iff c _).mpr hv.2]
  · intro js hjs hx
    have h01 : ∀ a ∈ x, 0 ≤ a ∧ a ≤ 1 := by
      intro a ha
      rw [hx] at ha
      obtain ⟨j, hj, rfl⟩ := List.mem_map.mp ha
      obtain ⟨h0, h1⟩ := hjs.2 j hj
      have a0 : (0 : ℝ) ≤ (j : ℝ) := by exact_mod_cast h0
      have a1 : (j : ℝ) ≤ (c.level : ℝ) - 1 := by
        have : (j : ℝ) + 1 ≤ (c.level : ℝ) := by exact_mod_cast h1
        linarith
      refine ⟨div_nonneg a0 (by linarith), ?_⟩
      rw [div_le_one (by linarith)]
      exact a1
    have hlev : levels c rnd x = js := by
      rw [hx]
      unfold levels
      rw [List.map_map]
      refine (List.map_congr_left fun j _ => ?_).trans (List.map_id js)
      show rnd (((c.level : ℝ) - 1) * ((j : ℝ) / ((c.level : ℝ) - 1))) = j
      have hne : (c.level : ℝ) - 1 ≠ 0 := by linarith
      rw [mul_div_cancel₀ _ hne]
      obtain ⟨h2, h3⟩ := abs_le.mp (hr (j : ℝ))
      have a1 : (rnd (j : ℝ) : ℝ) < ((j + 1 : Int) : ℝ) := by push_cast; linarith
      have a2 : ((j - 1 : Int) : ℝ) < (rnd (j : ℝ) : ℝ) := by push_cast; linarith
      have a1' : rnd (j : ℝ) < j + 1 := by exact_mod_cast a1
      have a2' : j - 1 < rnd (j : ℝ) := by exact_mod_cast a2
      omega
    unfold floatRows rows
    rw [hfi h01, hlev, (invalid_iff c js).mpr hjs.2]

end Verif.Hash
