import Verif.Canon.Model
import Mathlib.Tactic.SplitIfs
import Mathlib.Tactic.NormNum
import Mathlib.Tactic.IntervalCases
import Mathlib.Tactic.Linarith
import Mathlib.Logic.Basic
import Mathlib.Data.List.Basic

/-! Helper lemmas for C07: sorting by key, hexadecimal, JSON strings and numbers. -/

namespace Verif.Canon

/-! ### sorting entries by key -/

theorem keyLe_total {α : Type} (a b : Str × α) : keyLe a b = true ∨ keyLe b a = true := by
  unfold keyLe; simpa using le_total a.1 b.1

theorem sortKeys_perm {α : Type} (m : List (Str × α)) : (sortKeys m).Perm m :=
  List.perm_insertionSort _ m

theorem mem_sortKeys {α : Type} {m : List (Str × α)} {x} : x ∈ sortKeys m ↔ x ∈ m :=
  (sortKeys_perm m).mem_iff

theorem sortKeys_pairwise {α : Type} (m : List (Str × α)) :
    (sortKeys m).Pairwise (fun a b => a.1 ≤ b.1) := by
  have : IsTotal (Str × α) (fun a b => keyLe a b = true) := ⟨keyLe_total⟩
  have : IsTrans (Str × α) (fun a b => keyLe a b = true) :=
    ⟨fun a b c h1 h2 => by simp only [keyLe, decide_eq_true_eq] at *; exact le_trans h1 h2⟩
  have h := List.pairwise_insertionSort (fun a b : Str × α => keyLe a b = true) m
  refine List.Pairwise.imp ?_ h
  intro a b h; simpa [keyLe] using h

theorem sortKeys_of_pairwise {α : Type} (m : List (Str × α))
    (h : m.Pairwise (fun a b => a.1 ≤ b.1)) : sortKeys m = m := by
  unfold sortKeys
  apply List.Pairwise.insertionSort_eq
  refine List.Pairwise.imp ?_ h
  intro a b h; simpa [keyLe] using h

theorem sortKeys_idem {α : Type} (m : List (Str × α)) : sortKeys (sortKeys m) = sortKeys m :=
  sortKeys_of_pairwise _ (sortKeys_pairwise m)

theorem orderedInsert_map {α β : Type} (f : Str × α → Str × β) (hf : ∀ x, (f x).1 = x.1)
    (a : Str × α) : ∀ l : List (Str × α),
    (l.orderedInsert (fun a b => keyLe a b = true) a).map f =
      (l.map f).orderedInsert (fun a b => keyLe a b = true) (f a)
  | [] => rfl
  | b :: l => by
      simp only [List.orderedInsert, List.map_cons]
      have : keyLe (f a) (f b) = keyLe a b := by simp [keyLe, hf]
      rw [this]
      split_ifs
      · rfl
      · simp only [List.map_cons, orderedInsert_map f hf a l]

theorem sortKeys_map {α β : Type} (f : Str × α → Str × β) (hf : ∀ x, (f x).1 = x.1) :
    ∀ m : List (Str × α), sortKeys (m.map f) = (sortKeys m).map f
  | [] => rfl
  | a :: m => by
      have ih := sortKeys_map f hf m
      unfold sortKeys at ih ⊢
      simp only [List.map_cons, List.insertionSort_cons]
      rw [ih, orderedInsert_map f hf]

/-! ### hexadecimal -/

theorem hexDigit_facts : ∀ n : Fin 16, hexVal (hexDigit n) = some n.val ∧
    isHexSpace (hexDigit n) = false ∧
    (!(65 ≤ (hexDigit n).toNat && (hexDigit n).toNat ≤ 90)) = true := by decide

theorem hexVal_hexDigit (n : Nat) (h : n < 16) : hexVal (hexDigit n) = some n :=
  (hexDigit_facts ⟨n, h⟩).1

theorem hexSpace_hexDigit (n : Nat) (h : n < 16) : isHexSpace (hexDigit n) = false :=
  (hexDigit_facts ⟨n, h⟩).2.1

theorem fromHex_toHex : ∀ bs : List UInt8, fromHex (toHex bs) = some bs
  | [] => rfl
  | b :: r => by
      have hb : b.toNat < 256 := b.toNat_lt
      have h1 : b.toNat / 16 < 16 := by omega
      have h2 : b.toNat % 16 < 16 := by omega
      have h3 : b.toNat / 16 * 16 + b.toNat % 16 = b.toNat := by omega
      rw [toHex, fromHex]
      simp only [hexSpace_hexDigit _ h1, hexVal_hexDigit _ h1, hexVal_hexDigit _ h2, fromHex_toHex r, h3,
        Bool.false_eq_true, if_false, Option.map_some, UInt8.ofNat_toNat]

theorem toHex_length : ∀ bs : List UInt8, (toHex bs).length = 2 * bs.length
  | [] => rfl
  | b :: r => by simp only [toHex, List.length_cons, toHex_length r]; omega

theorem isLower_toHex : ∀ bs : List UInt8, isLower (toHex bs) = true
  | [] => rfl
  | b :: r => by
      have hb : b.toNat < 256 := b.toNat_lt
      have ih := isLower_toHex r
      have h1 := (hexDigit_facts ⟨b.toNat / 16, by omega⟩).2.2
      have h2 := (hexDigit_facts ⟨b.toNat % 16, by omega⟩).2.2
      unfold isLower at ih ⊢
      simp only [toHex, List.all_cons, ih, Bool.and_true]
      simp only [Bool.and_eq_true]
      exact ⟨h1, h2⟩

theorem packF64_length (b : BitVec 64) : (packF64 b).length = 8 := by simp [packF64]

theorem unpack_pack (b : BitVec 64) : unpackF64 (packF64 b) = some b := by
  unfold unpackF64
  rw [if_pos (packF64_length b)]
  congr 1
  apply BitVec.eq_of_toNat_eq
  rw [BitVec.toNat_ofNat]
  have hb := b.isLt
  have : packF64 b = [UInt8.ofNat (b.toNat / 256 ^ 7), UInt8.ofNat (b.toNat / 256 ^ 6),
      UInt8.ofNat (b.toNat / 256 ^ 5), UInt8.ofNat (b.toNat / 256 ^ 4),
      UInt8.ofNat (b.toNat / 256 ^ 3), UInt8.ofNat (b.toNat / 256 ^ 2),
      UInt8.ofNat (b.toNat / 256 ^ 1), UInt8.ofNat (b.toNat / 256 ^ 0)] := rfl
  rw [this]
  simp only [List.foldl_cons, List.foldl_nil, UInt8.toNat_ofNat']
  generalize b.toNat = n at hb
  norm_num at hb ⊢
  omega

/-! ### JSON strings -/

theorem scanString_simple (e x : Char) (r : Str) (hu : e ≠ 'u') (hx : simpleEscape e = some x) :
    scanString ('\\' :: e :: r) = (scanString r).map (fun p => (x :: p.1, p.2)) := by
  rw [scanString.eq_def]; simp [hu, hx]

theorem scanString_u00 (a b : Nat) (ha : a < 16) (hb : b < 16) (r : Str) :
    scanString ('\\' :: 'u' :: '0' :: '0' :: hexDigit a :: hexDigit b :: r) =
      (scanString r).map (fun p => (Char.ofNat (a * 16 + b) :: p.1, p.2)) := by
  have h0 : hexVal '0' = some 0 := by decide
  have h4 : hex4 '0' '0' (hexDigit a) (hexDigit b) = some (a * 16 + b) := by
    simp [hex4, h0, hexVal_hexDigit _ ha, hexVal_hexDigit _ hb]
  rw [scanString.eq_def]
  simp only [if_true, h4]
  rw [if_neg (by decide), if_neg (by omega), if_neg (by omega)]

theorem scanString_escape (c : Char) (r : Str) :
    scanString (escapeChar c ++ r) = (scanString r).map (fun p => (c :: p.1, p.2)) := by
  unfold escapeChar
  by_cases h1 : c = '"'
  · subst h1; exact scanString_simple '"' '"' r (by decide) (by decide)
  by_cases h2 : c = '\\'
  · subst h2; exact scanString_simple '\\' '\\' r (by decide) (by decide)
  by_cases h3 : c = '\n'
  · subst h3; exact scanString_simple 'n' '\n' r (by decide) (by decide)
  by_cases h4 : c = '\r'
  · subst h4; exact scanString_simple 'r' '\r' r (by decide) (by decide)
  by_cases h5 : c = '\t'
  · subst h5; exact scanString_simple 't' '\t' r (by decide) (by decide)
  rw [if_neg h1, if_neg h2, if_neg h3, if_neg h4, if_neg h5]
  have hval : ∀ n, c.toNat = n → c = Char.ofNat n := by
    intro n hn; rw [← hn, Char.ofNat_toNat]
  by_cases h6 : c.toNat = 12
  · rw [if_pos h6, hval 12 h6]; exact scanString_simple 'f' (Char.ofNat 12) r (by decide) (by decide)
  by_cases h7 : c.toNat = 8
  · rw [if_neg h6, if_pos h7, hval 8 h7]
    exact scanString_simple 'b' (Char.ofNat 8) r (by decide) (by decide)
  by_cases h8 : c.toNat < 32
  · rw [if_neg h6, if_neg h7, if_pos h8]
    have := scanString_u00 (c.toNat / 16) (c.toNat % 16) (by omega) (by omega) r
    rw [show c.toNat / 16 * 16 + c.toNat % 16 = c.toNat by omega, Char.ofNat_toNat] at this
    exact this
  · rw [if_neg h6, if_neg h7, if_neg h8]
    simp only [List.singleton_append, List.cons_append, List.nil_append]
    conv_lhs => rw [scanString.eq_def]
    simp only [if_neg h1, if_neg h2, if_neg h8]

theorem scanString_quote : ∀ (s r : Str),
    scanString (s.flatMap escapeChar ++ '"' :: r) = some (s, r)
  | [], r => by simp [scanString.eq_def ('"' :: r)]
  | c :: s, r => by
      rw [List.flatMap_cons, List.append_assoc, scanString_escape, scanString_quote s r]
      rfl

/-! ### JSON numbers -/

/-- text that may follow a value: nothing, or a comma or closing bracket -/
def Stop (r : Str) : Prop := r = [] ∨ ∃ c t, r = c :: t ∧ (c = ',' ∨ c = ']' ∨ c = '}')

theorem takeDigits_append : ∀ (ds r : Str), (∀ c ∈ ds, c.isDigit = true) → Stop r →
    takeDigits (ds ++ r) = (ds, r)
  | [], r, _, h => by
      rcases h with rfl | ⟨c, t, rfl, hc⟩
      · rfl
      · rcases hc with rfl | rfl | rfl <;> rfl
  | d :: ds, r, hd, h => by
      have ih := takeDigits_append ds r (fun c hc => hd c (List.mem_cons_of_mem _ hc)) h
      simp only [List.cons_append, takeDigits, hd d (List.mem_cons_self ..), if_true, ih]

theorem toDigits_head (n : Nat) : ∃ c t, Nat.toDigits 10 n = c :: t ∧ c.isDigit = true ∧
    (∀ x ∈ t, x.isDigit = true) ∧ (c = '0' → t = []) := by
  induction n using Nat.strongRecOn with
  | ind n ih =>
    by_cases h : n < 10
    · rw [Nat.toDigits_of_lt_base h]
      refine ⟨_, _, rfl, ?_, by simp, fun _ => rfl⟩
      interval_cases n <;> rfl
    · have hb : 10 ≤ n := by omega
      rw [Nat.toDigits_of_base_le (by decide) hb]
      obtain ⟨c, t, e, hc, ht, h0⟩ := ih (n / 10) (by omega)
      refine ⟨c, t ++ [Nat.digitChar (n % 10)], by rw [e]; rfl, hc, ?_, ?_⟩
      · intro x hx
        rcases List.mem_append.mp hx with hx | hx
        · exact ht x hx
        · rw [List.mem_singleton] at hx
          subst hx
          have : n % 10 < 10 := by omega
          generalize n % 10 = k at this
          interval_cases k <;> rfl
      · intro hc0
        exfalso
        have ht0 := h0 hc0
        have hv := Nat.ofDigitChars_ten_toDigits (n := n / 10)
        rw [e, hc0, ht0] at hv
        have h00 : Nat.ofDigitChars 10 ['0'] 0 = 0 := by decide
        omega

theorem scanNat_digits (n : Nat) (r : Str) (hr : Stop r) :
    scanNat (Nat.toDigits 10 n ++ r) = some (Nat.toDigits 10 n, r) := by
  obtain ⟨c, t, e, hc, ht, h0⟩ := toDigits_head n
  rw [e, List.cons_append, scanNat]
  split_ifs with h
  · subst h; rw [h0 rfl]; rfl
  · rw [takeDigits_append t r ht hr]

theorem scanFrac_stop (r : Str) (hr : Stop r) : scanFrac r = ([], r) := by
  rcases hr with rfl | ⟨c, t, rfl, hc⟩
  · rfl
  · rcases hc with rfl | rfl | rfl <;> rfl

theorem scanExp_stop (r : Str) (hr : Stop r) : scanExp r = ([], r) := by
  rcases hr with rfl | ⟨c, t, rfl, hc⟩
  · rfl
  · rcases hc with rfl | rfl | rfl <;> rfl

theorem digit_ne_minus (c : Char) (h : c.isDigit = true) : c ≠ '-' := by
  rintro rfl; revert h; decide

theorem scanNumber_nat (lib : PyLib) (n : Nat) (r : Str) (hr : Stop r) :
    scanNumber lib (Nat.toDigits 10 n ++ r) = some (.int n, r) := by
  have h1 := scanNat_digits n r hr
  obtain ⟨c, t, e, hc, -, -⟩ := toDigits_head n
  unfold scanNumber
  have hneg : isNeg (Nat.toDigits 10 n ++ r) = false := by
    rw [e, List.cons_append]
    unfold isNeg
    split
    · rename_i heq; injection heq with h1 h2; subst h1; revert hc; decide
    · rfl
  simp only [hneg, Bool.false_eq_true, if_false, h1, scanFrac_stop r hr, scanExp_stop r hr, and_self,
    if_true, Nat.ofDigitChars_ten_toDigits]

theorem scanNumber_neg (lib : PyLib) (n : Nat) (r : Str) (hr : Stop r) :
    scanNumber lib ('-' :: (Nat.toDigits 10 n ++ r)) = some (.int (-(n : Int)), r) := by
  have h1 := scanNat_digits n r hr
  unfold scanNumber
  simp only [isNeg, if_true, List.tail_cons, h1, scanFrac_stop r hr, scanExp_stop r hr, and_self,
    Nat.ofDigitChars_ten_toDigits]

theorem scanNumber_int (lib : PyLib) (n : Int) (r : Str) (hr : Stop r) :
    scanNumber lib (printInt n ++ r) = some (.int n, r) := by
  cases n with
  | ofNat n => exact scanNumber_nat lib n r hr
  | negSucc n => exact scanNumber_neg lib (n + 1) r hr

theorem printInt_head (n : Int) : ∃ c t, printInt n = c :: t ∧
    ((c.isDigit = true) ∨ (c = '-' ∧ ∃ d t', t = d :: t' ∧ d.isDigit = true)) := by
  cases n with
  | ofNat n =>
    obtain ⟨c, t, e, hc, -, -⟩ := toDigits_head n
    exact ⟨c, t, e, Or.inl hc⟩
  | negSucc n =>
    obtain ⟨c, t, e, hc, -, -⟩ := toDigits_head (n + 1)
    exact ⟨'-', _, rfl, Or.inr ⟨rfl, c, t, e, hc⟩⟩

theorem keyword_int (lib : PyLib) (n : Int) (r : Str) : keyword lib (printInt n ++ r) = none := by
  obtain ⟨c, t, e, h⟩ := printInt_head n
  rw [e, List.cons_append]
  unfold keyword
  rcases h with h | ⟨rfl, d, t', rfl, h⟩
  · split <;> first
      | rfl
      | (rename_i heq; exfalso; injection heq with h1 h2; subst h1; revert h; decide)
  · rw [List.cons_append]
    split <;> first
      | rfl
      | (rename_i heq; exfalso; injection heq with h1 h2; injection h2 with h3 h4; subst h3; revert h; decide)
      | (rename_i heq; exfalso; injection heq with h1 h2; revert h1; decide)

end Verif.Canon
