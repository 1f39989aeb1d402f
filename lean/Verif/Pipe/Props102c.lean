import Verif.Pipe.Digest
import Mathlib.Tactic.ByContra
import Mathlib.Tactic.IntervalCases

/-!
# C102 — what the field digest can tell apart

Two different values without dictionaries never give the same stream, so an undetected change is a SHA-256 collision. With dictionaries the
stream is ambiguous.
-/
namespace Verif.Pipe

variable {S : Type}

/-! ## Specification -/

/-- The values the digest is used on, apart from dictionaries: dtype names without parentheses, arrays with all their bytes, lists shorter
than 2⁶⁴. -/
inductive Plain (itemsize : List Nat → Nat) : FV S → Prop
  | arr (t dt sh bs) : 40 ∉ dt → bs.length = itemsize dt * sh.prod → Plain itemsize (.arr t dt sh bs)
  | seq (t l) : l.length < 2 ^ 64 → (∀ v ∈ l, Plain itemsize v) → Plain itemsize (.seq t l)
  | scalar (s) : Plain itemsize (.scalar s)

/-- What may follow a printed scalar: nothing, or the first letter of a type tag. -/
def Starts (u : List Nat) : Prop := ∀ c r, u = c :: r → c ∈ codes "taldsbifN"

/-- Scalars have Python's type names, and the printed form determines the value, also with something after it. -/
structure Printed (sc : Scalars S) : Prop where
  names : ∀ s, sc.ty s ∈ ["str", "bytes", "int", "float", "bool", "NoneType"]
  exact : ∀ a b, sc.ty a = sc.ty b → ∀ u u', Starts u → Starts u' → sc.repr a ++ u = sc.repr b ++ u' → a = b ∧ u = u'

/-! ## Proof -/

theorem span_unique (P : Nat → Prop) : ∀ (xs ys u v : List Nat), (∀ c ∈ xs, P c) → (∀ c ∈ ys, P c) →
    (∀ c r, u = c :: r → ¬ P c) → (∀ c r, v = c :: r → ¬ P c) → xs ++ u = ys ++ v → xs = ys ∧ u = v := by
  intro xs
  induction xs with
  | nil =>
    intro ys u v _ hy hu _ h
    cases ys with
    | nil => exact ⟨rfl, by simpa using h⟩
    | cons y ys => exact absurd (hy y (by simp)) (hu y _ (by simpa using h))
  | cons a xs ih =>
    intro ys u v hx hy hu hv h
    cases ys with
    | nil => exact absurd (hx a (by simp)) (hv a _ (by simpa using h.symm))
    | cons y ys =>
      simp only [List.cons_append, List.cons.injEq] at h
      obtain ⟨rfl, h⟩ := h
      obtain ⟨h1, h2⟩ := ih ys u v (fun c hc => hx c (by simp [hc])) (fun c hc => hy c (by simp [hc])) hu hv h
      exact ⟨by rw [h1], h2⟩

theorem digits_inj (n m : Nat) (h : digits n = digits m) : n = m := by
  have hm : Function.Injective Char.toNat := fun a b h => by
    apply Char.ext
    exact UInt32.toNat_inj.1 h
  have h1 := (List.map_injective_iff.2 hm) h
  have h2 : Nat.ofDigitChars 10 (Nat.toDigits 10 n) 0 = Nat.ofDigitChars 10 (Nat.toDigits 10 m) 0 := by rw [h1]
  simpa using h2

theorem digits_range (n : Nat) : ∀ c ∈ digits n, 48 ≤ c ∧ c ≤ 57 := by
  intro c hc
  obtain ⟨ch, h1, rfl⟩ := List.mem_map.1 hc
  have := Nat.isDigit_of_mem_toDigits (b := 10) (by omega) (by omega) h1
  rw [Char.isDigit] at this
  simp only [Bool.and_eq_true, decide_eq_true_eq] at this
  exact ⟨this.1, this.2⟩

theorem digits_ne_nil (n : Nat) : digits n ≠ [] := by
  unfold digits
  intro h
  have := List.map_eq_nil_iff.1 h
  exact absurd this (by simp)

theorem codes_comma : codes ", " = [44, 32] := by decide
theorem codes_open : codes "(" = [40] := by decide
theorem codes_close : codes ")" = [41] := by decide
theorem codes_one : codes ",)" = [44, 41] := by decide

theorem digits_then (n m : Nat) (u v : List Nat) (hu : ∀ c r, u = c :: r → ¬ (48 ≤ c ∧ c ≤ 57)) (hv : ∀ c r, v = c :: r → ¬ (48 ≤ c ∧ c ≤ 57))
    (h : digits n ++ u = digits m ++ v) : n = m ∧ u = v := by
  obtain ⟨h1, h2⟩ := span_unique (fun c => 48 ≤ c ∧ c ≤ 57) _ _ u v (digits_range n) (digits_range m) hu hv h
  exact ⟨digits_inj n m h1, h2⟩

/-- The shape between the parentheses. -/
def inner : List Nat → List Nat
  | [] => []
  | [n] => digits n ++ [44]
  | n :: m :: r => digits n ++ [44, 32] ++ shapeBody (m :: r)

theorem shapeRepr_eq (l : List Nat) : shapeRepr l = 40 :: (inner l ++ [41]) := by
  cases l with
  | nil => rfl
  | cons n l =>
    cases l with
    | nil => simp [shapeRepr, inner, codes_open, codes_one]
    | cons m l => simp [shapeRepr, inner, shapeBody, codes_open, codes_close, codes_comma]

theorem body_range (l : List Nat) : ∀ c ∈ shapeBody l, c ≠ 41 := by
  induction l with
  | nil => simp [shapeBody]
  | cons n l ih =>
    cases l with
    | nil =>
      intro c hc
      have := digits_range n c hc
      omega
    | cons m l =>
      rw [shapeBody, codes_comma]
      intro c hc
      rcases List.mem_append.1 hc with hc | hc
      · rcases List.mem_append.1 hc with hc | hc
        · have := digits_range n c hc; omega
        · simp only [List.mem_cons, List.not_mem_nil, or_false] at hc; omega
      · exact ih c hc

theorem inner_range (l : List Nat) : ∀ c ∈ inner l, c ≠ 41 := by
  cases l with
  | nil => simp [inner]
  | cons n l =>
    cases l with
    | nil =>
      intro c hc
      rcases List.mem_append.1 hc with hc | hc
      · have := digits_range n c hc; omega
      · simp only [List.mem_cons, List.not_mem_nil, or_false] at hc; omega
    | cons m l =>
      intro c hc
      apply body_range (n :: m :: l) c
      rw [shapeBody, codes_comma]
      exact hc

theorem body_inj : ∀ (l r : List Nat), l ≠ [] → r ≠ [] → shapeBody l = shapeBody r → l = r := by
  intro l
  induction l with
  | nil => intro r h; exact absurd rfl h
  | cons n l ih =>
    intro r _ hr h
    have hc : ∀ (x : List Nat), ∀ c t, [44, 32] ++ x = c :: t → ¬ (48 ≤ c ∧ c ≤ 57) := by
      intro x c t he
      simp only [List.cons_append, List.cons.injEq] at he
      omega
    have hn : ∀ c t, ([] : List Nat) = c :: t → ¬ (48 ≤ c ∧ c ≤ 57) := by intro c t he; simp at he
    cases r with
    | nil => exact absurd rfl hr
    | cons n' r =>
      cases l with
      | nil =>
        cases r with
        | nil => rw [shapeBody, shapeBody] at h; rw [digits_inj _ _ h]
        | cons m' r =>
          rw [shapeBody, shapeBody, codes_comma, List.append_assoc] at h
          have := (digits_then n n' [] _ hn (hc _) (by simpa using h)).2
          simp at this
      | cons m l =>
        cases r with
        | nil =>
          rw [shapeBody, shapeBody, codes_comma, List.append_assoc] at h
          have := (digits_then n n' _ [] (hc _) hn (by simpa using h)).2
          simp at this
        | cons m' r =>
          rw [shapeBody, shapeBody, codes_comma, List.append_assoc, List.append_assoc] at h
          obtain ⟨h1, h2⟩ := digits_then n n' _ _ (hc _) (hc _) h
          rw [h1, ih (m' :: r) (by simp) (by simp) (List.append_cancel_left h2)]

theorem inner_inj (l r : List Nat) (h : inner l = inner r) : l = r := by
  have hne : ∀ n x, digits n ++ x ≠ [] := fun n x hx => digits_ne_nil n (List.append_eq_nil_iff.1 hx).1
  have hc : ∀ (x : List Nat), ∀ c t, 44 :: x = c :: t → ¬ (48 ≤ c ∧ c ≤ 57) := by
    intro x c t he
    simp only [List.cons.injEq] at he
    omega
  cases l with
  | nil =>
    cases r with
    | nil => rfl
    | cons n r =>
      cases r with
      | nil => exact absurd h.symm (hne _ _)
      | cons m r => rw [inner, inner, List.append_assoc] at h; exact absurd h.symm (hne _ _)
  | cons n l =>
    cases l with
    | nil =>
      cases r with
      | nil => exact absurd h (hne _ _)
      | cons n' r =>
        cases r with
        | nil =>
          rw [inner, inner] at h
          rw [(digits_then n n' _ _ (hc _) (hc _) h).1]
        | cons m' r =>
          rw [inner, inner, List.append_assoc] at h
          have h2 := (digits_then n n' _ _ (hc _) (hc _) h).2
          simp at h2
    | cons m l =>
      cases r with
      | nil => rw [inner, inner, List.append_assoc] at h; exact absurd h (hne _ _)
      | cons n' r =>
        cases r with
        | nil =>
          rw [inner, inner, List.append_assoc] at h
          have h2 := (digits_then n n' _ _ (hc _) (hc _) h).2
          simp at h2
        | cons m' r =>
          apply body_inj _ _ (by simp) (by simp)
          rw [shapeBody, shapeBody, codes_comma]
          exact h

theorem shape_then (l r u v : List Nat) (h : shapeRepr l ++ u = shapeRepr r ++ v) : l = r ∧ u = v := by
  rw [shapeRepr_eq, shapeRepr_eq] at h
  simp only [List.cons_append, List.append_assoc, List.nil_append, List.cons.injEq, true_and] at h
  obtain ⟨h1, h2⟩ := span_unique (fun c => c ≠ 41) (inner l) (inner r) (41 :: u) (41 :: v) (inner_range l) (inner_range r)
    (by intro c t he; simp only [List.cons.injEq] at he; omega) (by intro c t he; simp only [List.cons.injEq] at he; omega) h
  exact ⟨inner_inj l r h1, by simpa using h2⟩

theorem le_length (k n : Nat) : (littleEndian k n).length = k := by
  induction k generalizing n with
  | zero => rfl
  | succ k ih => simp [littleEndian, ih]

theorem le_inj (k : Nat) : ∀ n m, n < 256 ^ k → m < 256 ^ k → littleEndian k n = littleEndian k m → n = m := by
  induction k with
  | zero => intro n m hn hm _; simp at hn hm; omega
  | succ k ih =>
    intro n m hn hm h
    simp only [littleEndian, List.cons.injEq] at h
    rw [Nat.pow_succ] at hn hm
    have := ih (n / 256) (m / 256) (Nat.div_lt_of_lt_mul (by omega)) (Nat.div_lt_of_lt_mul (by omega)) h.2
    omega

/-- Tag and rest of the stream of a value. -/
def tagOf (sc : Scalars S) : FV S → List Nat
  | .arr true _ _ _ => codes "tensor"
  | .arr false _ _ _ => codes "array"
  | .seq true _ => codes "tuple"
  | .seq false _ => codes "list"
  | .dict _ => codes "dict"
  | .scalar s => codes (sc.ty s)

def restOf (sc : Scalars S) : FV S → List Nat
  | .arr _ dt sh bs => dt ++ shapeRepr sh ++ bs
  | .seq _ l => littleEndian 8 l.length ++ feedAll sc l
  | .dict l => feedEntries sc l
  | .scalar s => sc.repr s

theorem feed_eq (sc : Scalars S) (v : FV S) : feed sc v = tagOf sc v ++ 0 :: restOf sc v := by
  cases v with
  | arr t dt sh bs => cases t <;> simp [feed, tagOf, restOf, arrTag]
  | seq t l => cases t <;> simp [feed, tagOf, restOf, seqTag]
  | dict l => simp [feed, tagOf, restOf]
  | scalar s => simp [feed, tagOf, restOf]

def allTags : List String := ["tensor", "array", "tuple", "list", "dict", "str", "bytes", "int", "float", "bool", "NoneType"]

theorem tag_mem (sc : Scalars S) (hp : Printed sc) (v : FV S) : ∃ t ∈ allTags, tagOf sc v = codes t := by
  cases v with
  | arr t dt sh bs => cases t <;> exact ⟨_, by decide, rfl⟩
  | seq t l => cases t <;> exact ⟨_, by decide, rfl⟩
  | dict l => exact ⟨_, by decide, rfl⟩
  | scalar s =>
    refine ⟨sc.ty s, ?_, rfl⟩
    have := hp.names s
    simp only [allTags, List.mem_cons, List.not_mem_nil, or_false] at this ⊢
    tauto

theorem tags_nonzero : ∀ t ∈ allTags, ∀ c ∈ codes t, c ≠ 0 := by decide
theorem tags_start : ∀ t ∈ allTags, ∃ c ∈ codes "taldsbifN", (codes t).head? = some c := by decide
theorem tags_inj : ∀ t ∈ allTags, ∀ t' ∈ allTags, codes t = codes t' → t = t' := by decide

theorem feed_starts (sc : Scalars S) (hp : Printed sc) (v : FV S) (u : List Nat) : Starts (feed sc v ++ u) := by
  intro c r h
  obtain ⟨t, ht, he⟩ := tag_mem sc hp v
  obtain ⟨c', hc', hh⟩ := tags_start t ht
  rw [feed_eq, he] at h
  cases hct : codes t with
  | nil => rw [hct] at hh; simp at hh
  | cons a l =>
    rw [hct] at h hh
    simp only [List.cons_append, List.cons.injEq] at h
    simp only [List.head?_cons, Option.some.injEq] at hh
    rw [← h.1, hh]
    exact hc'

theorem starts_nil : Starts [] := by intro c r h; simp at h

theorem feedAll_starts (sc : Scalars S) (hp : Printed sc) (l : List (FV S)) (u : List Nat) (hu : Starts u) : Starts (feedAll sc l ++ u) := by
  cases l with
  | nil => simpa [feedAll] using hu
  | cons v l => rw [feedAll, List.append_assoc]; exact feed_starts sc hp v _

theorem tags_then (sc : Scalars S) (hp : Printed sc) (v w : FV S) (u u' : List Nat) (h : feed sc v ++ u = feed sc w ++ u') :
    tagOf sc v = tagOf sc w ∧ restOf sc v ++ u = restOf sc w ++ u' := by
  obtain ⟨t, ht, he⟩ := tag_mem sc hp v
  obtain ⟨t', ht', he'⟩ := tag_mem sc hp w
  rw [feed_eq, feed_eq, List.append_assoc, List.append_assoc] at h
  obtain ⟨h1, h2⟩ := span_unique (fun c => c ≠ 0) _ _ _ _ (he ▸ tags_nonzero t ht) (he' ▸ tags_nonzero t' ht')
    (by intro c r he; simp only [List.cons_append, List.cons.injEq] at he; omega)
    (by intro c r he; simp only [List.cons_append, List.cons.injEq] at he; omega) h
  exact ⟨h1, by simpa using h2⟩

theorem codes_inj : ∀ a b : String, a ∈ allTags → b ∈ allTags → codes a = codes b → a = b := fun a b ha hb => tags_inj a ha b hb

mutual
theorem feed_then (sc : Scalars S) (hp : Printed sc) (isz : List Nat → Nat) : ∀ (v w : FV S) (u u' : List Nat), Plain isz v → Plain isz w →
    Starts u → Starts u' → feed sc v ++ u = feed sc w ++ u' → v = w ∧ u = u'
  | .arr t dt sh bs, w, u, u', hv, hw, hu, hu', h => by
    obtain ⟨h1, h2⟩ := tags_then sc hp _ _ _ _ h
    cases w with
    | arr t' dt' sh' bs' =>
      have ht : t = t' := by
        cases t <;> cases t' <;> first | rfl | (exact absurd h1 (by show ¬ codes _ = codes _; decide))
      subst ht
      simp only [restOf, List.append_assoc] at h2
      cases hv with
      | arr _ _ _ _ hd hl =>
        cases hw with
        | arr _ _ _ _ hd' hl' =>
          have hne : ∀ (s : List Nat) (x : List Nat), ∀ c r, shapeRepr s ++ x = c :: r → ¬ c ≠ 40 := by
            intro s x c r he
            rw [shapeRepr_eq] at he
            simp only [List.cons_append, List.cons.injEq] at he
            omega
          obtain ⟨e1, e2⟩ := span_unique (fun c => c ≠ 40) dt dt' _ _ (fun c hc he => hd (he ▸ hc)) (fun c hc he => hd' (he ▸ hc))
            (hne _ _) (hne _ _) h2
          obtain ⟨e3, e4⟩ := shape_then _ _ _ _ e2
          subst e1; subst e3
          obtain ⟨e5, e6⟩ := List.append_inj e4 (by rw [hl, hl'])
          exact ⟨by rw [e5], e6⟩
    | seq t' l' => exfalso; cases t <;> cases t' <;> exact absurd h1 (by show ¬ codes _ = codes _; decide)
    | dict l' => cases hw
    | scalar s' =>
      exfalso
      have hm := hp.names s'
      simp only [List.mem_cons, List.not_mem_nil, or_false] at hm
      cases t <;> (simp only [tagOf] at h1; rcases hm with hm | hm | hm | hm | hm | hm <;> (rw [hm] at h1; revert h1; decide))
  | .seq t l, w, u, u', hv, hw, hu, hu', h => by
    obtain ⟨h1, h2⟩ := tags_then sc hp _ _ _ _ h
    cases w with
    | arr t' dt' sh' bs' => exfalso; cases t <;> cases t' <;> exact absurd h1 (by show ¬ codes _ = codes _; decide)
    | seq t' l' =>
      have ht : t = t' := by
        cases t <;> cases t' <;> first | rfl | (exact absurd h1 (by show ¬ codes _ = codes _; decide))
      subst ht
      simp only [restOf, List.append_assoc] at h2
      cases hv with
      | seq _ _ hl hi =>
        cases hw with
        | seq _ _ hl' hi' =>
          obtain ⟨e1, e2⟩ := List.append_inj h2 (by rw [le_length, le_length])
          have e3 := le_inj 8 _ _ (by omega) (by omega) e1
          obtain ⟨e4, e5⟩ := feedAll_then sc hp isz l l' u u' e3 hi hi' hu hu' e2
          exact ⟨by rw [e4], e5⟩
    | dict l' => cases hw
    | scalar s' =>
      exfalso
      have hm := hp.names s'
      simp only [List.mem_cons, List.not_mem_nil, or_false] at hm
      cases t <;> (simp only [tagOf] at h1; rcases hm with hm | hm | hm | hm | hm | hm <;> (rw [hm] at h1; revert h1; decide))
  | .dict l, w, u, u', hv, hw, hu, hu', h => by cases hv
  | .scalar s, w, u, u', hv, hw, hu, hu', h => by
    obtain ⟨h1, h2⟩ := tags_then sc hp _ _ _ _ h
    have hm := hp.names s
    cases w with
    | arr t' dt' sh' bs' =>
      exfalso
      simp only [List.mem_cons, List.not_mem_nil, or_false] at hm
      cases t' <;> (simp only [tagOf] at h1; rcases hm with hm | hm | hm | hm | hm | hm <;> (rw [hm] at h1; revert h1; decide))
    | seq t' l' =>
      exfalso
      simp only [List.mem_cons, List.not_mem_nil, or_false] at hm
      cases t' <;> (simp only [tagOf] at h1; rcases hm with hm | hm | hm | hm | hm | hm <;> (rw [hm] at h1; revert h1; decide))
    | dict l' => cases hw
    | scalar s' =>
      have hm' := hp.names s'
      have hty : sc.ty s = sc.ty s' := by
        apply codes_inj _ _ _ _ h1
        · simp only [allTags, List.mem_cons, List.not_mem_nil, or_false] at hm ⊢; tauto
        · simp only [allTags, List.mem_cons, List.not_mem_nil, or_false] at hm' ⊢; tauto
      obtain ⟨e1, e2⟩ := hp.exact s s' hty u u' hu hu' h2
      exact ⟨by rw [e1], e2⟩

theorem feedAll_then (sc : Scalars S) (hp : Printed sc) (isz : List Nat → Nat) : ∀ (l l' : List (FV S)) (u u' : List Nat),
    l.length = l'.length → (∀ v ∈ l, Plain isz v) → (∀ v ∈ l', Plain isz v) → Starts u → Starts u' → feedAll sc l ++ u = feedAll sc l' ++ u' → l = l' ∧ u = u'
  | [], l', u, u', hl, _, _, _, _, h => by
    have := List.length_eq_zero_iff.1 hl.symm
    subst this
    exact ⟨rfl, by simpa [feedAll] using h⟩
  | v :: l, l', u, u', hl, hv, hv', hu, hu', h => by
    cases l' with
    | nil => simp at hl
    | cons w l' =>
      simp only [feedAll, List.append_assoc] at h
      obtain ⟨e1, e2⟩ := feed_then sc hp isz v w _ _ (hv v (by simp)) (hv' w (by simp)) (feedAll_starts sc hp l u hu)
        (feedAll_starts sc hp l' u' hu') h
      obtain ⟨e3, e4⟩ := feedAll_then sc hp isz l l' u u' (by simpa using hl) (fun x hx => hv x (by simp [hx])) (fun x hx => hv' x (by simp [hx])) hu hu' e2
      exact ⟨by rw [e1, e3], e4⟩
end

/-- **C102 (digest).** Two values without dictionaries have the same digest stream only if they are the same value: kind, dtype, shape,
bytes, nesting, order and scalars. -/
theorem C102_digest (sc : Scalars S) (hp : Printed sc) (isz : List Nat → Nat) (v w : FV S) (hv : Plain isz v) (hw : Plain isz w)
    (h : feed sc v = feed sc w) : v = w :=
  (feed_then sc hp isz v w [] [] hv hw starts_nil starts_nil (by simpa using h)).1

/-- **C102 (digest of dictionaries).** Dictionaries are streamed without a length: an entry that moves from the end of an inner dictionary
to the outer one leaves the stream as it was. -/
theorem C102_digest_dicts (sc : Scalars S) (a k v : FV S) :
    feed sc (.dict [(a, .dict [(k, v)])]) = feed sc (.dict [(a, .dict []), (k, v)]) ∧
    FV.dict [(a, .dict [(k, v)])] ≠ FV.dict [(a, .dict []), (k, v)] := by
  refine ⟨?_, by simp⟩
  simp [feed, feedEntries]

end Verif.Pipe
