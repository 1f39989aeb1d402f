import Verif.Canon.Round

/-!
C07: decoding an encoded stage state gives back the state (sequences as tuples, dictionaries in sorted
key order), and every blob the decoder accepts is the unique encoding of the value it returns.
-/

namespace Verif.Canon

/-! ### Specification -/

/-- The string of a key. -/
def Key.text : Key → Str
  | .str s => s
  | .other _ => []

mutual
/-- The value a reader gets back: every list is a tuple, every dictionary is in sorted key order. -/
def norm : Val → Val
  | .null => .null
  | .bool b => .bool b
  | .int n => .int n
  | .float b => .float b
  | .str s => .str s
  | .bytes bs => .bytes bs
  | .seq _ xs => .seq true (normList xs)
  | .dict kvs => .dict ((normEntries kvs).insertionSort (fun a b => a.1.text ≤ b.1.text))
  | .tensor t => .tensor t
  | .other n => .other n

def normList : List Val → List Val
  | [] => []
  | x :: r => norm x :: normList r

def normEntries : List (Key × Val) → List (Key × Val)
  | [] => []
  | (k, v) :: r => (k, norm v) :: normEntries r
end

/-- What every Python object satisfies: dictionary keys are distinct, a tensor has exactly the bytes
its shape and dtype need. -/
inductive PyVal : Val → Prop
  | null : PyVal .null
  | bool (b) : PyVal (.bool b)
  | int (n) : PyVal (.int n)
  | float (b) : PyVal (.float b)
  | str (s) : PyVal (.str s)
  | bytes (bs) : PyVal (.bytes bs)
  | seq (t xs) : (∀ x ∈ xs, PyVal x) → PyVal (.seq t xs)
  | dict (kvs) : (kvs.map Prod.fst).Nodup → (∀ kv ∈ kvs, PyVal kv.2) → PyVal (.dict kvs)
  | tensor (t : Tensor) : (∀ d, t.dtype = some d → t.data.length = d.size * t.shape.prod) →
      PyVal (.tensor t)
  | other (n) : PyVal (.other n)

/-- An IEEE-754 double (by its 64 bits) is finite: the 11 exponent bits are not all ones. -/
def FiniteBits (b : BitVec 64) : Prop := b.extractLsb' 52 11 ≠ BitVec.allOnes 11

theorem isFinite_iff (b : BitVec 64) : isFinite b = true ↔ FiniteBits b := by
  unfold isFinite FiniteBits
  rw [decide_eq_true_iff, not_iff_not]
  constructor
  · intro h
    apply BitVec.eq_of_toNat_eq
    rw [BitVec.extractLsb'_toNat, Nat.shiftRight_eq_div_pow]
    exact h
  · intro h
    have := congrArg BitVec.toNat h
    rw [BitVec.extractLsb'_toNat, Nat.shiftRight_eq_div_pow] at this
    exact this

/-- The values the encoder must accept: null, booleans, strings, signed 64-bit integers, finite floats,
byte strings, plain CPU tensors of a listed dtype, and lists, tuples and dictionaries with
non-reserved string keys of these. -/
inductive Encodable : Val → Prop
  | null : Encodable .null
  | bool (b) : Encodable (.bool b)
  | int (n : Int) : -9223372036854775808 ≤ n → n ≤ 9223372036854775807 → Encodable (.int n)
  | float (b) : FiniteBits b → Encodable (.float b)
  | str (s) : Encodable (.str s)
  | bytes (bs) : Encodable (.bytes bs)
  | seq (t xs) : (∀ x ∈ xs, Encodable x) → Encodable (.seq t xs)
  | dict (kvs) : (∀ kv ∈ kvs, ∃ s, kv.1 = .str s ∧
        s ≠ "$bytes".toList ∧ s ≠ "$f64".toList ∧ s ≠ "$tensor".toList) →
      (∀ kv ∈ kvs, Encodable kv.2) → Encodable (.dict kvs)
  | tensor (t : Tensor) : t.requiresGrad = false → t.denseCpu = true → t.dtype ≠ none →
      Encodable (.tensor t)

/-! ### Proofs -/

mutual
theorem Val.ind {P : Val → Prop} (h1 : P .null) (h2 : ∀ b, P (.bool b)) (h3 : ∀ n, P (.int n))
    (h4 : ∀ b, P (.float b)) (h5 : ∀ s, P (.str s)) (h6 : ∀ bs, P (.bytes bs))
    (h7 : ∀ t xs, (∀ x ∈ xs, P x) → P (.seq t xs))
    (h8 : ∀ kvs, (∀ kv ∈ kvs, P kv.2) → P (.dict kvs))
    (h9 : ∀ t, P (.tensor t)) (h10 : ∀ n, P (.other n)) : ∀ v, P v
  | .null => h1
  | .bool b => h2 b
  | .int n => h3 n
  | .float b => h4 b
  | .str s => h5 s
  | .bytes bs => h6 bs
  | .seq t xs => h7 t xs (Val.indL h1 h2 h3 h4 h5 h6 h7 h8 h9 h10 xs)
  | .dict kvs => h8 kvs (Val.indD h1 h2 h3 h4 h5 h6 h7 h8 h9 h10 kvs)
  | .tensor t => h9 t
  | .other n => h10 n

theorem Val.indL {P : Val → Prop} (h1 : P .null) (h2 : ∀ b, P (.bool b)) (h3 : ∀ n, P (.int n))
    (h4 : ∀ b, P (.float b)) (h5 : ∀ s, P (.str s)) (h6 : ∀ bs, P (.bytes bs))
    (h7 : ∀ t xs, (∀ x ∈ xs, P x) → P (.seq t xs))
    (h8 : ∀ kvs, (∀ kv ∈ kvs, P kv.2) → P (.dict kvs))
    (h9 : ∀ t, P (.tensor t)) (h10 : ∀ n, P (.other n)) : ∀ xs : List Val, ∀ x ∈ xs, P x
  | [], x, h => absurd h (by simp)
  | y :: r, x, h => by
      rcases List.mem_cons.mp h with h | h
      · rw [h]; exact Val.ind h1 h2 h3 h4 h5 h6 h7 h8 h9 h10 y
      · exact Val.indL h1 h2 h3 h4 h5 h6 h7 h8 h9 h10 r x h

theorem Val.indD {P : Val → Prop} (h1 : P .null) (h2 : ∀ b, P (.bool b)) (h3 : ∀ n, P (.int n))
    (h4 : ∀ b, P (.float b)) (h5 : ∀ s, P (.str s)) (h6 : ∀ bs, P (.bytes bs))
    (h7 : ∀ t xs, (∀ x ∈ xs, P x) → P (.seq t xs))
    (h8 : ∀ kvs, (∀ kv ∈ kvs, P kv.2) → P (.dict kvs))
    (h9 : ∀ t, P (.tensor t)) (h10 : ∀ n, P (.other n)) :
    ∀ kvs : List (Key × Val), ∀ kv ∈ kvs, P kv.2
  | [], x, h => absurd h (by simp)
  | (k, v) :: r, x, h => by
      rcases List.mem_cons.mp h with h | h
      · rw [h]; exact Val.ind h1 h2 h3 h4 h5 h6 h7 h8 h9 h10 v
      · exact Val.indD h1 h2 h3 h4 h5 h6 h7 h8 h9 h10 r x h
end

theorem normList_eq (xs : List Val) : normList xs = xs.map norm := by
  induction xs with
  | nil => rfl
  | cons x r ih => rw [normList, ih]; rfl

theorem normEntries_eq (m : List (Key × Val)) :
    normEntries m = m.map (fun kv => (kv.1, norm kv.2)) := by
  induction m with
  | nil => rfl
  | cons x r ih => obtain ⟨k, v⟩ := x; rw [normEntries, ih]; rfl

theorem canonList_ok : ∀ (xs : List Val) (js : List J), canonList xs = .ok js ↔
    List.Forall₂ (fun v j => canon v = .ok j) xs js
  | [], js => by
      rw [canonList, List.forall₂_nil_left_iff]
      constructor
      · intro h; cases h; rfl
      · rintro rfl; rfl
  | x :: r, js => by
      rw [canonList]
      constructor
      · intro h
        split at h
        · rename_i j js' h1 h2
          cases h
          exact List.Forall₂.cons h1 ((canonList_ok r js').mp h2)
        · cases h
      · intro h
        cases h with
        | cons h1 h2 =>
          rw [h1, (canonList_ok r _).mpr h2]

theorem canonDict_ok : ∀ (kvs : List (Key × Val)) (m : List (Str × J)), canonDict kvs = .ok m →
    ∃ es : List (Str × (Val × J)), kvs = es.map (fun e => (Key.str e.1, e.2.1)) ∧
      m = es.map (fun e => (e.1, e.2.2)) ∧
      ∀ e ∈ es, reserved e.1 = false ∧ canon e.2.1 = .ok e.2.2
  | [], m, h => by
      rw [canonDict] at h
      cases h
      exact ⟨[], rfl, rfl, by simp⟩
  | (k, v) :: r, m, h => by
      cases k with
      | other n => rw [canonDict.eq_def] at h; cases h
      | str s =>
        rw [canonDict.eq_def] at h
        simp only at h
        by_cases hr : reserved s = true
        · rw [if_pos hr] at h; cases h
        · rw [if_neg hr] at h
          split at h
          · rename_i j m' h1 h2
            cases h
            obtain ⟨es, e1, e2, e3⟩ := canonDict_ok r m' h2
            refine ⟨(s, (v, j)) :: es, by simp [e1], by simp [e2], ?_⟩
            intro e he
            rcases List.mem_cons.mp he with rfl | he
            · exact ⟨by simpa using hr, h1⟩
            · exact e3 e he
          · cases h

theorem canonDict_of (es : List (Str × (Val × J)))
    (h : ∀ e ∈ es, reserved e.1 = false ∧ canon e.2.1 = .ok e.2.2) :
    canonDict (es.map (fun e => (Key.str e.1, e.2.1))) = .ok (es.map (fun e => (e.1, e.2.2))) := by
  induction es with
  | nil => rfl
  | cons e es ih =>
    obtain ⟨s, v, j⟩ := e
    have h1 := h (s, v, j) (List.mem_cons_self ..)
    have h2 := ih (fun e he => h e (List.mem_cons_of_mem _ he))
    simp only at h1
    simp only [List.map_cons, canonDict, h1.1, h1.2, h2, Bool.false_eq_true, if_false]

theorem reserved_iff (s : Str) : reserved s = false ↔
    s ≠ "$bytes".toList ∧ s ≠ "$f64".toList ∧ s ≠ "$tensor".toList := by
  unfold reserved tagBytes tagF64 tagTensor
  simp [Bool.or_eq_false_iff, and_assoc]

theorem except_map_ok {ε α β : Type} (x : Except ε α) (f : α → β) (y : β)
    (h : x.map f = .ok y) : ∃ a, x = .ok a ∧ f a = y := by
  cases x with
  | error e => cases h
  | ok a => cases h; exact ⟨a, rfl, rfl⟩

theorem canon_good : ∀ v, ∀ j, PyVal v → canon v = .ok j → Good j := by
  apply Val.ind
  · intro j _ h; rw [canon] at h; cases h; exact .null
  · intro b j _ h; rw [canon] at h; cases h; exact .bool b
  · intro n j _ h; rw [canon] at h; split at h <;> cases h; exact .int n
  · intro b j _ h
    rw [canon] at h; split at h <;> cases h
    exact .obj _ (by simp) (by intro kv hkv; simp at hkv; subst hkv; exact .str _)
  · intro s j _ h; rw [canon] at h; cases h; exact .str s
  · intro bs j _ h
    rw [canon] at h; cases h
    exact .obj _ (by simp) (by intro kv hkv; simp at hkv; subst hkv; exact .str _)
  · intro t xs ih j hp h
    rw [canon] at h
    obtain ⟨js, h1, rfl⟩ := except_map_ok _ _ _ h
    rw [canonList_ok] at h1
    cases hp with
    | seq _ _ hp =>
    apply Good.arr
    clear h
    induction h1 with
    | nil => simp
    | cons hx hr ihr =>
      intro y hy
      rcases List.mem_cons.mp hy with rfl | hy
      · exact ih _ (List.mem_cons_self ..) _ (hp _ (List.mem_cons_self ..)) hx
      · exact ihr (fun x hx => ih x (List.mem_cons_of_mem _ hx))
          (fun x hx => hp x (List.mem_cons_of_mem _ hx)) y hy
  · intro kvs ih j hp h
    rw [canon] at h
    obtain ⟨m, h1, rfl⟩ := except_map_ok _ _ _ h
    obtain ⟨es, rfl, rfl, h3⟩ := canonDict_ok _ _ h1
    cases hp with
    | dict _ hnd hp =>
    apply Good.obj
    · apply ((sortKeys_perm _).map _).nodup_iff.mpr
      rw [List.map_map] at hnd ⊢
      rw [show (Prod.fst ∘ fun e : Str × (Val × J) => (Key.str e.1, e.2.1)) =
        Key.str ∘ (fun e => e.1) from rfl, ← List.map_map] at hnd
      exact List.Nodup.of_map _ hnd
    · intro kv hkv
      rw [mem_sortKeys, List.mem_map] at hkv
      obtain ⟨e, he, rfl⟩ := hkv
      have hm : (Key.str e.1, e.2.1) ∈ es.map (fun e => (Key.str e.1, e.2.1)) :=
        List.mem_map.mpr ⟨e, he, rfl⟩
      exact ih _ hm _ (hp _ hm) (h3 e he).2
  · intro t j _ h
    rw [canon] at h
    unfold canonTensor at h
    split_ifs at h
    split at h
    · cases h
    · cases h
      apply Good.obj _ (by simp)
      intro kv hkv
      simp only [List.mem_singleton] at hkv
      subst hkv
      apply Good.obj
      · simp
      · intro kv hkv
        simp only [List.mem_cons, List.not_mem_nil, or_false] at hkv
        rcases hkv with rfl | rfl | rfl
        · exact .str _
        · apply Good.arr; intro x hx; rw [List.mem_map] at hx; obtain ⟨n, -, rfl⟩ := hx; exact .int _
        · exact .str _
  · intro n j _ h; rw [canon] at h; cases h

theorem decodeList_map (lib : PyLib) : ∀ (js : List J) (vs : List Val),
    List.Forall₂ (fun j v => decodeVal lib j = .ok v) js vs → decodeList lib js = .ok vs := by
  intro js vs h
  induction h with
  | nil => rfl
  | cons h1 _ ih => rw [decodeList, h1, ih]

theorem decodeEntries_map (lib : PyLib) (es : List (Str × (J × Val)))
    (h : ∀ e ∈ es, decodeVal lib e.2.1 = .ok e.2.2) :
    decodeEntries lib (es.map (fun e => (e.1, e.2.1))) =
      .ok (es.map (fun e => (Key.str e.1, e.2.2))) := by
  induction es with
  | nil => rfl
  | cons e es ih =>
    simp only [List.map_cons, decodeEntries, h e (List.mem_cons_self ..),
      ih (fun e he => h e (List.mem_cons_of_mem _ he))]

theorem keySetIs_fresh (kvs : List (Str × J)) (n : Str) (h : ∀ kv ∈ kvs, kv.1 ≠ n) :
    keySetIs kvs [n] = false := by
  unfold keySetIs
  have : kvs.any (fun kv => kv.1 == n) = false := by
    rw [List.any_eq_false]
    intro kv hkv; simpa using h kv hkv
  simp [this]

theorem decode_float_tag (lib : PyLib) (b : BitVec 64) (h : isFinite b = true) :
    decodeVal lib (.obj [(tagF64, .str (toHex (packF64 b)))]) = .ok (.float b) := by
  rw [decodeVal]
  have e1 : keySetIs [(tagF64, J.str (toHex (packF64 b)))] [tagBytes] = false := rfl
  have e2 : keySetIs [(tagF64, J.str (toHex (packF64 b)))] [tagF64] = true := rfl
  have e3 : lookupJ tagF64 [(tagF64, J.str (toHex (packF64 b)))] =
    some (J.str (toHex (packF64 b))) := rfl
  simp only [e1, e2, e3, Bool.false_eq_true, if_false, if_true, toHex_length, packF64_length,
    isLower_toHex, fromHex_toHex, Option.bind_some, unpack_pack, h]
  rfl

theorem decode_bytes_tag (lib : PyLib) (bs : List UInt8) :
    decodeVal lib (.obj [(tagBytes, .str (toHex bs))]) = .ok (.bytes bs) := by
  rw [decodeVal]
  have e2 : keySetIs [(tagBytes, J.str (toHex bs))] [tagBytes] = true := rfl
  have e3 : lookupJ tagBytes [(tagBytes, J.str (toHex bs))] = some (J.str (toHex bs)) := rfl
  have e4 : 2 * bs.length % 2 = 0 := by omega
  simp only [e2, e3, if_true, toHex_length, isLower_toHex, fromHex_toHex, e4]
  rfl

theorem byName_name (d : DType) : DType.byName d.name = some d := by cases d <;> decide

theorem size_pos (d : DType) : 0 < d.size := by cases d <;> decide

theorem mapOpt_shape (lib : PyLib) (l : List Nat) :
    mapOpt (pyInt lib) ((l.map (fun n : Nat => J.int (Int.ofNat n))).map sortJ) = some (l.map (fun n : Nat => Int.ofNat n)) := by
  induction l with
  | nil => rfl
  | cons n l ih =>
    simp only [List.map_cons, mapOpt, ih, sortJ, pyInt]

theorem decode_tensor (lib : PyLib) (t : Tensor) (j : J) (hp : PyVal (.tensor t))
    (h : canonTensor t = .ok j) : decodeVal lib (sortJ j) = .ok (.tensor t) := by
  unfold canonTensor at h
  split_ifs at h with h1 h2
  split at h
  · cases h
  rename_i d hd
  cases h
  cases hp with
  | tensor _ hlen =>
  have hlen := hlen d hd
  rw [sortJ_obj]
  have es1 : sortKeys [(tagTensor, J.obj [("dtype".toList, .str d.name),
        ("shape".toList, .arr (t.shape.map (fun n : Nat => J.int (Int.ofNat n)))),
        ("data_le".toList, .str (toHex t.data))])] = [(tagTensor, J.obj [("dtype".toList, .str d.name),
        ("shape".toList, .arr (t.shape.map (fun n : Nat => J.int (Int.ofNat n)))),
        ("data_le".toList, .str (toHex t.data))])] := rfl
  have es2 : sortKeys [("dtype".toList, J.str d.name),
        ("shape".toList, .arr (t.shape.map (fun n : Nat => J.int (Int.ofNat n)))),
        ("data_le".toList, .str (toHex t.data))] = [("data_le".toList, .str (toHex t.data)),
        ("dtype".toList, J.str d.name),
        ("shape".toList, .arr (t.shape.map (fun n : Nat => J.int (Int.ofNat n))))] := rfl
  rw [es1]
  simp only [List.map_cons, List.map_nil, sortJ_obj, es2, sortJ_arr]
  simp only [sortJ]
  have hm := mapOpt_shape lib t.shape
  generalize ht : (t.shape.map (fun n : Nat => J.int (Int.ofNat n))).map sortJ = sh at hm
  set st := J.obj [("data_le".toList, J.str (toHex t.data)), ("dtype".toList, J.str d.name),
    ("shape".toList, J.arr sh)] with hst
  have e1 : keySetIs [(tagTensor, st)] [tagBytes] = false := rfl
  have e2 : keySetIs [(tagTensor, st)] [tagF64] = false := rfl
  have e3 : keySetIs [(tagTensor, st)] [tagTensor] = true := rfl
  have e4 : lookupJ tagTensor [(tagTensor, st)] = some st := rfl
  rw [decodeVal]
  simp only [e1, e2, e3, e4, Bool.false_eq_true, if_false, if_true]
  have hdt : decodeTensor lib st = .ok t := by
    rw [hst]
    unfold decodeTensor
    have k1 : keySetIs [("data_le".toList, J.str (toHex t.data)), ("dtype".toList, J.str d.name),
      ("shape".toList, J.arr sh)] ["dtype".toList, "shape".toList, "data_le".toList] = true := rfl
    have k2 : lookupJ "dtype".toList [("data_le".toList, J.str (toHex t.data)),
      ("dtype".toList, J.str d.name), ("shape".toList, J.arr sh)] = some (J.str d.name) := rfl
    have k3 : lookupJ "shape".toList [("data_le".toList, J.str (toHex t.data)),
      ("dtype".toList, J.str d.name), ("shape".toList, J.arr sh)] = some (J.arr sh) := rfl
    have k4 : lookupJ "data_le".toList [("data_le".toList, J.str (toHex t.data)),
      ("dtype".toList, J.str d.name), ("shape".toList, J.arr sh)] = some (J.str (toHex t.data)) := rfl
    have k5 : (t.shape.map (fun n : Nat => Int.ofNat n)).any (fun n => decide (n < 0)) = false := by
      rw [List.any_eq_false]
      intro x hx
      rw [List.mem_map] at hx
      obtain ⟨n, -, rfl⟩ := hx
      simp
    have k6 : (t.shape.map (fun n : Nat => Int.ofNat n)).map Int.toNat = t.shape := by
      rw [List.map_map]
      conv_rhs => rw [← List.map_id t.shape]
      apply List.map_congr_left
      intro a _; simp
    have k7 : t.data.length % d.size = 0 := by rw [hlen]; exact Nat.mul_mod_right _ _
    have k8 : t.data.length / d.size = t.shape.prod := by
      rw [hlen]; exact Nat.mul_div_cancel_left _ (size_pos d)
    simp only [k1, k2, k3, k4, not_true, if_false, byName_name, pyIter, Option.bind_some, hm, k5,
      Bool.false_eq_true, fromHex_toHex, k6, k7, k8, ne_eq]
    cases t
    simp_all
  rw [hdt]
  rfl

theorem decode_canon (lib : PyLib) : ∀ v, ∀ j, PyVal v → canon v = .ok j →
    decodeVal lib (sortJ j) = .ok (norm v) := by
  apply Val.ind
  · intro j _ h; rw [canon] at h; cases h; rfl
  · intro b j _ h; rw [canon] at h; cases h; rfl
  · intro n j _ h; rw [canon] at h; split at h <;> cases h; rfl
  · intro b j _ h
    rw [canon] at h
    split at h
    · rename_i hf
      cases h
      rw [sortJ_obj]
      exact decode_float_tag lib b hf
    · cases h
  · intro s j _ h; rw [canon] at h; cases h; rfl
  · intro bs j _ h
    rw [canon] at h; cases h
    rw [sortJ_obj]
    exact decode_bytes_tag lib bs
  · intro t xs ih j hp h
    rw [canon] at h
    obtain ⟨js, h1, rfl⟩ := except_map_ok _ _ _ h
    rw [canonList_ok] at h1
    cases hp with
    | seq _ _ hp =>
    rw [sortJ_arr, decodeVal, norm, normList_eq]
    rw [decodeList_map lib _ (xs.map norm)]
    · rfl
    · clear h
      induction h1 with
      | nil => exact .nil
      | cons hx hr ihr =>
        exact .cons (ih _ (List.mem_cons_self ..) _ (hp _ (List.mem_cons_self ..)) hx)
          (ihr (fun x hx => ih x (List.mem_cons_of_mem _ hx))
            (fun x hx => hp x (List.mem_cons_of_mem _ hx)))
  · intro kvs ih j hp h
    rw [canon] at h
    obtain ⟨m, h1, rfl⟩ := except_map_ok _ _ _ h
    obtain ⟨es, rfl, rfl, h3⟩ := canonDict_ok _ _ h1
    cases hp with
    | dict _ hnd hp =>
    rw [sortJ_obj, sortKeys_idem, sortKeys_map (fun e : Str × (Val × J) => (e.1, e.2.2)) (fun _ => rfl),
      norm, normEntries_eq, List.map_map, List.map_map]
    have hs : (es.map ((fun kv : Key × Val => (kv.1, norm kv.2)) ∘
          fun e : Str × (Val × J) => (Key.str e.1, e.2.1))).insertionSort
          (fun a b => a.1.text ≤ b.1.text) =
        (sortKeys es).map (fun e => (Key.str e.1, norm e.2.1)) := by
      unfold sortKeys
      rw [List.map_insertionSort (r := fun a b => keyLe a b = true)
        (s := fun a b : Key × Val => a.1.text ≤ b.1.text)]
      · rfl
      · intro a _ b _; simp [keyLe, Key.text]
    rw [hs]
    have hmem : ∀ e ∈ sortKeys es, reserved e.1 = false ∧ decodeVal lib (sortJ e.2.2) = .ok (norm e.2.1) := by
      intro e he
      have he' := mem_sortKeys.mp he
      have hm : (Key.str e.1, e.2.1) ∈ es.map (fun e => (Key.str e.1, e.2.1)) :=
        List.mem_map.mpr ⟨e, he', rfl⟩
      exact ⟨(h3 e he').1, ih _ hm _ (hp _ hm) (h3 e he').2⟩
    generalize sortKeys es = fs at hmem
    have hentries := decodeEntries_map lib (fs.map (fun e => (e.1, (sortJ e.2.2, norm e.2.1))))
      (by intro e he; rw [List.mem_map] at he; obtain ⟨f, hf, rfl⟩ := he; exact (hmem f hf).2)
    simp only [List.map_map, Function.comp_def] at hentries ⊢
    have hres : ∀ kv ∈ fs.map (fun e : Str × (Val × J) => (e.1, sortJ e.2.2)), reserved kv.1 = false := by
      intro kv hkv
      rw [List.mem_map] at hkv
      obtain ⟨f, hf, rfl⟩ := hkv
      exact (hmem f hf).1
    generalize hkl : fs.map (fun e : Str × (Val × J) => (e.1, sortJ e.2.2)) = kl at hres hentries
    rw [decodeVal, keySetIs_fresh kl tagBytes, keySetIs_fresh kl tagF64, keySetIs_fresh kl tagTensor]
    · have : kl.any (fun kv => reserved kv.1) = false := by
        rw [List.any_eq_false]; intro kv hkv; simp [hres kv hkv]
      simp only [Bool.false_eq_true, if_false, this, hentries]
      rfl
    · intro kv hkv hc; have := hres kv hkv; rw [hc] at this; revert this; decide
    · intro kv hkv hc; have := hres kv hkv; rw [hc] at this; revert this; decide
    · intro kv hkv hc; have := hres kv hkv; rw [hc] at this; revert this; decide
  · intro t j hp h
    rw [canon] at h
    exact decode_tensor lib t j hp h
  · intro n j _ h; rw [canon] at h; cases h

/-- canonicalising the normalised value gives the same JSON value -/
theorem canon_norm : ∀ v, ∀ j, canon v = .ok j → canon (norm v) = .ok j := by
  apply Val.ind
  · intro j h; exact h
  · intro b j h; exact h
  · intro n j h; exact h
  · intro b j h; exact h
  · intro s j h; exact h
  · intro bs j h; exact h
  · intro t xs ih j h
    rw [canon] at h
    obtain ⟨js, h1, rfl⟩ := except_map_ok _ _ _ h
    rw [canonList_ok] at h1
    rw [norm, normList_eq, canon]
    have : canonList (xs.map norm) = .ok js := by
      rw [canonList_ok]
      clear h
      induction h1 with
      | nil => exact .nil
      | cons hx hr ihr =>
        exact .cons (ih _ (List.mem_cons_self ..) _ hx) (ihr (fun x hx => ih x (List.mem_cons_of_mem _ hx)))
    rw [this]; rfl
  · intro kvs ih j h
    rw [canon] at h
    obtain ⟨m, h1, rfl⟩ := except_map_ok _ _ _ h
    obtain ⟨es, rfl, rfl, h3⟩ := canonDict_ok _ _ h1
    rw [norm, normEntries_eq, List.map_map]
    have hs : (es.map ((fun kv : Key × Val => (kv.1, norm kv.2)) ∘
          fun e : Str × (Val × J) => (Key.str e.1, e.2.1))).insertionSort
          (fun a b => a.1.text ≤ b.1.text) =
        ((sortKeys es).map (fun e => (e.1, (norm e.2.1, e.2.2)))).map
          (fun e => (Key.str e.1, e.2.1)) := by
      unfold sortKeys
      rw [List.map_map, List.map_insertionSort (r := fun a b => keyLe a b = true)
        (s := fun a b : Key × Val => a.1.text ≤ b.1.text)]
      · rfl
      · intro a _ b _; simp [keyLe, Key.text]
    rw [hs, canon, canonDict_of]
    · rw [List.map_map, Except.map]
      congr 2
      have : ((fun e : Str × (Val × J) => (e.1, e.2.2)) ∘
          fun e : Str × (Val × J) => (e.1, (norm e.2.1, e.2.2))) = fun e => (e.1, e.2.2) := rfl
      rw [this, ← sortKeys_map (fun e : Str × (Val × J) => (e.1, e.2.2)) (fun _ => rfl), sortKeys_idem]
    · intro e he
      rw [List.mem_map] at he
      obtain ⟨f, hf, rfl⟩ := he
      have hf' := mem_sortKeys.mp hf
      exact ⟨(h3 f hf').1, ih _ (List.mem_map.mpr ⟨f, hf', rfl⟩) _ (h3 f hf').2⟩
  · intro t j h; exact h
  · intro n j h; exact h

/-- The encoder accepts exactly the encodable values. -/
theorem C07_accepts (lib : PyLib) (v : Val) : (∃ b, encode lib v = .ok b) ↔ Encodable v := by
  have key : (∃ j, canon v = .ok j) ↔ Encodable v := by
    constructor
    · rintro ⟨j, h⟩
      revert j
      revert v
      apply Val.ind
      · intro j _; exact .null
      · intro b j _; exact .bool b
      · intro n j h
        rw [canon] at h
        split at h
        · rename_i hr; exact .int n (by omega) (by omega)
        · cases h
      · intro b j h
        rw [canon] at h
        split at h
        · rename_i hr; exact .float b ((isFinite_iff b).mp hr)
        · cases h
      · intro s j _; exact .str s
      · intro bs j _; exact .bytes bs
      · intro t xs ih j h
        rw [canon] at h
        obtain ⟨js, h1, rfl⟩ := except_map_ok _ _ _ h
        rw [canonList_ok] at h1
        apply Encodable.seq
        clear h
        induction h1 with
        | nil => simp
        | cons hx hr ihr =>
          intro y hy
          rcases List.mem_cons.mp hy with rfl | hy
          · exact ih _ (List.mem_cons_self ..) _ hx
          · exact ihr (fun x hx => ih x (List.mem_cons_of_mem _ hx)) y hy
      · intro kvs ih j h
        rw [canon] at h
        obtain ⟨m, h1, rfl⟩ := except_map_ok _ _ _ h
        obtain ⟨es, rfl, rfl, h3⟩ := canonDict_ok _ _ h1
        apply Encodable.dict
        · intro kv hkv
          rw [List.mem_map] at hkv
          obtain ⟨e, he, rfl⟩ := hkv
          exact ⟨e.1, rfl, (reserved_iff _).mp (h3 e he).1⟩
        · intro kv hkv
          have hkv' := hkv
          rw [List.mem_map] at hkv
          obtain ⟨e, he, rfl⟩ := hkv
          exact ih _ hkv' _ (h3 e he).2
      · intro t j h
        rw [canon] at h
        unfold canonTensor at h
        split_ifs at h with h1 h2
        split at h
        · cases h
        · rename_i d hd
          exact .tensor t (by simpa using h1) (by simpa using h2) (by rw [hd]; simp)
      · intro n j h; rw [canon] at h; cases h
    · intro h
      induction h with
      | null => exact ⟨_, rfl⟩
      | bool b => exact ⟨_, rfl⟩
      | int n h1 h2 => exact ⟨.int n, by rw [canon, if_pos (by omega)]⟩
      | float b h => exact ⟨_, by rw [canon, if_pos ((isFinite_iff b).mpr h)]⟩
      | str s => exact ⟨_, rfl⟩
      | bytes bs => exact ⟨_, rfl⟩
      | seq t xs _ ih =>
        have : ∃ js, canonList xs = .ok js := by
          induction xs with
          | nil => exact ⟨[], rfl⟩
          | cons x r ihr =>
            obtain ⟨j, hj⟩ := ih x (List.mem_cons_self ..)
            obtain ⟨js, hjs⟩ := ihr (fun y hy => (by assumption : ∀ x ∈ _, Encodable x) y
                (List.mem_cons_of_mem _ hy)) (fun y hy => ih y (List.mem_cons_of_mem _ hy))
            exact ⟨j :: js, by rw [canonList, hj, hjs]⟩
        obtain ⟨js, hjs⟩ := this
        exact ⟨.arr js, by rw [canon, hjs]; rfl⟩
      | dict kvs hk _ ih =>
        have : ∃ m, canonDict kvs = .ok m := by
          clear * - hk ih
          induction kvs with
          | nil => exact ⟨[], rfl⟩
          | cons kv r ihr =>
            obtain ⟨k, v⟩ := kv
            obtain ⟨s, hs, hr⟩ := hk (k, v) (List.mem_cons_self ..)
            simp only at hs
            subst hs
            obtain ⟨j, hj⟩ := ih (.str s, v) (List.mem_cons_self ..)
            obtain ⟨m, hm⟩ := ihr (fun y hy => hk y (List.mem_cons_of_mem _ hy))
              (fun y hy => ih y (List.mem_cons_of_mem _ hy))
            simp only at hj
            exact ⟨(s, j) :: m, by
              rw [canonDict]
              simp only [(reserved_iff s).mpr hr, hj, hm, Bool.false_eq_true, if_false]⟩
        obtain ⟨m, hm⟩ := this
        exact ⟨.obj (sortKeys m), by rw [canon, hm]; rfl⟩
      | tensor t h1 h2 h3 =>
        cases hd : t.dtype with
        | none => exact absurd hd h3
        | some d => exact ⟨_, by rw [canon, canonTensor]; simp only [h1, h2, hd, Bool.false_eq_true,
            not_true, if_false]; rfl⟩
  rw [← key]
  unfold encode
  constructor
  · rintro ⟨b, hb⟩; obtain ⟨j, hj, -⟩ := except_map_ok _ _ _ hb; exact ⟨j, hj⟩
  · rintro ⟨j, hj⟩; exact ⟨_, by rw [hj]; rfl⟩

/-- Round trip: decoding an encoded state succeeds and returns the state, with sequences as tuples and
dictionaries in sorted key order. -/
theorem C07_roundtrip (lib : PyLib) (v : Val) (hv : PyVal v) (blob : ByteArray)
    (h : encode lib v = .ok blob) : decode lib blob = .ok (norm v) := by
  unfold encode at h
  obtain ⟨j, hj, rfl⟩ := except_map_ok _ _ _ h
  have hg := canon_good v j hv hj
  unfold decode
  rw [List.utf8Decode?_utf8Encode]
  simp only [loads_dumps lib hg, decode_canon lib v j hv hj]
  rw [encode, canon_norm v j hj]
  simp [Except.map]

/-- Canonical: an accepted blob is the encoding of the value returned, ... -/
theorem C07_canonical (lib : PyLib) (blob : ByteArray) (v : Val) (h : decode lib blob = .ok v) :
    encode lib v = .ok blob := by
  unfold decode at h
  split at h
  · cases h
  · split at h
    · cases h
    · split at h
      · cases h
      · split at h
        · cases h
        · rename_i blob' he
          split_ifs at h with hb
          cases h
          simp only [ne_eq, not_not] at hb
          rw [he, hb]

/-- ... two different accepted blobs never decode to the same value, and every state whose encoding is
that blob is the value returned (up to list/tuple and entry order). -/
theorem C07_unique (lib : PyLib) (blob : ByteArray) (v : Val) (h : decode lib blob = .ok v) :
    (∀ blob', decode lib blob' = .ok v → blob' = blob) ∧
    (∀ v', PyVal v' → encode lib v' = .ok blob → norm v' = v) := by
  constructor
  · intro blob' h'
    have h1 := C07_canonical lib blob v h
    have h2 := C07_canonical lib blob' v h'
    rw [h1] at h2; cases h2; rfl
  · intro v' hp he
    have := C07_roundtrip lib v' hp blob he
    rw [h] at this; cases this; rfl

/-- Lossless: two states with the same bytes are the same state up to list/tuple and entry order, and
states equal up to that have the same bytes. -/
theorem C07_injective (lib : PyLib) (v w : Val) (hv : PyVal v) (hw : PyVal w) (b : ByteArray)
    (h : encode lib v = .ok b) : encode lib w = .ok b ↔ norm w = norm v ∧ Encodable w := by
  constructor
  · intro h'
    have h1 := C07_roundtrip lib v hv b h
    have h2 := C07_roundtrip lib w hw b h'
    rw [h1] at h2
    refine ⟨by injection h2 with h2; exact h2.symm, (C07_accepts lib w).mp ⟨b, h'⟩⟩
  · rintro ⟨hn, hw'⟩
    obtain ⟨b', hb'⟩ := (C07_accepts lib w).mpr hw'
    have e1 : encode lib (norm v) = .ok b := C07_canonical lib b _ (C07_roundtrip lib v hv b h)
    have e2 : encode lib (norm w) = .ok b' := C07_canonical lib b' _ (C07_roundtrip lib w hw b' hb')
    rw [hn, e1] at e2; cases e2; exact hb'

/-- A concrete state: nested dictionaries out of order, a list, a float, bytes and a tensor. -/
def exState : Val := .dict [
  (.str "z\n".toList, .seq false [.int (-12), .float 0x3FF8000000000000#64, .null]),
  (.str "a".toList, .dict [(.str "q".toList, .bytes [0, 255]), (.str "b".toList, .bool true)]),
  (.str "t".toList, .tensor ⟨false, true, some .int16, [2, 1], [1, 0, 255, 255]⟩)]

example : PyVal exState ∧ Encodable exState := by
  constructor
  · refine .dict _ (by decide) ?_
    intro kv hkv
    simp only [List.mem_cons, List.not_mem_nil, or_false] at hkv
    rcases hkv with rfl | rfl | rfl
    · refine .seq _ _ ?_
      intro x hx
      simp only [List.mem_cons, List.not_mem_nil, or_false] at hx
      rcases hx with rfl | rfl | rfl
      · exact .int _
      · exact .float _
      · exact .null
    · refine .dict _ (by decide) ?_
      intro kv hkv
      simp only [List.mem_cons, List.not_mem_nil, or_false] at hkv
      rcases hkv with rfl | rfl
      · exact .bytes _
      · exact .bool _
    · refine .tensor _ ?_
      intro d hd
      cases hd
      rfl
  · refine .dict _ ?_ ?_
    · intro kv hkv
      simp only [List.mem_cons, List.not_mem_nil, or_false] at hkv
      rcases hkv with rfl | rfl | rfl <;> exact ⟨_, rfl, by decide, by decide, by decide⟩
    · intro kv hkv
      simp only [List.mem_cons, List.not_mem_nil, or_false] at hkv
      rcases hkv with rfl | rfl | rfl
      · refine .seq _ _ ?_
        intro x hx
        simp only [List.mem_cons, List.not_mem_nil, or_false] at hx
        rcases hx with rfl | rfl | rfl
        · exact .int _ (by decide) (by decide)
        · exact .float _ (by unfold FiniteBits; decide)
        · exact .null
      · refine .dict _ ?_ ?_
        · intro kv hkv
          simp only [List.mem_cons, List.not_mem_nil, or_false] at hkv
          rcases hkv with rfl | rfl <;> exact ⟨_, rfl, by decide, by decide, by decide⟩
        · intro kv hkv
          simp only [List.mem_cons, List.not_mem_nil, or_false] at hkv
          rcases hkv with rfl | rfl
          · exact .bytes _
          · exact .bool _
      · exact .tensor _ rfl rfl (by decide)

/-- The text of that state (before UTF-8). -/
example : (canon exState).toOption.map
      (dumps ⟨fun _ => 0, fun _ => [], fun _ => none, fun _ => none⟩) =
    some ("{\"a\":{\"b\":true,\"q\":{\"$bytes\":\"00ff\"}}," ++
      "\"t\":{\"$tensor\":{\"data_le\":\"0100ffff\",\"dtype\":\"int16\",\"shape\":[2,1]}}," ++
      "\"z\\n\":[-12,{\"$f64\":\"3ff8000000000000\"},null]}").toList := by
  decide +kernel

end Verif.Canon
