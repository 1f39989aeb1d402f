import Verif.Board.Props48

/-!
# C49: simple binary records
-/
namespace Verif.Board.Simple
open Verif.Board
open Verif.Board.Packed (Small encodeMove16 le16_to decodeMove_small decodeMoves_encode encode16_length rule_code result_code
  takeExact_append takeExact_ok takeExact_eof readMany)

/-! ### Specification -/

structure Valid (e : Entry) : Prop where
  ply : e.ply = e.position.length ∧ e.ply < 512
  boardsize : e.boardsize < 32
  move : Small e.move
  position : ∀ m ∈ e.position, Small m

def encode (e : Entry) : List Byte :=
  toBytes16 (e.result.value + 4 * e.ply + 2048 * e.boardsize) ++ toBytes16 (e.rule.code + 8 * (32 * e.move.x.toNat + e.move.y.toNat)) ++
  e.position.flatMap encodeMove16

theorem drop4' (a rest : List Byte) (h : a.length = 4) : (a ++ rest).drop 4 = rest := by rw [← h, List.drop_left]

/-- **C49.** Every record within the field widths, followed by anything, is read back exactly. -/
theorem C49_read_encode (e : Entry) (h : Valid e) (rest : List Byte) : readEntry (encode e ++ rest) = .ok (e, rest) := by
  have hm := decodeMove_small e.move h.move 0
  have h1 := e.result.le
  have h2 := h.ply
  have h3 := h.boardsize
  have h4 := rule_code e.rule
  have h6 := decodeMoves_encode e.position h.position
  have h7 := result_code e.result
  obtain ⟨result, ply, boardsize, rule, move, position⟩ := e
  simp only at hm h1 h2 h3 h4 h6 h7
  generalize hn : 32 * move.x.toNat + move.y.toNat = n at hm
  have e1 := le16_to (result.value + 4 * ply + 2048 * boardsize) (by omega) _ _ rfl
  have e2 := le16_to (rule.code + 8 * n) (by omega) _ _ rfl
  unfold readEntry
  have hh : Head.ofBytes (encode ⟨result, ply, boardsize, rule, move, position⟩ ++ rest) = some ⟨result.value, ply, boardsize, rule.code, n⟩ := by
    unfold encode
    simp only [hn]
    show Head.ofBytes (_ :: _ :: _ :: _ :: _) = _
    simp only [Head.ofBytes]
    rw [e1, e2]
    simp only [Option.some.injEq, Head.mk.injEq]
    omega
  have hd : (encode ⟨result, ply, boardsize, rule, move, position⟩ ++ rest).drop 4 = position.flatMap encodeMove16 ++ rest := rfl
  rw [hh, hd]
  simp only [h7, h4.1]
  rw [takeExact_append _ _ _ (by rw [encode16_length, h2.1])]
  simp only [hm.1, h6]

theorem head_prefix (bs : List Byte) (hd : Head) (h : Head.ofBytes bs = some hd) :
    ∃ p t, bs = p ++ t ∧ p.length = 4 ∧ ∀ t', Head.ofBytes (p ++ t') = some hd := by
  match bs, h with
  | a :: b :: c :: d :: t, h => exact ⟨[a, b, c, d], t, rfl, rfl, fun t' => h⟩

theorem readEntry_ok (bs rest : List Byte) (e : Entry) (h : readEntry bs = .ok (e, rest)) :
    ∃ hdr pos hd rule result, bs = hdr ++ (pos ++ rest) ∧ hdr.length = 4 ∧ (∀ t, Head.ofBytes (hdr ++ t) = some hd) ∧
      pos.length = 2 * hd.ply ∧ Rule.ofNat? hd.rule = some rule ∧ Result.ofNat? hd.result = some result ∧
      e = ⟨result, hd.ply, hd.boardsize, rule, decodeMove hd.move, decodeMoves pos⟩ := by
  unfold readEntry at h
  cases hh : Head.ofBytes bs with
  | none => rw [hh] at h; cases h
  | some hd =>
    rw [hh] at h
    simp only at h
    obtain ⟨hdr, t, rfl, hl, hall⟩ := head_prefix bs hd hh
    rw [drop4' _ _ hl] at h
    cases hr2 : Result.ofNat? hd.result with
    | none => rw [hr2] at h; cases h
    | some result =>
      cases hr : Rule.ofNat? hd.rule with
      | none => rw [hr2, hr] at h; cases h
      | some rule =>
        rw [hr2, hr] at h
        simp only at h
        cases ht : takeExact (2 * hd.ply) t with
        | error x => rw [ht] at h; cases h
        | ok ab =>
          obtain ⟨pos, t2⟩ := ab
          rw [ht] at h
          simp only [Except.ok.injEq, Prod.mk.injEq] at h
          obtain ⟨rfl, rfl⟩ := h
          obtain ⟨rfl, hpl⟩ := takeExact_ok _ _ _ _ ht
          exact ⟨hdr, pos, hd, rule, result, rfl, hl, hall, hpl, hr, hr2, rfl⟩

/-- **C49.** On arbitrary bytes: whenever the parser accepts a record, the raw reader returns exactly the bytes it consumed and leaves the same
rest, decoding these bytes gives the same record, and the shape scan reports its board size and rule. -/
theorem C49_readers_agree (bs rest : List Byte) (e : Entry) (h : readEntry bs = .ok (e, rest)) :
    ∃ raw, bs = raw ++ rest ∧ readRaw bs = .ok (raw, rest) ∧ decodeRaw raw = .ok e ∧ rawShape raw = .ok (e.boardsize, e.rule) ∧
      e.position.length = e.ply := by
  obtain ⟨hdr, pos, hd, rule, result, rfl, hl, hall, hpl, hr, hr2, rfl⟩ := readEntry_ok bs rest e h
  refine ⟨hdr ++ pos, by rw [List.append_assoc], ?_, ?_, ?_, ?_⟩
  · unfold readRaw
    rw [takeExact_append 4 _ _ hl]
    have hhdr := hall []
    rw [List.append_nil] at hhdr
    simp only [hhdr]
    rw [takeExact_append _ pos rest hpl]
  · unfold decodeRaw readEntry
    rw [hall]
    simp only [hr, hr2]
    rw [drop4' _ _ hl]
    have := takeExact_append _ pos [] hpl
    rw [List.append_nil] at this
    rw [this]
    simp only [if_true]
  · unfold rawShape
    rw [hall]
    simp only [hr]
  · have hdec : ∀ (n : Nat) (l : List Byte), l.length = 2 * n → (decodeMoves l).length = n := by
      intro n
      induction n with
      | zero =>
        intro l hl
        have : l = [] := List.length_eq_zero_iff.mp (by omega)
        rw [this]; rfl
      | succ n ih =>
        intro l hl
        match l, hl with
        | a :: b :: l, hl =>
          simp only [List.length_cons] at hl
          simp only [decodeMoves, List.length_cons]
          rw [ih l (by omega)]
    exact hdec _ _ hpl

theorem readRaw_encode (e : Entry) (h : Valid e) (rest : List Byte) :
    readRaw (encode e ++ rest) = .ok (encode e, rest) ∧ decodeRaw (encode e) = .ok e ∧ rawShape (encode e) = .ok (e.boardsize, e.rule) := by
  obtain ⟨raw, h1, h2, h3, h4, _⟩ := C49_readers_agree _ _ _ (C49_read_encode e h rest)
  have : raw = encode e := (List.append_cancel_right h1).symm
  subst this
  exact ⟨h2, h3, h4⟩

/-- **C49.** A file that is the concatenation of any list of valid records is read back record by record by both readers. -/
theorem C49_file (es : List Entry) (h : ∀ e ∈ es, Valid e) :
    readMany readEntry es.length (es.flatMap encode) = .ok (es, []) ∧ readMany readRaw es.length (es.flatMap encode) = .ok (es.map encode, []) ∧
    readEntry [] = .error .eof ∧ readRaw [] = .error .eof := by
  refine ⟨?_, ?_, rfl, rfl⟩
  · induction es with
    | nil => rfl
    | cons e es ih =>
      rw [List.flatMap_cons, List.length_cons, readMany, C49_read_encode e (h e (by simp))]
      simp only
      rw [ih fun a ha => h a (by simp [ha])]
  · induction es with
    | nil => rfl
    | cons e es ih =>
      rw [List.flatMap_cons, List.length_cons, readMany, (readRaw_encode e (h e (by simp)) _).1]
      simp only
      rw [ih fun a ha => h a (by simp [ha])]
      rfl

theorem readRaw_mono (p t : List Byte) : (∀ x, readRaw p = .error x → x = .eof) ∧
    ∀ a r, readRaw p = .ok (a, r) → readRaw (p ++ t) = .ok (a, r ++ t) := by
  unfold readRaw
  cases h8 : takeExact 4 p with
  | error y => exact ⟨fun x h => by cases h; exact takeExact_eof _ _ _ h8, fun a r h => by cases h⟩
  | ok hq =>
    obtain ⟨hdr, q⟩ := hq
    obtain ⟨rfl, hl⟩ := takeExact_ok _ _ _ _ h8
    rw [List.append_assoc, takeExact_append _ _ _ hl]
    simp only
    cases hh : Head.ofBytes hdr with
    | none => exact ⟨fun x h => by cases h; rfl, fun a r h => by cases h⟩
    | some hd =>
      simp only
      cases ht : takeExact (2 * hd.ply) q with
      | error y => exact ⟨fun x h => by cases h; exact takeExact_eof _ _ _ ht, fun a r h => by cases h⟩
      | ok ab =>
        obtain ⟨a, b⟩ := ab
        obtain ⟨rfl, hal⟩ := takeExact_ok _ _ _ _ ht
        rw [List.append_assoc, takeExact_append _ _ _ hal]
        refine ⟨(fun x h => by cases h), fun a' r h => ?_⟩
        simp only [Except.ok.injEq, Prod.mk.injEq] at h ⊢
        exact ⟨h.1, by rw [h.2]⟩

/-- **C49.** A file that ends in the middle of a record is reported as such by both readers. -/
theorem C49_truncated (e : Entry) (h : Valid e) (k : Nat) (hk : k < (encode e).length) :
    readEntry ((encode e).take k) = .error .eof ∧ readRaw ((encode e).take k) = .error .eof := by
  have hsplit : (encode e).take k ++ (encode e).drop k = encode e := List.take_append_drop _ _
  have hne : (encode e).drop k ≠ [] := by
    intro hn
    have := congrArg List.length hn
    rw [List.length_drop, List.length_nil] at this
    omega
  have hfull := C49_read_encode e h []
  have hraw := (readRaw_encode e h []).1
  rw [List.append_nil] at hfull hraw
  have hrawk : readRaw ((encode e).take k) = .error .eof := by
    cases hr : readRaw ((encode e).take k) with
    | ok ar =>
      obtain ⟨a, r⟩ := ar
      have := (readRaw_mono _ ((encode e).drop k)).2 a r hr
      rw [hsplit, hraw] at this
      simp only [Except.ok.injEq, Prod.mk.injEq] at this
      exact absurd (List.append_eq_nil_iff.mp this.2.symm).2 hne
    | error x => rw [(readRaw_mono _ []).1 x hr]
  refine ⟨?_, hrawk⟩
  cases hr : readEntry ((encode e).take k) with
  | ok er =>
    obtain ⟨e', r⟩ := er
    obtain ⟨raw, _, h2, _⟩ := C49_readers_agree _ _ _ hr
    rw [hrawk] at h2; cases h2
  | error x =>
    by_cases hx : x = .eof
    · rw [hx]
    · exfalso
      unfold readEntry at hr hfull
      cases hh : Head.ofBytes ((encode e).take k) with
      | none => rw [hh] at hr; simp only [Except.error.injEq] at hr; exact hx hr.symm
      | some hd =>
        obtain ⟨hdr, q, hq, hl, hall⟩ := head_prefix _ hd hh
        have hh2 : Head.ofBytes (encode e) = some hd := by rw [← hsplit, hq, List.append_assoc, hall]
        rw [hh] at hr
        rw [hh2] at hfull
        simp only at hr hfull
        cases h1 : Result.ofNat? hd.result with
        | none => rw [h1] at hfull; cases hfull
        | some result =>
          cases h2 : Rule.ofNat? hd.rule with
          | none => rw [h1, h2] at hfull; cases hfull
          | some rule =>
            rw [h1, h2] at hr
            simp only at hr
            cases ht : takeExact (2 * hd.ply) (((encode e).take k).drop 4) with
            | error y =>
              rw [ht] at hr
              simp only [Except.error.injEq] at hr
              exact hx (hr ▸ takeExact_eof _ _ _ ht)
            | ok ab => rw [ht] at hr; cases hr

def demo49 : Entry := ⟨.loss, 2, 15, .standard, Move.at 31 7, [Move.at 7 7, Move.at 0 14]⟩
theorem demo49_valid : Valid demo49 := by
  have small : ∀ x y : Nat, x < 32 → y < 32 → Small (Move.at x y) := fun x y hx hy => ⟨x, y, rfl, hx, hy⟩
  refine ⟨⟨rfl, by decide⟩, by decide, small _ _ (by decide) (by decide), ?_⟩
  intro m hm
  simp only [demo49, List.mem_cons, List.not_mem_nil, or_false] at hm
  rcases hm with rfl | rfl <;> exact small _ _ (by decide) (by decide)

example : (encode demo49).map (·.val) = [8, 120, 57, 31, 231, 0, 14, 0] := by decide +kernel

end Verif.Board.Simple
