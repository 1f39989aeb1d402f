import Verif.Board.Binary

/-!
# C48: packed binary records
-/
namespace Verif.Board.Packed
open Verif.Board

/-! ### Specification: the record format -/

/-- A move of a 32 × 32 grid. -/
def Small (m : Move) : Prop := ∃ x y : Nat, m = Move.at x y ∧ x < 32 ∧ y < 32

structure ValidMove (m : Move × Option Int) : Prop where
  move : m.1 = Move.pass ∨ Small m.1
  eval : ∀ e, m.2 = some e → -32768 ≤ e ∧ e < 32768

/-- A record within the widths of its fields. -/
structure Valid (e : Entry) : Prop where
  boardsize : e.boardsize < 32
  totalply : e.totalply < 1024
  gametag : e.gametag < 16384
  init : e.init.length < 1024 ∧ ∀ m ∈ e.init, Small m
  count : (e.moves.map (·.moves.length)).sum < 262144
  groups : ∀ g ∈ e.moves, g.ended = true ∧ g.moves ≠ [] ∧ ∀ m ∈ g.moves, ValidMove m

def encodeMove16 (m : Move) : List Byte := toBytes16 (32 * m.x.toNat + m.y.toNat)

/-- Four bytes: first, last, no-eval and pass bits, the move from bit 6, then the evaluation in two's complement. -/
def encodeEMove (first last : Bool) (m : Move × Option Int) : List Byte :=
  toBytes16 (first.toNat + 2 * last.toNat + 4 * m.2.isNone.toNat + 8 * (decide (m.1 = Move.pass)).toNat +
    64 * (if m.1 = Move.pass then 0 else 32 * m.1.x.toNat + m.1.y.toNat)) ++ toBytes16 ((m.2.getD 0) % 65536).toNat

def encodeGroup (first : Bool) : List (Move × Option Int) → List Byte
  | [] => []
  | [m] => encodeEMove first true m
  | m :: ms => encodeEMove first false m ++ encodeGroup false ms

def encode (e : Entry) : List Byte :=
  toBytes32 (e.boardsize + 32 * e.rule.code + 256 * e.result.value + 4096 * e.totalply + 4194304 * e.init.length) ++
  toBytes32 (e.gametag + 16384 * (e.moves.map (·.moves.length)).sum) ++
  e.init.flatMap encodeMove16 ++ e.moves.flatMap fun g => encodeGroup true g.moves

/-! ### Proof -/

theorem le16_to (n : Nat) (h : n < 65536) : ∀ a b, toBytes16 n = [a, b] → le16 a b = n := by
  intro a b hab
  simp only [toBytes16, List.cons.injEq, and_true] at hab
  obtain ⟨rfl, rfl⟩ := hab
  simp only [le16, Fin.ofNat]
  omega

theorem le32_to (n : Nat) (h : n < 4294967296) : ∀ a b c d, toBytes32 n = [a, b, c, d] → le32 a b c d = n := by
  intro a b c d hab
  simp only [toBytes32, List.cons.injEq, and_true] at hab
  obtain ⟨rfl, rfl, rfl, rfl⟩ := hab
  simp only [le32, Fin.ofNat]
  omega

theorem decodeMove_small (m : Move) (h : Small m) (k : Nat) : decodeMove (32 * m.x.toNat + m.y.toNat) = m ∧ 32 * m.x.toNat + m.y.toNat < 1024 := by
  obtain ⟨x, y, rfl, hx, hy⟩ := h
  have e1 : (Move.at x y).x.toNat = x := rfl
  have e2 : (Move.at x y).y.toNat = y := rfl
  rw [e1, e2]
  refine ⟨?_, by omega⟩
  unfold decodeMove
  have e3 : (32 * x + y) / 32 % 32 = x := by omega
  have e4 : (32 * x + y) % 32 = y := by omega
  rw [e3, e4]

theorem eMove_decode (first last : Bool) (m : Move × Option Int) (hm : ValidMove m) (rest : List Byte) :
    (encodeEMove first last m).length = 4 ∧
    ∃ em, EMove.ofBytes (encodeEMove first last m ++ rest) = some em ∧ em.isFirst = first ∧ em.isLast = last ∧
      (if em.isPass then Move.pass else decodeMove em.move, if em.isNoEval then none else some em.eval) = m := by
  refine ⟨rfl, ?_⟩
  obtain ⟨mv, ev⟩ := m
  have hmove : (if mv = Move.pass then 0 else 32 * mv.x.toNat + mv.y.toNat) < 1024 := by
    rcases hm.move with h | h
    · rw [if_pos h]; decide
    · split
      · decide
      · exact (decodeMove_small mv h 0).2
  generalize hn : (if mv = Move.pass then 0 else 32 * mv.x.toNat + mv.y.toNat) = n at hmove
  generalize hp : (decide (mv = Move.pass)) = p
  have hf := Bool.toNat_le first
  have hl := Bool.toNat_le last
  have hq := Bool.toNat_le p
  have hno := Bool.toNat_le ev.isNone
  have hlo : first.toNat + 2 * last.toNat + 4 * ev.isNone.toNat + 8 * p.toNat + 64 * n < 65536 := by omega
  have hhi : ((ev.getD 0) % 65536).toNat < 65536 := by omega
  have e1 := le16_to _ hlo _ _ rfl
  have e2 := le16_to _ hhi _ _ rfl
  refine ⟨EMove.ofWords (first.toNat + 2 * last.toNat + 4 * ev.isNone.toNat + 8 * p.toNat + 64 * n) ((ev.getD 0) % 65536).toNat, ?_, ?_, ?_, ?_⟩
  · unfold encodeEMove
    simp only [hn, hp]
    show EMove.ofBytes (_ :: _ :: _ :: _ :: rest) = _
    simp only [EMove.ofBytes]
    rw [e1, e2]
  · simp only [EMove.ofWords]
    cases first
    · simp only [Bool.toNat_false, decide_eq_false_iff_not]; omega
    · simp only [Bool.toNat_true, decide_eq_true_eq]; omega
  · simp only [EMove.ofWords]
    cases last
    · simp only [Bool.toNat_false, decide_eq_false_iff_not]; omega
    · simp only [Bool.toNat_true, decide_eq_true_eq]; omega
  · have hpass : (EMove.ofWords (first.toNat + 2 * last.toNat + 4 * ev.isNone.toNat + 8 * p.toNat + 64 * n) ((ev.getD 0) % 65536).toNat).isPass = p := by
      simp only [EMove.ofWords]
      cases p
      · simp only [Bool.toNat_false, decide_eq_false_iff_not]; omega
      · simp only [Bool.toNat_true, decide_eq_true_eq]; omega
    have hnoe : (EMove.ofWords (first.toNat + 2 * last.toNat + 4 * ev.isNone.toNat + 8 * p.toNat + 64 * n) ((ev.getD 0) % 65536).toNat).isNoEval = ev.isNone := by
      simp only [EMove.ofWords]
      cases ev.isNone
      · simp only [Bool.toNat_false, decide_eq_false_iff_not]; omega
      · simp only [Bool.toNat_true, decide_eq_true_eq]; omega
    have hmv : (EMove.ofWords (first.toNat + 2 * last.toNat + 4 * ev.isNone.toNat + 8 * p.toNat + 64 * n) ((ev.getD 0) % 65536).toNat).move = n := by
      simp only [EMove.ofWords]; omega
    rw [hpass, hnoe, hmv]
    refine Prod.ext ?_ ?_
    · simp only
      by_cases h : mv = Move.pass
      · have : p = true := by rw [← hp]; exact decide_eq_true h
        rw [this, if_pos rfl, h]
      · have : p = false := by rw [← hp]; exact decide_eq_false h
        rw [this, if_neg (by simp), ← hn, if_neg h]
        exact (decodeMove_small mv (hm.move.resolve_left h) 0).1
    · simp only
      cases ev with
      | none => rfl
      | some e =>
        have hr := hm.eval e rfl
        simp only [Option.isNone_some, Bool.false_eq_true, if_false, Option.getD_some, EMove.ofWords, Option.some.injEq]
        split <;> omega

theorem drop4 (a rest : List Byte) (h : a.length = 4) : (a ++ rest).drop 4 = rest := by
  rw [← h, List.drop_left]

theorem readMoves_rest (ms done : List (Move × Option Int)) (hms : ms ≠ []) (hd : done ≠ []) (hv : ∀ m ∈ ms, ValidMove m) (n : Nat)
    (gs : List MoveData) (bs : List Byte) :
    readMoves (ms.length + n) (⟨done, false⟩ :: gs) (encodeGroup false ms ++ bs) = readMoves n (⟨done ++ ms, true⟩ :: gs) bs := by
  induction ms generalizing done with
  | nil => exact absurd rfl hms
  | cons m ms ih =>
    have hdl : done.length ≠ 0 := by intro h; exact hd (List.length_eq_zero_iff.mp h)
    cases ms with
    | nil =>
      obtain ⟨h4, em, h1, h2, h3, h5⟩ := eMove_decode false true m (hv m (by simp)) bs
      rw [show [m].length + n = n + 1 by simp; omega]
      simp only [encodeGroup, readMoves, h1, appendMove, Bool.false_eq_true, if_false, MoveData.append, hdl, false_and, Except.map]
      rw [drop4 _ _ h4, h5, h3]
    | cons m' ms =>
      have hlen : (m :: m' :: ms).length + n = ((m' :: ms).length + n) + 1 := by simp; omega
      rw [hlen]
      show readMoves (((m' :: ms).length + n) + 1) _ ((encodeEMove false false m ++ encodeGroup false (m' :: ms)) ++ bs) = _
      rw [List.append_assoc]
      obtain ⟨h4, em, h1, h2, h3, h5⟩ := eMove_decode false false m (hv m (by simp)) (encodeGroup false (m' :: ms) ++ bs)
      rw [readMoves]
      simp only [h1, appendMove, Bool.false_eq_true, if_false, MoveData.append, hdl, false_and, Except.map]
      rw [drop4 _ _ h4, h5, h3, ih (done ++ [m]) (by simp) (by simp) (fun a ha => hv a (by simp [ha]))]
      rw [List.append_assoc]; rfl

theorem readMoves_group (ms : List (Move × Option Int)) (hms : ms ≠ []) (hv : ∀ m ∈ ms, ValidMove m) (n : Nat) (gs : List MoveData)
    (hg : ∀ g ∈ gs, g.ended = true) (bs : List Byte) :
    readMoves (ms.length + n) gs (encodeGroup true ms ++ bs) = readMoves n (⟨ms, true⟩ :: gs) bs := by
  have happ : ∀ em : EMove, em.isFirst = true → appendMove gs em =
      .ok (⟨[(if em.isPass then Move.pass else decodeMove em.move, if em.isNoEval then none else some em.eval)], em.isLast⟩ :: gs) := by
    intro em he
    cases gs with
    | nil => simp [appendMove, MoveData.append, he, Except.map]
    | cons g gs =>
      have := hg g (by simp)
      simp [appendMove, MoveData.append, he, this, Except.map]
  match ms, hms with
  | [m], _ =>
    obtain ⟨h4, em, h1, h2, h3, h5⟩ := eMove_decode true true m (hv m (by simp)) bs
    rw [show [m].length + n = n + 1 by simp; omega]
    simp only [encodeGroup, readMoves, h1, happ em h2]
    rw [drop4 _ _ h4, h5, h3]
  | m :: m' :: ms, _ =>
    have hlen : (m :: m' :: ms).length + n = ((m' :: ms).length + n) + 1 := by simp; omega
    rw [hlen]
    show readMoves (((m' :: ms).length + n) + 1) _ ((encodeEMove true false m ++ encodeGroup false (m' :: ms)) ++ bs) = _
    rw [List.append_assoc]
    obtain ⟨h4, em, h1, h2, h3, h5⟩ := eMove_decode true false m (hv m (by simp)) (encodeGroup false (m' :: ms) ++ bs)
    rw [readMoves]
    simp only [h1, happ em h2]
    rw [drop4 _ _ h4, h5, h3, readMoves_rest (m' :: ms) [m] (by simp) (by simp) (fun a ha => hv a (by simp [ha]))]
    rfl

theorem readMoves_all (groups gs : List MoveData) (hv : ∀ g ∈ groups, g.ended = true ∧ g.moves ≠ [] ∧ ∀ m ∈ g.moves, ValidMove m)
    (hg : ∀ g ∈ gs, g.ended = true) (bs : List Byte) :
    readMoves (groups.map (·.moves.length)).sum gs ((groups.flatMap fun g => encodeGroup true g.moves) ++ bs) = .ok (groups.reverse ++ gs, bs) := by
  induction groups generalizing gs with
  | nil => rfl
  | cons g groups ih =>
    rw [List.map_cons, List.sum_cons, List.flatMap_cons, List.append_assoc,
      readMoves_group g.moves (hv g (by simp)).2.1 (hv g (by simp)).2.2 _ gs hg]
    have he : (⟨g.moves, true⟩ : MoveData) = g := by
      have := (hv g (by simp)).1
      obtain ⟨a, b⟩ := g
      simp only at this
      rw [this]
    rw [he, ih (g :: gs) (fun g' h => hv g' (by simp [h])) (by
      intro a ha
      rcases List.mem_cons.mp ha with rfl | h
      · exact (hv _ (by simp)).1
      · exact hg a h)]
    simp

theorem decodeMoves_encode (l : List Move) (h : ∀ m ∈ l, Small m) : decodeMoves (l.flatMap encodeMove16) = l := by
  induction l with
  | nil => rfl
  | cons m l ih =>
    have hm := decodeMove_small m (h m (by simp)) 0
    have e := le16_to (32 * m.x.toNat + m.y.toNat) (by omega) _ _ rfl
    rw [List.flatMap_cons]
    show decodeMoves (_ :: _ :: l.flatMap encodeMove16) = _
    simp only [decodeMoves]
    rw [e, hm.1, ih fun a ha => h a (by simp [ha])]

theorem encode16_length (l : List Move) : (l.flatMap encodeMove16).length = 2 * l.length := by
  induction l with
  | nil => rfl
  | cons m l ih =>
    rw [List.flatMap_cons, List.length_append, ih, List.length_cons]
    show 2 + _ = _
    omega

theorem rule_code (r : Rule) : Rule.ofNat? r.code = some r ∧ r.code < 8 := by cases r <;> exact ⟨rfl, by decide⟩

theorem result_code (r : Result) : Result.ofNat? r.value = some r := by
  obtain ⟨v, h⟩ := r
  simp [Result.ofNat?, h]

theorem head_decode (e : Entry) (h : Valid e) (rest : List Byte) : ∃ hd,
    Head.ofBytes ((toBytes32 (e.boardsize + 32 * e.rule.code + 256 * e.result.value + 4096 * e.totalply + 4194304 * e.init.length) ++
      toBytes32 (e.gametag + 16384 * (e.moves.map (·.moves.length)).sum)) ++ rest) = some hd ∧
    hd = ⟨e.boardsize, e.rule.code, e.result.value, e.totalply, e.init.length, e.gametag, (e.moves.map (·.moves.length)).sum⟩ := by
  have h1 := h.boardsize
  have h2 := h.totalply
  have h3 := h.gametag
  have h4 := h.init.1
  have h5 := h.count
  have h6 := (rule_code e.rule).2
  have h7 := e.result.le
  generalize (e.moves.map (·.moves.length)).sum = cnt at h5
  have e1 := le32_to (e.boardsize + 32 * e.rule.code + 256 * e.result.value + 4096 * e.totalply + 4194304 * e.init.length) (by omega) _ _ _ _ rfl
  have e2 := le32_to (e.gametag + 16384 * cnt) (by omega) _ _ _ _ rfl
  refine ⟨_, ?_, rfl⟩
  show Head.ofBytes (_ :: _ :: _ :: _ :: _ :: _ :: _ :: _ :: rest) = _
  simp only [Head.ofBytes]
  rw [e1, e2]
  simp only [Head.ofWords, Option.some.injEq, Head.mk.injEq]
  omega

theorem takeExact_append (n : Nat) (a b : List Byte) (h : a.length = n) : takeExact n (a ++ b) = .ok (a, b) := by
  unfold takeExact
  rw [if_neg (by rw [List.length_append]; omega), ← h, List.take_left, List.drop_left]

/-- **C48.** Every record within the field widths, followed by anything, is read back exactly and the reader stops at the end of the record. -/
theorem C48_read_encode (e : Entry) (h : Valid e) (rest : List Byte) : readEntry (encode e ++ rest) = .ok (e, rest) := by
  obtain ⟨hd, h1, rfl⟩ := head_decode e h (e.init.flatMap encodeMove16 ++ ((e.moves.flatMap fun g => encodeGroup true g.moves) ++ rest))
  have hrw : encode e ++ rest = (toBytes32 (e.boardsize + 32 * e.rule.code + 256 * e.result.value + 4096 * e.totalply + 4194304 * e.init.length) ++
      toBytes32 (e.gametag + 16384 * (e.moves.map (·.moves.length)).sum)) ++
      (e.init.flatMap encodeMove16 ++ ((e.moves.flatMap fun g => encodeGroup true g.moves) ++ rest)) := by
    unfold encode; simp only [List.append_assoc]
  rw [hrw]
  unfold readEntry
  rw [h1]
  simp only
  have h8 : ∀ (a b : Nat) (t : List Byte), ((toBytes32 a ++ toBytes32 b) ++ t).drop 8 = t := fun _ _ _ => rfl
  rw [h8, takeExact_append _ _ _ (encode16_length e.init)]
  simp only [(rule_code e.rule).1, result_code, readMoves_all e.moves [] h.groups (by simp) rest, decodeMoves_encode e.init h.init.2,
    List.append_nil, List.reverse_reverse]

/-! ### Agreement of the three readers on arbitrary bytes -/

def closed : List MoveData → Bool
  | [] => true
  | g :: _ => g.ended

def Good (gs : List MoveData) : Prop := ∀ g ∈ gs, g.moves ≠ []

theorem append_step (gs : List MoveData) (hg : Good gs) (m : EMove) :
    (closed gs = true → m.isFirst = false → appendMove gs m = .error .runtime) ∧
    (closed gs = true → m.isFirst = true → ∃ gs', appendMove gs m = .ok gs' ∧ Good gs' ∧ gs'.length = gs.length + 1 ∧ closed gs' = m.isLast) ∧
    (closed gs = false → ∃ gs', appendMove gs m = .ok gs' ∧ Good gs' ∧ gs'.length = gs.length ∧ closed gs' = m.isLast) := by
  refine ⟨fun hc hf => ?_, fun hc hf => ?_, fun hc => ?_⟩
  · cases gs with
    | nil => simp [appendMove, MoveData.append, hf, Except.map]
    | cons g gs =>
      have : g.ended = true := hc
      simp [appendMove, MoveData.append, hf, this, Except.map]
  · cases gs with
    | nil =>
      refine ⟨[⟨[(if m.isPass then Move.pass else decodeMove m.move, if m.isNoEval then none else some m.eval)], m.isLast⟩],
        by simp [appendMove, MoveData.append, hf, Except.map], ?_, rfl, rfl⟩
      intro g h
      simp only [List.mem_singleton] at h
      rw [h]; simp
    | cons g gs =>
      have hge : g.ended = true := hc
      refine ⟨⟨[(if m.isPass then Move.pass else decodeMove m.move, if m.isNoEval then none else some m.eval)], m.isLast⟩ :: g :: gs,
        by simp [appendMove, MoveData.append, hf, hge, Except.map], ?_, rfl, rfl⟩
      intro a h
      rcases List.mem_cons.mp h with rfl | h
      · simp
      · exact hg a h
  · cases gs with
    | nil => cases hc
    | cons g gs =>
      have hge : g.ended = false := hc
      have hgm : g.moves.length ≠ 0 := fun h => hg g (by simp) (List.length_eq_zero_iff.mp h)
      refine ⟨⟨g.moves ++ [(if m.isPass then Move.pass else decodeMove m.move, if m.isNoEval then none else some m.eval)], m.isLast⟩ :: gs,
        by simp only [appendMove, MoveData.append, hge, hgm, false_and, Except.map, Bool.false_eq_true, if_false], ?_, rfl, rfl⟩
      intro a h
      rcases List.mem_cons.mp h with rfl | h
      · simp
      · exact hg a (by simp [h])

theorem metaLoop_readMoves (raw : List Byte) (off n i : Nat) (gs : List MoveData) (hg : Good gs) :
    (∀ gs' rest, readMoves n gs (raw.drop (off + i * 4)) = .ok (gs', rest) →
      metaLoop raw off n i gs.length (closed gs) = .ok gs'.length ∧ rest = raw.drop (off + (i + n) * 4)) ∧
    (∀ c, metaLoop raw off n i gs.length (closed gs) = .ok c → ∃ gs', readMoves n gs (raw.drop (off + i * 4)) = .ok (gs', raw.drop (off + (i + n) * 4)) ∧
      gs'.length = c) := by
  induction n generalizing i gs with
  | zero =>
    constructor
    · intro gs' rest h
      simp only [readMoves, Except.ok.injEq, Prod.mk.injEq] at h
      obtain ⟨rfl, rfl⟩ := h
      exact ⟨rfl, rfl⟩
    · intro c h
      simp only [metaLoop, Except.ok.injEq] at h
      exact ⟨gs, rfl, h⟩
  | succ n ih =>
    have hdrop : (raw.drop (off + i * 4)).drop 4 = raw.drop (off + (i + 1) * 4) := by rw [List.drop_drop]; congr 1; omega
    have hin : i + 1 + n = i + (n + 1) := by omega
    constructor
    · intro gs' rest h
      rw [readMoves] at h
      rw [metaLoop]
      cases hm : EMove.ofBytes (raw.drop (off + i * 4)) with
      | none => rw [hm] at h; cases h
      | some m =>
        rw [hm] at h
        obtain ⟨hs1, hs2, hs3⟩ := append_step gs hg m
        simp only at h ⊢
        cases hc : closed gs with
        | true =>
          cases hf : m.isFirst with
          | false => rw [hs1 hc hf] at h; cases h
          | true =>
            obtain ⟨g2, h1, h2, h3, h4⟩ := hs2 hc hf
            rw [h1] at h
            simp only [if_true] at h ⊢
            rw [hdrop] at h
            have := (ih (i + 1) g2 h2).1 gs' rest h
            rw [h3, h4, hin] at this
            exact this
        | false =>
          obtain ⟨g2, h1, h2, h3, h4⟩ := hs3 hc
          rw [h1] at h
          simp only [Bool.false_eq_true, if_false, Bool.or_false] at h ⊢
          rw [hdrop] at h
          have := (ih (i + 1) g2 h2).1 gs' rest h
          rw [h3, h4, hin] at this
          exact this
    · intro c h
      rw [readMoves]
      rw [metaLoop] at h
      cases hm : EMove.ofBytes (raw.drop (off + i * 4)) with
      | none => rw [hm] at h; cases h
      | some m =>
        rw [hm] at h
        obtain ⟨hs1, hs2, hs3⟩ := append_step gs hg m
        simp only at h ⊢
        cases hc : closed gs with
        | true =>
          rw [hc] at h
          cases hf : m.isFirst with
          | false => rw [hf] at h; cases h
          | true =>
            rw [hf] at h
            obtain ⟨g2, h1, h2, h3, h4⟩ := hs2 hc hf
            simp only [if_true, Bool.true_eq_false, if_false] at h
            rw [h1]
            simp only
            rw [← h3, ← h4] at h
            obtain ⟨g3, h5, h6⟩ := (ih (i + 1) g2 h2).2 c h
            rw [hin] at h5
            exact ⟨g3, by rw [hdrop]; exact h5, h6⟩
        | false =>
          rw [hc] at h
          obtain ⟨g2, h1, h2, h3, h4⟩ := hs3 hc
          simp only [Bool.false_eq_true, if_false, Bool.or_false] at h
          rw [h1]
          simp only
          rw [← h3, ← h4] at h
          obtain ⟨g3, h5, h6⟩ := (ih (i + 1) g2 h2).2 c h
          rw [hin] at h5
          exact ⟨g3, by rw [hdrop]; exact h5, h6⟩

theorem eMove_prefix (bs : List Byte) (m : EMove) (h : EMove.ofBytes bs = some m) :
    ∃ p t, bs = p ++ t ∧ p.length = 4 ∧ ∀ t', EMove.ofBytes (p ++ t') = some m := by
  match bs, h with
  | a :: b :: c :: d :: t, h => exact ⟨[a, b, c, d], t, rfl, rfl, fun t' => h⟩

theorem readMoves_prefix (n : Nat) (gs gs' : List MoveData) (bs rest : List Byte) (h : readMoves n gs bs = .ok (gs', rest)) :
    ∃ p, bs = p ++ rest ∧ p.length = 4 * n ∧ ∀ t, readMoves n gs (p ++ t) = .ok (gs', t) := by
  induction n generalizing gs bs with
  | zero =>
    simp only [readMoves, Except.ok.injEq, Prod.mk.injEq] at h
    obtain ⟨rfl, rfl⟩ := h
    exact ⟨[], rfl, rfl, fun t => rfl⟩
  | succ n ih =>
    rw [readMoves] at h
    cases hm : EMove.ofBytes bs with
    | none => rw [hm] at h; cases h
    | some m =>
      rw [hm] at h
      simp only at h
      cases ha : appendMove gs m with
      | error e => rw [ha] at h; cases h
      | ok g2 =>
        rw [ha] at h
        simp only at h
        obtain ⟨p, t, rfl, hp, hall⟩ := eMove_prefix bs m hm
        rw [drop4 _ _ hp] at h
        obtain ⟨q, rfl, hq, hall2⟩ := ih g2 t h
        refine ⟨p ++ q, by rw [List.append_assoc], by rw [List.length_append]; omega, fun t => ?_⟩
        rw [readMoves, List.append_assoc, hall]
        simp only [ha]
        rw [drop4 _ _ hp]
        exact hall2 t

theorem head_prefix (bs : List Byte) (hd : Head) (h : Head.ofBytes bs = some hd) :
    ∃ p t, bs = p ++ t ∧ p.length = 8 ∧ ∀ t', Head.ofBytes (p ++ t') = some hd := by
  match bs, h with
  | a :: b :: c :: d :: e :: f :: g :: i :: t, h => exact ⟨[a, b, c, d, e, f, g, i], t, rfl, rfl, fun t' => h⟩

theorem takeExact_ok (n : Nat) (bs a b : List Byte) (h : takeExact n bs = .ok (a, b)) : bs = a ++ b ∧ a.length = n := by
  unfold takeExact at h
  by_cases hl : bs.length < n
  · rw [if_pos hl] at h; cases h
  · rw [if_neg hl] at h
    simp only [Except.ok.injEq, Prod.mk.injEq] at h
    obtain ⟨rfl, rfl⟩ := h
    exact ⟨(List.take_append_drop _ _).symm, by rw [List.length_take]; omega⟩

theorem drop8 (a rest : List Byte) (h : a.length = 8) : (a ++ rest).drop 8 = rest := by rw [← h, List.drop_left]

/-- Anatomy of a successful `read_entry`. -/
theorem readEntry_ok (bs rest : List Byte) (e : Entry) (h : readEntry bs = .ok (e, rest)) :
    ∃ hdr pos mv hd rule result gs, bs = hdr ++ (pos ++ (mv ++ rest)) ∧ hdr.length = 8 ∧ (∀ t, Head.ofBytes (hdr ++ t) = some hd) ∧
      pos.length = 2 * hd.initPly ∧ mv.length = 4 * hd.moveCount ∧ Rule.ofNat? hd.rule = some rule ∧ Result.ofNat? hd.result = some result ∧
      (∀ t, readMoves hd.moveCount [] (mv ++ t) = .ok (gs, t)) ∧
      e = ⟨hd.boardSize, rule, result, hd.totalPly, hd.gameTag, decodeMoves pos, gs.reverse⟩ := by
  unfold readEntry at h
  cases hh : Head.ofBytes bs with
  | none => rw [hh] at h; cases h
  | some hd =>
    rw [hh] at h
    simp only at h
    obtain ⟨hdr, t, rfl, hl, hall⟩ := head_prefix bs hd hh
    rw [drop8 _ _ hl] at h
    cases ht : takeExact (2 * hd.initPly) t with
    | error x => rw [ht] at h; cases h
    | ok ab =>
      obtain ⟨pos, t2⟩ := ab
      rw [ht] at h
      simp only at h
      obtain ⟨rfl, hpl⟩ := takeExact_ok _ _ _ _ ht
      cases hr : Rule.ofNat? hd.rule with
      | none => rw [hr] at h; cases h
      | some rule =>
        cases hr2 : Result.ofNat? hd.result with
        | none => rw [hr, hr2] at h; cases h
        | some result =>
          rw [hr, hr2] at h
          simp only at h
          cases hm : readMoves hd.moveCount [] t2 with
          | error x => rw [hm] at h; cases h
          | ok gr =>
            obtain ⟨gs, t3⟩ := gr
            rw [hm] at h
            simp only [Except.ok.injEq, Prod.mk.injEq] at h
            obtain ⟨rfl, rfl⟩ := h
            obtain ⟨mv, rfl, hml, hmall⟩ := readMoves_prefix _ _ _ _ _ hm
            exact ⟨hdr, pos, mv, hd, rule, result, gs, rfl, hl, hall, hpl, hml, hr, hr2, hmall, rfl⟩

/-- **C48.** On arbitrary bytes: whenever the parser accepts a record, the raw reader returns exactly the bytes the parser consumed and leaves the
same rest, decoding these bytes gives the same record, and the metadata scan reports its board size, rule and number of move groups. -/
theorem C48_readers_agree (bs rest : List Byte) (e : Entry) (h : readEntry bs = .ok (e, rest)) :
    ∃ raw, bs = raw ++ rest ∧ readRaw bs = .ok (raw, rest) ∧ decodeRaw raw = .ok e ∧ metadata raw = .ok (e.boardsize, e.rule, e.moves.length) := by
  obtain ⟨hdr, pos, mv, hd, rule, result, gs, rfl, hl, hall, hpl, hml, hr, hr2, hm, rfl⟩ := readEntry_ok bs rest e h
  refine ⟨hdr ++ (pos ++ mv), by simp only [List.append_assoc], ?_, ?_, ?_⟩
  · unfold readRaw
    rw [takeExact_append 8 _ _ hl]
    have hhdr := hall []
    rw [List.append_nil] at hhdr
    simp only [hhdr]
    rw [← List.append_assoc pos mv rest, takeExact_append _ (pos ++ mv) rest (by rw [List.length_append]; omega)]
  · unfold decodeRaw readEntry
    rw [hall]
    simp only
    rw [drop8 _ _ hl, takeExact_append _ _ _ hpl]
    have := hm []
    rw [List.append_nil] at this
    simp only [hr, hr2, this, if_true]
  · unfold metadata
    rw [if_neg (by simp only [List.length_append]; omega), hall]
    simp only
    rw [if_neg (by simp only [List.length_append]; omega)]
    have hd0 : (hdr ++ (pos ++ mv)).drop (8 + 2 * hd.initPly + 0 * 4) = mv := by
      rw [← List.append_assoc]
      have : 8 + 2 * hd.initPly + 0 * 4 = (hdr ++ pos).length := by rw [List.length_append]; omega
      rw [this, List.drop_left]
    have hm0 := hm []
    rw [List.append_nil] at hm0
    have := ((metaLoop_readMoves (hdr ++ (pos ++ mv)) (8 + 2 * hd.initPly) hd.moveCount 0 [] (by intro g hg; cases hg)).1 gs [] (by rw [hd0]; exact hm0)).1
    rw [show metaLoop (hdr ++ (pos ++ mv)) (8 + 2 * hd.initPly) hd.moveCount 0 0 true = .ok gs.length from this]
    simp only [hr, List.length_reverse]

/-- **C48.** Conversely, if the metadata scan accepts bytes, decoding them succeeds with the same board size, rule and number of groups, unless
the result field is not a result (the one field the scan does not look at). -/
theorem C48_metadata_decodes (raw : List Byte) (b n : Nat) (rule : Rule) (h : metadata raw = .ok (b, rule, n)) :
    ∃ hd, Head.ofBytes raw = some hd ∧
      (hd.result ≤ 2 → ∃ e, decodeRaw raw = .ok e ∧ e.boardsize = b ∧ e.rule = rule ∧ e.moves.length = n) ∧
      (2 < hd.result → decodeRaw raw = .error .value) := by
  unfold metadata at h
  by_cases hl : raw.length < 8
  · rw [if_pos hl] at h; cases h
  · rw [if_neg hl] at h
    cases hh : Head.ofBytes raw with
    | none => rw [hh] at h; cases h
    | some hd =>
      rw [hh] at h
      simp only at h
      by_cases hlen : raw.length ≠ 8 + 2 * hd.initPly + 4 * hd.moveCount
      · rw [if_pos hlen] at h; cases h
      · rw [if_neg hlen] at h
        rw [not_not] at hlen
        cases hm : metaLoop raw (8 + 2 * hd.initPly) hd.moveCount 0 0 true with
        | error x => rw [hm] at h; cases h
        | ok c =>
          rw [hm] at h
          simp only at h
          cases hr : Rule.ofNat? hd.rule with
          | none => rw [hr] at h; cases h
          | some rule' =>
            rw [hr] at h
            simp only [Except.ok.injEq, Prod.mk.injEq] at h
            obtain ⟨rfl, rfl, rfl⟩ := h
            refine ⟨hd, rfl, ?_, ?_⟩
            · intro hres
              obtain ⟨gs, h1, h2⟩ := (metaLoop_readMoves raw (8 + 2 * hd.initPly) hd.moveCount 0 [] (by intro g hg; cases hg)).2 c hm
              have hres' : Result.ofNat? hd.result = some ⟨hd.result, hres⟩ := by unfold Result.ofNat?; rw [dif_pos hres]
              have hd0 : (raw.drop 8).drop (2 * hd.initPly) = raw.drop (8 + 2 * hd.initPly + 0 * 4) := by rw [List.drop_drop]; congr 1
              have hdN : raw.drop (8 + 2 * hd.initPly + (0 + hd.moveCount) * 4) = [] := List.drop_eq_nil_of_le (by omega)
              unfold decodeRaw readEntry
              rw [hh]
              simp only [takeExact]
              rw [if_neg (by rw [List.length_drop]; omega)]
              simp only [hr, hres']
              rw [hd0, h1, hdN]
              simp only [if_true]
              exact ⟨_, rfl, rfl, rfl, by simp only [List.length_reverse]; exact h2⟩
            · intro hres
              have hres' : Result.ofNat? hd.result = none := by unfold Result.ofNat?; rw [dif_neg (by omega)]
              unfold decodeRaw readEntry
              rw [hh]
              simp only [takeExact]
              rw [if_neg (by rw [List.length_drop]; omega)]
              simp only [hr, hres']

/-- Reading a file record by record until `n` are read. -/
def readMany {β} (read : List Byte → Except ReadErr (β × List Byte)) : Nat → List Byte → Except ReadErr (List β × List Byte)
  | 0, bs => .ok ([], bs)
  | n + 1, bs =>
    match read bs with
    | .error e => .error e
    | .ok (x, rest) =>
      match readMany read n rest with
      | .error e => .error e
      | .ok (xs, rest) => .ok (x :: xs, rest)

theorem readRaw_encode (e : Entry) (h : Valid e) (rest : List Byte) :
    readRaw (encode e ++ rest) = .ok (encode e, rest) ∧ decodeRaw (encode e) = .ok e ∧ metadata (encode e) = .ok (e.boardsize, e.rule, e.moves.length) := by
  obtain ⟨raw, h1, h2, h3, h4⟩ := C48_readers_agree _ _ _ (C48_read_encode e h rest)
  have : raw = encode e := (List.append_cancel_right h1).symm
  subst this
  exact ⟨h2, h3, h4⟩

/-- **C48.** A file that is the concatenation of any list of valid records is read back record by record by the parser and by the raw reader, both
ending exactly at the end of the file, where one more read raises EOFError. -/
theorem C48_file (es : List Entry) (h : ∀ e ∈ es, Valid e) :
    readMany readEntry es.length (es.flatMap encode) = .ok (es, []) ∧
    readMany readRaw es.length (es.flatMap encode) = .ok (es.map encode, []) ∧
    readEntry [] = .error .eof ∧ readRaw [] = .error .eof := by
  refine ⟨?_, ?_, rfl, rfl⟩
  · induction es with
    | nil => rfl
    | cons e es ih =>
      rw [List.flatMap_cons, List.length_cons, readMany, C48_read_encode e (h e (by simp))]
      simp only
      rw [ih fun a ha => h a (by simp [ha])]
  · induction es with
    | nil => rfl
    | cons e es ih =>
      rw [List.flatMap_cons, List.length_cons, readMany, (readRaw_encode e (h e (by simp)) _).1]
      simp only
      rw [ih fun a ha => h a (by simp [ha])]
      rfl

theorem eMove_ext (p t : List Byte) (m : EMove) (h : EMove.ofBytes p = some m) : EMove.ofBytes (p ++ t) = some m ∧ 4 ≤ p.length := by
  match p, h with
  | a :: b :: c :: d :: r, h => exact ⟨h, by simp⟩

theorem readMoves_error (n : Nat) (gs : List MoveData) (p t : List Byte) (x : ReadErr) (hx : x ≠ .eof) (h : readMoves n gs p = .error x) :
    readMoves n gs (p ++ t) = .error x := by
  induction n generalizing gs p with
  | zero => cases h
  | succ n ih =>
    rw [readMoves] at h ⊢
    cases hm : EMove.ofBytes p with
    | none => rw [hm] at h; cases h; exact absurd rfl hx
    | some m =>
      rw [hm] at h
      obtain ⟨h1, h2⟩ := eMove_ext p t m hm
      rw [h1]
      simp only at h ⊢
      cases ha : appendMove gs m with
      | error y => rw [ha] at h; exact h
      | ok g2 =>
        rw [ha] at h
        simp only at h ⊢
        rw [List.drop_append_of_le_length h2]
        exact ih g2 _ h

theorem takeExact_eof (n : Nat) (p : List Byte) (x : ReadErr) (h : takeExact n p = .error x) : x = .eof := by
  unfold takeExact at h
  by_cases hl : p.length < n
  · rw [if_pos hl] at h; cases h; rfl
  · rw [if_neg hl] at h; cases h

/-- What the parser says about a prefix of a file other than "end of file" it says about the file. -/
theorem readEntry_mono (p t : List Byte) :
    (∀ e r, readEntry p = .ok (e, r) → readEntry (p ++ t) = .ok (e, r ++ t)) ∧ (∀ x, x ≠ .eof → readEntry p = .error x → readEntry (p ++ t) = .error x) := by
  constructor
  · intro e r h
    obtain ⟨hdr, pos, mv, hd, rule, result, gs, rfl, hl, hall, hpl, hml, hr, hr2, hm, rfl⟩ := readEntry_ok p r e h
    simp only [List.append_assoc]
    unfold readEntry
    rw [hall]
    simp only
    rw [drop8 _ _ hl, takeExact_append _ _ _ hpl]
    simp only [hr, hr2, hm]
  · intro x hx h
    unfold readEntry at h
    cases hh : Head.ofBytes p with
    | none => rw [hh] at h; cases h; exact absurd rfl hx
    | some hd =>
      rw [hh] at h
      simp only at h
      obtain ⟨hdr, q, rfl, hl, hall⟩ := head_prefix p hd hh
      rw [drop8 _ _ hl] at h
      unfold readEntry
      rw [List.append_assoc, hall]
      simp only
      rw [drop8 _ _ hl]
      cases ht : takeExact (2 * hd.initPly) q with
      | error y => rw [ht] at h; cases h; exact absurd (takeExact_eof _ _ _ ht) hx
      | ok ab =>
        obtain ⟨pos, q2⟩ := ab
        rw [ht] at h
        simp only at h
        obtain ⟨rfl, hpl⟩ := takeExact_ok _ _ _ _ ht
        rw [List.append_assoc, takeExact_append _ _ _ hpl]
        simp only
        cases hr : Rule.ofNat? hd.rule with
        | none => rw [hr] at h; exact h
        | some rule =>
          cases hr2 : Result.ofNat? hd.result with
          | none => rw [hr, hr2] at h; exact h
          | some result =>
            rw [hr, hr2] at h
            simp only at h ⊢
            cases hm : readMoves hd.moveCount [] q2 with
            | ok g => rw [hm] at h; cases h
            | error y =>
              rw [hm] at h
              simp only [Except.error.injEq] at h
              subst h
              rw [readMoves_error _ _ _ t _ hx hm]

theorem readRaw_mono (p t : List Byte) : (∀ x, readRaw p = .error x → x = .eof) ∧
    ∀ a r, readRaw p = .ok (a, r) → readRaw (p ++ t) = .ok (a, r ++ t) := by
  unfold readRaw
  cases h8 : takeExact 8 p with
  | error y => exact ⟨fun x h => by cases h; exact takeExact_eof _ _ _ h8, fun a r h => by cases h⟩
  | ok hq =>
    obtain ⟨hdr, q⟩ := hq
    obtain ⟨rfl, hl⟩ := takeExact_ok _ _ _ _ h8
    rw [List.append_assoc, takeExact_append _ _ _ hl]
    simp only
    cases hh : Head.ofBytes hdr with
    | none => exact ⟨fun x h => by cases h; rfl, fun a r h => by cases h⟩
    | some hd =>
      simp only
      cases ht : takeExact (2 * hd.initPly + 4 * hd.moveCount) q with
      | error y => exact ⟨fun x h => by cases h; exact takeExact_eof _ _ _ ht, fun a r h => by cases h⟩
      | ok ab =>
        obtain ⟨a, b⟩ := ab
        obtain ⟨rfl, hal⟩ := takeExact_ok _ _ _ _ ht
        rw [List.append_assoc, takeExact_append _ _ _ hal]
        refine ⟨(fun x h => by cases h), fun a' r h => ?_⟩
        simp only [Except.ok.injEq, Prod.mk.injEq] at h ⊢
        exact ⟨h.1, by rw [h.2]⟩

/-- **C48.** A file that ends in the middle of a record is reported as such by both readers, never parsed as a shorter or different record. -/
theorem C48_truncated (e : Entry) (h : Valid e) (k : Nat) (hk : k < (encode e).length) :
    readEntry ((encode e).take k) = .error .eof ∧ readRaw ((encode e).take k) = .error .eof := by
  have hsplit : (encode e).take k ++ (encode e).drop k = encode e := List.take_append_drop _ _
  have hne : (encode e).drop k ≠ [] := by
    intro hn
    have := congrArg List.length hn
    rw [List.length_drop, List.length_nil] at this
    omega
  have hfull := C48_read_encode e h []
  have hraw := (readRaw_encode e h []).1
  rw [List.append_nil] at hfull hraw
  constructor
  · cases hr : readEntry ((encode e).take k) with
    | ok er =>
      obtain ⟨e', r⟩ := er
      have := (readEntry_mono _ ((encode e).drop k)).1 e' r hr
      rw [hsplit, hfull] at this
      simp only [Except.ok.injEq, Prod.mk.injEq] at this
      exact absurd (List.append_eq_nil_iff.mp this.2.symm).2 hne
    | error x =>
      by_cases hx : x = .eof
      · rw [hx]
      · have := (readEntry_mono _ ((encode e).drop k)).2 x hx hr
        rw [hsplit, hfull] at this
        cases this
  · cases hr : readRaw ((encode e).take k) with
    | ok ar =>
      obtain ⟨a, r⟩ := ar
      have := (readRaw_mono _ ((encode e).drop k)).2 a r hr
      rw [hsplit, hraw] at this
      simp only [Except.ok.injEq, Prod.mk.injEq] at this
      exact absurd (List.append_eq_nil_iff.mp this.2.symm).2 hne
    | error x => rw [(readRaw_mono _ []).1 x hr]

/-! A concrete record: an opening of three moves, then a position with two alternatives (one without evaluation), then a pass. -/
def demo48 : Entry := ⟨15, .renju, .win, 40, 7, [Move.at 7 7, Move.at 8 7, Move.at 31 0],
  [⟨[(Move.at 9 9, some (-5)), (Move.at 3 2, none)], true⟩, ⟨[(Move.pass, some 32767)], true⟩]⟩

theorem demo48_valid : Valid demo48 := by
  have small : ∀ x y : Nat, x < 32 → y < 32 → Small (Move.at x y) := fun x y hx hy => ⟨x, y, rfl, hx, hy⟩
  refine ⟨by decide, by decide, by decide, ⟨by decide, ?_⟩, by decide, ?_⟩
  · intro m hm
    simp only [demo48, List.mem_cons, List.not_mem_nil, or_false] at hm
    rcases hm with rfl | rfl | rfl <;> exact small _ _ (by decide) (by decide)
  · intro g hg
    simp only [demo48, List.mem_cons, List.not_mem_nil, or_false] at hg
    rcases hg with rfl | rfl
    · refine ⟨rfl, by simp, ?_⟩
      intro m hm
      simp only [List.mem_cons, List.not_mem_nil, or_false] at hm
      rcases hm with rfl | rfl
      · exact ⟨Or.inr (small _ _ (by decide) (by decide)), by intro e h; cases h; decide⟩
      · exact ⟨Or.inr (small _ _ (by decide) (by decide)), by intro e h; cases h⟩
    · refine ⟨rfl, by simp, ?_⟩
      intro m hm
      simp only [List.mem_singleton] at hm
      rw [hm]
      exact ⟨Or.inl rfl, by intro e h; cases h; decide⟩

example : (encode demo48).length = 26 ∧ metadata (encode demo48) = .ok (15, .renju, 2) := by
  exact ⟨by decide +kernel, (readRaw_encode demo48 demo48_valid []).2.2⟩

end Verif.Board.Packed
