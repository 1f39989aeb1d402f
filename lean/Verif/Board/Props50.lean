import Verif.Board.Replay

/-!
# C50: replaying a game
-/
namespace Verif.Board

/-! ### Specification -/

/-- The board of the position reached by `p`, seen by the side to move: plane 0 holds a stone exactly where a move was made an even number of
plies ago (counting from the position: its own moves), plane 1 where one was made an odd number of plies ago. -/
structure Shows (p : List Move) (b : Board) : Prop where
  own : ∀ x y, b 0 y x = 1 ↔ ∃ i, i < p.length ∧ p[i]? = some (Move.at x y) ∧ (p.length - i) % 2 = 0
  opponent : ∀ x y, b 1 y x = 1 ↔ ∃ i, i < p.length ∧ p[i]? = some (Move.at x y) ∧ (p.length - i) % 2 = 1
  binary : ∀ c x y, b c y x = 0 ∨ b c y x = 1

/-- The value target: win, loss, draw of the side to move, in that order. -/
def Value (r : Result) (v : List Nat) : Prop :=
  (r = .win → v = [1, 0, 0]) ∧ (r = .loss → v = [0, 1, 0]) ∧ (r = .draw → v = [0, 0, 1])

theorem value_wld (r : Result) : Value r (wld r) := ⟨fun h => by rw [h]; rfl, fun h => by rw [h]; rfl, fun h => by rw [h]; rfl⟩

/-- A move on an `n × n` board, or a pass. -/
def Legal (n : Nat) (m : Move) : Prop := m.isPass = true ∨ ∃ x y, m = Move.at x y ∧ x < n ∧ y < n

/-! ### Proof -/

structure Rel (p : List Move) (own : Nat) (b : Board) : Prop where
  iff : ∀ c, c < 2 → ∀ x y, b c y x = 1 ↔ ∃ i, i < p.length ∧ p[i]? = some (Move.at x y) ∧ ((p.length - i) % 2 = 0 ↔ c = own)
  binary : ∀ c x y, b c y x = 0 ∨ b c y x = 1

theorem rel_empty (own : Nat) : Rel [] own Board.empty :=
  ⟨fun c _ x y => ⟨(fun h => by cases h), (fun ⟨i, hi, _⟩ => by cases hi)⟩, fun _ _ _ => Or.inl rfl⟩

theorem at_inj {x y x' y' : Nat} (h : Move.at x y = Move.at x' y') : x = x' ∧ y = y' := by
  simp only [Move.at, Move.mk.injEq] at h
  omega

theorem rel_place (n : Nat) (p : List Move) (own : Nat) (ho : own < 2) (b : Board) (hr : Rel p own b) (m : Move) (hm : Legal n m) :
    ∃ b', place n b own m = some b' ∧ Rel (p ++ [m]) (1 - own) b' := by
  have hold : ∀ i, i < p.length → (p ++ [m])[i]? = p[i]? := fun i hi => List.getElem?_append_left hi
  have hnew : (p ++ [m])[p.length]? = some m := by simp
  have hlen : (p ++ [m]).length = p.length + 1 := by simp
  rcases hm with hp | ⟨mx, my, rfl, hx, hy⟩
  · refine ⟨b, by unfold place; rw [if_pos hp], ⟨?_, hr.binary⟩⟩
    intro c hc x y
    rw [hr.iff c hc x y]
    constructor
    · rintro ⟨i, hi, h1, h2⟩
      refine ⟨i, by omega, by rw [hold i hi]; exact h1, ?_⟩
      rw [hlen]; omega
    · rintro ⟨i, hi, h1, h2⟩
      rw [hlen] at hi h2
      by_cases hil : i < p.length
      · exact ⟨i, hil, by rw [← hold i hil]; exact h1, by omega⟩
      · have : i = p.length := by omega
        subst this
        rw [hnew] at h1
        cases h1
        rw [at_not_pass] at hp; cases hp
  · have hnp := at_not_pass mx my
    refine ⟨b.set own my mx, ?_, ?_⟩
    · unfold place
      rw [hnp, if_neg (by simp), if_pos (by simp only [Move.at]; omega)]
      rfl
    · refine ⟨?_, ?_⟩
      · intro c hc x y
        unfold Board.set
        by_cases hcell : c = own ∧ y = my ∧ x = mx
        · rw [if_pos hcell]
          refine ⟨fun _ => ⟨p.length, by omega, ?_, ?_⟩, fun _ => rfl⟩
          · rw [hnew, hcell.2.1, hcell.2.2]
          · rw [hlen]; omega
        · rw [if_neg hcell, hr.iff c hc x y]
          constructor
          · rintro ⟨i, hi, h1, h2⟩
            refine ⟨i, by omega, by rw [hold i hi]; exact h1, ?_⟩
            rw [hlen]; omega
          · rintro ⟨i, hi, h1, h2⟩
            rw [hlen] at hi h2
            by_cases hil : i < p.length
            · exact ⟨i, hil, by rw [← hold i hil]; exact h1, by omega⟩
            · have : i = p.length := by omega
              subst this
              rw [hnew] at h1
              obtain ⟨rfl, rfl⟩ := at_inj (Option.some.inj h1)
              exact absurd ⟨by omega, rfl, rfl⟩ hcell
      · intro c x y
        unfold Board.set
        split
        · exact Or.inr rfl
        · exact hr.binary c x y

namespace Packed

/-- The best move of a group. -/
def best (g : MoveData) : Move := match g.moves with
  | [] => Move.pass
  | m :: _ => m.1

theorem placeInit_spec (n : Nat) (ms p : List Move) (stm : Int) (hs : stm = 1 ∨ stm = -1) (b : Board) (hr : Rel p (if stm > 0 then 1 else 0) b)
    (hm : ∀ m ∈ ms, Legal n m) :
    ∃ b' stm', placeInit n ms stm b = some (stm', b') ∧ stm' = (if ms.length % 2 = 0 then stm else -stm) ∧ Rel (p ++ ms) (if stm' > 0 then 1 else 0) b' := by
  induction ms generalizing p stm b with
  | nil => exact ⟨b, stm, rfl, rfl, by rw [List.append_nil]; exact hr⟩
  | cons m ms ih =>
    obtain ⟨b1, h1, h2⟩ := rel_place n p (if stm > 0 then 1 else 0) (by split <;> omega) b hr m (hm m (by simp))
    have hflip : 1 - (if stm > 0 then 1 else 0) = (if -stm > 0 then 1 else 0) := by rcases hs with rfl | rfl <;> decide
    rw [hflip] at h2
    obtain ⟨b2, stm2, h3, h4, h5⟩ := ih (p ++ [m]) (-stm) (by omega) b1 h2 (fun a ha => hm a (by simp [ha]))
    refine ⟨b2, stm2, ?_, ?_, ?_⟩
    · rw [placeInit, h1]; exact h3
    · rw [h4, List.length_cons]
      by_cases he : ms.length % 2 = 0
      · rw [if_pos he, if_neg (by omega)]
      · rw [if_neg he, if_pos (by omega)]; omega
    · rw [List.append_assoc] at h5; exact h5

def flipN : Nat → Result → Result
  | 0, r => r
  | n + 1, r => flipN n r.opposite

theorem replayLoop_spec (n : Nat) (k : Nat) (gs : List MoveData) (s : RState) (hs : s.stm = 1 ∨ s.stm = -1)
    (hr : Rel s.position (if s.stm > 0 then 1 else 0) s.board) (hply : s.ply = s.position.length) (hk : k < gs.length)
    (hg : ∀ g ∈ gs, g.moves ≠ []) (hl : ∀ g ∈ gs.take k, Legal n (best g)) :
    ∃ r, replayLoop n k gs s = some r ∧ r.position = s.position ++ (gs.take k).map best ∧ Shows r.position r.board ∧ r.ply = r.position.length ∧
      r.value = wld (flipN k s.result) ∧ r.stm = (if k % 2 = 0 then s.stm else -s.stm) := by
  induction k generalizing gs s with
  | zero =>
    match gs, hk with
    | g :: gs, _ =>
      have hne := hg g (by simp)
      obtain ⟨m, ms, hmm⟩ : ∃ m ms, g.moves = m :: ms := by
        cases h : g.moves with
        | nil => exact absurd h hne
        | cons m ms => exact ⟨m, ms, rfl⟩
      rw [replayLoop, hmm]
      refine ⟨_, rfl, by simp, ?_, by simp only; exact hply, rfl, rfl⟩
      simp only
      rcases hs with h | h
      · rw [h] at hr ⊢
        simp only [show (1 : Int) > 0 from by decide, if_true] at hr ⊢
        refine ⟨fun x y => ?_, fun x y => ?_, fun c x y => hr.binary _ x y⟩
        · simp only [if_true]
          rw [hr.iff 1 (by decide) x y]
          simp
        · simp only [Nat.one_ne_zero, if_false, if_true]
          rw [hr.iff 0 (by decide) x y]
          simp
      · rw [h] at hr ⊢
        simp only [show ¬ ((-1 : Int) > 0) from by decide, if_false] at hr ⊢
        refine ⟨fun x y => ?_, fun x y => ?_, hr.binary⟩
        · rw [hr.iff 0 (by decide) x y]
          simp
        · rw [hr.iff 1 (by decide) x y]
          simp
  | succ k ih =>
    match gs, hk with
    | g :: gs, hk =>
      have hne := hg g (by simp)
      obtain ⟨m, ms, hmm⟩ : ∃ m ms, g.moves = m :: ms := by
        cases h : g.moves with
        | nil => exact absurd h hne
        | cons m ms => exact ⟨m, ms, rfl⟩
      have hb : best g = m.1 := by unfold best; rw [hmm]
      have hleg := hl g (by simp)
      rw [hb] at hleg
      obtain ⟨b1, h1, h2⟩ := rel_place n s.position (if s.stm > 0 then 1 else 0) (by split <;> omega) s.board hr m.1 hleg
      have hflip : 1 - (if s.stm > 0 then 1 else 0) = (if -s.stm > 0 then 1 else 0) := by rcases hs with h | h <;> rw [h] <;> decide
      rw [hflip] at h2
      obtain ⟨r, h3, h4, h5, h6, h7, h8⟩ := ih gs ⟨s.result.opposite, s.position ++ [m.1], s.ply + 1, -s.stm, b1⟩ (by simp only; omega) h2
        (by simp only [List.length_append, List.length_cons, List.length_nil]; omega) (by simp only [List.length_cons] at hk; omega)
        (fun a ha => hg a (by simp [ha])) (fun a ha => hl a (by simp [ha]))
      refine ⟨r, ?_, ?_, h5, h6, h7, ?_⟩
      · rw [replayLoop, hmm]
        simp only [h1]
        exact h3
      · rw [h4]
        simp [hb]
      · rw [h8]
        by_cases he : k % 2 = 0
        · rw [if_pos he, if_neg (by omega)]
        · rw [if_neg he, if_pos (by omega)]; simp

theorem flipN_eq (k : Nat) (r : Result) : flipN k r = if k % 2 = 0 then r else r.opposite := by
  induction k generalizing r with
  | zero => rfl
  | succ k ih =>
    rw [flipN, ih]
    by_cases he : k % 2 = 0
    · rw [if_pos he, if_neg (by omega)]
    · rw [if_neg he, if_pos (by omega), C47_opposite.2.2.2]

/-- A game record that can be replayed: moves are on the board or passes, no group is empty. -/
structure Playable (e : Entry) (k : Nat) : Prop where
  sub : k < e.moves.length
  init : ∀ m ∈ e.init, Legal e.boardsize m
  groups : ∀ g ∈ e.moves, g.moves ≠ []
  played : ∀ g ∈ e.moves.take k, Legal e.boardsize (best g)

/-- **C50.** For every playable packed record and every sub-record `k`: the sample is that of the position after the opening and the first `k`
best moves; its planes show exactly these moves relative to the side to move; the value is the one-hot result of the record for an even `k` and its
opposite for an odd one, i.e. always seen by the side to move; the ply is the number of moves. -/
theorem C50_packed (e : Entry) (k : Nat) (h : Playable e k) :
    ∃ r, replay e k = some r ∧ r.position = e.init ++ (e.moves.take k).map best ∧ r.ply = e.init.length + k ∧ Shows r.position r.board ∧
      Value (if k % 2 = 0 then e.result else e.result.opposite) r.value ∧ r.stm = (if k % 2 = 0 then -1 else 1) := by
  have hs0 : (if e.init.length % 2 = 0 then (-1 : Int) else 1) = 1 ∨ (if e.init.length % 2 = 0 then (-1 : Int) else 1) = -1 := by split <;> simp
  obtain ⟨b, stm, h1, h2, h3⟩ := placeInit_spec e.boardsize e.init [] _ hs0 Board.empty (rel_empty _) h.init
  have hstm : stm = -1 := by
    rw [h2]
    by_cases he : e.init.length % 2 = 0
    · rw [if_pos he, if_pos he]
    · rw [if_neg he, if_neg he]
  subst hstm
  obtain ⟨r, h4, h5, h6, h7, h8, h9⟩ := replayLoop_spec e.boardsize k e.moves ⟨e.result, e.init, e.init.length, -1, b⟩ (Or.inr rfl) h3 rfl h.sub
    h.groups h.played
  have hkl : (e.moves.take k).length = k := by rw [List.length_take]; have := h.sub; omega
  refine ⟨r, ?_, h5, ?_, h6, ?_, ?_⟩
  · unfold replay; rw [h1]; exact h4
  · rw [h7, h5, List.length_append, List.length_map, hkl]
  · rw [h8, flipN_eq]; exact value_wld _
  · rw [h9]
    by_cases he : k % 2 = 0
    · rw [if_pos he, if_pos he]
    · rw [if_neg he, if_neg he]; rfl

/-- **C50 (partial).** The side-to-move flag is −1 exactly at even plies (black moves first) when the opening has an even number of moves.
Missing, because false of the code: openings of odd length, `C50_packed_side_odd`. -/
theorem C50_packed_side_partial (e : Entry) (k : Nat) (h : Playable e k) (he : e.init.length % 2 = 0) :
    ∃ r, replay e k = some r ∧ (r.stm = if r.ply % 2 = 0 then -1 else 1) := by
  obtain ⟨r, h1, _, h2, _, _, h3⟩ := C50_packed e k h
  refine ⟨r, h1, ?_⟩
  rw [h2, h3]
  by_cases hk : k % 2 = 0
  · rw [if_pos hk, if_pos (by omega)]
  · rw [if_neg hk, if_neg (by omega)]

/-- **C50, finding.** After an opening of odd length the flag is wrong at every position of the game: it is +1 (white) exactly at even plies. -/
theorem C50_packed_side_odd (e : Entry) (k : Nat) (h : Playable e k) (he : e.init.length % 2 = 1) :
    ∃ r, replay e k = some r ∧ (r.stm = if r.ply % 2 = 0 then 1 else -1) := by
  obtain ⟨r, h1, _, h2, _, _, h3⟩ := C50_packed e k h
  refine ⟨r, h1, ?_⟩
  rw [h2, h3]
  by_cases hk : k % 2 = 0
  · rw [if_pos hk, if_neg (by omega)]
  · rw [if_neg hk, if_pos (by omega)]

/-! A game on a 15 × 15 board with an opening of three moves, then two played moves (one of them a pass) and a position to learn from. -/
def demo50 : Entry := ⟨15, .standard, .win, 30, 0, [Move.at 7 7, Move.at 8 7, Move.at 9 7],
  [⟨[(Move.at 3 2, some 5), (Move.at 4 4, some 1)], true⟩, ⟨[(Move.pass, none)], true⟩, ⟨[(Move.at 0 14, some 1)], true⟩]⟩

theorem demo50_playable : Playable demo50 2 := by
  have leg : ∀ x y : Nat, x < 15 → y < 15 → Legal 15 (Move.at x y) := fun x y hx hy => Or.inr ⟨x, y, rfl, hx, hy⟩
  refine ⟨by decide, ?_, ?_, ?_⟩
  · intro m hm
    simp only [demo50, List.mem_cons, List.not_mem_nil, or_false] at hm
    rcases hm with rfl | rfl | rfl <;> exact leg _ _ (by decide) (by decide)
  · intro g hg
    simp only [demo50, List.mem_cons, List.not_mem_nil, or_false] at hg
    rcases hg with rfl | rfl | rfl <;> simp
  · intro g hg
    simp only [demo50, List.take_succ_cons, List.take_zero, List.mem_cons, List.not_mem_nil, or_false] at hg
    rcases hg with rfl | rfl
    · exact leg _ _ (by decide) (by decide)
    · exact Or.inl rfl

/-- The flag of the odd opening: ply 5 (white to move) is labelled black, whereas the simple format labels ply 5 white. -/
example : (replay demo50 2).map (fun r => (r.ply, r.stm)) = some (5, -1) ∧
    (replay demo50 2).map (fun r => [r.value, [r.board 0 7 8, r.board 1 7 7, r.board 0 2 3, r.board 1 2 3]]) = some [[1, 0, 0], [1, 1, 1, 0]] := by
  constructor <;> decide +kernel

/-! ### The policy target -/

/-- The weight given to a move: that of its last mention, 0 without one. -/
def weight {α} [Zero α] (alts : List (Move × α)) (m : Move) : α := ((alts.reverse.find? fun a => decide (a.1 = m)).map (·.2)).getD 0

def weightFrom {α} (f : Move → α) (alts : List (Move × α)) (m : Move) : α := ((alts.reverse.find? fun a => decide (a.1 = m)).map (·.2)).getD (f m)

theorem weightFrom_cons {α} (f : Move → α) (a : Move × α) (alts : List (Move × α)) (m : Move) :
    weightFrom f (a :: alts) m = weightFrom (fun m => if a.1 = m then a.2 else f m) alts m := by
  unfold weightFrom
  rw [List.reverse_cons, List.find?_append]
  cases h : alts.reverse.find? fun a => decide (a.1 = m) with
  | some b => rfl
  | none =>
    simp only [Option.none_or, List.find?_cons, List.find?_nil, Option.map_none, Option.getD_none]
    by_cases he : a.1 = m
    · rw [decide_eq_true he, if_pos he]; rfl
    · rw [decide_eq_false he, if_neg he]; rfl

structure Holds {α} [Zero α] (n : Nat) (pass : Bool) (v : List α) (f : Move → α) : Prop where
  length : v.length = n * n + if pass then 1 else 0
  cell : ∀ x y, x < n → y < n → v.getD (y * n + x) 0 = f (Move.at x y)
  passEntry : pass = true → v.getD (n * n) 0 = f Move.pass

theorem getD_set {α} (v : List α) (i j : Nat) (a d : α) (hi : i < v.length) : (v.set i a).getD j d = if i = j then a else v.getD j d := by
  rw [List.getD_eq_getElem?_getD, List.getElem?_set]
  by_cases h : i = j
  · subst h; rw [if_pos rfl, if_pos hi, if_pos rfl]; rfl
  · rw [if_neg h, if_neg h, List.getD_eq_getElem?_getD]

theorem cell_inj {n x y x' y' : Nat} (hx : x < n) (hx' : x' < n) (h : y * n + x = y' * n + x') : x = x' ∧ y = y' := by
  have e1 : (y * n + x) % n = x := by rw [Nat.mul_comm, Nat.mul_add_mod, Nat.mod_eq_of_lt hx]
  have e2 : (y' * n + x') % n = x' := by rw [Nat.mul_comm, Nat.mul_add_mod, Nat.mod_eq_of_lt hx']
  have e3 : (y * n + x) / n = y := by rw [Nat.mul_comm, Nat.mul_add_div (by omega), Nat.div_eq_of_lt hx, Nat.add_zero]
  have e4 : (y' * n + x') / n = y' := by rw [Nat.mul_comm, Nat.mul_add_div (by omega), Nat.div_eq_of_lt hx', Nat.add_zero]
  exact ⟨by rw [← e1, h, e2], by rw [← e3, h, e4]⟩

theorem policy_fold {α} [Zero α] (n : Nat) (pass : Bool) (alts : List (Move × α))
    (hm : ∀ a ∈ alts, a.1 = Move.pass ∨ ∃ x y, a.1 = Move.at x y ∧ x < n ∧ y < n) (v : List α) (f : Move → α) (hv : Holds n pass v f) :
    ∃ v', alts.foldlM (fun v (m, a) =>
      if m.isPass then some (if pass then v.set (v.length - 1) a else v)
      else if 0 ≤ m.x ∧ 0 ≤ m.y ∧ m.y.toNat * n + m.x.toNat < v.length then some (v.set (m.y.toNat * n + m.x.toNat) a) else none) v = some v' ∧
      Holds n pass v' (weightFrom f alts) := by
  induction alts generalizing v f with
  | nil => exact ⟨v, rfl, hv⟩
  | cons a alts ih =>
    obtain ⟨m, w⟩ := a
    rw [List.foldlM_cons]
    have hstep : ∃ v1, (if m.isPass then some (if pass then v.set (v.length - 1) w else v)
        else if 0 ≤ m.x ∧ 0 ≤ m.y ∧ m.y.toNat * n + m.x.toNat < v.length then some (v.set (m.y.toNat * n + m.x.toNat) w) else none) = some v1 ∧
        Holds n pass v1 (fun m' => if m = m' then w else f m') := by
      have hlen := hv.length
      rcases hm (m, w) (by simp) with h | ⟨x, y, h, hx, hy⟩
      · simp only at h
        subst h
        have hne : ∀ x y, Move.pass ≠ Move.at x y := by
          intro x y h
          have := congrArg Move.isPass h
          rw [at_not_pass] at this; cases this
        rw [if_pos (show Move.pass.isPass = true from rfl)]
        refine ⟨_, rfl, ?_⟩
        cases pass with
        | false =>
          refine ⟨hlen, fun x y hx hy => ?_, fun h => by cases h⟩
          rw [if_neg (hne x y)]; exact hv.cell x y hx hy
        | true =>
          simp only [if_true] at hlen ⊢
          refine ⟨by rw [List.length_set]; exact hlen, fun x y hx hy => ?_, fun _ => ?_⟩
          · have := idx_lt hx hy
            rw [getD_set _ _ _ _ _ (by omega), if_neg (by omega), if_neg (hne x y)]
            exact hv.cell x y hx hy
          · rw [getD_set _ _ _ _ _ (by omega), if_pos (by omega), if_pos rfl]
      · simp only at h
        subst h
        have hidx := idx_lt hx hy
        have hle : n * n ≤ v.length := by rw [hlen]; exact Nat.le_add_right _ _
        have e1 : (Move.at x y).x.toNat = x := rfl
        have e2 : (Move.at x y).y.toNat = y := rfl
        rw [at_not_pass, if_neg (by simp), e1, e2, if_pos ⟨by simp only [Move.at]; omega, by simp only [Move.at]; omega, by omega⟩]
        refine ⟨_, rfl, by rw [List.length_set]; exact hlen, fun x' y' hx' hy' => ?_, fun hp => ?_⟩
        · rw [getD_set _ _ _ _ _ (by omega)]
          by_cases hc : y * n + x = y' * n + x'
          · obtain ⟨rfl, rfl⟩ := cell_inj hx hx' hc
            rw [if_pos rfl, if_pos rfl]
          · rw [if_neg hc, if_neg (fun h => hc (by obtain ⟨rfl, rfl⟩ := at_inj h; rfl))]
            exact hv.cell x' y' hx' hy'
        · rw [getD_set _ _ _ _ _ (by omega), if_neg (by omega), if_neg (by
            intro h
            have := congrArg Move.isPass h
            rw [at_not_pass] at this; cases this)]
          exact hv.passEntry hp
    obtain ⟨v1, h1, h2⟩ := hstep
    obtain ⟨v2, h3, h4⟩ := ih (fun a ha => hm a (by simp [ha])) v1 _ h2
    refine ⟨v2, ?_, ?_⟩
    · simp only [h1, Option.bind_eq_bind, Option.bind_some]
      exact h3
    · have : weightFrom f ((m, w) :: alts) = weightFrom (fun m' => if m = m' then w else f m') alts := funext fun m' => weightFrom_cons f (m, w) alts m'
      rw [this]; exact h4

/-- **C50.** For every list of weighted alternatives on the board (or passes): the policy target holds at each cell the weight of the move on that
cell and zero elsewhere; with a pass entry it is the last one and holds the weight of the pass, and without one a pass is dropped. -/
theorem C50_policy {α} [Zero α] (n : Nat) (pass : Bool) (alts : List (Move × α))
    (hm : ∀ a ∈ alts, a.1 = Move.pass ∨ ∃ x y, a.1 = Move.at x y ∧ x < n ∧ y < n) :
    ∃ v, policyTarget n pass alts = some v ∧ v.length = n * n + (if pass then 1 else 0) ∧
      (∀ x y, x < n → y < n → v.getD (y * n + x) 0 = weight alts (Move.at x y)) ∧ (pass = true → v.getD (n * n) 0 = weight alts Move.pass) := by
  have hrep : ∀ (k i : Nat), (List.replicate k (0 : α)).getD i 0 = 0 := by
    intro k i
    rw [List.getD_eq_getElem?_getD, List.getElem?_replicate]
    split <;> rfl
  obtain ⟨v, h1, h2⟩ := policy_fold n pass alts hm (List.replicate (n * n + if pass then 1 else 0) 0) (fun _ => 0)
    ⟨by rw [List.length_replicate], fun _ _ _ _ => hrep _ _, fun _ => hrep _ _⟩
  exact ⟨v, h1, h2.length, h2.cell, h2.passEntry⟩

example : policyTarget 2 true [(Move.at 1 0, 3), (Move.pass, 2), (Move.at 0 1, 4)] = some [0, 3, 4, 0, 2] := by decide +kernel

end Packed

namespace Simple

structure SRel (stm : Int) (p : List Move) (b : Board) : Prop where
  iff : ∀ c, c < 2 → ∀ x y, b c y x = 1 ↔ ∃ i, i < p.length ∧ p[i]? = some (Move.at x y) ∧ ((if i % 2 = 0 then (-1 : Int) else 1) = stm ↔ c = 0)
  binary : ∀ c x y, b c y x = 0 ∨ b c y x = 1

theorem placeAll_spec (n : Nat) (stm : Int) (ms p : List Move) (b : Board) (hr : SRel stm p b)
    (hm : ∀ m ∈ ms, ∃ x y, m = Move.at x y ∧ x < n ∧ y < n) :
    ∃ b', placeAll n stm p.length ms b = some b' ∧ SRel stm (p ++ ms) b' := by
  induction ms generalizing p b with
  | nil => exact ⟨b, rfl, by rw [List.append_nil]; exact hr⟩
  | cons m ms ih =>
    obtain ⟨mx, my, rfl, hx, hy⟩ := hm m (by simp)
    generalize hc : (if (if p.length % 2 = 0 then (-1 : Int) else 1) = stm then 0 else 1) = c0
    have hpl : place n b c0 (Move.at mx my) = some (b.set c0 my mx) := by
      unfold place
      rw [at_not_pass, if_neg (by simp), if_pos (by simp only [Move.at]; omega)]
      rfl
    have hnew : SRel stm (p ++ [Move.at mx my]) (b.set c0 my mx) := by
      have hold : ∀ i, i < p.length → (p ++ [Move.at mx my])[i]? = p[i]? := fun i hi => List.getElem?_append_left hi
      have hnew : (p ++ [Move.at mx my])[p.length]? = some (Move.at mx my) := by simp
      have hlen : (p ++ [Move.at mx my]).length = p.length + 1 := by simp
      constructor
      · intro c hc2 x y
        unfold Board.set
        by_cases hcell : c = c0 ∧ y = my ∧ x = mx
        · rw [if_pos hcell]
          refine ⟨fun _ => ⟨p.length, by omega, by rw [hnew, hcell.2.1, hcell.2.2], ?_⟩, fun _ => rfl⟩
          rw [hcell.1, ← hc]
          by_cases hs : (if p.length % 2 = 0 then (-1 : Int) else 1) = stm
          · rw [if_pos hs]; exact ⟨fun _ => rfl, fun _ => hs⟩
          · rw [if_neg hs]; exact ⟨fun h => absurd h hs, fun h => by cases h⟩
        · rw [if_neg hcell, hr.iff c hc2 x y]
          constructor
          · rintro ⟨i, hi, h1, h2⟩
            exact ⟨i, by omega, by rw [hold i hi]; exact h1, h2⟩
          · rintro ⟨i, hi, h1, h2⟩
            rw [hlen] at hi
            by_cases hil : i < p.length
            · exact ⟨i, hil, by rw [← hold i hil]; exact h1, h2⟩
            · have : i = p.length := by omega
              subst this
              rw [hnew] at h1
              obtain ⟨rfl, rfl⟩ := at_inj (Option.some.inj h1)
              refine absurd ⟨?_, rfl, rfl⟩ hcell
              rw [← hc]
              by_cases hs : (if p.length % 2 = 0 then (-1 : Int) else 1) = stm
              · rw [if_pos hs]; exact h2.mp hs
              · rw [if_neg hs]
                have : c ≠ 0 := fun h => hs (h2.mpr h)
                omega
      · intro c x y
        unfold Board.set
        split
        · exact Or.inr rfl
        · exact hr.binary c x y
    obtain ⟨b', h1, h2⟩ := ih (p ++ [Move.at mx my]) _ hnew (fun a ha => hm a (by simp [ha]))
    refine ⟨b', ?_, by rw [List.append_assoc] at h2; exact h2⟩
    rw [placeAll, hc, hpl]
    simp only [List.length_append, List.length_cons, List.length_nil, Nat.zero_add] at h1
    exact h1

/-- **C50.** For every simple record whose moves are on its board: the planes show exactly the moves of the record relative to the side to move,
the flag is −1 exactly at even plies, the value is the one-hot result and the policy cell is the recorded move. -/
theorem C50_simple (e : Entry) (hply : e.ply = e.position.length) (hm : ∀ m ∈ e.position, ∃ x y, m = Move.at x y ∧ x < e.boardsize ∧ y < e.boardsize)
    (hmove : ∃ x y, e.move = Move.at x y ∧ x < e.boardsize ∧ y < e.boardsize) :
    ∃ r, replay e = some (r, e.move) ∧ r.position = e.position ∧ r.ply = e.ply ∧ Shows r.position r.board ∧ Value e.result r.value ∧
      r.stm = (if r.ply % 2 = 0 then -1 else 1) := by
  obtain ⟨b, h1, h2⟩ := placeAll_spec e.boardsize (if e.ply % 2 = 0 then -1 else 1) e.position [] Board.empty
    ⟨fun c _ x y => ⟨(fun h => by cases h), (fun ⟨i, hi, _⟩ => by cases hi)⟩, fun _ _ _ => Or.inl rfl⟩ hm
  obtain ⟨x, y, hxy, hx, hy⟩ := hmove
  refine ⟨⟨b, if e.ply % 2 = 0 then -1 else 1, wld e.result, e.position, e.ply⟩, ?_, rfl, rfl, ?_, value_wld _, rfl⟩
  · unfold replay
    simp only
    rw [show placeAll e.boardsize (if e.ply % 2 = 0 then -1 else 1) 0 e.position Board.empty = some b from h1]
    simp only
    rw [if_pos (by rw [hxy]; simp only [Move.at]; omega)]
  · show Shows e.position b
    rw [List.nil_append] at h2
    have hpar : ∀ i, i < e.position.length → ((if i % 2 = 0 then (-1 : Int) else 1) = (if e.ply % 2 = 0 then -1 else 1) ↔ (e.position.length - i) % 2 = 0) := by
      intro i hi
      rw [hply]
      by_cases h : i % 2 = 0 <;> by_cases h' : e.position.length % 2 = 0
      · rw [if_pos h, if_pos h']; omega
      · rw [if_pos h, if_neg h']; omega
      · rw [if_neg h, if_pos h']; omega
      · rw [if_neg h, if_neg h']; omega
    refine ⟨fun x y => ?_, fun x y => ?_, h2.binary⟩
    · rw [h2.iff 0 (by decide) x y]
      constructor
      · rintro ⟨i, hi, h3, h4⟩; exact ⟨i, hi, h3, (hpar i hi).mp (h4.mpr rfl)⟩
      · rintro ⟨i, hi, h3, h4⟩; exact ⟨i, hi, h3, ⟨fun _ => rfl, fun _ => (hpar i hi).mpr h4⟩⟩
    · rw [h2.iff 1 (by decide) x y]
      constructor
      · rintro ⟨i, hi, h3, h4⟩
        refine ⟨i, hi, h3, ?_⟩
        have : ¬ (e.position.length - i) % 2 = 0 := fun h => by cases h4.mp ((hpar i hi).mpr h)
        omega
      · rintro ⟨i, hi, h3, h4⟩
        refine ⟨i, hi, h3, ⟨fun h => ?_, fun h => by cases h⟩⟩
        have := (hpar i hi).mp h
        omega

example : ((replay ⟨.loss, 2, 15, .standard, Move.at 3 7, [Move.at 7 7, Move.at 0 14]⟩).map fun r => (r.1.stm, r.1.value, r.1.board 0 7 7, r.1.board 1 14 0)) =
    some (-1, [0, 1, 0], 1, 1) := by decide +kernel

end Simple

end Verif.Board
