import Verif.Board.Props46

/-!
# C47: side normalisation
-/
namespace Verif.Board

variable {α : Type _}

/-- `Result` (`utils/data_utils.py:7-13`): LOSS = 0, DRAW = 1, WIN = 2; `Result(2 - self.value)` raises outside 0..2. -/
structure Result where
  value : Nat
  le : value ≤ 2
deriving DecidableEq

def Result.opposite (r : Result) : Result := ⟨2 - r.value, by omega⟩
def Result.loss : Result := ⟨0, by omega⟩
def Result.draw : Result := ⟨1, by omega⟩
def Result.win : Result := ⟨2, by omega⟩

/-- **C47.** The opposite of a result swaps win and loss and keeps a draw; taking it twice gives the result back. -/
theorem C47_opposite : Result.win.opposite = .loss ∧ Result.loss.opposite = .win ∧ Result.draw.opposite = .draw ∧
    ∀ r : Result, r.opposite.opposite = r := by
  refine ⟨rfl, rfl, rfl, fun r => ?_⟩
  obtain ⟨v, hv⟩ := r
  simp only [Result.opposite, Result.mk.injEq]
  omega

/-- The channel that side normalisation moves to channel `c` of the sparse features: the first two groups of four are exchanged, and so are
the channels 8, 9 and 10, 11. -/
def sparseSource (c : Nat) : Nat := if c < 4 then c + 4 else if c < 8 then c - 4 else if c = 8 then 9 else if c = 9 then 8 else if c = 10 then 11 else 10

/-- **C47.** With fixed-side input, and only for white to move, the planes are exchanged together with the win and loss probabilities and the
sparse channels; nothing else changes (in particular the side flag and the draw probability are kept), and with black to move nothing changes at
all. -/
theorem C47_swap (a b : Nat → Nat → α) (w l : α) (rest : List α) (s : Sample α) (hp : s.planes = [a, b]) (hv : s.value = w :: l :: rest)
    (hsp : ∀ sp, s.sparse = some sp → sp.length = 12) :
    (∀ fixed, fixed = false ∨ s.stm ≤ 0 → fixSide fixed s = some s) ∧
    (s.stm > 0 → ∃ r, fixSide true s = some r ∧ r.planes = [b, a] ∧ r.value = l :: w :: rest ∧ r.stm = s.stm ∧ r.policy = s.policy ∧
      r.position = s.position ∧ r.moves = s.moves ∧ (r.bh, r.bw, r.h, r.w) = (s.bh, s.bw, s.h, s.w) ∧
      (s.sparse = none → r.sparse = none) ∧
      ∀ sp, s.sparse = some sp → ∃ sp', r.sparse = some sp' ∧ sp'.length = 12 ∧ ∀ c, c < 12 → sp'[c]? = sp[sparseSource c]?) := by
  constructor
  · intro fixed h
    unfold fixSide
    rw [if_neg]
    rcases h with rfl | h
    · simp
    · rw [decide_eq_false (by omega)]; simp
  · intro hs
    unfold fixSide
    rw [if_pos (by rw [decide_eq_true hs]; rfl)]
    unfold sideSwap
    rw [hv]
    simp only [hp]
    cases h : s.sparse with
    | none =>
      exact ⟨_, rfl, rfl, rfl, rfl, rfl, rfl, rfl, rfl, fun _ => rfl, (by intro sp h; cases h)⟩
    | some sp =>
      have hl := hsp sp h
      match sp, hl with
      | [c0, c1, c2, c3, c4, c5, c6, c7, c8, c9, c10, c11], _ =>
        refine ⟨_, rfl, rfl, rfl, rfl, rfl, rfl, rfl, rfl, (by intro h; cases h), ?_⟩
        intro sp' h'
        cases h'
        refine ⟨_, rfl, rfl, ?_⟩
        intro c hc
        have : c = 0 ∨ c = 1 ∨ c = 2 ∨ c = 3 ∨ c = 4 ∨ c = 5 ∨ c = 6 ∨ c = 7 ∨ c = 8 ∨ c = 9 ∨ c = 10 ∨ c = 11 := by omega
        rcases this with rfl | rfl | rfl | rfl | rfl | rfl | rfl | rfl | rfl | rfl | rfl | rfl <;> rfl

/-- **C47.** The exchange applied twice gives the sample back, for every sample it applies to. -/
theorem C47_involution (s r : Sample α) (hsp : ∀ sp, s.sparse = some sp → sp.length = 12) (h : sideSwap s = some r) : sideSwap r = some s := by
  obtain ⟨bh, bw, hh, ww, planes, stm, value, policy, sparse, position, moves⟩ := s
  match value with
  | [] => cases h
  | [_] => cases h
  | a :: b :: rest =>
    cases sparse with
    | none =>
      cases h
      simp [sideSwap]
    | some sp =>
      have hl := hsp sp rfl
      match sp, hl with
      | [c0, c1, c2, c3, c4, c5, c6, c7, c8, c9, c10, c11], _ =>
        cases h
        simp [sideSwap]

/-- Black and white stones and the side to move describe the same position before and after: plane 0 is black's exactly when the side is
normalised or black is to move. -/
def blackPlane (normalised : Bool) (s : Sample α) : Option (Nat → Nat → α) :=
  if normalised || decide (s.stm ≤ 0) then s.planes[0]? else s.planes[1]?

/-- **C47.** Normalisation keeps the identity of the stones: black's plane is the same one, now always the first. -/
theorem C47_black_first (a b : Nat → Nat → α) (s r : Sample α) (hp : s.planes = [a, b]) (h : fixSide true s = some r) :
    blackPlane true r = blackPlane false s ∧ r.planes[0]? = blackPlane false s := by
  unfold blackPlane
  simp only [Bool.true_or, if_true, Bool.false_or, and_self]
  unfold fixSide at h
  by_cases hs : s.stm > 0
  · rw [if_pos (by rw [decide_eq_true hs]; rfl)] at h
    rw [if_neg (by rw [decide_eq_true_eq]; omega), hp]
    unfold sideSwap at h
    split at h
    · cases hsp : s.sparse with
      | none => simp only [hsp, hp] at h; cases h; rfl
      | some sp =>
        simp only [hsp, hp] at h
        obtain ⟨_, _, rfl⟩ := Option.map_eq_some_iff.mp h
        rfl
    · cases h
  · rw [if_neg (by rw [decide_eq_false hs]; simp)] at h
    cases h
    rw [if_pos (by rw [decide_eq_true_eq]; omega)]

/-! White to move with a sparse field of twelve channels. -/
def demo47 : Sample Nat := { demo with stm := 1, sparse := some ((List.range 12).map fun c => ⟨3, 3, fun _ _ => c⟩) }

example : demo47.stm > 0 ∧ demo47.planes.length = 2 ∧ demo47.value = [1, 0, 0] ∧ (∀ sp, demo47.sparse = some sp → sp.length = 12) ∧
    ((fixSide true demo47).map fun r => (r.value, r.sparse.map fun sp => sp.map fun g => g.at' 0 0, r.planes.map fun p => p 0 1)) =
      some ([0, 1, 0], some [4, 5, 6, 7, 0, 1, 2, 3, 9, 8, 11, 10], [0, 1]) := by
  refine ⟨by decide, rfl, rfl, ?_, by decide +kernel⟩
  intro sp h; cases h; rfl

end Verif.Board
