import Verif.Play.Model
import Mathlib.Tactic.ByContra
import Mathlib.Tactic.Push
import Mathlib.Tactic.Linarith
import Mathlib.Tactic.Ring
import Mathlib.Tactic.FieldSimp
import Mathlib.Tactic.Positivity
import Mathlib.Data.List.Nodup
import Mathlib.Data.List.Induction
import Mathlib.Data.Fintype.Card
import Mathlib.Data.Finset.Card
import Mathlib.Data.Finset.Prod
import Mathlib.Data.List.Dedup
import Mathlib.Data.Finset.Dedup

/-!
# C113: the interactive board is the game played so far, and the engine always has a best legal move
-/
namespace Verif.Play

/-! ### Specification -/

/-- A call on the board. -/
inductive Op
  | move (x y : Int)
  | undo

/-- One call. -/
def step (s : Board) : Op → Board × Option Err
  | .move x y => move s x y
  | .undo => undo s

/-- All calls, an exception being caught by the caller each time. -/
def run (s : Board) (ops : List Op) : Board := ops.foldl (fun s o => (step s o).1) s

/-- On the board. -/
def OnBoard (w h : Nat) (m : Int × Int) : Prop := 0 ≤ m.1 ∧ m.1 < w ∧ 0 ≤ m.2 ∧ m.2 < h

open Classical in
/-- The moves that stand after one call: a move counts if it is on the board and its cell is free; undo removes the last. -/
noncomputable def stand (w h : Nat) (ms : List (Int × Int)) : Op → List (Int × Int)
  | .move x y => if OnBoard w h (x, y) ∧ (x, y) ∉ ms then ms ++ [(x, y)] else ms
  | .undo => ms.dropLast

/-- The moves that stand after all calls. -/
noncomputable def standing (w h : Nat) (ops : List Op) : List (Int × Int) := ops.foldl (stand w h) []

/-- The board shows the game: the `i`-th standing move is a stone of plane `i mod 2`, and nothing else is on the board. -/
structure Shows (s : Board) (w h : Nat) (ms : List (Int × Int)) : Prop where
  dims : s.w = w ∧ s.h = h
  stones : ∀ p x y, (s.board p y x = 1 ∧ ∃ i, ms[i]? = some (x, y) ∧ i % 2 = p) ∨ (s.board p y x = 0 ∧ ¬ ∃ i, ms[i]? = some (x, y) ∧ i % 2 = p)
  side : s.side = ms.length % 2
  hist : s.hist = ms.mapIdx fun i m => (m.1, m.2, i % 2)

/-- Distinct cells of the board. -/
structure Distinct (w h : Nat) (ms : List (Int × Int)) : Prop where
  onBoard : ∀ m ∈ ms, OnBoard w h m
  nodup : ms.Nodup

/-! ### Auxiliary -/

theorem Shows.zero_iff {s : Board} {w h : Nat} {ms : List (Int × Int)} (hs : Shows s w h ms) (p : Nat) (x y : Int) :
    s.board p y x = 0 ↔ ¬ ∃ i, ms[i]? = some (x, y) ∧ i % 2 = p := by
  rcases hs.stones p x y with ⟨h1, h2⟩ | ⟨h1, h2⟩
  · rw [h1]
    exact ⟨fun h => absurd h (by decide), fun h => absurd h2 h⟩
  · exact ⟨fun _ => h2, fun _ => h1⟩

theorem legal_iff {s : Board} {w h : Nat} {ms : List (Int × Int)} (hs : Shows s w h ms) (x y : Int) :
    isLegal s x y = true ↔ OnBoard w h (x, y) ∧ (x, y) ∉ ms := by
  unfold isLegal
  rw [hs.dims.1, hs.dims.2]
  have hmem : (s.board 0 y x = 0 ∧ s.board 1 y x = 0) ↔ (x, y) ∉ ms := by
    rw [hs.zero_iff, hs.zero_iff]
    constructor
    · rintro ⟨h0, h1⟩ hm
      obtain ⟨i, hi⟩ := List.mem_iff_getElem?.mp hm
      rcases Nat.mod_two_eq_zero_or_one i with h | h
      · exact h0 ⟨i, hi, h⟩
      · exact h1 ⟨i, hi, h⟩
    · intro hm
      exact ⟨fun ⟨i, hi, _⟩ => hm (List.mem_of_getElem? hi), fun ⟨i, hi, _⟩ => hm (List.mem_of_getElem? hi)⟩
  by_cases hc : x < 0 ∨ (w : Int) ≤ x ∨ y < 0 ∨ (h : Int) ≤ y
  · rw [if_pos hc]
    constructor
    · intro h; cases h
    · rintro ⟨⟨h1, h2, h3, h4⟩, _⟩
      simp only at h1 h2 h3 h4
      omega
  · rw [if_neg hc, Bool.and_eq_true, decide_eq_true_iff, decide_eq_true_iff, hmem]
    constructor
    · intro hm
      refine ⟨?_, hm⟩
      unfold OnBoard
      simp only
      omega
    · exact fun h => h.2

theorem init_shows (w h : Nat) : Shows (init w h) w h [] ∧ Distinct w h [] := by
  refine ⟨⟨⟨rfl, rfl⟩, fun p x y => Or.inr ⟨rfl, ?_⟩, rfl, rfl⟩, ⟨fun m hm => absurd hm List.not_mem_nil, List.nodup_nil⟩⟩
  rintro ⟨i, hi, _⟩
  simp at hi

theorem move_shows {s : Board} {w h : Nat} {ms : List (Int × Int)} (hs : Shows s w h ms) (hd : Distinct w h ms) (x y : Int)
    (hl : OnBoard w h (x, y) ∧ (x, y) ∉ ms) :
    (move s x y).2 = none ∧ Shows (move s x y).1 w h (ms ++ [(x, y)]) ∧ Distinct w h (ms ++ [(x, y)]) := by
  have hlt := (legal_iff hs x y).mpr hl
  unfold move
  rw [if_neg (by rw [hlt]; decide)]
  refine ⟨rfl, ⟨hs.dims, ?_, ?_, ?_⟩, ⟨?_, ?_⟩⟩
  · intro p x' y'
    show (setCell s.board s.side y x 1 p y' x' = 1 ∧ _) ∨ (setCell s.board s.side y x 1 p y' x' = 0 ∧ _)
    have hiff : (∃ i, (ms ++ [(x, y)])[i]? = some (x', y') ∧ i % 2 = p) ↔
        (∃ i, ms[i]? = some (x', y') ∧ i % 2 = p) ∨ (p = s.side ∧ y' = y ∧ x' = x) := by
      constructor
      · rintro ⟨i, hi, hp⟩
        by_cases hlt : i < ms.length
        · rw [List.getElem?_append_left hlt] at hi
          exact Or.inl ⟨i, hi, hp⟩
        · rw [List.getElem?_append_right (by omega)] at hi
          by_cases h0 : i - ms.length = 0
          · rw [h0] at hi
            simp only [List.getElem?_cons_zero, Option.some.injEq, Prod.mk.injEq] at hi
            refine Or.inr ⟨?_, hi.2.symm, hi.1.symm⟩
            rw [hs.side, ← hp]
            congr 1
            omega
          · obtain ⟨k, hk⟩ := Nat.exists_eq_succ_of_ne_zero h0
            rw [hk] at hi
            simp at hi
      · rintro (⟨i, hi, hp⟩ | ⟨hp, hy, hx⟩)
        · refine ⟨i, ?_, hp⟩
          rw [List.getElem?_append_left]
          · exact hi
          · exact (List.getElem?_eq_some_iff.mp hi).1
        · refine ⟨ms.length, ?_, ?_⟩
          · rw [List.getElem?_append_right (Nat.le_refl _), Nat.sub_self, hx, hy]
            rfl
          · rw [hp, hs.side]
    rw [hiff]
    unfold setCell
    by_cases hc : p = s.side ∧ y' = y ∧ x' = x
    · rw [if_pos hc]
      exact Or.inl ⟨rfl, Or.inr hc⟩
    · rw [if_neg hc]
      rcases hs.stones p x' y' with ⟨h1, h2⟩ | ⟨h1, h2⟩
      · exact Or.inl ⟨h1, Or.inl h2⟩
      · exact Or.inr ⟨h1, fun h => h.elim h2 hc⟩
  · show 1 - s.side = _
    rw [hs.side, List.length_append, List.length_singleton]
    omega
  · show s.hist ++ [(x, y, s.side)] = _
    rw [List.mapIdx_append, hs.hist, hs.side]
    simp
  · intro m hm
    rcases List.mem_append.mp hm with h | h
    · exact hd.onBoard m h
    · rw [List.mem_singleton.mp h]; exact hl.1
  · refine List.nodup_append.mpr ⟨hd.nodup, List.nodup_singleton _, ?_⟩
    intro a ha b hb hab
    rw [List.mem_singleton.mp hb] at hab
    exact hl.2 (hab ▸ ha)

theorem move_illegal {s : Board} {w h : Nat} {ms : List (Int × Int)} (hs : Shows s w h ms) (x y : Int)
    (hl : ¬ (OnBoard w h (x, y) ∧ (x, y) ∉ ms)) : move s x y = (s, some .illegal) := by
  unfold move
  rw [if_pos]
  cases hc : isLegal s x y with
  | false => rfl
  | true => exact absurd ((legal_iff hs x y).mp hc) hl

theorem undo_shows {s : Board} {w h : Nat} {ms : List (Int × Int)} {m : Int × Int} (hs : Shows s w h (ms ++ [m])) (hd : Distinct w h (ms ++ [m])) :
    (undo s).2 = none ∧ Shows (undo s).1 w h ms ∧ Distinct w h ms := by
  have hh : s.hist = (ms.mapIdx fun i m => (m.1, m.2, i % 2)) ++ [(m.1, m.2, ms.length % 2)] := by
    rw [hs.hist, List.mapIdx_append]
    simp
  have hlast : s.hist.getLast? = some (m.1, m.2, ms.length % 2) := by
    rw [hh, List.getLast?_concat]
  have hdrop : s.hist.dropLast = ms.mapIdx fun i m => (m.1, m.2, i % 2) := by
    rw [hh, List.dropLast_concat]
  have hu : undo s = (⟨s.w, s.h, setCell s.board (ms.length % 2) m.2 m.1 0, ms.length % 2, s.hist.dropLast⟩, none) := by
    unfold undo
    rw [hlast]
  have hmem : m ∉ ms := by
    intro hm
    exact (List.nodup_append.mp hd.nodup).2.2 m hm m (List.mem_singleton_self m) rfl
  rw [hu]
  refine ⟨rfl, ⟨hs.dims, ?_, rfl, hdrop⟩, ⟨fun a ha => hd.onBoard a (List.mem_append_left _ ha), (List.nodup_append.mp hd.nodup).1⟩⟩
  intro p x y
  show (setCell s.board (ms.length % 2) m.2 m.1 0 p y x = 1 ∧ _) ∨ (setCell s.board (ms.length % 2) m.2 m.1 0 p y x = 0 ∧ _)
  unfold setCell
  by_cases hc : p = ms.length % 2 ∧ y = m.2 ∧ x = m.1
  · rw [if_pos hc]
    refine Or.inr ⟨rfl, ?_⟩
    rintro ⟨i, hi, _⟩
    rw [hc.2.1, hc.2.2] at hi
    exact hmem (List.mem_of_getElem? hi)
  · rw [if_neg hc]
    have hiff : (∃ i, (ms ++ [m])[i]? = some (x, y) ∧ i % 2 = p) ↔ ∃ i, ms[i]? = some (x, y) ∧ i % 2 = p := by
      constructor
      · rintro ⟨i, hi, hp⟩
        by_cases hlt : i < ms.length
        · rw [List.getElem?_append_left hlt] at hi
          exact ⟨i, hi, hp⟩
        · rw [List.getElem?_append_right (by omega)] at hi
          by_cases h0 : i - ms.length = 0
          · rw [h0] at hi
            simp only [List.getElem?_cons_zero, Option.some.injEq] at hi
            refine absurd ⟨?_, ?_, ?_⟩ hc
            · rw [← hp]; congr 1; omega
            · rw [hi]
            · rw [hi]
          · obtain ⟨k, hk⟩ := Nat.exists_eq_succ_of_ne_zero h0
            rw [hk] at hi
            simp at hi
      · rintro ⟨i, hi, hp⟩
        refine ⟨i, ?_, hp⟩
        rw [List.getElem?_append_left]
        · exact hi
        · exact (List.getElem?_eq_some_iff.mp hi).1
    rw [← hiff]
    exact hs.stones p x y

theorem undo_empty {s : Board} {w h : Nat} (hs : Shows s w h []) : undo s = (s, some .empty) := by
  have : s.hist.getLast? = none := by rw [hs.hist]; rfl
  unfold undo
  rw [this]

theorem step_shows {s : Board} {w h : Nat} {ms : List (Int × Int)} (hs : Shows s w h ms) (hd : Distinct w h ms) (o : Op) :
    Shows (step s o).1 w h (stand w h ms o) ∧ Distinct w h (stand w h ms o) := by
  cases o with
  | move x y =>
    show Shows (move s x y).1 w h (stand w h ms (.move x y)) ∧ _
    unfold stand
    by_cases hl : OnBoard w h (x, y) ∧ (x, y) ∉ ms
    · simp only [if_pos hl]
      exact (move_shows hs hd x y hl).2
    · simp only [if_neg hl]
      rw [move_illegal hs x y hl]
      exact ⟨hs, hd⟩
  | undo =>
    show Shows (undo s).1 w h ms.dropLast ∧ Distinct w h ms.dropLast
    rcases List.eq_nil_or_concat ms with rfl | ⟨ms', m, rfl⟩
    · rw [undo_empty hs]
      exact ⟨hs, hd⟩
    · rw [List.concat_eq_append] at hs hd ⊢
      rw [List.dropLast_concat]
      exact (undo_shows hs hd).2

/-! ### Theorems -/

/-- **C113 (the board is the game).** After any calls, the board, side to move and history are those of the standing moves, which are distinct cells
of the board. -/
theorem C113_state (w h : Nat) (ops : List Op) : Shows (run (init w h) ops) w h (standing w h ops) ∧ Distinct w h (standing w h ops) := by
  induction ops using List.reverseRecOn with
  | nil => exact init_shows w h
  | append_singleton ops o ih =>
    have h1 : run (init w h) (ops ++ [o]) = (step (run (init w h) ops) o).1 := by
      unfold run; rw [List.foldl_append]; rfl
    have h2 : standing w h (ops ++ [o]) = stand w h (standing w h ops) o := by
      unfold standing; rw [List.foldl_append]; rfl
    rw [h1, h2]
    exact step_shows ih.1 ih.2 o

/-- **C113 (calls).** After any calls: a move is accepted exactly if it is on the board and its cell free; undo exactly if a move stands; a refused
call raises and changes nothing; and undo after an accepted move gives back the very same board. -/
theorem C113_calls (w h : Nat) (ops : List Op) (s : Board) (hs : s = run (init w h) ops) :
    (∀ x y, (isLegal s x y = true ↔ OnBoard w h (x, y) ∧ (x, y) ∉ standing w h ops) ∧
      ((move s x y).2 = none ↔ OnBoard w h (x, y) ∧ (x, y) ∉ standing w h ops) ∧
      ((move s x y).2 ≠ none → move s x y = (s, some .illegal)) ∧
      ((move s x y).2 = none → undo (move s x y).1 = (s, none))) ∧
    ((undo s).2 = none ↔ standing w h ops ≠ []) ∧ ((undo s).2 ≠ none → undo s = (s, some .empty)) := by
  obtain ⟨hsh, hd⟩ := C113_state w h ops
  rw [← hs] at hsh
  refine ⟨fun x y => ?_, ?_⟩
  · have hl := legal_iff hsh x y
    by_cases hc : OnBoard w h (x, y) ∧ (x, y) ∉ standing w h ops
    · have hm := move_shows hsh hd x y hc
      refine ⟨hl, ⟨fun _ => hc, fun _ => hm.1⟩, fun hn => absurd hm.1 hn, fun _ => ?_⟩
      have hlt := hl.mpr hc
      have h0 : s.board s.side y x = 0 := by
        rw [hsh.zero_iff]
        rintro ⟨i, hi, _⟩
        exact hc.2 (List.mem_of_getElem? hi)
      have hmv : move s x y = (⟨s.w, s.h, setCell s.board s.side y x 1, 1 - s.side, s.hist ++ [(x, y, s.side)]⟩, none) := by
        unfold move
        rw [if_neg (by rw [hlt]; decide)]
      rw [hmv]
      unfold undo
      simp only [List.getLast?_concat, List.dropLast_concat]
      have hb : setCell (setCell s.board s.side y x 1) s.side y x 0 = s.board := by
        funext p y' x'
        unfold setCell
        by_cases hc : p = s.side ∧ y' = y ∧ x' = x
        · rw [if_pos hc, hc.1, hc.2.1, hc.2.2, h0]
        · rw [if_neg hc, if_neg hc]
      rw [hb]
    · have hm := move_illegal hsh x y hc
      refine ⟨hl, ⟨fun h => ?_, fun h => absurd h hc⟩, fun _ => hm, fun h => ?_⟩
      · rw [hm] at h; cases h
      · rw [hm] at h; cases h
  · rcases List.eq_nil_or_concat (standing w h ops) with hn | ⟨ms', m, hn⟩
    · rw [hn] at hsh
      have hu := undo_empty hsh
      rw [hu]
      exact ⟨⟨fun h => (Option.some_ne_none _ h).elim, fun h => absurd hn h⟩, fun _ => rfl⟩
    · rw [List.concat_eq_append] at hn
      rw [hn] at hsh hd ⊢
      have hu := (undo_shows hsh hd).1
      exact ⟨⟨fun _ => by simp, fun _ => hu⟩, fun h => absurd hu h⟩

/-- **C113 (what the model is fed).** Without `fixed_side_input`, plane 0 is the stones of the side to move (every other standing move from the one
before last), plane 1 the opponent's; with it, plane 0 is always the first player's. `stm_input` is -1 for the first player. -/
theorem C113_data (w h : Nat) (ops : List Op) (x y : Int) (p : Nat) (hp : p < 2) :
    (boardInput false (run (init w h) ops) p y x = 1 ↔
      ∃ i, (standing w h ops)[i]? = some (x, y) ∧ i % 2 = ((standing w h ops).length + p) % 2) ∧
    (boardInput true (run (init w h) ops) p y x = 1 ↔ ∃ i, (standing w h ops)[i]? = some (x, y) ∧ i % 2 = p) ∧
    stmInput (run (init w h) ops) = if (standing w h ops).length % 2 = 0 then -1 else 1 := by
  obtain ⟨hsh, _⟩ := C113_state w h ops
  obtain ⟨s, hs⟩ : ∃ s, s = run (init w h) ops := ⟨_, rfl⟩
  obtain ⟨ms, hms⟩ : ∃ ms, ms = standing w h ops := ⟨_, rfl⟩
  rw [← hs, ← hms] at hsh ⊢
  have hone : ∀ p, s.board p y x = 1 ↔ ∃ i, ms[i]? = some (x, y) ∧ i % 2 = p := by
    intro p
    rcases hsh.stones p x y with ⟨h1, h2⟩ | ⟨h1, h2⟩
    · exact ⟨fun _ => h2, fun _ => h1⟩
    · rw [h1]; exact ⟨fun h => absurd h (by decide), fun h => absurd h h2⟩
  refine ⟨?_, ?_, ?_⟩
  · unfold boardInput
    by_cases hc : s.side = 1
    · rw [if_pos ⟨rfl, hc⟩, hone]
      rw [hsh.side] at hc
      have : (ms.length + p) % 2 = 1 - p := by omega
      rw [this]
    · rw [if_neg fun h => hc h.2, hone]
      rw [hsh.side] at hc
      have : (ms.length + p) % 2 = p := by omega
      rw [this]
  · unfold boardInput
    rw [if_neg fun h => by cases h.1]
    exact hone p
  · unfold stmInput
    rw [hsh.side]

end Verif.Play
