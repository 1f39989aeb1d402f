import Verif.Board.Sym

/-!
# C44, C45: symmetries of moves and boards
-/
namespace Verif.Board

/-- The move at column `x`, row `y`. -/
def Move.at (x y : Nat) : Move := ⟨x, y⟩

theorem at_not_pass (x y : Nat) : (Move.at x y).isPass = false := by
  have h : ¬ ((x : Int) < 0) := by omega
  simp only [Move.isPass, Move.at, h, decide_false, Bool.false_and]

/-- Where a cell goes, computed directly on natural numbers. -/
def Sym.cell (s : Sym) (h w x y : Nat) : Nat × Nat :=
  match s with
  | .identity => (x, y)
  | .rotate90 => (y, w - 1 - x)
  | .rotate180 => (w - 1 - x, h - 1 - y)
  | .rotate270 => (h - 1 - y, x)
  | .flipX => (x, h - 1 - y)
  | .flipY => (w - 1 - x, y)
  | .flipXY => (y, x)
  | .flipYX => (h - 1 - y, w - 1 - x)

def Sym.swaps (s : Sym) : Bool := s.ops.2.2

theorem mem_default (s : Sym) (h w : Nat) : s ∈ (available h w .default).getD [] ↔ (s.swaps = true → h = w) := by
  simp only [available, Option.getD_some]
  by_cases hw : h = w
  · rw [if_pos hw]
    cases s <;> simp [hw]
  · rw [if_neg hw]
    cases s <;> simp [Sym.swaps, Sym.ops, hw]

theorem cell_range (s : Sym) (h w x y : Nat) (hx : x < w) (hy : y < h) (hs : s.swaps = true → h = w) :
    (s.cell h w x y).1 < w ∧ (s.cell h w x y).2 < h := by
  cases s <;> simp [Sym.swaps, Sym.ops, Sym.cell] at hs ⊢ <;> omega

theorem applyMove_cell (s : Sym) (h w x y : Nat) (hx : x < w) (hy : y < h) (hs : s.swaps = true → h = w) :
    s.applyMove h w (Move.at x y) = some (Move.at (s.cell h w x y).1 (s.cell h w x y).2) := by
  unfold Sym.applyMove
  rw [at_not_pass, if_neg (by simp), if_neg (by rw [not_not]; exact (mem_default s h w).mpr hs),
    if_neg (by simp only [Move.at, not_not]; omega)]
  congr 1
  cases s <;> simp [Sym.map, Sym.cell, Move.at] <;> omega

theorem applyArr_dims {α} (s : Sym) (g : Grid α) :
    ((s.applyArr g).h, (s.applyArr g).w) = if s.swaps then (g.w, g.h) else (g.h, g.w) := by
  cases s <;> rfl

theorem applyArr_cell {α} (s : Sym) (g : Grid α) (x y : Nat) (hx : x < g.w) (hy : y < g.h) :
    (s.applyArr g).at' (s.cell g.h g.w x y).2 (s.cell g.h g.w x y).1 = g.at' y x := by
  have e1 : g.w - 1 - (g.w - 1 - x) = x := by omega
  have e2 : g.h - 1 - (g.h - 1 - y) = y := by omega
  cases s <;> simp [Sym.applyArr, Sym.ops, Sym.cell, Grid.flipX, Grid.flipY, Grid.swap, e1, e2]

/-- **C44.** For every board size, every symmetry admitted for it, every array of that size and every cell: transforming the array keeps its
size, transforming the move succeeds and stays on the board, and the transformed array holds at the transformed move what the original held
at the original move. -/
theorem C44_move_array {α} (s : Sym) (g : Grid α) (syms : List Sym) (hav : available g.h g.w .default = some syms) (hs : s ∈ syms) (x y : Nat)
    (hx : x < g.w) (hy : y < g.h) :
    (s.applyArr g).h = g.h ∧ (s.applyArr g).w = g.w ∧
    ∃ x' y', s.applyMove g.h g.w (Move.at x y) = some (Move.at x' y') ∧ x' < g.w ∧ y' < g.h ∧ (s.applyArr g).at' y' x' = g.at' y x := by
  have hsw : s.swaps = true → g.h = g.w := (mem_default s g.h g.w).mp (by rw [hav]; exact hs)
  have hd := applyArr_dims s g
  have hr := cell_range s g.h g.w x y hx hy hsw
  refine ⟨?_, ?_, _, _, applyMove_cell s g.h g.w x y hx hy hsw, hr.1, hr.2, applyArr_cell s g x y hx hy⟩
  · have := congrArg Prod.fst hd
    simp only at this
    rw [this]; split
    · rename_i h; exact (hsw h).symm
    · rfl
  · have := congrArg Prod.snd hd
    simp only at this
    rw [this]; split
    · rename_i h; exact hsw h
    · rfl

/-- **C44 (domain).** A pass is unchanged by every symmetry; any other move is accepted exactly when it lies on the board and the symmetry
keeps the shape of the board. -/
theorem C44_domain (s : Sym) (h w : Nat) (m : Move) :
    (m.isPass = true → s.applyMove h w m = some m) ∧
    (m.isPass = false → (s.applyMove h w m ≠ none ↔ (∃ x y : Nat, m = Move.at x y ∧ x < w ∧ y < h) ∧
      ∀ {α : Type} (g : Grid α), g.h = h → g.w = w → (s.applyArr g).h = h ∧ (s.applyArr g).w = w)) := by
  refine ⟨fun hp => by unfold Sym.applyMove; rw [if_pos hp], fun hp => ?_⟩
  have hshape : (∀ {α : Type} (g : Grid α), g.h = h → g.w = w → (s.applyArr g).h = h ∧ (s.applyArr g).w = w) ↔ (s.swaps = true → h = w) := by
    constructor
    · intro hall hsw
      have := hall (⟨h, w, fun _ _ => ()⟩ : Grid Unit) rfl rfl
      have hd := applyArr_dims s (⟨h, w, fun _ _ => ()⟩ : Grid Unit)
      rw [hsw] at hd
      simp only [Prod.mk.injEq, if_true] at hd
      omega
    · intro hsw α g h1 h2
      have hd := applyArr_dims s g
      cases hb : s.swaps with
      | true =>
        rw [hb] at hd
        simp only [Prod.mk.injEq, if_true] at hd
        have := hsw hb
        omega
      | false =>
        rw [hb] at hd
        simp only [Prod.mk.injEq, Bool.false_eq_true, if_false] at hd
        omega
  have hshape' := hshape
  constructor
  · intro hne
    unfold Sym.applyMove at hne
    rw [if_neg (by rw [hp]; simp)] at hne
    by_cases h1 : s ∈ (available h w .default).getD []
    · rw [if_neg (by rw [not_not]; exact h1)] at hne
      by_cases h2 : 0 ≤ m.x ∧ m.x < w ∧ 0 ≤ m.y ∧ m.y < h
      · refine ⟨⟨m.x.toNat, m.y.toNat, ?_, by omega, by omega⟩, hshape'.mpr ((mem_default s h w).mp h1)⟩
        cases m
        simp only [Move.at, Move.mk.injEq] at h2 ⊢
        omega
      · rw [if_pos h2] at hne; exact absurd rfl hne
    · rw [if_pos h1] at hne; exact absurd rfl hne
  · rintro ⟨⟨x, y, rfl, hx, hy⟩, hall⟩
    rw [applyMove_cell s h w x y hx hy (hshape'.mp hall)]
    simp

/-! ## C45 -/

/-- The inverse of each symmetry. -/
def Sym.inv : Sym → Sym
  | .rotate90 => .rotate270
  | .rotate270 => .rotate90
  | s => s

theorem inv_cell (s : Sym) (h w x y : Nat) (hx : x < w) (hy : y < h) (hs : s.swaps = true → h = w) :
    s.inv.cell h w (s.cell h w x y).1 (s.cell h w x y).2 = (x, y) := by
  cases s <;> simp [Sym.swaps, Sym.ops, Sym.cell, Sym.inv] at hs ⊢ <;> omega

theorem inv_swaps (s : Sym) : s.inv.swaps = s.swaps := by cases s <;> rfl
theorem inv_inv (s : Sym) : s.inv.inv = s := by cases s <;> rfl

/-- **C45 (bijection).** Every admitted symmetry permutes the cells of the board: it has an inverse that is admitted for the same boards and
undoes it on every move, on both sides. -/
theorem C45_bijection (s : Sym) (h w : Nat) (syms : List Sym) (hav : available h w .default = some syms) (hs : s ∈ syms) :
    s.inv ∈ syms ∧ ∀ x y : Nat, x < w → y < h →
      (s.applyMove h w (Move.at x y)).bind (s.inv.applyMove h w) = some (Move.at x y) ∧
      (s.inv.applyMove h w (Move.at x y)).bind (s.applyMove h w) = some (Move.at x y) := by
  have hsw : s.swaps = true → h = w := (mem_default s h w).mp (by rw [hav]; exact hs)
  have hsw' : s.inv.swaps = true → h = w := by rw [inv_swaps]; exact hsw
  have key : ∀ (s : Sym), (s.swaps = true → h = w) → ∀ x y : Nat, x < w → y < h →
      (s.applyMove h w (Move.at x y)).bind (s.inv.applyMove h w) = some (Move.at x y) := by
    intro s hsw x y hx hy
    have hr := cell_range s h w x y hx hy hsw
    rw [applyMove_cell s h w x y hx hy hsw, Option.bind_some,
      applyMove_cell s.inv h w _ _ hr.1 hr.2 (by rw [inv_swaps]; exact hsw), inv_cell s h w x y hx hy hsw]
  refine ⟨?_, fun x y hx hy => ⟨key s hsw x y hx hy, ?_⟩⟩
  · have := (mem_default s.inv h w).mpr hsw'
    rw [hav] at this; exact this
  · have := key s.inv hsw' x y hx hy
    rw [inv_inv] at this; exact this

/-- Composition: first `a`, then `b` (the table of the dihedral group of the square). -/
def Sym.comp (a b : Sym) : Sym :=
  let r : Sym → Nat × Bool      -- rotation count and whether the columns are mirrored first
    | .identity => (0, false) | .rotate90 => (1, false) | .rotate180 => (2, false) | .rotate270 => (3, false)
    | .flipY => (0, true) | .flipYX => (3, true) | .flipX => (2, true) | .flipXY => (1, true)
  let back : Nat × Bool → Sym
    | (0, false) => .identity | (1, false) => .rotate90 | (2, false) => .rotate180 | (_, false) => .rotate270
    | (0, true) => .flipY | (1, true) => .flipXY | (2, true) => .flipX | (_, true) => .flipYX
  let (i, f) := r a
  let (j, k) := r b
  -- mirror after `i` quarter turns is `-i` quarter turns after the mirror
  back (((if k then 4 - i else i) + j) % 4, f != k)

theorem comp_cell (a b : Sym) (n x y : Nat) (hx : x < n) (hy : y < n) :
    b.cell n n (a.cell n n x y).1 (a.cell n n x y).2 = (a.comp b).cell n n x y := by
  cases a <;> cases b <;> simp [Sym.cell, Sym.comp] <;> omega

/-- **C45 (group).** On square boards the symmetries compose as the dihedral group: doing `a` and then `b` on any move is the single
symmetry `a.comp b`; this table is associative, has the identity as neutral element and inverses; a quarter turn has order four, every
flip and the half turn have order two, and turning after flipping is flipping after turning back. -/
theorem C45_group : (∀ (a b : Sym) (n x y : Nat), x < n → y < n →
      (a.applyMove n n (Move.at x y)).bind (b.applyMove n n) = (a.comp b).applyMove n n (Move.at x y)) ∧
    (∀ a b c : Sym, (a.comp b).comp c = a.comp (b.comp c)) ∧ (∀ a : Sym, a.comp .identity = a ∧ Sym.identity.comp a = a) ∧
    (∀ a : Sym, a.comp a.inv = .identity ∧ a.inv.comp a = .identity) ∧
    Sym.rotate90.comp .rotate90 = .rotate180 ∧ Sym.rotate90.comp .rotate180 = .rotate270 ∧ Sym.rotate90.comp .rotate270 = .identity ∧
    (∀ s : Sym, s ∈ [Sym.rotate180, .flipX, .flipY, .flipXY, .flipYX] → s.comp s = .identity) ∧
    (∀ s : Sym, s ∈ [Sym.flipX, .flipY, .flipXY, .flipYX] → s.comp .rotate90 = Sym.rotate270.comp s) := by
  refine ⟨?_, by intro a b c; cases a <;> cases b <;> cases c <;> rfl, by intro a; cases a <;> exact ⟨rfl, rfl⟩,
    by intro a; cases a <;> exact ⟨rfl, rfl⟩, rfl, rfl, rfl, ?_, ?_⟩
  · intro a b n x y hx hy
    have hr := cell_range a n n x y hx hy (fun _ => rfl)
    rw [applyMove_cell a n n x y hx hy (fun _ => rfl), Option.bind_some, applyMove_cell b n n _ _ hr.1 hr.2 (fun _ => rfl),
      comp_cell a b n x y hx hy, applyMove_cell _ n n x y hx hy (fun _ => rfl)]
  · intro s hs; revert hs; cases s <;> decide
  · intro s hs; revert hs; cases s <;> decide

/-- **C45 (the eight are different).** On every square board of side at least 2, different symmetries move some cell differently. -/
theorem C45_faithful (n : Nat) (hn : 2 ≤ n) (a b : Sym) (h : ∀ x y : Nat, x < n → y < n → a.applyMove n n (Move.at x y) = b.applyMove n n (Move.at x y)) :
    a = b := by
  have e : ∀ x y : Nat, x < n → y < n → a.cell n n x y = b.cell n n x y := by
    intro x y hx hy
    have := h x y hx hy
    rw [applyMove_cell a n n x y hx hy (fun _ => rfl), applyMove_cell b n n x y hx hy (fun _ => rfl)] at this
    simp only [Option.some.injEq, Move.at, Move.mk.injEq] at this
    exact Prod.ext (by omega) (by omega)
  have h0 := e 0 0 (by omega) (by omega)
  have h1 := e 1 0 (by omega) (by omega)
  cases a <;> cases b <;> simp [Sym.cell] at h0 h1 ⊢ <;> omega

/-- **C45 (the sets).** Whenever a set of symmetries is offered, all of them keep the shape of the board, the identity is first, there are no
repetitions, and the inverse of each is also there; square-only sets are refused for other boards. -/
theorem C45_sets (h w : Nat) (k : Kind) :
    (∀ syms, available h w k = some syms →
      syms.head? = some .identity ∧ syms.Nodup ∧ ∀ s ∈ syms, s.inv ∈ syms ∧
        ∀ {α : Type} (g : Grid α), g.h = h → g.w = w → (s.applyArr g).h = h ∧ (s.applyArr g).w = w) ∧
    (available h w k = none ↔ k = .other ∨ (h ≠ w ∧ k ≠ .default)) := by
  refine ⟨?_, ?_⟩
  · intro syms hsy
    have hin : ∀ s ∈ syms, s.swaps = true → h = w := by
      intro s hs hsw
      cases k <;> simp only [available] at hsy
      · have := (mem_default s h w).mp (by simp only [available]; rw [hsy]; exact hs)
        exact this hsw
      all_goals (by_contra hne; first | (rw [if_pos hne] at hsy; cases hsy) | cases hsy)
    refine ⟨?_, ?_, fun s hs => ⟨?_, ?_⟩⟩
    · cases k <;> simp only [available] at hsy <;> first | (split at hsy <;> simp at hsy <;> subst hsy <;> rfl) | cases hsy
    · cases k <;> simp only [available] at hsy <;> first | (split at hsy <;> simp at hsy <;> subst hsy <;> decide) | cases hsy
    · revert hs
      cases k <;> simp only [available] at hsy <;> first | (split at hsy <;> simp at hsy <;> subst hsy <;> cases s <;> simp [Sym.inv]) | cases hsy
    · intro α g h1 h2
      have hd := applyArr_dims s g
      cases hb : s.swaps with
      | true =>
        have := hin s hs hb
        rw [hb] at hd
        simp only [Prod.mk.injEq, if_true] at hd
        omega
      | false =>
        rw [hb] at hd
        simp only [Prod.mk.injEq, Bool.false_eq_true, if_false] at hd
        omega
  · cases k <;> simp [available]

/-- **C45 (closure).** The default, `rotate` and `flip_diag_rotate180` sets are closed under composition (so augmenting twice stays within
the set); the `flip` set is not: two flips can give a rotation outside it. -/
theorem C45_closed (n : Nat) : (∀ k ∈ [Kind.default, .rotate, .flipDiagRotate180], ∀ syms, available n n k = some syms →
      ∀ a ∈ syms, ∀ b ∈ syms, a.comp b ∈ syms) ∧
    (∃ syms, available n n .flip = some syms ∧ .flipX ∈ syms ∧ .flipXY ∈ syms ∧ Sym.flipX.comp .flipXY ∉ syms) := by
  refine ⟨?_, ?_⟩
  · intro k hk syms hsy a ha b hb
    simp only [List.mem_cons, List.not_mem_nil, or_false] at hk
    rcases hk with rfl | rfl | rfl <;> simp [available] at hsy <;> subst hsy <;> revert ha hb <;> cases a <;> cases b <;> decide
  · exact ⟨_, by simp [available]; rfl, by simp, by simp, by decide⟩

/-- A 3×5 board with distinct entries, its half turn, and the rejection of a quarter turn. -/
example : (Sym.rotate180.applyMove 3 5 (Move.at 1 0), Sym.rotate90.applyMove 3 5 (Move.at 1 0), Sym.rotate90.applyMove 5 5 (Move.at 1 0),
    (Sym.rotate90.applyArr (⟨5, 5, fun y x => 10 * y + x⟩ : Grid Nat)).at' 3 0) =
    (some (Move.at 3 2), none, some (Move.at 0 3), 1) := by decide +kernel

end Verif.Board
