import Verif.LineEnc.Cells

/-! What a position sees along a line, and the keys that represent it. -/
namespace Verif.LineEnc

open Finset

/-- Stone on a cell of an input line: 1 and 2 are stones, everything else is empty. -/
def stoneOf (v : Nat) : Nat := if v = 1 then 1 else if v = 2 then 2 else 0

/-- Cell of a line at a signed position; `none` is off the line. -/
def lineAt (cells : List Nat) (p : Int) : Option Nat :=
  if 0 ≤ p ∧ p < cells.length then some (stoneOf (cells.getD p.toNat 0)) else none

/-- Cell of a board at signed coordinates (own stone 1, opponent stone 2, empty 0); `none` is off
the board. -/
def boardAt (b : Board) (y x : Int) : Option Nat :=
  if 0 ≤ y ∧ y < b.H ∧ 0 ≤ x ∧ x < b.W then
    some (if b.self y.toNat x.toNat then 1 else if b.oppo y.toNat x.toNat then 2 else 0)
  else none

/-- The four directions as (dy, dx): horizontal, vertical, anti-diagonal, diagonal. -/
def direction (d : Nat) : Int × Int :=
  match d with
  | 0 => (0, 1)
  | 1 => (1, 0)
  | 2 => (-1, 1)
  | _ => (1, 1)

/-- Something the code encodes: a position on an input line, or a board cell and a direction. -/
inductive Spot where
  | line (cells : List Nat) (x : Nat)
  | board (b : Board) (d y x : Nat)

/-- The position exists. -/
def Spot.Valid : Spot → Prop
  | .line cells x => x < cells.length
  | .board b d y x => d < 4 ∧ y < b.H ∧ x < b.W

/-- Window of `L` cells centred on the position: `none` is off the board. -/
def Spot.view (L : Nat) : Spot → Nat → Option Nat
  | .line cells x, k => lineAt cells ((x : Int) + ((k : Int) - (L / 2 : Nat)))
  | .board b d y x, k =>
      boardAt b ((y : Int) + (direction d).1 * ((k : Int) - (L / 2 : Nat)))
        ((x : Int) + (direction d).2 * ((k : Int) - (L / 2 : Nat)))

/-- The code the transforms return for a position; `none` when they raise. -/
def Spot.code (L : Nat) : Spot → Option Nat
  | .line cells x => (transformLine L cells).bind (·[x]?)
  | .board b d y x => (transformBoard L false b).map fun f => f d y x

/-- Two bits of a window cell. -/
def rawBits : Option Nat → Nat
  | none => 0
  | some 0 => 3
  | some v => v

/-- A key and wall distances represent a window. -/
structure Sees (L key left right : Nat) (view : Nat → Option Nat) : Prop where
  hl : left ≤ L / 2
  hr : right ≤ L / 2
  wall : ∀ k, k < L → (view k = none ↔ k < L / 2 - left ∨ L - (L / 2 - right) ≤ k)
  cell : ∀ k, k < L → cellOf key k = rawBits (view k)
  small : ∀ k v, k < L → view k = some v → v < 3

theorem digit_rawBits (o : Option Nat) (h : ∀ v, o = some v → v < 3) :
    digitOf (rawBits o) = o.getD 0 := by
  cases o with
  | none => rfl
  | some v =>
      have := h v rfl
      match v, this with
      | 0, _ => rfl
      | 1, _ => rfl
      | 2, _ => rfl

theorem rawBits_inj (o o' : Option Nat) (h : ∀ v, o = some v → v < 3) (h' : ∀ v, o' = some v → v < 3)
    (e : rawBits o = rawBits o') : o = o' := by
  cases o with
  | none =>
      cases o' with
      | none => rfl
      | some v =>
          have := h' v rfl
          match v, this with
          | 0, _ => simp [rawBits] at e
          | 1, _ => simp [rawBits] at e
          | 2, _ => simp [rawBits] at e
  | some w =>
      have hw := h w rfl
      cases o' with
      | none =>
          match w, hw with
          | 0, _ => simp [rawBits] at e
          | 1, _ => simp [rawBits] at e
          | 2, _ => simp [rawBits] at e
      | some v =>
          have := h' v rfl
          match v, this, w, hw with
          | 0, _, 0, _ => rfl
          | 0, _, 1, _ => simp [rawBits] at e
          | 0, _, 2, _ => simp [rawBits] at e
          | 1, _, 0, _ => simp [rawBits] at e
          | 1, _, 1, _ => rfl
          | 1, _, 2, _ => simp [rawBits] at e
          | 2, _, 0, _ => simp [rawBits] at e
          | 2, _, 1, _ => simp [rawBits] at e
          | 2, _, 2, _ => rfl

theorem cellBits_lt (p q : Bool) : cellBits p q < 4 := by
  unfold cellBits; split_ifs <;> omega

theorem rawBits_stone (v : Nat) : rawBits (some (stoneOf v)) = cellBits (v = 1) (v = 2) := by
  unfold stoneOf cellBits
  by_cases h1 : v = 1
  · simp [h1, rawBits]
  · by_cases h2 : v = 2
    · simp [h2, rawBits]
    · simp [h1, h2, rawBits]

theorem rawBits_board (p q : Bool) :
    rawBits (some (if p then 1 else if q then 2 else 0)) = cellBits p q := by
  cases p <;> cases q <;> rfl

/-! ### Lines -/

theorem lineKey_eq (line : List Nat) (l : List Nat) (key : Nat) (arr : Nat → Nat) (h : arr 0 = key) :
    l.foldl (fun key x =>
      key ||| shl (cellBits (line.getD x 0 = 1) (line.getD x 0 = 2)) (2 * x)) key
    = orCells (fun _ => 0) (fun x => x)
        (fun x => cellBits (line.getD x 0 = 1) (line.getD x 0 = 2)) arr l 0 := by
  induction l generalizing key arr with
  | nil => exact h.symm
  | cons a l ih =>
      simp only [List.foldl_cons]
      rw [ih _ (orAt arr 0 (shl (cellBits (line.getD a 0 = 1) (line.getD a 0 = 2)) (2 * a)))
        (by simp [orAt, h])]
      rfl

theorem lineKey_lt (line : List Nat) : lineKey line < 2 ^ 64 := by
  unfold lineKey
  rw [lineKey_eq line _ 0 (fun _ => 0) rfl]
  exact orCells_lt _ _ _ _ _ (fun _ => by positivity) _

theorem lineKey_cell (line : List Nat) (hn : line.length ≤ 32) (p : Nat) :
    cellOf (lineKey line) p = if p < line.length then rawBits (some (stoneOf (line.getD p 0)))
      else 0 := by
  unfold lineKey
  rw [lineKey_eq line _ 0 (fun _ => 0) rfl]
  by_cases hp : p < line.length
  · rw [if_pos hp, rawBits_stone]
    apply orCells_hit (fun _ => 0) (fun x => x)
      (fun x => cellBits (line.getD x 0 = 1) (line.getD x 0 = 2)) _ p (List.mem_range.2 hp)
    · intro a _; exact cellBits_lt _ _
    · intro a ha; have := List.mem_range.1 ha; omega
    · intro b _ _ h; rw [h]
  · rw [if_neg hp]
    apply orCells_miss
    · intro a _; exact cellBits_lt _ _
    · intro a ha; have := List.mem_range.1 ha; omega
    · intro a ha _; have := List.mem_range.1 ha; omega

theorem stoneOf_lt (v : Nat) : stoneOf v < 3 := by unfold stoneOf; split_ifs <;> omega

/-- The rotated key of a line represents the window around `x`. -/
theorem sees_line (L : Nat) (hL : L % 2 = 1) (hL32 : L ≤ 17) (line : List Nat) (x : Nat)
    (hx : x < line.length) (hn : line.length ≤ 32 - L / 2) :
    Sees L (rotateRight (lineKey line) (2 * ((x : Int) - (L / 2 : Nat))))
      (min (L / 2) x) (min (L / 2) (line.length - 1 - x)) ((Spot.line line x).view L) := by
  constructor
  · omega
  · omega
  · intro k hk
    simp only [Spot.view, lineAt]
    constructor
    · intro h
      split_ifs at h with hc
      omega
    · intro h
      rw [if_neg (by omega)]
  · intro k hk
    rw [cellOf_rotate _ _ _ (lineKey_lt line) (by omega), lineKey_cell line (by omega)]
    simp only [Spot.view, lineAt]
    by_cases hc : 0 ≤ (x : Int) + ((k : Int) - (L / 2 : Nat))
        ∧ (x : Int) + ((k : Int) - (L / 2 : Nat)) < line.length
    · rw [if_pos hc, if_pos (by omega)]
      have : (((k : Int) + ((x : Int) - (L / 2 : Nat))) % 32).toNat
          = ((x : Int) + ((k : Int) - (L / 2 : Nat))).toNat := by omega
      rw [this]
    · rw [if_neg hc, if_neg (by omega)]
      rfl
  · intro k v _ h
    simp only [Spot.view, lineAt] at h
    split_ifs at h
    simp only [Option.some.injEq] at h
    rw [← h]; exact stoneOf_lt _

/-! ### Boards -/

/-- Bits of a board cell. -/
def bitsAt (b : Board) (p : Nat × Nat) : Nat := cellBits (b.self p.1 p.2) (b.oppo p.1 p.2)

theorem boardKeys_fold (b : Board) (l : List (Nat × Nat)) (k : Keys) :
    l.foldl (setBitKey b) k =
      { k0 := orCells (fun p => p.1) (fun p => p.2) (bitsAt b) k.k0 l
        k1 := orCells (fun p => p.2) (fun p => p.1) (bitsAt b) k.k1 l
        k2 := orCells (fun p => p.2 + p.1) (fun p => p.2) (bitsAt b) k.k2 l
        k3 := orCells (fun p => 32 - 1 - p.2 + p.1) (fun p => p.2) (bitsAt b) k.k3 l } := by
  induction l generalizing k with
  | nil => rfl
  | cons a l ih => rw [List.foldl_cons, ih]; rfl

theorem mem_boardCells (b : Board) (p : Nat × Nat) :
    p ∈ boardCells b ↔ p.1 < b.H ∧ p.2 < b.W := by
  obtain ⟨y, x⟩ := p
  simp [boardCells]

/-- Reading cell `p` of a key array filled from the board. -/
theorem boardCell_read (b : Board) (hH : b.H ≤ 32) (hW : b.W ≤ 32) (idx pos : Nat × Nat → Nat)
    (hpos : ∀ q ∈ boardCells b, pos q < 32)
    (hinj : ∀ q ∈ boardCells b, ∀ r ∈ boardCells b, idx q = idx r → pos q = pos r → q = r)
    (i p : Nat) (Y X : Int)
    (hin : 0 ≤ Y ∧ Y < b.H ∧ 0 ≤ X ∧ X < b.W → idx (Y.toNat, X.toNat) = i ∧ pos (Y.toNat, X.toNat) = p)
    (hout : ¬(0 ≤ Y ∧ Y < b.H ∧ 0 ≤ X ∧ X < b.W) → ∀ q ∈ boardCells b, idx q = i → pos q ≠ p) :
    cellOf (orCells idx pos (bitsAt b) (fun _ => 0) (boardCells b) i) p = rawBits (boardAt b Y X) := by
  unfold boardAt
  by_cases h : 0 ≤ Y ∧ Y < b.H ∧ 0 ≤ X ∧ X < b.W
  · rw [if_pos h, rawBits_board]
    obtain ⟨h1, h2⟩ := hin h
    have hm : (Y.toNat, X.toNat) ∈ boardCells b := by
      rw [mem_boardCells]; constructor <;> simp only <;> omega
    rw [← h1, ← h2]
    apply orCells_hit idx pos (bitsAt b) _ _ hm
    · intro a _; exact cellBits_lt _ _
    · exact hpos
    · intro q hq e1 e2
      rw [hinj q hq _ hm e1 e2]
  · rw [if_neg h]
    apply orCells_miss
    · intro a _; exact cellBits_lt _ _
    · exact hpos
    · exact hout h

theorem windowKey_cell (L : Nat) (hL : L % 2 = 1) (hL17 : L ≤ 17) (b : Board) (d y x : Nat) (hd : d < 4)
    (hy : y < b.H) (hx : x < b.W) (hH : b.H ≤ 32 - L / 2) (hW : b.W ≤ 32 - L / 2) (k : Nat) (hk : k < L) :
    cellOf (windowKey (L / 2) (boardKeys b) d y x) k = rawBits ((Spot.board b d y x).view L k) := by
  have hz : ∀ (idx pos : Nat × Nat → Nat) (i : Nat),
      orCells idx pos (bitsAt b) (fun _ => 0) (boardCells b) i < 2 ^ 64 :=
    fun idx pos i => orCells_lt _ _ _ _ _ (fun _ => by positivity) _
  unfold boardKeys
  rw [boardKeys_fold]
  match d, hd with
  | 0, _ =>
      simp only [windowKey, Spot.view, direction]
      rw [cellOf_rotate _ _ _ (hz _ _ _) (by omega)]
      apply boardCell_read b (by omega) (by omega)
      · intro q hq; rw [mem_boardCells] at hq; omega
      · intro q _ r _ h1 h2; exact Prod.ext h1 h2
      · intro h; simp only; omega
      · intro h q hq h1; rw [mem_boardCells] at hq; omega
  | 1, _ =>
      simp only [windowKey, Spot.view, direction]
      rw [cellOf_rotate _ _ _ (hz _ _ _) (by omega)]
      apply boardCell_read b (by omega) (by omega)
      · intro q hq; rw [mem_boardCells] at hq; omega
      · intro q _ r _ h1 h2; exact Prod.ext h2 h1
      · intro h; simp only; omega
      · intro h q hq h1; rw [mem_boardCells] at hq; omega
  | 2, _ =>
      simp only [windowKey, Spot.view, direction]
      rw [cellOf_rotate _ _ _ (hz _ _ _) (by omega)]
      apply boardCell_read b (by omega) (by omega)
      · intro q hq; rw [mem_boardCells] at hq; omega
      · intro q _ r _ h1 h2; exact Prod.ext (by omega) h2
      · intro h; simp only; omega
      · intro h q hq h1; rw [mem_boardCells] at hq; omega
  | 3, _ =>
      simp only [windowKey, Spot.view, direction]
      rw [cellOf_rotate _ _ _ (hz _ _ _) (by omega)]
      apply boardCell_read b (by omega) (by omega)
      · intro q hq; rw [mem_boardCells] at hq; omega
      · intro q hq r hr h1 h2
        rw [mem_boardCells] at hq hr
        exact Prod.ext (by omega) h2
      · intro h; simp only; omega
      · intro h q hq h1; rw [mem_boardCells] at hq; omega

/-- The rotated board key represents the window around a cell in a direction. -/
theorem sees_board (L : Nat) (hL : L % 2 = 1) (hL17 : L ≤ 17) (b : Board) (d y x : Nat) (hd : d < 4)
    (hy : y < b.H) (hx : x < b.W) (hH : b.H ≤ 32 - L / 2) (hW : b.W ≤ 32 - L / 2) :
    Sees L (windowKey (L / 2) (boardKeys b) d y x) (leftDist (L / 2) b d y x)
      (rightDist (L / 2) b d y x) ((Spot.board b d y x).view L) := by
  constructor
  · unfold leftDist; split <;> omega
  · unfold rightDist; split <;> omega
  · intro k hk
    match d, hd with
    | 0, _ =>
        simp only [Spot.view, direction, leftDist, rightDist, boardAt]
        constructor
        · intro h; split_ifs at h with hc; omega
        · intro h; rw [if_neg (by omega)]
    | 1, _ =>
        simp only [Spot.view, direction, leftDist, rightDist, boardAt]
        constructor
        · intro h; split_ifs at h with hc; omega
        · intro h; rw [if_neg (by omega)]
    | 2, _ =>
        simp only [Spot.view, direction, leftDist, rightDist, boardAt]
        constructor
        · intro h; split_ifs at h with hc; omega
        · intro h; rw [if_neg (by omega)]
    | 3, _ =>
        simp only [Spot.view, direction, leftDist, rightDist, boardAt]
        constructor
        · intro h; split_ifs at h with hc; omega
        · intro h; rw [if_neg (by omega)]
  · intro k hk
    exact windowKey_cell L hL hL17 b d y x hd hy hx hH hW k hk
  · intro k v _ h
    simp only [Spot.view, boardAt] at h
    split_ifs at h <;> simp only [Option.some.injEq] at h <;> omega

end Verif.LineEnc
