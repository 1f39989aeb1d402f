import Verif.Forbid.Spec
import Mathlib.Data.Finset.Prod
import Mathlib.Data.Finset.Card
import Mathlib.Tactic.Ring
import Mathlib.Tactic.Linarith

/-! The array search computes the rule on the plane. -/
namespace Verif.Forbid

/-- Plane direction of index `k`. -/
def dirOf : Nat → Pt
  | 0 => (0, 1)
  | 1 => (1, -1)
  | 2 => (1, 0)
  | _ => (1, 1)

theorem dirs_eq : dirs = [dirOf 0, dirOf 1, dirOf 2, dirOf 3] := rfl

/-- The plane seen through the array. -/
def gridOf (b : Cells) : Grid := fun p =>
  if -5 ≤ p.1 ∧ p.1 < 27 ∧ -5 ≤ p.2 ∧ p.2 < 27 then b (makePos p.1 p.2).toNat else .wall

theorem makePos_go (p : Pt) (k : Nat) (i : Int) :
    makePos (go p (dirOf k) i).1 (go p (dirOf k) i).2 = makePos p.1 p.2 + direction k * i := by
  unfold makePos go dirOf direction
  split <;> simp only <;> omega

theorem makePos_back (p : Pt) (k : Nat) (i : Int) :
    makePos (go p (dirOf k) (-i)).1 (go p (dirOf k) (-i)).2 = makePos p.1 p.2 + -direction k * i := by
  rw [makePos_go]; ring

theorem read_grid (b : Cells) (q : Pt) (h : -5 ≤ q.1 ∧ q.1 < 27 ∧ -5 ≤ q.2 ∧ q.2 < 27) :
    read b (makePos q.1 q.2) = some (gridOf b q) := by
  unfold read gridOf
  rw [if_pos h, if_pos]
  unfold makePos; omega

/-- Coordinates of a near point. -/
theorem near (W H : Nat) (hW : W ≤ 22) (hH : H ≤ 22) (p : Pt) (hp : OnBoard W H p) (k : Nat) (i : Int)
    (h1 : -5 ≤ i) (h2 : i ≤ 5) :
    -5 ≤ (go p (dirOf k) i).1 ∧ (go p (dirOf k) i).1 < 27
      ∧ -5 ≤ (go p (dirOf k) i).2 ∧ (go p (dirOf k) i).2 < 27 := by
  unfold OnBoard at hp
  unfold go dirOf
  split <;> simp only <;> omega

theorem onBoard_sq (W H : Nat) (hW : W ≤ 22) (hH : H ≤ 22) (p : Pt) (hp : OnBoard W H p) :
    -5 ≤ p.1 ∧ p.1 < 27 ∧ -5 ≤ p.2 ∧ p.2 < 27 := by
  unfold OnBoard at hp; omega

/-- Context: a board array of the given size. -/
structure Ctx (W H : Nat) (b : Cells) : Prop where
  hW : W ≤ 22
  hH : H ≤ 22
  board : IsBoard W H (gridOf b)

theorem Ctx.onBoard {W H : Nat} {b : Cells} (c : Ctx W H b) {p : Pt} (h : gridOf b p ≠ .wall) :
    OnBoard W H p := by
  by_contra hn
  exact h ((c.board p).2 hn)

theorem Ctx.read_on {W H : Nat} {b : Cells} (c : Ctx W H b) {p : Pt} (h : OnBoard W H p) :
    read b (makePos p.1 p.2) = some (gridOf b p) :=
  read_grid b p (onBoard_sq W H c.hW c.hH p h)

theorem Ctx.read_fwd {W H : Nat} {b : Cells} (c : Ctx W H b) {p : Pt} (h : OnBoard W H p) (k i : Nat)
    (hi : i ≤ 5) :
    read b (makePos p.1 p.2 + direction k * (i : Int)) = some (gridOf b (go p (dirOf k) i)) := by
  rw [← makePos_go]
  exact read_grid b _ (near W H c.hW c.hH p h k i (by omega) (by omega))

theorem Ctx.read_bwd {W H : Nat} {b : Cells} (c : Ctx W H b) {p : Pt} (h : OnBoard W H p) (k i : Nat)
    (hi : i ≤ 5) :
    read b (makePos p.1 p.2 + -direction k * (i : Int)) = some (gridOf b (go p (dirOf k) (-i))) := by
  rw [← makePos_back]
  exact read_grid b _ (near W H c.hW c.hH p h k (-i) (by omega) (by omega))

/-! ### Rows -/

theorem dir_ne (k : Nat) : dirOf k ≠ (0, 0) := by
  unfold dirOf; split <;> decide

theorem go_ne (p : Pt) (k : Nat) (i : Int) (hi : i ≠ 0) : go p (dirOf k) i ≠ p := by
  intro h
  have h1 := congrArg Prod.fst h
  have h2 := congrArg Prod.snd h
  unfold go dirOf at h1 h2
  revert h1 h2
  split <;> simp only <;> omega

theorem far_off (W H : Nat) (p : Pt) (hp : OnBoard W H p) (k : Nat) (i : Int)
    (hi : (W : Int) + H ≤ i ∨ i ≤ -((W : Int) + H)) : ¬OnBoard W H (go p (dirOf k) i) := by
  unfold OnBoard at hp ⊢
  unfold go dirOf
  split <;> simp only <;> omega

/-- First non-black point along a ray. -/
theorem ray (f : Nat → Color) (N : Nat) (h : f (N + 1) ≠ .black) :
    ∃ a : Nat, (∀ i : Nat, 1 ≤ i → i ≤ a → f i = .black) ∧ f (a + 1) ≠ .black := by
  induction N with
  | zero => exact ⟨0, fun i h1 h2 => by omega, h⟩
  | succ N ih =>
      by_cases hb : f (N + 1) ≠ .black
      · exact ih hb
      · push_neg at hb
        by_cases hall : ∀ i : Nat, 1 ≤ i → i ≤ N + 1 → f i = .black
        · exact ⟨N + 1, hall, h⟩
        · push_neg at hall
          obtain ⟨i, h1, h2, h3⟩ := hall
          -- strong induction through the least index
          have : ∀ m : Nat, ∀ i : Nat, i ≤ m → 1 ≤ i → f i ≠ .black →
              ∃ a : Nat, (∀ j : Nat, 1 ≤ j → j ≤ a → f j = .black) ∧ f (a + 1) ≠ .black := by
            intro m
            induction m with
            | zero => intro i h1 h2; omega
            | succ m ihm =>
                intro i hi h1 h3
                by_cases hex : ∃ j : Nat, j < i ∧ 1 ≤ j ∧ f j ≠ .black
                · obtain ⟨j, hj1, hj2, hj3⟩ := hex
                  exact ihm j (by omega) hj2 hj3
                · push_neg at hex
                  exact ⟨i - 1, fun j hj1 hj2 => hex j (by omega) hj1, by
                    have : i - 1 + 1 = i := by omega
                    rwa [this]⟩
          exact this i i (le_refl _) h1 h3

theorem row_exists (W H : Nat) (g : Grid) (hg : IsBoard W H g) (p : Pt) (hp : OnBoard W H p) (k : Nat) :
    ∃ a b, Row g p (dirOf k) a b := by
  obtain ⟨a, ha⟩ := ray (fun i => g (go p (dirOf k) (-(i : Int)))) (W + H) (by
    have : g (go p (dirOf k) (-((W + H + 1 : Nat) : Int))) = .wall :=
      (hg _).2 (far_off W H p hp k _ (by right; push_cast; omega))
    simp only [this]; decide)
  obtain ⟨b, hb⟩ := ray (fun i => g (go p (dirOf k) (i : Int))) (W + H) (by
    have : g (go p (dirOf k) ((W + H + 1 : Nat) : Int)) = .wall :=
      (hg _).2 (far_off W H p hp k _ (by left; push_cast; omega))
    simp only [this]; decide)
  exact ⟨a, b, ha, hb⟩

theorem row_unique (g : Grid) (p d : Pt) (a b a' b' : Nat) (h : Row g p d a b) (h' : Row g p d a' b') :
    a = a' ∧ b = b' := by
  have key : ∀ (f : Nat → Color) (a a' : Nat), (∀ i : Nat, 1 ≤ i → i ≤ a → f i = .black) →
      f (a' + 1) ≠ .black → a ≤ a' := by
    intro f a a' h1 h2
    by_contra hlt
    exact h2 (h1 (a' + 1) (by omega) (by omega))
  refine ⟨?_, ?_⟩
  · exact Nat.le_antisymm (key (fun i => g (go p d (-(i : Int)))) a a' h.1.1 h'.1.2)
      (key (fun i => g (go p d (-(i : Int)))) a' a h'.1.1 h.1.2)
  · exact Nat.le_antisymm (key (fun i => g (go p d (i : Int))) b b' h.2.1 h'.2.2)
      (key (fun i => g (go p d (i : Int))) b' b h'.2.1 h.2.2)

theorem place_ne (g : Grid) (p q : Pt) (h : q ≠ p) : place g p q = g q := by
  unfold place; rw [if_neg h]

theorem place_self (g : Grid) (p : Pt) : place g p p = .black := by simp [place]

theorem row_place (g : Grid) (p : Pt) (k a b : Nat) (h : Row g p (dirOf k) a b) :
    Row (place g p) p (dirOf k) a b := by
  refine ⟨⟨?_, ?_⟩, ?_, ?_⟩
  · intro i h1 h2
    rw [place_ne _ _ _ (go_ne p k _ (by omega))]
    exact h.1.1 i h1 h2
  · rw [place_ne _ _ _ (go_ne p k _ (by omega))]
    exact h.1.2
  · intro i h1 h2
    rw [place_ne _ _ _ (go_ne p k _ (by omega))]
    exact h.2.1 i h1 h2
  · rw [place_ne _ _ _ (go_ne p k _ (by omega))]
    exact h.2.2

/-! ### Counting loops -/

theorem countRun_eq (b : Cells) (pos dir : Int) (f : Nat → Color) (a : Nat) (n i : Nat)
    (hr : ∀ m : Nat, i ≤ m → m < i + n → read b (pos + dir * (m : Int)) = some (f m))
    (h1 : ∀ m : Nat, i ≤ m → m ≤ a → f m = .black) (h2 : f (a + 1) ≠ .black) (hi : i ≤ a + 1) :
    countRun b pos dir .black n i = some (min (a + 1) (i + n)) := by
  induction n generalizing i with
  | zero => unfold countRun; congr 1; omega
  | succ n ih =>
      unfold countRun
      rw [hr i (le_refl _) (by omega)]
      simp only [Option.bind_eq_bind, Option.bind_some]
      by_cases h : i ≤ a
      · rw [if_pos (h1 i (le_refl _) h), ih (i + 1) (fun m h3 h4 => hr m (by omega) (by omega))
          (fun m h3 h4 => h1 m (by omega) h4) (by omega)]
        congr 1; omega
      · have : i = a + 1 := by omega
        subst this
        rw [if_neg h2]
        congr 1; omega

theorem countBoth_eq {W H : Nat} {b : Cells} (c : Ctx W H b) {p : Pt} (hp : OnBoard W H p) (k a e : Nat)
    (h : Row (gridOf b) p (dirOf k) a e) :
    countBoth b (makePos p.1 p.2) .black (direction k) = some (min (a + e + 1) 6) := by
  unfold countBoth
  rw [countRun_eq b _ _ (fun i => gridOf b (go p (dirOf k) (-(i : Int)))) a 5 1
    (fun m h1 h2 => c.read_bwd hp k m (by omega)) (fun m h1 h2 => h.1.1 m h1 h2) h.1.2 (by omega)]
  simp only [Option.bind_eq_bind, Option.bind_some]
  rw [countRun_eq b _ _ (fun i => gridOf b (go p (dirOf k) (i : Int))) e _ 1
    (fun m h1 h2 => c.read_fwd hp k m (by omega)) (fun m h1 h2 => h.2.1 m h1 h2) h.2.2 (by omega)]
  simp only [Option.bind_some]
  congr 1; omega

/-- A computed answer: no undefined behaviour, the board unchanged, and the truth value. -/
def Answers (r : Option (Bool × Cells)) (b : Cells) (P : Prop) : Prop :=
  ∃ v, r = some (v, b) ∧ (v = true ↔ P)

/-- A read-only computed answer. -/
def Says (r : Option Bool) (P : Prop) : Prop := ∃ v, r = some v ∧ (v = true ↔ P)

theorem fiveIn_iff (g : Grid) (p d : Pt) (a b : Nat) (h : Row g p d a b) :
    FiveIn g p d ↔ a + b + 1 = 5 := by
  constructor
  · rintro ⟨a', b', h', e⟩
    obtain ⟨rfl, rfl⟩ := row_unique g p d a b a' b' h h'
    exact e
  · intro e; exact ⟨a, b, h, e⟩

theorem isFiveDir_says {W H : Nat} {b : Cells} (c : Ctx W H b) {p : Pt} (hp : OnBoard W H p) (k : Nat) :
    Says (isFiveDir b (makePos p.1 p.2) .black k) (gridOf b p = .empty ∧ FiveIn (gridOf b) p (dirOf k)) := by
  unfold isFiveDir
  rw [c.read_on hp]
  simp only [Option.bind_eq_bind, Option.bind_some]
  obtain ⟨a, e, h⟩ := row_exists W H _ c.board p hp k
  by_cases he : gridOf b p = .empty
  · rw [if_neg (by simpa using he), countBoth_eq c hp k a e h]
    simp only [Option.bind_some]
    refine ⟨_, rfl, ?_⟩
    rw [fiveIn_iff _ _ _ _ _ h]
    simp only [he, true_and, beq_iff_eq]
    omega
  · rw [if_pos (by simpa using he)]
    exact ⟨false, rfl, by simp [he]⟩

theorem anyDir_says (test : Nat → Option Bool) (P : Nat → Prop) (l : List Nat)
    (h : ∀ d ∈ l, Says (test d) (P d)) : Says (anyDir test l) (∃ d ∈ l, P d) := by
  induction l with
  | nil => exact ⟨false, rfl, by simp⟩
  | cons d l ih =>
      unfold anyDir
      obtain ⟨v, hv, hP⟩ := h d (by simp)
      obtain ⟨w, hw, hQ⟩ := ih (fun x hx => h x (by simp [hx]))
      rw [hv]
      simp only [Option.bind_eq_bind, Option.bind_some]
      cases v with
      | true => exact ⟨true, by simp, by simp; left; exact hP.1 rfl⟩
      | false =>
          refine ⟨w, by simpa using hw, ?_⟩
          rw [hQ]
          have : ¬P d := fun hp => by simpa using hP.2 hp
          simp [this]

theorem dirs_exists (Q : Pt → Prop) : (∃ d ∈ [0, 1, 2, 3], Q (dirOf d)) ↔ ∃ d ∈ dirs, Q d := by
  rw [dirs_eq]; simp

theorem isFive_says {W H : Nat} {b : Cells} (c : Ctx W H b) {p : Pt} (hp : OnBoard W H p) :
    Says (isFive b (makePos p.1 p.2) .black) (gridOf b p = .empty ∧ Five (gridOf b) p) := by
  unfold isFive
  rw [c.read_on hp]
  simp only [Option.bind_eq_bind, Option.bind_some]
  by_cases he : gridOf b p = .empty
  · rw [if_neg (by simpa using he)]
    obtain ⟨v, hv, hP⟩ := anyDir_says _ _ [0, 1, 2, 3] (fun d _ => isFiveDir_says c hp d)
    refine ⟨v, hv, hP.trans ?_⟩
    unfold Five
    rw [← dirs_exists (fun d => FiveIn (gridOf b) p d)]
    simp [he]
  · rw [if_pos (by simpa using he)]
    exact ⟨false, rfl, by simp [he]⟩

theorem isOverline_says {W H : Nat} {b : Cells} (c : Ctx W H b) {p : Pt} (hp : OnBoard W H p) :
    Says (isOverline b (makePos p.1 p.2) .black) (gridOf b p = .empty ∧ Over (gridOf b) p) := by
  unfold isOverline
  rw [c.read_on hp]
  simp only [Option.bind_eq_bind, Option.bind_some]
  by_cases he : gridOf b p = .empty
  · rw [if_neg (by simpa using he)]
    obtain ⟨v, hv, hP⟩ := anyDir_says (fun iDir => do
        let count ← countBoth b (makePos p.1 p.2) .black (direction iDir)
        some (decide (count > 5)))
      (fun k => ∃ a e, Row (gridOf b) p (dirOf k) a e ∧ 6 ≤ a + e + 1) [0, 1, 2, 3] (fun d _ => by
        obtain ⟨a, e, h⟩ := row_exists W H _ c.board p hp d
        rw [countBoth_eq c hp d a e h]
        refine ⟨_, rfl, ?_⟩
        simp only [decide_eq_true_eq]
        constructor
        · intro h6; exact ⟨a, e, h, by omega⟩
        · rintro ⟨a', e', h', h6⟩
          obtain ⟨rfl, rfl⟩ := row_unique _ _ _ _ _ _ _ h h'
          omega)
    refine ⟨v, hv, hP.trans ?_⟩
    unfold Over
    rw [← dirs_exists (fun d => ∃ a e, Row (gridOf b) p d a e ∧ 6 ≤ a + e + 1)]
    simp [he]
  · rw [if_pos (by simpa using he)]
    exact ⟨false, rfl, by simp [he]⟩

theorem shapeGuard_says {W H : Nat} {b : Cells} (c : Ctx W H b) {p : Pt} (hp : OnBoard W H p) :
    Says (shapeGuard b (makePos p.1 p.2) .black) (Shape (gridOf b) p) := by
  unfold shapeGuard Shape
  rw [c.read_on hp]
  simp only [Option.bind_eq_bind, Option.bind_some]
  by_cases he : gridOf b p = .empty
  · rw [if_neg (by simpa using he)]
    obtain ⟨v, hv, hP⟩ := isFive_says c hp
    obtain ⟨w, hw, hQ⟩ := isOverline_says c hp
    rw [hv, hw]
    simp only [Option.bind_some, he, true_and] at hP hQ ⊢
    cases v with
    | true => exact ⟨false, by simp, by simp; intro h; exact absurd (hP.1 rfl) h⟩
    | false =>
        have h5 : ¬Five (gridOf b) p := fun h => by simpa using hP.2 h
        cases w with
        | true => exact ⟨false, by simp, by simp [h5]; exact hQ.1 rfl⟩
        | false =>
            have h6 : ¬Over (gridOf b) p := fun h => by simpa using hQ.2 h
            exact ⟨true, by simp, by simp [h5, h6]⟩
  · rw [if_pos (by simpa using he)]
    exact ⟨false, rfl, by simp [he]⟩

/-! ### Placing and taking back -/

theorem makePos_inj (q p : Pt) (hq : -5 ≤ q.1 ∧ q.1 < 27 ∧ -5 ≤ q.2 ∧ q.2 < 27)
    (hp : -5 ≤ p.1 ∧ p.1 < 27 ∧ -5 ≤ p.2 ∧ p.2 < 27)
    (h : (makePos q.1 q.2).toNat = (makePos p.1 p.2).toNat) : q = p := by
  unfold makePos at h
  apply Prod.ext <;> omega

/-- The array after writing one cell. -/
def upd (b : Cells) (p : Pt) (v : Color) : Cells := fun i => if i = (makePos p.1 p.2).toNat then v else b i

theorem set_eq {W H : Nat} {b : Cells} (c : Ctx W H b) {p : Pt} (hp : OnBoard W H p) (v : Color) :
    set b (makePos p.1 p.2) v = some (upd b p v) := by
  unfold set
  rw [c.read_on hp]
  simp only [Option.bind_eq_bind, Option.bind_some]
  rw [if_neg (fun h => (c.board p).1 h hp)]
  rfl

theorem gridOf_upd (b : Cells) (p q : Pt) (v : Color) (hp : -5 ≤ p.1 ∧ p.1 < 27 ∧ -5 ≤ p.2 ∧ p.2 < 27) :
    gridOf (upd b p v) q = if q = p then v else gridOf b q := by
  unfold gridOf upd
  by_cases hq : -5 ≤ q.1 ∧ q.1 < 27 ∧ -5 ≤ q.2 ∧ q.2 < 27
  · rw [if_pos hq, if_pos hq]
    by_cases h : q = p
    · subst h; simp
    · rw [if_neg h, if_neg (fun h' => h (makePos_inj q p hq hp h'))]
  · rw [if_neg hq, if_neg hq]
    by_cases h : q = p
    · subst h; exact absurd hp hq
    · rw [if_neg h]

theorem Ctx.upd {W H : Nat} {b : Cells} (c : Ctx W H b) {p : Pt} (hp : OnBoard W H p) (v : Color)
    (hv : v ≠ .wall) : Ctx W H (upd b p v) := by
  refine ⟨c.hW, c.hH, ?_⟩
  intro q
  rw [gridOf_upd b p q v (onBoard_sq W H c.hW c.hH p hp)]
  by_cases h : q = p
  · rw [if_pos h, h]
    simp [hv, hp]
  · rw [if_neg h]; exact c.board q

theorem upd_place {W H : Nat} {b : Cells} (c : Ctx W H b) {p : Pt} (hp : OnBoard W H p) :
    gridOf (Forbid.upd b p .black) = place (gridOf b) p := by
  funext q
  rw [gridOf_upd b p q _ (onBoard_sq W H c.hW c.hH p hp)]
  rfl

theorem upd_back {W H : Nat} {b : Cells} (c : Ctx W H b) {p : Pt} (hp : OnBoard W H p)
    (he : gridOf b p = .empty) : Forbid.upd (Forbid.upd b p .black) p .empty = b := by
  funext i
  unfold Forbid.upd
  by_cases h : i = (makePos p.1 p.2).toNat
  · rw [if_pos h]
    unfold gridOf at he
    rw [if_pos (onBoard_sq W H c.hW c.hH p hp)] at he
    rw [h, he]
  · rw [if_neg h, if_neg h]

/-! ### Scanning loops -/

theorem scan_eq (pos dir : Int) (test : Test) (b : Cells) (f : Nat → Color) (a n i : Nat) (P : Prop)
    (hr : ∀ m : Nat, i ≤ m → m < i + n → read b (pos + dir * (m : Int)) = some (f m))
    (h1 : ∀ m : Nat, i ≤ m → m ≤ a → f m = .black) (h2 : f (a + 1) ≠ .black) (hi : i ≤ a + 1)
    (hn : a + 1 < i + n)
    (ht : f (a + 1) = .empty → Answers (test b (pos + dir * ((a + 1 : Nat) : Int))) b P) :
    ∃ v, scan pos dir .black test b n i = some ((a + 1, v), b) ∧ (v = true ↔ f (a + 1) = .empty ∧ P) := by
  induction n generalizing i with
  | zero => omega
  | succ n ih =>
      unfold scan
      rw [hr i (le_refl _) (by omega)]
      simp only [Option.bind_eq_bind, Option.bind_some]
      by_cases h : i ≤ a
      · rw [if_pos (h1 i (le_refl _) h)]
        exact ih (i + 1) (fun m h3 h4 => hr m (by omega) (by omega))
          (fun m h3 h4 => h1 m (by omega) h4) (by omega) (by omega)
      · have hia : i = a + 1 := by omega
        subst hia
        rw [if_neg h2]
        by_cases he : f (a + 1) = .empty
        · rw [if_pos he]
          obtain ⟨v, hv, hP⟩ := ht he
          rw [hv]
          exact ⟨v, rfl, by rw [hP]; simp [he]⟩
        · rw [if_neg he]
          exact ⟨false, rfl, by simp [he]⟩

/-- A test that answers `P` on every empty point of the board with the stone placed. -/
def TestOk (test : Test) (b : Cells) (P : Pt → Prop) : Prop :=
  ∀ e, gridOf b e = .empty → Answers (test b (makePos e.1 e.2)) b (P e)

theorem probe_eq {W H : Nat} {b : Cells} (c : Ctx W H b) {p : Pt} (hp : OnBoard W H p)
    (he : gridOf b p = .empty) (k a e : Nat) (hrow : Row (gridOf b) p (dirOf k) a e)
    (hlen : a + e + 1 ≤ 4) (test : Test) (P : Pt → Prop)
    (ht : TestOk test (upd b p .black) P) (again : Bool → Bool) :
    ∃ v w, probe b (makePos p.1 p.2) .black k test again
        = some ((a + 1, v), (if again v then (e + 1, w) else (1, false)), b)
      ∧ (v = true ↔ gridOf b (go p (dirOf k) (-(a + 1 : Nat))) = .empty
          ∧ P (go p (dirOf k) (-(a + 1 : Nat))))
      ∧ (w = true ↔ gridOf b (go p (dirOf k) (e + 1 : Nat)) = .empty
          ∧ P (go p (dirOf k) (e + 1 : Nat))) := by
  have c1 := c.upd hp .black (by decide)
  have hr1 : Row (gridOf (upd b p .black)) p (dirOf k) a e := by
    rw [upd_place c hp]; exact row_place _ _ _ _ _ hrow
  have g1 : gridOf (upd b p .black) (go p (dirOf k) (-(a + 1 : Nat)))
      = gridOf b (go p (dirOf k) (-(a + 1 : Nat))) := by
    rw [upd_place c hp]; exact place_ne _ _ _ (go_ne p k _ (by omega))
  have g2 : gridOf (upd b p .black) (go p (dirOf k) (e + 1 : Nat))
      = gridOf b (go p (dirOf k) (e + 1 : Nat)) := by
    rw [upd_place c hp]; exact place_ne _ _ _ (go_ne p k _ (by omega))
  obtain ⟨v, hv, hvP⟩ := scan_eq (makePos p.1 p.2) (-direction k) test (upd b p .black)
    (fun i => gridOf (upd b p .black) (go p (dirOf k) (-(i : Int)))) a 4 1
    (P (go p (dirOf k) (-(a + 1 : Nat))))
    (fun m h1 h2 => c1.read_bwd hp k m (by omega)) (fun m h1 h2 => hr1.1.1 m h1 h2) hr1.1.2 (by omega)
    (by omega) (fun h => by rw [← makePos_back]; exact ht _ h)
  obtain ⟨w, hw, hwP⟩ := scan_eq (makePos p.1 p.2) (direction k) test (upd b p .black)
    (fun i => gridOf (upd b p .black) (go p (dirOf k) (i : Int))) e (5 - (a + 1)) 1
    (P (go p (dirOf k) (e + 1 : Nat)))
    (fun m h1 h2 => c1.read_fwd hp k m (by omega)) (fun m h1 h2 => hr1.2.1 m h1 h2) hr1.2.2 (by omega)
    (by omega) (fun h => by rw [← makePos_go]; exact ht _ h)
  refine ⟨v, w, ?_, ?_, ?_⟩
  · unfold probe
    rw [set_eq c hp]
    simp only [Option.bind_eq_bind, Option.bind_some, hv]
    by_cases hag : again v = true
    · simp only [hag, if_true, hw, Option.bind_some, set_eq c1 hp, upd_back c hp he]
    · simp only [hag, Bool.false_eq_true, if_false, Option.bind_some, set_eq c1 hp, upd_back c hp he]
  · rw [hvP]; simp only [g1]
  · rw [hwP]; simp only [g2]

/-- Under the guard the row is short. -/
theorem shape_len {g : Grid} {p : Pt} (h : Shape g p) (k : Nat) (hk : k < 4) (a e : Nat)
    (hr : Row g p (dirOf k) a e) : a + e + 1 ≤ 4 := by
  have hd : dirOf k ∈ dirs := by
    match k, hk with
    | 0, _ => simp [dirs_eq]
    | 1, _ => simp [dirs_eq]
    | 2, _ => simp [dirs_eq]
    | 3, _ => simp [dirs_eq]
  by_contra hlt
  by_cases h5 : a + e + 1 = 5
  · exact h.2.1 ⟨_, hd, a, e, hr, h5⟩
  · exact h.2.2 ⟨_, hd, a, e, hr, by omega⟩

theorem pureTest_ok {W H : Nat} {b : Cells} (c : Ctx W H b) {p : Pt} (hp : OnBoard W H p) (k : Nat) :
    TestOk (pureTest fun b q => isFiveDir b q .black k) (upd b p .black)
      (fun e => FiveIn (place (gridOf b) p) e (dirOf k)) := by
  intro e he
  have c1 := c.upd hp .black (by decide)
  have hon : OnBoard W H e := c1.onBoard (by rw [he]; decide)
  obtain ⟨v, hv, hP⟩ := isFiveDir_says c1 hon k
  refine ⟨v, ?_, ?_⟩
  · simp only [pureTest, hv, Option.map_some]
  · rw [hP, upd_place c hp]
    rw [upd_place c hp] at he
    simp [he]

theorem isFour_answers {W H : Nat} {b : Cells} (c : Ctx W H b) {p : Pt} (hp : OnBoard W H p) (k : Nat)
    (hk : k < 4) : Answers (isFour b (makePos p.1 p.2) .black k) b (Four (gridOf b) p (dirOf k)) := by
  unfold isFour
  obtain ⟨v, hv, hP⟩ := shapeGuard_says c hp
  rw [hv]
  simp only [Option.bind_eq_bind, Option.bind_some]
  cases v with
  | false =>
      refine ⟨false, by simp, ?_⟩
      have : ¬Shape (gridOf b) p := fun h => by simpa using hP.2 h
      simp [Four, this]
  | true =>
      have hs := hP.1 rfl
      obtain ⟨a, e, hr⟩ := row_exists W H _ c.board p hp k
      obtain ⟨v, w, h, h1, h2⟩ := probe_eq c hp hs.1 k a e hr (shape_len hs k hk a e hr) _ _
        (pureTest_ok c hp k) (!·)
      rw [h]
      refine ⟨_, by simp; rfl, ?_⟩
      have hF : Four (gridOf b) p (dirOf k) ↔ v = true ∨ w = true := by
        rw [h1, h2]
        constructor
        · rintro ⟨-, a', e', hr', h'⟩
          obtain ⟨rfl, rfl⟩ := row_unique _ _ _ _ _ _ _ hr hr'
          exact h'
        · intro h'; exact ⟨hs, a, e, hr, h'⟩
      rw [hF]
      cases v <;> cases w <;> simp

theorem isOpenFour_answers {W H : Nat} {b : Cells} (c : Ctx W H b) {p : Pt} (hp : OnBoard W H p)
    (k : Nat) (hk : k < 4) :
    ∃ o, isOpenFour b (makePos p.1 p.2) .black k = some (o, b)
      ∧ (o = .true ↔ StraightFour (gridOf b) p (dirOf k))
      ∧ (o = .long ↔ LineDoubleFour (gridOf b) p (dirOf k)) := by
  unfold isOpenFour
  obtain ⟨v, hv, hP⟩ := shapeGuard_says c hp
  rw [hv]
  simp only [Option.bind_eq_bind, Option.bind_some]
  cases v with
  | false =>
      have : ¬Shape (gridOf b) p := fun h => by simpa using hP.2 h
      exact ⟨.none, by simp, by simp [StraightFour, this], by simp [LineDoubleFour, this]⟩
  | true =>
      have hs := hP.1 rfl
      obtain ⟨a, e, hr⟩ := row_exists W H _ c.board p hp k
      obtain ⟨v, w, h, h1, h2⟩ := probe_eq c hp hs.1 k a e hr (shape_len hs k hk a e hr) _ _
        (pureTest_ok c hp k) id
      rw [h]
      have hT : ∀ m, TwoWays (gridOf b) p (dirOf k) m ↔ (v = true ∧ w = true) ∧ a + e + 1 = m := by
        intro m
        rw [h1, h2]
        constructor
        · rintro ⟨a', e', hr', hm, h', h''⟩
          obtain ⟨rfl, rfl⟩ := row_unique _ _ _ _ _ _ _ hr hr'
          exact ⟨⟨h', h''⟩, hm⟩
        · rintro ⟨⟨h', h''⟩, hm⟩; exact ⟨a, e, hr, hm, h', h''⟩
      refine ⟨if v = true ∧ w = true then (if a + e + 1 = 4 then .true else .long) else .none,
        ?_, ?_, ?_⟩
      · simp only [Option.bind_some]
        congr 2
        have hc : 1 + a + e = a + e + 1 := by omega
        cases v <;> cases w <;> simp [hc]
      · simp only [StraightFour, hs, true_and, hT]
        by_cases hvw : v = true ∧ w = true
        · rw [if_pos hvw]
          by_cases h4 : a + e + 1 = 4
          · rw [if_pos h4]; simp [hvw, h4]
          · rw [if_neg h4]; simp [h4]
        · rw [if_neg hvw]; simp [hvw]
      · simp only [LineDoubleFour, hs, true_and, hT]
        by_cases hvw : v = true ∧ w = true
        · rw [if_pos hvw]
          by_cases h4 : a + e + 1 = 4
          · rw [if_pos h4]; simp [hvw, h4]
          · rw [if_neg h4]; simp [hvw, h4]
        · rw [if_neg hvw]; simp [hvw]

end Verif.Forbid
