import Verif.Forbid.Lemmas

/-! Double fours, double threes and termination. -/
namespace Verif.Forbid

/-- Truth value of a proposition. -/
noncomputable def tv (P : Prop) : Bool := @decide P (Classical.propDecidable P)

theorem tv_iff (P : Prop) : tv P = true ↔ P := by
  unfold tv; exact @decide_eq_true_iff P (Classical.propDecidable P)

theorem answers_tv {r : Option (Bool × Cells)} {b : Cells} {P : Prop} (h : Answers r b P) :
    r = some (tv P, b) := by
  obtain ⟨v, hv, hP⟩ := h
  rw [hv]
  have : v = tv P := by
    rw [Bool.eq_iff_iff, hP, tv_iff]
  rw [this]

/-- Contribution of one direction to `nFour`. -/
def weight (long four : Bool) : Nat := if long then 2 else if four then 1 else 0

theorem fourLoop_eq (pos : Int) (b : Cells) (o : Nat → OpenFour) (f : Nat → Bool) (l : List Nat)
    (h1 : ∀ d ∈ l, isOpenFour b pos .black d = some (o d, b))
    (h2 : ∀ d ∈ l, isFour b pos .black d = some (f d, b)) (n : Nat) (hn : n < 2) :
    fourLoop pos .black l n b
      = some (decide (2 ≤ n + (l.map fun d => weight (o d = .long) (f d)).sum), b) := by
  induction l generalizing n with
  | nil =>
      unfold fourLoop
      simp only [List.map_nil, List.sum_nil, Nat.add_zero]
      have : ¬2 ≤ n := by omega
      simp [this]
  | cons d l ih =>
      unfold fourLoop
      rw [h1 d (by simp)]
      simp only [Option.bind_eq_bind, Option.bind_some]
      have ih' := ih (fun x hx => h1 x (by simp [hx])) (fun x hx => h2 x (by simp [hx]))
      simp only [List.map_cons, List.sum_cons]
      by_cases hl : o d = .long
      · simp only [hl, if_true, Option.bind_some]
        rw [if_pos (by omega)]
        have : 2 ≤ n + (weight true (f d) + (l.map fun d => weight (o d = .long) (f d)).sum) := by
          simp only [weight, if_true]; omega
        simp [weight]; omega
      · simp only [hl, if_false, h2 d (by simp), Option.bind_some]
        cases hf : f d with
        | true =>
            simp only [if_true, weight, decide_false, Bool.false_eq_true, if_false]
            by_cases h2' : n + 1 ≥ 2
            · rw [if_pos h2']
              have : 2 ≤ n + (1 + (l.map fun d => weight (o d = .long) (f d)).sum) := by omega
              congr 2
              exact (decide_eq_true this).symm
            · rw [if_neg h2', ih' (n + 1) (by omega)]
              congr 2
              simp only [decide_eq_decide]
              rw [Nat.add_assoc]
              rfl
        | false =>
            simp only [Bool.false_eq_true, if_false, weight, decide_false]
            rw [if_neg (by omega), ih' n hn]
            congr 2
            simp only [decide_eq_decide, Nat.zero_add]
            rfl

/-- Two different directions, through the counters. -/
theorem two_dirs (Q : Pt → Prop) :
    (∃ d ∈ dirs, ∃ d' ∈ dirs, d ≠ d' ∧ Q d ∧ Q d') ↔
      2 ≤ ([0, 1, 2, 3].map fun k => if tv (Q (dirOf k)) then 1 else 0).sum := by
  have e01 : dirOf 0 ≠ dirOf 1 := by decide
  have e02 : dirOf 0 ≠ dirOf 2 := by decide
  have e03 : dirOf 0 ≠ dirOf 3 := by decide
  have e12 : dirOf 1 ≠ dirOf 2 := by decide
  have e13 : dirOf 1 ≠ dirOf 3 := by decide
  have e23 : dirOf 2 ≠ dirOf 3 := by decide
  have h0 := tv_iff (Q (dirOf 0))
  have h1 := tv_iff (Q (dirOf 1))
  have h2 := tv_iff (Q (dirOf 2))
  have h3 := tv_iff (Q (dirOf 3))
  rw [dirs_eq]
  simp only [List.mem_cons, List.not_mem_nil, or_false, List.map_cons, List.map_nil, List.sum_cons,
    List.sum_nil, exists_eq_or_imp, exists_eq_left]
  generalize tv (Q (dirOf 0)) = q0 at h0 ⊢
  generalize tv (Q (dirOf 1)) = q1 at h1 ⊢
  generalize tv (Q (dirOf 2)) = q2 at h2 ⊢
  generalize tv (Q (dirOf 3)) = q3 at h3 ⊢
  simp only [← h0, ← h1, ← h2, ← h3]
  cases q0 <;> cases q1 <;> cases q2 <;> cases q3 <;>
    simp [e01, e02, e03, e12, e13, e23]

theorem weight_sum (l f : Nat → Bool) :
    2 ≤ ([0, 1, 2, 3].map fun k => weight (l k) (f k)).sum ↔
      (∃ k ∈ [0, 1, 2, 3], l k = true)
        ∨ 2 ≤ ([0, 1, 2, 3].map fun k => if f k then 1 else 0).sum := by
  simp only [List.map_cons, List.map_nil, List.sum_cons, List.sum_nil, List.mem_cons,
    List.not_mem_nil, or_false, exists_eq_or_imp, exists_eq_left]
  generalize l 0 = l0
  generalize l 1 = l1
  generalize l 2 = l2
  generalize l 3 = l3
  generalize f 0 = f0
  generalize f 1 = f1
  generalize f 2 = f2
  generalize f 3 = f3
  revert l0 l1 l2 l3 f0 f1 f2 f3
  decide

theorem isDoubleFour_answers {W H : Nat} {b : Cells} (c : Ctx W H b) {p : Pt} (hp : OnBoard W H p) :
    Answers (isDoubleFour b (makePos p.1 p.2) .black) b (DoubleFour (gridOf b) p) := by
  unfold isDoubleFour DoubleFour
  rw [c.read_on hp]
  simp only [Option.bind_eq_bind, Option.bind_some]
  by_cases he : gridOf b p = .empty
  · rw [if_neg (by simpa using he)]
    obtain ⟨v, hv, hP⟩ := isFive_says c hp
    rw [hv]
    simp only [Option.bind_some, he, true_and] at hP ⊢
    cases v with
    | true => exact ⟨false, by simp, by simp; intro h; exact absurd (hP.1 rfl) h⟩
    | false =>
        have h5 : ¬Five (gridOf b) p := fun h => by simpa using hP.2 h
        have hlt : ∀ d ∈ [0, 1, 2, 3], d < 4 := by decide
        have ho : ∀ d, ∃ o, d < 4 → isOpenFour b (makePos p.1 p.2) .black d = some (o, b)
            ∧ (o = .long ↔ LineDoubleFour (gridOf b) p (dirOf d)) := by
          intro d
          by_cases hd : d < 4
          · obtain ⟨o, h1, -, h3⟩ := isOpenFour_answers c hp d hd
            exact ⟨o, fun _ => ⟨h1, h3⟩⟩
          · exact ⟨.none, fun h => absurd h hd⟩
        choose o ho using ho
        have := fourLoop_eq (makePos p.1 p.2) b o (fun d => tv (Four (gridOf b) p (dirOf d)))
          [0, 1, 2, 3] (fun d hd => (ho d (hlt d hd)).1)
          (fun d hd => answers_tv (isFour_answers c hp d (hlt d hd))) 0 (by omega)
        refine ⟨_, by simp only [Bool.false_eq_true, if_false]; exact this, ?_⟩
        rw [Nat.zero_add, decide_eq_true_eq, weight_sum, ← two_dirs]
        simp only [h5, not_false_eq_true, true_and]
        rw [← dirs_exists (fun d => LineDoubleFour (gridOf b) p d)]
        have : (∃ k ∈ [0, 1, 2, 3], decide (o k = .long) = true)
            ↔ ∃ d ∈ [0, 1, 2, 3], LineDoubleFour (gridOf b) p (dirOf d) := by
          constructor
          · rintro ⟨k, hk, h⟩
            exact ⟨k, hk, (ho k (hlt k hk)).2.1 (by simpa using h)⟩
          · rintro ⟨k, hk, h⟩
            exact ⟨k, hk, by simpa using (ho k (hlt k hk)).2.2 h⟩
        rw [this]
  · rw [if_pos (by simpa using he)]
    exact ⟨false, rfl, by simp [he]⟩

/-! ### Number of empty points -/

open Classical in
/-- Empty points of a board of the given size. -/
noncomputable def empties (W H : Nat) (g : Grid) : Nat :=
  (((Finset.range W) ×ˢ (Finset.range H)).filter
    (fun q : Nat × Nat => g ((q.1 : Int), (q.2 : Int)) = .empty)).card

theorem empties_le (W H : Nat) (g : Grid) : empties W H g ≤ W * H := by
  unfold empties
  refine le_trans (Finset.card_filter_le _ _) ?_
  simp

theorem empties_place (W H : Nat) (g : Grid) (p : Pt) (hp : OnBoard W H p) (he : g p = .empty) :
    empties W H (place g p) < empties W H g := by
  unfold empties
  apply Finset.card_lt_card
  unfold OnBoard at hp
  have hpe : (((p.1.toNat : Nat) : Int), ((p.2.toNat : Nat) : Int)) = p := by
    apply Prod.ext <;> simp only <;> omega
  rw [Finset.ssubset_iff_of_subset]
  · refine ⟨(p.1.toNat, p.2.toNat), ?_, ?_⟩
    · simp only [Finset.mem_filter, Finset.mem_product, Finset.mem_range]
      refine ⟨⟨by omega, by omega⟩, ?_⟩
      rw [hpe]; exact he
    · simp only [Finset.mem_filter, Finset.mem_product, Finset.mem_range, not_and]
      intro _
      rw [hpe, place_self]
      decide
  · intro q hq
    simp only [Finset.mem_filter, Finset.mem_product, Finset.mem_range] at hq ⊢
    refine ⟨hq.1, ?_⟩
    have h := hq.2
    unfold place at h
    split_ifs at h
    exact h

theorem isBoard_place (W H : Nat) (g : Grid) (hg : IsBoard W H g) (p : Pt) (hp : OnBoard W H p) :
    IsBoard W H (place g p) := by
  intro q
  unfold place
  by_cases h : q = p
  · rw [if_pos h, h]; simp [hp]
  · rw [if_neg h]; exact hg q

/-! ### Double three -/

theorem openThree_congr (D D' : Grid → Pt → Prop) (g : Grid) (p d : Pt)
    (h : ∀ e, D (place g p) e ↔ D' (place g p) e) : OpenThree D g p d ↔ OpenThree D' g p d := by
  unfold OpenThree
  simp only [h]

theorem rule_congr (D D' : Grid → Pt → Prop) (g : Grid) (p : Pt)
    (h : g p = .empty → ∀ e, D (place g p) e ↔ D' (place g p) e) :
    DoubleThreeRule D g p ↔ DoubleThreeRule D' g p := by
  unfold DoubleThreeRule
  by_cases he : g p = .empty
  · simp only [openThree_congr D D' g p _ (h he)]
  · simp [he]

/-- The rule unrolled `n` times. -/
def unroll : Nat → Grid → Pt → Prop
  | 0 => fun _ _ => False
  | n + 1 => DoubleThreeRule (unroll n)

theorem unroll_stable (W H : Nat) (n m : Nat) (g : Grid) (hg : IsBoard W H g)
    (hn : empties W H g < n) (hm : empties W H g < m) (p : Pt) : unroll n g p ↔ unroll m g p := by
  induction n generalizing m g p with
  | zero => omega
  | succ n ih =>
      cases m with
      | zero => omega
      | succ m =>
          apply rule_congr
          intro he e
          have hp : OnBoard W H p := by
            by_contra h
            rw [(hg p).2 h] at he
            exact absurd he (by decide)
          have := empties_place W H g p hp he
          exact ih m _ (isBoard_place W H g hg p hp) (by omega) (by omega) e

/-- There is a reading of the double-three rule. -/
theorem reading_exists (W H : Nat) : ∃ D, Reading W H D := by
  refine ⟨unroll (W * H + 1), ?_⟩
  intro g hg p
  show DoubleThreeRule (unroll (W * H)) g p ↔ _
  apply rule_congr
  intro he e
  have hp : OnBoard W H p := by
    by_contra h
    rw [(hg p).2 h] at he
    exact absurd he (by decide)
  have h1 := empties_place W H g p hp he
  have h2 := empties_le W H g
  exact unroll_stable W H _ _ _ (isBoard_place W H g hg p hp) (by omega) (by omega) e

/-- And only one. -/
theorem reading_unique (W H : Nat) (D D' : Grid → Pt → Prop) (hD : Reading W H D) (hD' : Reading W H D')
    (g : Grid) (hg : IsBoard W H g) (p : Pt) : D g p ↔ D' g p := by
  have key : ∀ n, ∀ g, empties W H g < n → IsBoard W H g → ∀ p, D g p ↔ D' g p := by
    intro n
    induction n with
    | zero => intro g h; omega
    | succ n ih =>
        intro g hn hg p
        rw [hD g hg p, hD' g hg p]
        apply rule_congr
        intro he e
        have hp : OnBoard W H p := by
          by_contra h
          rw [(hg p).2 h] at he
          exact absurd he (by decide)
        have := empties_place W H g p hp he
        exact ih _ (by omega) (isBoard_place W H g hg p hp) e
  exact key _ g (Nat.lt_succ_self _) hg p

theorem threeTest_ok {W H : Nat} {b : Cells} (c : Ctx W H b) {p : Pt} (hp : OnBoard W H p) (k : Nat)
    (hk : k < 4) (dt : Test) (D : Grid → Pt → Prop)
    (hdt : ∀ e, OnBoard W H e → Answers (dt (upd b p .black) (makePos e.1 e.2)) (upd b p .black)
      (D (place (gridOf b) p) e)) :
    TestOk (threeTest .black k dt) (upd b p .black) (fun e => StraightFour (place (gridOf b) p) e (dirOf k)
      ∧ ¬DoubleFour (place (gridOf b) p) e ∧ ¬D (place (gridOf b) p) e) := by
  intro e he
  have c1 := c.upd hp .black (by decide)
  have hon : OnBoard W H e := c1.onBoard (by rw [he]; decide)
  obtain ⟨o, ho, hs, -⟩ := isOpenFour_answers c1 hon k hk
  obtain ⟨f, hf, hF⟩ := isDoubleFour_answers c1 hon
  obtain ⟨t, ht, hT⟩ := hdt e hon
  rw [upd_place c hp] at hs hF
  unfold threeTest
  simp only [ho, Option.bind_eq_bind, Option.bind_some]
  by_cases h1 : o = .true
  · rw [if_neg (by simpa using h1), hf]
    simp only [Option.bind_some]
    cases f with
    | true => exact ⟨false, by simp, by simp; intro _ h; exact absurd (hF.1 rfl) h⟩
    | false =>
        have hnf : ¬DoubleFour (place (gridOf b) p) e := fun h => by simpa using hF.2 h
        simp only [Bool.false_eq_true, if_false, ht, Option.bind_some]
        refine ⟨!t, rfl, ?_⟩
        rw [← hs, ← hT]
        cases t <;> simp [h1, hnf]
  · rw [if_pos (by simpa using h1)]
    exact ⟨false, rfl, by rw [← hs]; simp [h1]⟩

theorem isOpenThree_answers {W H : Nat} {b : Cells} (c : Ctx W H b) {p : Pt} (hp : OnBoard W H p) (k : Nat)
    (hk : k < 4) (dt : Test) (D : Grid → Pt → Prop)
    (hdt : gridOf b p = .empty → ∀ e, OnBoard W H e → Answers (dt (upd b p .black) (makePos e.1 e.2))
      (upd b p .black) (D (place (gridOf b) p) e)) :
    Answers (isOpenThree dt b (makePos p.1 p.2) .black k) b (OpenThree D (gridOf b) p (dirOf k)) := by
  unfold isOpenThree
  obtain ⟨v, hv, hP⟩ := shapeGuard_says c hp
  rw [hv]
  simp only [Option.bind_eq_bind, Option.bind_some]
  cases v with
  | false =>
      refine ⟨false, by simp, ?_⟩
      have : ¬Shape (gridOf b) p := fun h => by simpa using hP.2 h
      simp [OpenThree, this]
  | true =>
      have hs := hP.1 rfl
      obtain ⟨a, e, hr⟩ := row_exists W H _ c.board p hp k
      obtain ⟨v, w, h, h1, h2⟩ := probe_eq c hp hs.1 k a e hr (shape_len hs k hk a e hr) _ _
        (threeTest_ok c hp k hk dt D (hdt hs.1)) (!·)
      rw [h]
      refine ⟨_, by simp; rfl, ?_⟩
      have hF : OpenThree D (gridOf b) p (dirOf k) ↔ v = true ∨ w = true := by
        rw [h1, h2]
        constructor
        · rintro ⟨-, a', e', hr', q, hq, h'⟩
          obtain ⟨rfl, rfl⟩ := row_unique _ _ _ _ _ _ _ hr hr'
          rcases hq with rfl | rfl
          · exact Or.inl h'
          · exact Or.inr h'
        · rintro (h' | h')
          · exact ⟨hs, a, e, hr, _, Or.inl rfl, h'⟩
          · exact ⟨hs, a, e, hr, _, Or.inr rfl, h'⟩
      rw [hF]
      cases v <;> cases w <;> simp

theorem threeLoop_eq (dt : Test) (pos : Int) (b : Cells) (f : Nat → Bool) (l : List Nat)
    (h : ∀ d ∈ l, isOpenThree dt b pos .black d = some (f d, b)) (n : Nat) (hn : n < 2) :
    threeLoop dt pos .black l n b
      = some (decide (2 ≤ n + (l.map fun d => if f d then 1 else 0).sum), b) := by
  induction l generalizing n with
  | nil =>
      unfold threeLoop
      simp only [List.map_nil, List.sum_nil, Nat.add_zero]
      have : ¬2 ≤ n := by omega
      simp [this]
  | cons d l ih =>
      unfold threeLoop
      rw [h d (by simp)]
      simp only [Option.bind_eq_bind, Option.bind_some]
      have ih' := ih (fun x hx => h x (by simp [hx]))
      simp only [List.map_cons, List.sum_cons]
      cases hf : f d with
      | true =>
          simp only [if_true]
          by_cases h2' : n + 1 ≥ 2
          · rw [if_pos h2']
            congr 2
            exact (decide_eq_true (by omega)).symm
          · rw [if_neg h2', ih' (n + 1) (by omega)]
            congr 2
            simp only [decide_eq_decide]
            rw [Nat.add_assoc]
      | false =>
          simp only [Bool.false_eq_true, if_false]
          rw [if_neg (by omega), ih' n hn]
          congr 2
          simp only [decide_eq_decide, Nat.zero_add]

theorem isDoubleThree_answers {W H : Nat} (D : Grid → Pt → Prop) (hD : Reading W H D) (fuel : Nat)
    {b : Cells} (c : Ctx W H b) (hf : empties W H (gridOf b) < fuel) {p : Pt} (hp : OnBoard W H p) :
    Answers (isDoubleThree .black fuel b (makePos p.1 p.2)) b (D (gridOf b) p) := by
  induction fuel generalizing b p with
  | zero => omega
  | succ fuel ih =>
      unfold isDoubleThree
      rw [hD _ c.board p, c.read_on hp]
      simp only [Option.bind_eq_bind, Option.bind_some]
      unfold DoubleThreeRule
      by_cases he : gridOf b p = .empty
      · rw [if_neg (by simpa using he)]
        obtain ⟨v, hv, hP⟩ := isFive_says c hp
        rw [hv]
        simp only [Option.bind_some, he, true_and] at hP ⊢
        cases v with
        | true => exact ⟨false, by simp, by simp; intro h; exact absurd (hP.1 rfl) h⟩
        | false =>
            have h5 : ¬Five (gridOf b) p := fun h => by simpa using hP.2 h
            have hlt : ∀ d ∈ [0, 1, 2, 3], d < 4 := by decide
            have c1 := c.upd hp .black (by decide)
            have hdt : ∀ e, OnBoard W H e → Answers (isDoubleThree .black fuel (upd b p .black)
                (makePos e.1 e.2)) (upd b p .black) (D (place (gridOf b) p) e) := by
              intro e hon
              rw [← upd_place c hp]
              apply ih c1 _ hon
              rw [upd_place c hp]
              have := empties_place W H _ p hp he
              omega
            have := threeLoop_eq (isDoubleThree .black fuel) (makePos p.1 p.2) b
              (fun d => tv (OpenThree D (gridOf b) p (dirOf d))) [0, 1, 2, 3]
              (fun d hd => answers_tv (isOpenThree_answers c hp d (hlt d hd) _ D (fun _ => hdt))) 0
              (by omega)
            refine ⟨_, by simp only [Bool.false_eq_true, if_false]; exact this, ?_⟩
            rw [Nat.zero_add, decide_eq_true_eq, ← two_dirs]
            simp only [h5, not_false_eq_true, true_and]
      · rw [if_pos (by simpa using he)]
        exact ⟨false, rfl, by simp [he]⟩

end Verif.Forbid
