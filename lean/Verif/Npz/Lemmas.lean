import Verif.Npz.Model
import Verif.Rng.Props

/-! # Lemmas about the NPZ cursor loops -/
namespace Verif.Npz
open Verif.Rng (Val Digest deterministicPermutation)

/-- The rows `≥ row` of a file with `count` rows that satisfy `P`, ascending. -/
def fr (P : Nat → Bool) (row count : Nat) : List Nat := (List.range' row (count - row)).filter P

theorem fr_nil {P : Nat → Bool} {row count : Nat} (h : count ≤ row) : fr P row count = [] := by
  simp [fr, Nat.sub_eq_zero_of_le h]

theorem fr_cons {P : Nat → Bool} {row count : Nat} (h : row < count) :
    fr P row count = (if P row then [row] else []) ++ fr P (row + 1) count := by
  have : count - row = (count - (row + 1)) + 1 := by omega
  rw [fr, this, List.range'_succ, List.filter_cons]
  by_cases hp : P row <;> simp [hp, fr]

theorem fr_skip {P : Nat → Bool} {count : Nat} : ∀ (d row : Nat),
    (∀ j, row ≤ j → j < row + d → j < count → P j = false) → fr P row count = fr P (row + d) count
  | 0, _, _ => rfl
  | d + 1, row, h => by
    by_cases hc : row < count
    · rw [fr_cons hc, h row (by omega) (by omega) hc]
      simp only [Bool.false_eq_true, if_false, List.nil_append]
      rw [fr_skip d (row + 1) (fun j h1 h2 h3 => h j (by omega) (by omega) h3)]
      congr 1; omega
    · rw [fr_nil (by omega), fr_nil (by omega)]

/-- Whether the row is on the cursor's rank. -/
def inRank (S : Src) (rank : Nat) (f : File) (row : Nat) : Bool :=
  !S.sharded || (f.begin + row) % S.world == rank

/-- The test for a row being delivered. -/
def deliver (S : Src) (c : Cursor) (f : File) (row : Nat) : Bool :=
  inRank S c.rank f row && admitted S c.epoch c.cycle f row

/-- The (file, row) pairs still to deliver from the remaining files, starting at `row` of the first. -/
def remList (S : Src) (c : Cursor) : List Nat → Nat → List (Nat × Nat)
  | [], _ => []
  | i :: rest, row => (fr (deliver S c (S.file i)) row (S.file i).count).map (i, ·) ++ remList S c rest 0

theorem remList_pos (S : Src) (c : Cursor) (fp row : Nat) (l : List Nat) (r : Nat) :
    remList S { c with fp := fp, row := row } l r = remList S c l r := by
  induction l generalizing r with
  | nil => rfl
  | cons i l ih => simp only [remList, ih]; rfl

theorem nextLoop_pos (S : Src) (c : Cursor) (fp row : Nat) : ∀ (fuel a b k : Nat),
    nextLoop S { c with fp := fp, row := row } fuel a b k = nextLoop S c fuel a b k
  | 0, _, _, _ => rfl
  | fuel + 1, a, b, k => by simp only [nextLoop, nextLoop_pos S c fp row fuel]

/-- Loop measure. -/
def mu (S : Src) : List Nat → Nat → Nat
  | [], _ => 0
  | i :: rest, row => ((S.file i).count - row) + 1 + fuelFor S rest

theorem mu_le_fuelFor (S : Src) (l : List Nat) (row : Nat) : mu S l row ≤ fuelFor S l := by
  cases l with
  | nil => simp [mu]
  | cons i rest => simp [mu, fuelFor]

theorem mu_zero (S : Src) (l : List Nat) : mu S l 0 = fuelFor S l := by
  cases l with
  | nil => simp [mu, fuelFor]
  | cons i rest => simp [mu, fuelFor]

theorem fuelFor_drop (S : Src) (l : List Nat) (k : Nat) : fuelFor S (l.drop k) ≤ fuelFor S l := by
  induction k generalizing l with
  | zero => simp
  | succ k ih =>
    cases l with
    | nil => simp
    | cons a l => simp only [List.drop_succ_cons]; exact (ih l).trans (by simp [fuelFor])

/-- The envelope of a (file, row) pair. -/
def envOf (S : Src) (c : Cursor) (p : Nat × Nat) : Env := mkEnv (S.file p.1) p.2 c.cycle

/-- What cursors satisfy with respect to the distribution settings. -/
def RankOk (S : Src) (rank : Nat) : Prop := S.sharded = true → rank < S.world

theorem align_ge (S : Src) (r : Nat) (f : File) (row : Nat) : row ≤ align S r f row := by
  unfold align; split <;> omega

/-- Elements strictly between two members of one residue class are not members. -/
theorem not_mod_between {w x y r : Nat} (hx : x % w = r) (h1 : x < y) (h2 : y < x + w) : y % w ≠ r := by
  intro hy
  have e : x % w = y % w := by omega
  have ex := Nat.div_add_mod x w
  have ey := Nat.div_add_mod y w
  obtain ⟨k, hk⟩ : ∃ k, y - x = w * k := ⟨y / w - x / w, by rw [Nat.mul_sub]; omega⟩
  rcases Nat.eq_zero_or_pos k with h | h
  · subst h; omega
  · have : w * 1 ≤ w * k := Nat.mul_le_mul_left _ h
    omega

theorem align_spec {S : Src} {r : Nat} {f : File} {row : Nat} (hs : S.sharded = true) (hr : r < S.world)
    (hlt : row < f.count) :
    (f.begin + align S r f row) % S.world = r ∧
      ∀ j, row ≤ j → j < align S r f row → (f.begin + j) % S.world ≠ r := by
  have hw : 0 < S.world := by omega
  unfold align
  rw [if_pos ⟨hs, hlt⟩]
  set g := f.begin + row with hg
  set w := S.world
  have hd0 : 0 ≤ ((r : Int) - (g : Int)) % (w : Int) := Int.emod_nonneg _ (by omega)
  have hd1 : ((r : Int) - (g : Int)) % (w : Int) < w := Int.emod_lt_of_pos _ (by omega)
  obtain ⟨d, hd⟩ : ∃ d : Nat, ((r : Int) - (g : Int)) % (w : Int) = d := ⟨_, (Int.toNat_of_nonneg hd0).symm⟩
  rw [hd]
  simp only [Int.toNat_natCast]
  have hdw : d < w := by omega
  have hsum : (g + d) % w = r := by
    have h1 : (((g + d : Nat) : Int)) % (w : Int) = (r : Int) := by
      push_cast
      rw [← hd, Int.add_emod_emod]
      have : (g : Int) + ((r : Int) - g) = r := by ring
      rw [this, Int.emod_eq_of_lt (by omega) (by omega)]
    exact_mod_cast h1
  refine ⟨by rw [← hsum]; congr 1; omega, ?_⟩
  intro j hj1 hj2 hc
  exact not_mod_between (w := w) hc (y := g + d) (by omega) (by omega) hsum

theorem fr_align {S : Src} {c : Cursor} {f : File} {row : Nat} (hr : RankOk S c.rank) :
    fr (deliver S c f) row f.count = fr (deliver S c f) (align S c.rank f row) f.count := by
  by_cases hs : S.sharded = true
  · by_cases hlt : row < f.count
    · have hsp := (align_spec hs (hr hs) hlt).2
      have hge := align_ge S c.rank f row
      obtain ⟨d, hd⟩ : ∃ d, align S c.rank f row = row + d := ⟨_, (Nat.add_sub_cancel' hge).symm⟩
      rw [hd] at hsp ⊢
      apply fr_skip
      intro j h1 h2 _
      have := hsp j h1 h2
      simp [deliver, inRank, hs, this]
    · rw [align, if_neg (by tauto)]
  · rw [align, if_neg (by tauto)]

/-- The step used by the loop. -/
def stride (S : Src) : Nat := if S.sharded then S.world else 1

theorem fr_stride {S : Src} {c : Cursor} {f : File} {row : Nat} (hr : RankOk S c.rank)
    (hin : align S c.rank f row < f.count) :
    fr (deliver S c f) (align S c.rank f row) f.count =
      (if admitted S c.epoch c.cycle f (align S c.rank f row) then [align S c.rank f row] else []) ++
        fr (deliver S c f) (align S c.rank f row + stride S) f.count := by
  have hlt : row < f.count := lt_of_le_of_lt (align_ge _ _ _ _) hin
  rw [fr_cons hin]
  by_cases hs : S.sharded = true
  · have h1 := (align_spec hs (hr hs) hlt).1
    have hw : 0 < S.world := by have := hr hs; omega
    congr 1
    · simp [deliver, inRank, h1]
    · have : stride S = (S.world - 1) + 1 := by simp [stride, hs]; omega
      rw [this, ← Nat.add_assoc, Nat.add_right_comm]
      apply fr_skip
      intro j hj1 hj2 _
      have := not_mod_between (w := S.world) h1 (y := f.begin + j) (by omega) (by omega)
      simp [deliver, inRank, hs, this]
  · congr 1
    · simp [deliver, inRank, hs]
    · simp [stride, hs]

theorem stride_pos {S : Src} {r : Nat} (hr : RankOk S r) : 0 < stride S := by
  unfold stride; split
  · rename_i h; have := hr h; omega
  · omega

theorem drop_cons {l : List Nat} {fp : Nat} (h : fp < l.length) :
    l.drop fp = l.getD fp 0 :: l.drop (fp + 1) := by
  rw [List.drop_eq_getElem_cons h]; simp [h]

/-- What the main loop does: it delivers the first `need` remaining rows and leaves the others. -/
theorem nextLoop_spec (S : Src) (c : Cursor) (hr : RankOk S c.rank) : ∀ (fuel fp row need : Nat),
    mu S (c.order.drop fp) row ≤ fuel →
    (nextLoop S c fuel fp row need).1 = ((remList S c (c.order.drop fp) row).take need).map (envOf S c) ∧
    remList S c (c.order.drop (nextLoop S c fuel fp row need).2.1) (nextLoop S c fuel fp row need).2.2 =
      (remList S c (c.order.drop fp) row).drop need ∧
    (fp ≤ c.order.length → (nextLoop S c fuel fp row need).2.1 ≤ c.order.length)
  | 0, fp, row, need, hm => by
    have : c.order.drop fp = [] := by
      cases h : c.order.drop fp with
      | nil => rfl
      | cons => rw [h] at hm; simp [mu] at hm
    simp [nextLoop, this, remList]
  | fuel + 1, fp, row, need, hm => by
    unfold nextLoop
    by_cases h0 : need = 0 ∨ c.order.length ≤ fp
    · rw [if_pos h0]
      rcases h0 with h0 | h0
      · simp [h0]
      · simp [List.drop_eq_nil_of_le h0, remList]
    · rw [if_neg h0]
      push Not at h0
      obtain ⟨hn, hfp⟩ := h0
      set i := c.order.getD fp 0
      have hd : c.order.drop fp = i :: c.order.drop (fp + 1) := drop_cons hfp
      simp only
      set f := S.file i
      set a := align S c.rank f row
      have hrem : remList S c (c.order.drop fp) row = remList S c (c.order.drop fp) a := by
        rw [hd]; simp only [remList]; rw [fr_align hr]
      have hge : row ≤ a := align_ge _ _ _ _
      rw [hd] at hm
      simp only [mu] at hm
      change f.count - row + 1 + _ ≤ _ at hm
      by_cases hcnt : f.count ≤ a
      · rw [if_pos hcnt]
        have ih := nextLoop_spec S c hr fuel (fp + 1) 0 need (by rw [mu_zero]; omega)
        have e : remList S c (c.order.drop fp) row = remList S c (c.order.drop (fp + 1)) 0 := by
          rw [hrem, hd]; simp only [remList]; rw [fr_nil hcnt]; simp
        rw [e]
        exact ⟨ih.1, ih.2.1, fun _ => ih.2.2 (by omega)⟩
      · rw [if_neg hcnt]
        have hin : a < f.count := by omega
        have hst := fr_stride (S := S) (c := c) (f := f) (row := row) hr hin
        have hsp := stride_pos hr
        have e : remList S c (c.order.drop fp) row =
            (if admitted S c.epoch c.cycle f a then [(i, a)] else []) ++
              remList S c (c.order.drop fp) (a + stride S) := by
          rw [hrem, hd]; simp only [remList]
          change List.map (i, ·) (fr (deliver S c f) a f.count) ++ _ = _ ++ (List.map (i, ·) (fr (deliver S c f) _ f.count) ++ _)
          change fr (deliver S c f) a f.count = (if admitted S c.epoch c.cycle f a = true then [a] else []) ++
            fr (deliver S c f) (a + stride S) f.count at hst
          rw [hst]
          split <;> simp
        have hmm : mu S (c.order.drop fp) (a + stride S) ≤ fuel := by
          rw [hd]; simp only [mu]; change f.count - _ + 1 + _ ≤ _; omega
        by_cases had : admitted S c.epoch c.cycle f a = true
        · rw [if_pos had]
          have ih := nextLoop_spec S c hr fuel fp (a + stride S) (need - 1) hmm
          rw [e, if_pos had]
          obtain ⟨k, rfl⟩ : ∃ k, need = k + 1 := ⟨need - 1, by omega⟩
          simp only [Nat.add_sub_cancel] at ih ⊢
          simp only [List.cons_append, List.nil_append, List.take_succ_cons, List.map_cons,
            List.drop_succ_cons]
          refine ⟨?_, ih.2.1, ih.2.2⟩
          rw [← ih.1]; rfl
        · rw [if_neg had]
          have ih := nextLoop_spec S c hr fuel fp (a + stride S) need hmm
          rw [e, if_neg had, List.nil_append]
          exact ih

/-- Enough fuel is enough. -/
theorem nextLoop_fuel (S : Src) (c : Cursor) (hr : RankOk S c.rank) : ∀ (fuel fuel' fp row need : Nat),
    mu S (c.order.drop fp) row ≤ fuel → mu S (c.order.drop fp) row ≤ fuel' →
    nextLoop S c fuel fp row need = nextLoop S c fuel' fp row need
  | 0, fuel', fp, row, need, hm, _ => by
    have h : c.order.drop fp = [] := by
      cases h : c.order.drop fp with
      | nil => rfl
      | cons => rw [h] at hm; simp [mu] at hm
    have h : c.order.length ≤ fp := by simpa using h
    cases fuel' with
    | zero => rfl
    | succ n => simp [nextLoop, h]
  | fuel + 1, 0, fp, row, need, _, hm => by
    have h : c.order.drop fp = [] := by
      cases h : c.order.drop fp with
      | nil => rfl
      | cons => rw [h] at hm; simp [mu] at hm
    have h : c.order.length ≤ fp := by simpa using h
    simp [nextLoop, h]
  | fuel + 1, fuel' + 1, fp, row, need, hm, hm' => by
    simp only [nextLoop]
    by_cases h0 : need = 0 ∨ c.order.length ≤ fp
    · rw [if_pos h0, if_pos h0]
    · rw [if_neg h0, if_neg h0]
      push Not at h0
      obtain ⟨hn, hfp⟩ := h0
      set i := c.order.getD fp 0
      have hd : c.order.drop fp = i :: c.order.drop (fp + 1) := drop_cons hfp
      set f := S.file i
      set a := align S c.rank f row
      have hge : row ≤ a := align_ge _ _ _ _
      have hsp := stride_pos hr
      rw [hd] at hm hm'
      simp only [mu] at hm hm'
      change f.count - row + 1 + _ ≤ _ at hm
      change f.count - row + 1 + _ ≤ _ at hm'
      by_cases hcnt : f.count ≤ a
      · rw [if_pos hcnt, if_pos hcnt]
        exact nextLoop_fuel S c hr fuel fuel' _ _ _ (by rw [mu_zero]; omega) (by rw [mu_zero]; omega)
      · rw [if_neg hcnt, if_neg hcnt]
        have hmm : mu S (c.order.drop fp) (a + stride S) ≤ fuel := by
          rw [hd]; simp only [mu]; change f.count - _ + 1 + _ ≤ _; omega
        have hmm' : mu S (c.order.drop fp) (a + stride S) ≤ fuel' := by
          rw [hd]; simp only [mu]; change f.count - _ + 1 + _ ≤ _; omega
        have e1 := nextLoop_fuel S c hr fuel fuel' fp (a + stride S) (need - 1) hmm hmm'
        have e2 := nextLoop_fuel S c hr fuel fuel' fp (a + stride S) need hmm hmm'
        unfold stride at e1 e2
        rw [e1, e2]

theorem nextLoop_zero (S : Src) (c : Cursor) (fuel fp row : Nat) :
    nextLoop S c fuel fp row 0 = ([], fp, row) := by
  cases fuel <;> simp [nextLoop]

/-- Reading `m + n` equals reading `m`, then `n` from where the loop stopped. -/
theorem nextLoop_add (S : Src) (c : Cursor) (hr : RankOk S c.rank) : ∀ (fuel fp row m n : Nat),
    mu S (c.order.drop fp) row ≤ fuel →
    nextLoop S c fuel fp row (m + n) =
      ((nextLoop S c fuel fp row m).1 ++
        (nextLoop S c fuel (nextLoop S c fuel fp row m).2.1 (nextLoop S c fuel fp row m).2.2 n).1,
       (nextLoop S c fuel (nextLoop S c fuel fp row m).2.1 (nextLoop S c fuel fp row m).2.2 n).2) ∧
    mu S (c.order.drop (nextLoop S c fuel fp row m).2.1) (nextLoop S c fuel fp row m).2.2 ≤ fuel
  | 0, fp, row, m, n, hm => by simp [nextLoop, hm]
  | fuel + 1, fp, row, m, n, hm => by
    rcases Nat.eq_zero_or_pos m with rfl | hmpos
    · rw [nextLoop_zero]; simp [hm]
    by_cases hfp : c.order.length ≤ fp
    · have e : ∀ k, nextLoop S c (fuel + 1) fp row k = ([], fp, row) := by
        intro k; simp [nextLoop, hfp]
      simp [e, hm]
    have key : ∀ k, 0 < k → nextLoop S c (fuel + 1) fp row k =
        (if (S.file (c.order.getD fp 0)).count ≤ align S c.rank (S.file (c.order.getD fp 0)) row then
          nextLoop S c fuel (fp + 1) 0 k
        else if admitted S c.epoch c.cycle (S.file (c.order.getD fp 0))
            (align S c.rank (S.file (c.order.getD fp 0)) row) then
          (mkEnv (S.file (c.order.getD fp 0)) (align S c.rank (S.file (c.order.getD fp 0)) row) c.cycle ::
            (nextLoop S c fuel fp (align S c.rank (S.file (c.order.getD fp 0)) row + stride S) (k - 1)).1,
           (nextLoop S c fuel fp (align S c.rank (S.file (c.order.getD fp 0)) row + stride S) (k - 1)).2)
        else nextLoop S c fuel fp (align S c.rank (S.file (c.order.getD fp 0)) row + stride S) k) := by
      intro k hk
      conv_lhs => unfold nextLoop
      rw [if_neg (by omega)]
      rfl
    rw [key (m + n) (by omega), key m hmpos]
    set i := c.order.getD fp 0
    have hd : c.order.drop fp = i :: c.order.drop (fp + 1) := drop_cons (by omega)
    set f := S.file i
    set a := align S c.rank f row
    have hge : row ≤ a := align_ge _ _ _ _
    have hsp := stride_pos hr
    rw [hd] at hm
    simp only [mu] at hm
    change f.count - row + 1 + _ ≤ _ at hm
    have hmm : f.count > a → mu S (c.order.drop fp) (a + stride S) ≤ fuel := by
      intro h
      rw [hd]; simp only [mu]; change f.count - _ + 1 + _ ≤ _; omega
    -- move results of the shorter fuel to the longer one
    have lift : ∀ fp' row' k, mu S (c.order.drop fp') row' ≤ fuel →
        nextLoop S c (fuel + 1) fp' row' k = nextLoop S c fuel fp' row' k := by
      intro fp' row' k h
      exact nextLoop_fuel S c hr _ _ _ _ _ (by omega) h
    by_cases hcnt : f.count ≤ a
    · simp only [if_pos hcnt]
      have ih := nextLoop_add S c hr fuel (fp + 1) 0 m n (by rw [mu_zero]; omega)
      rw [lift _ _ _ ih.2]
      exact ⟨ih.1, by omega⟩
    · simp only [if_neg hcnt]
      by_cases had : admitted S c.epoch c.cycle f a = true
      · simp only [if_pos had]
        have ih := nextLoop_add S c hr fuel fp (a + stride S) (m - 1) n (hmm (by omega))
        have e : m + n - 1 = m - 1 + n := by omega
        rw [e, lift _ _ _ ih.2]
        refine ⟨?_, by omega⟩
        rw [ih.1]; simp
      · simp only [if_neg had]
        have ih := nextLoop_add S c hr fuel fp (a + stride S) m n (hmm (by omega))
        rw [lift _ _ _ ih.2]
        exact ⟨ih.1, by omega⟩

theorem settleLoop_spec (S : Src) (c : Cursor) (order : List Nat) : ∀ (fuel fp row : Nat),
    order.length - fp ≤ fuel → fp ≤ order.length →
    remList S c (order.drop (settleLoop S order fuel fp row).1) (settleLoop S order fuel fp row).2 =
      remList S c (order.drop fp) row ∧
    fp ≤ (settleLoop S order fuel fp row).1 ∧ (settleLoop S order fuel fp row).1 ≤ order.length ∧
    ((settleLoop S order fuel fp row).1 < order.length →
      (settleLoop S order fuel fp row).2 < (S.file (order.getD (settleLoop S order fuel fp row).1 0)).count)
  | 0, fp, row, h, h' => by
    have : fp = order.length := by omega
    simp [settleLoop, this]
  | fuel + 1, fp, row, h, h' => by
    unfold settleLoop
    by_cases hc : fp < order.length ∧ (S.file (order.getD fp 0)).count ≤ row
    · rw [if_pos hc]
      have ih := settleLoop_spec S c order fuel (fp + 1) 0 (by omega) (by omega)
      refine ⟨?_, by omega, ih.2.2.1, ih.2.2.2⟩
      rw [ih.1, drop_cons hc.1]
      simp only [remList]
      rw [fr_nil hc.2]; simp
    · rw [if_neg hc]
      exact ⟨rfl, le_refl _, h', fun hl => by push Not at hc; exact hc hl⟩

/-- Positions a settled cursor can have. -/
def PosOk (S : Src) (order : List Nat) (fp row : Nat) : Prop :=
  (fp = order.length ∧ row = 0) ∨ (fp < order.length ∧ row < (S.file (order.getD fp 0)).count)

theorem settle_spec (S : Src) (c : Cursor) (order : List Nat) (fp row : Nat) (h : fp ≤ order.length) :
    remList S c (order.drop (settle S order fp row).1) (settle S order fp row).2 =
      remList S c (order.drop fp) row ∧ PosOk S order (settle S order fp row).1 (settle S order fp row).2 := by
  have hs := settleLoop_spec S c order (order.length - fp) fp row (le_refl _) h
  unfold settle
  simp only
  split
  · rename_i he
    refine ⟨?_, Or.inl ⟨he, rfl⟩⟩
    rw [← hs.1, he]; simp [remList]
  · rename_i he
    have : (settleLoop S order (order.length - fp) fp row).1 < order.length := by
      rcases lt_or_eq_of_le hs.2.2.1 with h | h
      · exact h
      · exact absurd h he
    exact ⟨hs.1, Or.inr ⟨this, hs.2.2.2 this⟩⟩

theorem settle_mu (S : Src) (order : List Nat) : ∀ (fuel fp row : Nat),
    mu S (order.drop (settleLoop S order fuel fp row).1) (settleLoop S order fuel fp row).2 ≤
      mu S (order.drop fp) row
  | 0, fp, row => by simp [settleLoop]
  | fuel + 1, fp, row => by
    unfold settleLoop
    split
    · rename_i hc
      refine (settle_mu S order fuel (fp + 1) 0).trans ?_
      rw [mu_zero, drop_cons hc.1]; simp [mu]
    · exact le_refl _

/-- Settling first and then reading gives the same as reading directly. -/
theorem nextLoop_settle (S : Src) (c : Cursor) (hr : RankOk S c.rank) (k : Nat) (hk : 0 < k) :
    ∀ (n fp row fuel : Nat), mu S (c.order.drop fp) row ≤ fuel →
    nextLoop S c fuel (settleLoop S c.order n fp row).1 (settleLoop S c.order n fp row).2 k =
      nextLoop S c fuel fp row k
  | 0, _, _, _, _ => rfl
  | n + 1, fp, row, fuel, hm => by
    unfold settleLoop
    split
    · rename_i hc
      rw [drop_cons hc.1] at hm
      simp only [mu] at hm
      rw [nextLoop_settle S c hr k hk n (fp + 1) 0 fuel (by rw [mu_zero]; omega)]
      obtain ⟨fu, rfl⟩ : ∃ fu, fuel = fu + 1 := ⟨fuel - 1, by omega⟩
      conv_rhs => unfold nextLoop
      have ha : align S c.rank (S.file (c.order.getD fp 0)) row = row := by
        unfold align; rw [if_neg (by omega)]
      rw [if_neg (by omega)]
      simp only
      rw [ha, if_pos hc.2]
      exact nextLoop_fuel S c hr _ _ _ _ _ (by rw [mu_zero]; omega) (by rw [mu_zero]; omega)
    · rfl

/-! ### Packed reads -/

theorem align_unsharded {S : Src} (hs : S.sharded = false) (r : Nat) (f : File) (row : Nat) :
    align S r f row = row := by
  unfold align; rw [if_neg (by simp [hs])]

/-- A run of `k` rows of one file, with `k ≤ need`, is processed row by row. -/
theorem nextLoop_block (S : Src) (c : Cursor) (hs : S.sharded = false) (fp fuel : Nat)
    (hfp : fp < c.order.length) : ∀ (k row need : Nat), k ≤ need →
    row + k ≤ (S.file (c.order.getD fp 0)).count →
    nextLoop S c (fuel + k) fp row need =
      ((((List.range' row k).filter (admitted S c.epoch c.cycle (S.file (c.order.getD fp 0)))).map
          fun i => mkEnv (S.file (c.order.getD fp 0)) i c.cycle) ++
        (nextLoop S c fuel fp (row + k) (need - ((List.range' row k).filter
          (admitted S c.epoch c.cycle (S.file (c.order.getD fp 0)))).length)).1,
       (nextLoop S c fuel fp (row + k) (need - ((List.range' row k).filter
          (admitted S c.epoch c.cycle (S.file (c.order.getD fp 0)))).length)).2)
  | 0, row, need, _, _ => by simp
  | k + 1, row, need, hk, hc => by
    rw [← Nat.add_assoc, nextLoop, if_neg (by omega)]
    simp only [align_unsharded hs, hs, Bool.false_eq_true, if_false]
    rw [if_neg (by omega), List.range'_succ, List.filter_cons]
    by_cases had : admitted S c.epoch c.cycle (S.file (c.order.getD fp 0)) row = true
    · rw [if_pos had, if_pos had]
      rw [nextLoop_block S c hs fp fuel hfp k (row + 1) (need - 1) (by omega) (by omega)]
      simp only [List.map_cons, List.length_cons, List.cons_append]
      rw [show row + 1 + k = row + (k + 1) by omega, Nat.sub_sub, Nat.add_comm 1]
    · rw [if_neg had, if_neg had]
      rw [nextLoop_block S c hs fp fuel hfp k (row + 1) need (by omega) (by omega)]
      rw [show row + 1 + k = row + (k + 1) by omega]

theorem mkEnv_payload (f : File) (row cycle : Nat) : (mkEnv f row cycle).payload = f.begin + row := rfl

theorem packedLoop_eq (S : Src) (c : Cursor) (hs : S.sharded = false) : ∀ (fuel fuel' fp row need : Nat),
    mu S (c.order.drop fp) row ≤ fuel → mu S (c.order.drop fp) row ≤ fuel' →
    packedLoop S c fuel fp row need =
      ((nextLoop S c fuel' fp row need).1.map (·.payload), (nextLoop S c fuel' fp row need).2)
  | 0, fuel', fp, row, need, hm, _ => by
    have h : c.order.drop fp = [] := by
      cases h : c.order.drop fp with
      | nil => rfl
      | cons => rw [h] at hm; simp [mu] at hm
    have h : c.order.length ≤ fp := by simpa using h
    cases fuel' with
    | zero => rfl
    | succ n => simp [nextLoop, packedLoop, h]
  | fuel + 1, fuel', fp, row, need, hm, hm' => by
    have hr : RankOk S c.rank := by intro h; simp [hs] at h
    rw [packedLoop]
    by_cases h0 : need = 0 ∨ c.order.length ≤ fp
    · rw [if_pos h0]
      cases fuel' with
      | zero => simp [nextLoop]
      | succ n => simp [nextLoop, h0]
    · rw [if_neg h0]
      push Not at h0
      obtain ⟨hn, hfp⟩ := h0
      have hd : c.order.drop fp = c.order.getD fp 0 :: c.order.drop (fp + 1) := drop_cons hfp
      have hmu : ∀ r, mu S (c.order.drop fp) r =
        (S.file (c.order.getD fp 0)).count - r + 1 + fuelFor S (c.order.drop (fp + 1)) := by
        intro r; rw [hd, mu]
      rw [hmu] at hm hm'
      simp only
      set f := S.file (c.order.getD fp 0) with hf
      by_cases hcnt : f.count ≤ row
      · rw [if_pos hcnt]
        rw [packedLoop_eq S c hs fuel (fuel' - 1) (fp + 1) 0 need (by rw [mu_zero]; omega)
          (by rw [mu_zero]; omega)]
        obtain ⟨n, rfl⟩ : ∃ n, fuel' = n + 1 := ⟨fuel' - 1, by omega⟩
        simp only [Nat.add_sub_cancel]
        conv_rhs => rw [nextLoop, if_neg (by omega)]; simp only [align_unsharded hs]; rw [← hf, if_pos hcnt]
      · rw [if_neg hcnt]
        set t := min need (f.count - row) with ht
        have ht1 : 0 < t := by omega
        have ht2 : t ≤ need := by omega
        have ht3 : row + t ≤ f.count := by omega
        have hfu : mu S (c.order.drop fp) (row + t) ≤ fuel := by rw [hmu]; omega
        obtain ⟨g, hg⟩ : ∃ g, fuel' = g + t := ⟨fuel' - t, by omega⟩
        have hfu' : mu S (c.order.drop fp) (row + t) ≤ g := by rw [hmu]; omega
        have hb := nextLoop_block S c hs fp g hfp t row need ht2 ht3
        rw [← hg, ← hf] at hb
        rw [hb]
        by_cases hfull : S.full = true
        · rw [if_pos hfull]
          have e : (List.range' row t).filter (admitted S c.epoch c.cycle f) = List.range' row t := by
            apply List.filter_eq_self.mpr
            intro a _; simp [admitted, hfull]
          rw [e]
          rw [packedLoop_eq S c hs fuel g fp (row + t) (need - t) hfu hfu']
          simp only [List.length_range', List.map_append, List.map_map, Prod.mk.injEq, and_true]
          congr 1
          apply List.ext_getElem
          · simp
          · intro i h1 h2; simp [mkEnv_payload]; omega
        · rw [if_neg hfull]
          have e : (fun i => S.admit c.epoch (recordKey f (physicalRow f i) c.cycle)) =
              admitted S c.epoch c.cycle f := by
            funext i; simp [admitted, hfull]
          rw [e, packedLoop_eq S c hs fuel g fp (row + t) _ hfu hfu']
          simp only [List.length_map, List.map_append, List.map_map, Prod.mk.injEq, and_true]
          congr 1

theorem nextPacked_eq (S : Src) (c : Cursor) (hs : S.sharded = false) (k : Nat) :
    nextPacked S c k = (nextEnvelopes S c k).map fun r => (r.1.map (·.payload), r.2) := by
  unfold nextPacked nextEnvelopes
  split
  · rfl
  · have hf := (mu_le_fuelFor S (c.order.drop c.fp) c.row).trans (fuelFor_drop S c.order c.fp)
    rw [packedLoop_eq S c hs _ (fuelFor S c.order) _ _ _ hf hf]
    rfl

/-! ### Global row layout -/

theorem buildFiles_count : ∀ (b : Nat) (t : List (List UInt8 × Nat × Nat × Option (List Nat))),
    (buildFiles b t).map (·.count) = t.map (fun x => x.2.2.1)
  | _, [] => rfl
  | b, (d, o, n, r) :: t => by simp [buildFiles, buildFiles_count (b + n) t]

/-- Each file begins where the previous ones end. -/
theorem buildFiles_begin : ∀ (b : Nat) (t : List (List UInt8 × Nat × Nat × Option (List Nat))) (i : Nat)
    (h : i < (buildFiles b t).length),
    ((buildFiles b t)[i]).begin = b + (((buildFiles b t).take i).map (·.count)).sum
  | _, [], i, h => by simp [buildFiles] at h
  | b, (d, o, n, r) :: t, 0, h => by simp [buildFiles]
  | b, (d, o, n, r) :: t, i + 1, h => by
    simp only [buildFiles, List.getElem_cons_succ, List.take_succ_cons, List.map_cons, List.sum_cons]
    rw [buildFiles_begin (b + n) t i (by simpa [buildFiles] using h)]
    omega

end Verif.Npz
