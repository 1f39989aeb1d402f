import Verif.Mapping.Model
import Mathlib.Tactic.SplitIfs
import Mathlib.Tactic.ByContra
import Mathlib.Tactic.Linarith
import Mathlib.Tactic.Ring

set_option linter.dupNamespace false

namespace Verif.Mapping

open Finset

variable {R : Type} [CommRing R]

/-- The board direction a layer works along. -/
def dirVec (fix : Bool) (d : Nat) : Int × Int :=
  if d = 0 then (0, 1) else if d = 1 then (1, 0)
  else if d = (if fix then 3 else 2) then (1, 1) else (-1, 1)

/-- The channel vector of a cell; `none` outside. -/
def cell (H W : Nat) (t : Tensor R) (i j : Int) : Option (Nat → R) :=
  if 0 ≤ i ∧ i < H ∧ 0 ≤ j ∧ j < W then some (fun c => t c i.toNat j.toNat) else none

/-- Zero outside. -/
def orZero (o : Option (Nat → R)) : Nat → R := o.getD (fun _ => 0)

theorem cell_nat (H W : Nat) (t : Tensor R) (i j : Nat) (hi : i < H) (hj : j < W) :
    cell H W t i j = some (fun c => t c i j) := by
  unfold cell
  rw [if_pos (by omega)]
  simp

theorem pad_cell (p q H W : Nat) (t : Tensor R) (c i j : Nat) :
    pad p q H W t c i j = orZero (cell H W t ((i : Int) - p) ((j : Int) - q)) c := by
  unfold pad cell orZero
  by_cases h : p ≤ i ∧ i < p + H ∧ q ≤ j ∧ j < q + W
  · rw [if_pos h, if_pos (by omega)]
    simp only [Option.getD_some]
    congr 1 <;> omega
  · rw [if_neg h, if_neg (by omega)]; rfl

theorem sum_three (n : Nat) (f : Nat → R) :
    ∑ k ∈ range (3 * n), f k = ∑ c ∈ range n, (f c + f (n + c) + f (2 * n + c)) := by
  have e : 3 * n = n + n + n := by ring
  rw [e, sum_range_add, sum_range_add, sum_add_distrib, sum_add_distrib]
  congr 1
  apply sum_congr rfl
  intro i _
  congr 1; ring

theorem cat3_fst {α : Type} (n : Nat) (a b c : Nat → α) (k : Nat) (h : k < n) : cat3 n a b c k = a k := by
  unfold cat3; rw [if_pos h]

theorem cat3_snd {α : Type} (n : Nat) (a b c : Nat → α) (k : Nat) (h : k < n) :
    cat3 n a b c (n + k) = b k := by
  unfold cat3; rw [if_neg (by omega), if_pos (by omega), Nat.add_sub_cancel_left]

theorem cat3_thd {α : Type} (n : Nat) (a b c : Nat → α) (k : Nat) : cat3 n a b c (2 * n + k) = c k := by
  unfold cat3; rw [if_neg (by omega), if_neg (by omega), Nat.add_sub_cancel_left]

/-- What a directional layer computes from a cell and its two neighbours along the direction. -/
def tap (l : DirConv R) (a v b : Nat → R) : Nat → R := fun o =>
  ∑ c ∈ range l.dimIn, (a c * l.weight1d o c 0 + v c * l.weight1d o c 1 + b c * l.weight1d o c 2) + l.bias o

/-- All four code paths compute the same three taps along their direction. -/
theorem run_tap (l : DirConv R) (fix : Bool) (H W d : Nat) (t : Tensor R) (o i j : Nat)
    (hi : i < H) (hj : j < W) :
    l.run fix H W d t o i j =
      tap l (orZero (cell H W t ((i : Int) - (dirVec fix d).1) ((j : Int) - (dirVec fix d).2)))
        (fun c => t c i j)
        (orZero (cell H W t ((i : Int) + (dirVec fix d).1) ((j : Int) + (dirVec fix d).2))) o := by
  have hc := cell_nat H W t i j hi hj
  unfold DirConv.run dirVec tap
  by_cases h0 : d = 0
  · rw [if_pos h0, if_pos h0]
    unfold conv2d
    congr 1
    apply sum_congr rfl
    intro c _
    simp only [sum_range_succ, range_zero, sum_empty, zero_add, pad_cell, Nat.cast_zero, Nat.cast_one,
      add_zero, sub_zero, Nat.cast_add, Nat.cast_ofNat]
    have e1 : (j : Int) + 1 - 1 = j := by ring
    have e2 : (j : Int) + 2 - 1 = j + 1 := by ring
    rw [e1, e2, hc]
    simp only [orZero, Option.getD_some]
    ring
  · rw [if_neg h0, if_neg h0]
    by_cases h1 : d = 1
    · rw [if_pos h1, if_pos h1]
      unfold conv2d
      congr 1
      apply sum_congr rfl
      intro c _
      simp only [sum_range_succ, range_zero, sum_empty, zero_add, pad_cell, Nat.cast_zero, Nat.cast_one,
        add_zero, sub_zero, Nat.cast_add, Nat.cast_ofNat]
      have e1 : (i : Int) + 1 - 1 = i := by ring
      have e2 : (i : Int) + 2 - 1 = i + 1 := by ring
      rw [e1, e2, hc]
      simp only [orZero, Option.getD_some]
      ring
    · rw [if_neg h1, if_neg h1]
      simp only []
      unfold pointwise
      rw [sum_three]
      by_cases hd : d = (if fix = true then 3 else 2)
      · rw [if_pos hd, if_pos hd]
        congr 1
        apply sum_congr rfl
        intro c hcm
        rw [mem_range] at hcm
        simp only [cat3_fst _ _ _ _ _ hcm, cat3_snd _ _ _ _ _ hcm, cat3_thd]
        simp only [pad_cell]
        push_cast
        have e2 : (i : Int) + 2 - 1 = i + 1 := by ring
        have e3 : (j : Int) + 2 - 1 = j + 1 := by ring
        rw [e2, e3]
      · rw [if_neg hd, if_neg hd]
        congr 1
        apply sum_congr rfl
        intro c hcm
        rw [mem_range] at hcm
        simp only [cat3_fst _ _ _ _ _ hcm, cat3_snd _ _ _ _ _ hcm, cat3_thd]
        simp only [pad_cell]
        push_cast
        have e2 : (i : Int) + 2 - 1 = i - -1 := by ring
        have e3 : (j : Int) + 2 - 1 = j + 1 := by ring
        have e4 : (i : Int) - 1 = i + -1 := by ring
        rw [e2, e3, e4]

/-- A place to look from. -/
structure Place (R : Type) where
  H : Nat
  W : Nat
  d : Nat
  y : Nat
  x : Nat

def Place.see {R : Type} (p : Place R) (fix : Bool) (t : Tensor R) (k : Int) : Option (Nat → R) :=
  cell p.H p.W t (p.y + (dirVec fix p.d).1 * k) (p.x + (dirVec fix p.d).2 * k)

/-- Two places see the same within distance `n`. -/
def Same (fix : Bool) (p q : Place R) (s t : Tensor R) (n : Nat) : Prop :=
  ∀ k : Int, |k| ≤ n → p.see fix s k = q.see fix t k

theorem see_run (l : DirConv R) (fix : Bool) (p : Place R) (t : Tensor R) (k : Int) :
    p.see fix (l.run fix p.H p.W p.d t) k = (p.see fix t k).map fun v =>
      tap l (orZero (p.see fix t (k - 1))) v (orZero (p.see fix t (k + 1))) := by
  unfold Place.see
  obtain ⟨δ, hδ⟩ : ∃ δ, δ = dirVec fix p.d := ⟨_, rfl⟩
  rw [← hδ]
  have e1 : (p.y : Int) + δ.1 * (k - 1) = (p.y + δ.1 * k) - δ.1 := by ring
  have e2 : (p.x : Int) + δ.2 * (k - 1) = (p.x + δ.2 * k) - δ.2 := by ring
  have e3 : (p.y : Int) + δ.1 * (k + 1) = (p.y + δ.1 * k) + δ.1 := by ring
  have e4 : (p.x : Int) + δ.2 * (k + 1) = (p.x + δ.2 * k) + δ.2 := by ring
  rw [e1, e2, e3, e4]
  obtain ⟨i, hi⟩ : ∃ i : Int, i = p.y + δ.1 * k := ⟨_, rfl⟩
  obtain ⟨j, hj⟩ : ∃ j : Int, j = p.x + δ.2 * k := ⟨_, rfl⟩
  rw [← hi, ← hj]
  by_cases h : 0 ≤ i ∧ i < p.H ∧ 0 ≤ j ∧ j < p.W
  · obtain ⟨a, rfl⟩ := Int.eq_ofNat_of_zero_le h.1
    obtain ⟨b, rfl⟩ := Int.eq_ofNat_of_zero_le h.2.2.1
    have ha : a < p.H := by omega
    have hb : b < p.W := by omega
    rw [show (((a : Nat) : Int)) = (a : Int) from rfl]
    rw [cell_nat _ _ _ a b ha hb, cell_nat _ _ _ a b ha hb]
    simp only [Option.map_some]
    congr 1
    funext o
    rw [run_tap l fix p.H p.W p.d t o a b ha hb, ← hδ]
  · have hn : ∀ t : Tensor R, cell p.H p.W t i j = none := fun t => by unfold cell; rw [if_neg h]
    rw [hn, hn]; rfl

theorem see_cell (fix : Bool) (p : Place R) (f : (Nat → R) → Nat → R) (t : Tensor R) (k : Int) :
    p.see fix (fun c y j => f (fun k => t k y j) c) k = (p.see fix t k).map f := by
  unfold Place.see cell
  split_ifs
  · rfl
  · rfl

theorem see_add (fix : Bool) (p : Place R) (s t : Tensor R) (k : Int) :
    p.see fix (addT s t) k = (p.see fix s k).bind fun a => (p.see fix t k).map fun b => fun c => a c + b c := by
  unfold Place.see cell
  split_ifs
  · rfl
  · rfl

theorem Same.mono {fix : Bool} {p q : Place R} {s t : Tensor R} {n m : Nat} (h : Same fix p q s t n)
    (hm : m ≤ n) : Same fix p q s t m := fun k hk => h k (le_trans hk (by exact_mod_cast hm))

theorem Same.conv {fix : Bool} {p q : Place R} {s t : Tensor R} {n : Nat} (h : Same fix p q s t (n + 1))
    (l : DirConv R) : Same fix p q (l.run fix p.H p.W p.d s) (l.run fix q.H q.W q.d t) n := by
  intro k hk
  have hk' := abs_le.1 hk
  rw [see_run, see_run, h k (by rw [abs_le]; push_cast; omega), h (k - 1) (by rw [abs_le]; push_cast; omega),
    h (k + 1) (by rw [abs_le]; push_cast; omega)]

theorem Same.cells {fix : Bool} {p q : Place R} {s t : Tensor R} {n : Nat} (h : Same fix p q s t n)
    (f : (Nat → R) → Nat → R) :
    Same fix p q (fun c y j => f (fun k => s k y j) c) (fun c y j => f (fun k => t k y j) c) n := by
  intro k hk
  rw [see_cell, see_cell, h k hk]

theorem Same.add {fix : Bool} {p q : Place R} {s t s' t' : Tensor R} {n : Nat} (h : Same fix p q s t n)
    (h' : Same fix p q s' t' n) : Same fix p q (addT s s') (addT t t') n := by
  intro k hk
  rw [see_add, see_add, h k hk, h' k hk]

theorem Same.act {fix : Bool} {p q : Place R} {s t : Tensor R} {n : Nat} (h : Same fix p q s t n)
    (f : R → R) : Same fix p q (mapEntries f s) (mapEntries f t) n :=
  h.cells fun v c => f (v c)

theorem Same.perCell {fix : Bool} {p q : Place R} {s t : Tensor R} {n : Nat} (h : Same fix p q s t n)
    (f : (Nat → R) → Nat → R) : Same fix p q (perCell f s) (perCell f t) n := h.cells f

theorem Same.pw {fix : Bool} {p q : Place R} {s t : Tensor R} {n : Nat} (h : Same fix p q s t n)
    (l : Pw R) : Same fix p q (l.run s) (l.run t) n :=
  h.cells fun v o => ∑ c ∈ range l.dimIn, v c * l.w o c + l.b o

theorem Same.block {fix : Bool} {p q : Place R} {s t : Tensor R} {n : Nat} (h : Same fix p q s t (n + 1))
    (act : R → R) (B : ResBlock R) :
    Same fix p q (B.run act fix p.H p.W p.d s) (B.run act fix q.H q.W q.d t) n :=
  (((((h.conv B.conv).perCell B.norm).act act).pw B.pw).act act).add (h.mono (Nat.le_succ n))

theorem Same.blocks {fix : Bool} {p q : Place R} (act : R → R) (Bs : List (ResBlock R)) :
    ∀ {s t : Tensor R} {n : Nat}, Same fix p q s t (n + Bs.length) →
      Same fix p q (Bs.foldl (fun x B => B.run act fix p.H p.W p.d x) s)
        (Bs.foldl (fun x B => B.run act fix q.H q.W q.d x) t) n := by
  induction Bs with
  | nil => intro s t n h; exact h
  | cons B Bs ih =>
    intro s t n h
    simp only [List.foldl_cons]
    apply ih
    apply Same.block
    exact h.mono (by simp only [List.length_cons]; omega)

theorem Same.conv0d {fix : Bool} {p q : Place R} {s t : Tensor R} {n : Nat} (h : Same fix p q s t n)
    (m : Mapping R) : Same fix p q (m.conv0d s) (m.conv0d t) n :=
  ((((h.pw m.conv1).act m.act).pw m.conv2).act m.act).add h

theorem Same.mapping {p q : Place R} {s t : Tensor R} {n : Nat} (m : Mapping R)
    (h : Same m.fix p q s t (n + m.blocks.length + 1)) :
    Same m.fix p q (m.run p.H p.W p.d s) (m.run q.H q.W q.d t) n :=
  (((Same.blocks m.act m.blocks (((h.conv m.conv).perCell m.norm).act m.act)).conv0d m).pw m.final)

/-- Two places inside their boards that see the same within the receptive field get the same features. -/
theorem run_eq (m : Mapping R) (p q : Place R) (s t : Tensor R) (hpy : p.y < p.H) (hpx : p.x < p.W)
    (hqy : q.y < q.H) (hqx : q.x < q.W) (h : Same m.fix p q s t (m.blocks.length + 1)) (c : Nat) :
    m.run p.H p.W p.d s c p.y p.x = m.run q.H q.W q.d t c q.y q.x := by
  have h0 := Same.mapping (n := 0) m (by simpa using h) 0 (by simp)
  unfold Place.see at h0
  simp only [mul_zero, add_zero] at h0
  rw [cell_nat _ _ _ _ _ hpy hpx, cell_nat _ _ _ _ _ hqy hqx] at h0
  exact congrFun (Option.some.inj h0) c

end Verif.Mapping
