import Verif.Stats.Model
import Mathlib.Tactic.Linarith
import Mathlib.Tactic.Ring
import Mathlib.Tactic.FieldSimp
import Mathlib.Tactic.Positivity
import Mathlib.Tactic.SplitIfs
import Mathlib.Data.List.OfFn
import Mathlib.Algebra.BigOperators.Group.List.Lemmas

/-!
C08: combining per-rank / per-batch statistics in any order and grouping and then finalising gives the
same value as computing it on all rows at once.
-/

namespace Verif.Stats

/-! ### Specification -/

/-- A way of combining parts: any binary tree over the parts (any order, any grouping). -/
inductive Tree (α : Type) where
  | leaf (a : α)
  | node (l r : Tree α)

def Tree.leaves {α : Type} : Tree α → List α
  | .leaf a => [a]
  | .node l r => l.leaves ++ r.leaves

def Tree.map {α β : Type} (f : α → β) : Tree α → Tree β
  | .leaf a => .leaf (f a)
  | .node l r => .node (l.map f) (r.map f)

/-- Combine the statistics along the tree. -/
def Tree.combine {α : Type} (comb : α → α → Except String α) : Tree α → Except String α
  | .leaf a => .ok a
  | .node l r =>
    match l.combine comb, r.combine comb with
    | .ok a, .ok b => comb a b
    | .error e, _ => .error e
    | _, .error e => .error e

/-- A tensor with `d` elements `g 0 .. g (d-1)`. -/
def vec {α : Type} (m : List Nat × String × String) {d : Nat} (g : Fin d → α) : Ten α :=
  ⟨m.1, m.2.1, m.2.2, List.ofFn g⟩

/-- Sum over rows of one element of the per-row contribution. -/
def rowSum {Row : Type} {d : Nat} (f : Row → Fin d → ℚ) (rows : List Row) (i : Fin d) : ℚ :=
  (rows.map (fun r => f r i)).sum

/-- Total count of rows. -/
def rowCount {Row : Type} (n : Row → Nat) (rows : List Row) : Nat := (rows.map n).sum

/-- The statistic a producer returns for a set of rows: sum of the contributions, number of entries. -/
def sumStat {Row : Type} {d : Nat} (m : List Nat × String × String) (sc : Scope)
    (f : Row → Fin d → ℚ) (n : Row → Nat) (rows : List Row) : SumCount :=
  ⟨sc, vec m (rowSum f rows), rowCount n rows⟩

/-! ### Proofs -/

theorem vec_zip {α : Type} (m) {d : Nat} (op : α → α → α) (g h : Fin d → α) :
    (vec m g).zip op (vec m h) = vec m (fun i => op (g i) (h i)) := by
  unfold vec Ten.zip
  simp only [Ten.mk.injEq, true_and]
  apply List.ext_getElem
  · simp
  · intro i h1 h2; simp

theorem vec_map {α β : Type} (m) {d : Nat} (op : α → β) (g : Fin d → α) :
    (vec m g).map op = vec m (fun i => op (g i)) := by
  unfold vec Ten.map
  simp [List.map_ofFn, Function.comp_def]

theorem vec_compat {α β : Type} (m) {d : Nat} (g : Fin d → α) {d' : Nat} (h : Fin d' → β) :
    (vec m g).compat (vec m h) = true := by simp [vec, Ten.compat]

theorem rowSum_append {Row : Type} {d : Nat} (f : Row → Fin d → ℚ) (a b : List Row) :
    (fun i => rowSum f a i + rowSum f b i) = rowSum f (a ++ b) := by
  funext i; simp [rowSum]

theorem rowSum_perm {Row : Type} {d : Nat} (f : Row → Fin d → ℚ) {a b : List Row} (h : a.Perm b) :
    rowSum f a = rowSum f b := by
  funext i; exact (h.map _).sum_eq

theorem rowCount_perm {Row : Type} (n : Row → Nat) {a b : List Row} (h : a.Perm b) :
    rowCount n a = rowCount n b := (h.map _).sum_eq

theorem sumStat_combine {Row : Type} {d : Nat} (m sc) (f : Row → Fin d → ℚ) (n : Row → Nat)
    (a b : List Row) :
    (sumStat m sc f n a).combine (sumStat m sc f n b) = .ok (sumStat m sc f n (a ++ b)) := by
  unfold SumCount.combine
  rw [if_neg (by simp [sumStat, vec_compat])]
  unfold SumCount.mk?
  simp only [sumStat, vec_zip, rowSum_append]
  rw [if_neg (by omega)]
  simp [rowCount]

theorem sumStat_tree {Row : Type} {d : Nat} (m sc) (f : Row → Fin d → ℚ) (n : Row → Nat)
    (t : Tree (List Row)) :
    (t.map (sumStat m sc f n)).combine SumCount.combine = .ok (sumStat m sc f n t.leaves.flatten) := by
  induction t with
  | leaf a => simp [Tree.map, Tree.combine, Tree.leaves]
  | node l r ihl ihr =>
    simp only [Tree.map, Tree.combine, ihl, ihr, Tree.leaves, sumStat_combine, List.flatten_append]

/-- `SumCount`: however the rows are split into parts, whatever the order and grouping in which the
parts' statistics are combined, the combination succeeds and finalises to the mean over all rows
(computed on the rows in any order); it is an error exactly when there is no entry. -/
theorem C08_sum_count {Row : Type} {d : Nat} (m : List Nat × String × String) (sc : Scope)
    (f : Row → Fin d → ℚ) (n : Row → Nat) (t : Tree (List Row)) (all : List Row)
    (hall : all.Perm t.leaves.flatten) :
    ∃ s, (t.map (sumStat m sc f n)).combine SumCount.combine = .ok s ∧
      s = sumStat m sc f n all ∧
      (0 < rowCount n all →
        s.finalize = .ok (vec m (fun i => (all.map (fun r => f r i)).sum / (rowCount n all : ℚ)))) ∧
      (rowCount n all = 0 → ∃ e, s.finalize = .error e) := by
  refine ⟨_, sumStat_tree m sc f n t, ?_, ?_, ?_⟩
  · unfold sumStat
    rw [rowSum_perm f hall, rowCount_perm n hall]
  · intro hpos
    unfold SumCount.finalize sumStat
    rw [rowSum_perm f hall.symm, rowCount_perm n hall.symm]
    simp only [vec_map]
    rw [if_neg (by omega)]
    simp [rowSum]
  · intro h0
    unfold SumCount.finalize sumStat
    rw [rowCount_perm n hall.symm, h0]
    exact ⟨_, rfl⟩

/-! #### Maximum -/

/-- What a part contributes to a maximum: its entries, or (a replayed batch) an arbitrary value counted
zero times. -/
inductive MaxPart (Row : Type) where
  | rows (r : List Row)
  | replay (junk : WithBot ℚ)

def MaxPart.entries {Row : Type} (e : Row → List ℚ) : MaxPart Row → List ℚ
  | .rows r => r.flatMap e
  | .replay _ => []

/-- The producer's statistic: maximum of the entries (negative infinity if there are none). -/
def maxStat {Row : Type} (m : String × String) (e : Row → List ℚ) : MaxPart Row → Maximum
  | .rows r => ⟨⟨[], m.1, m.2, [(r.flatMap e).foldr (fun x acc => max (x : WithBot ℚ) acc) ⊥]⟩,
      ((r.flatMap e).length : Int)⟩
  | .replay junk => ⟨⟨[], m.1, m.2, [junk]⟩, 0⟩

/-- the greatest of a list of entries, or `⊥` -/
def top (l : List ℚ) : WithBot ℚ := l.foldr (fun x acc => max (x : WithBot ℚ) acc) ⊥

theorem top_append (a b : List ℚ) : top (a ++ b) = max (top a) (top b) := by
  induction a with
  | nil => simp [top]
  | cons x a ih =>
    have : top (x :: a ++ b) = max (x : WithBot ℚ) (top (a ++ b)) := rfl
    rw [this, ih, ← max_assoc]
    rfl

theorem top_le (l : List ℚ) (x : ℚ) (h : x ∈ l) : (x : WithBot ℚ) ≤ top l := by
  induction l with
  | nil => simp at h
  | cons y l ih =>
    have : top (y :: l) = max (y : WithBot ℚ) (top l) := rfl
    rw [this]
    rcases List.mem_cons.mp h with rfl | h
    · exact le_max_left _ _
    · exact le_trans (ih h) (le_max_right _ _)

theorem top_mem (l : List ℚ) (h : l ≠ []) : ∃ x ∈ l, top l = (x : WithBot ℚ) := by
  induction l with
  | nil => exact absurd rfl h
  | cons y l ih =>
    have e : top (y :: l) = max (y : WithBot ℚ) (top l) := rfl
    rw [e]
    by_cases hl : l = []
    · subst hl; exact ⟨y, by simp, by simp [top]⟩
    · obtain ⟨x, hx, hxe⟩ := ih hl
      rcases le_total (y : WithBot ℚ) (top l) with h1 | h1
      · exact ⟨x, List.mem_cons_of_mem _ hx, by rw [max_eq_right h1, hxe]⟩
      · exact ⟨y, List.mem_cons_self .., by rw [max_eq_left h1]⟩

theorem maxStat_tree {Row : Type} (m : String × String) (e : Row → List ℚ) (t : Tree (MaxPart Row)) :
    ∃ s v, (t.map (maxStat m e)).combine Maximum.combine = .ok s ∧
      s.value = ⟨[], m.1, m.2, [v]⟩ ∧
      s.validCount = ((t.leaves.flatMap (MaxPart.entries e)).length : Int) ∧
      (t.leaves.flatMap (MaxPart.entries e) ≠ [] → v = top (t.leaves.flatMap (MaxPart.entries e))) := by
  induction t with
  | leaf p =>
    cases p with
    | rows r => exact ⟨_, _, rfl, rfl, by simp [Tree.leaves, MaxPart.entries, maxStat],
        by intro _; simp [Tree.leaves, MaxPart.entries, top]⟩
    | replay j => exact ⟨_, _, rfl, rfl, by simp [Tree.leaves, MaxPart.entries, maxStat],
        by simp [Tree.leaves, MaxPart.entries]⟩
  | node l r ihl ihr =>
    obtain ⟨sl, vl, h1, h2, h3, h4⟩ := ihl
    obtain ⟨sr, vr, k1, k2, k3, k4⟩ := ihr
    simp only [Tree.map, Tree.combine, h1, k1, Tree.leaves, List.flatMap_append]
    generalize t1 : l.leaves.flatMap (MaxPart.entries e) = A at *
    generalize t2 : r.leaves.flatMap (MaxPart.entries e) = B at *
    have hc : sl.value.compat sr.value = true := by rw [h2, k2]; simp [Ten.compat]
    unfold Maximum.combine
    rw [if_neg (by simp [hc])]
    by_cases hA : A = []
    · subst hA
      rw [if_pos (by simpa using h3)]
      exact ⟨sr, vr, rfl, k2, by simpa using k3, by simpa using k4⟩
    · have hAl : 0 < A.length := List.length_pos_of_ne_nil hA
      rw [if_neg (by omega)]
      by_cases hB : B = []
      · subst hB
        rw [if_pos (by simpa using k3)]
        exact ⟨sl, vl, rfl, h2, by simpa using h3, by simpa using h4⟩
      · have hBl : 0 < B.length := List.length_pos_of_ne_nil hB
        rw [if_neg (by omega)]
        refine ⟨⟨⟨[], m.1, m.2, [max vl vr]⟩, sl.validCount + sr.validCount⟩, max vl vr, ?_, rfl, ?_, ?_⟩
        · unfold Maximum.mk?
          rw [if_neg (by omega), h2, k2]
          rfl
        · simp only [List.length_append]; omega
        · intro _; rw [top_append, h4 hA, k4 hB]

/-- `Maximum`: for every split, order and grouping (and any number of replayed parts anywhere) the
combination succeeds and finalises to the greatest entry of all rows; it is an error exactly when there
is no entry. -/
theorem C08_maximum {Row : Type} (m : String × String) (e : Row → List ℚ) (t : Tree (MaxPart Row)) :
    ∃ s, (t.map (maxStat m e)).combine Maximum.combine = .ok s ∧
      ((∃ x, x ∈ t.leaves.flatMap (MaxPart.entries e)) →
        ∃ v : ℚ, s.finalize = .ok ⟨[], m.1, m.2, [(v : WithBot ℚ)]⟩ ∧
          v ∈ t.leaves.flatMap (MaxPart.entries e) ∧
          ∀ x ∈ t.leaves.flatMap (MaxPart.entries e), x ≤ v) ∧
      ((¬ ∃ x, x ∈ t.leaves.flatMap (MaxPart.entries e)) → ∃ er, s.finalize = .error er) := by
  obtain ⟨s, v, h1, h2, h3, h4⟩ := maxStat_tree m e t
  generalize t.leaves.flatMap (MaxPart.entries e) = A at *
  refine ⟨s, h1, ?_, ?_⟩
  · rintro ⟨x, hx⟩
    have hne : A ≠ [] := List.ne_nil_of_mem hx
    obtain ⟨y, hy, hye⟩ := top_mem A hne
    refine ⟨y, ?_, hy, ?_⟩
    · unfold Maximum.finalize
      have := List.length_pos_of_ne_nil hne
      rw [if_neg (by omega), h2, h4 hne, hye]
    · intro z hz
      have := top_le A z hz
      rw [hye] at this
      exact WithBot.coe_le_coe.mp this
  · intro hn
    have : A = [] := List.eq_nil_iff_forall_not_mem.mpr (fun x hx => hn ⟨x, hx⟩)
    subst this
    unfold Maximum.finalize
    rw [if_pos (by simpa using h3)]
    exact ⟨_, rfl⟩

end Verif.Stats
