/-
Lemmas about the model of the chained optimizer.
-/
import Verif.Utils.Chained
import Mathlib.Tactic.SplitIfs
import Mathlib.Tactic.Linarith
import Mathlib.Data.List.Nodup
import Mathlib.Algebra.BigOperators.Group.List.Basic

namespace Verif.Utils

/-- The parameters of a list whose first accepting spec is the `i`-th. -/
def sel (specs : List Spec) (i : Nat) (ps : List P) : List P :=
  ps.filter fun p => decide (firstMatch 0 p specs = some i)

theorem firstMatch_bound (p : P) (specs : List Spec) (k i : Nat)
    (h : firstMatch k p specs = some i) : k ≤ i ∧ i < k + specs.length := by
  induction specs generalizing k with
  | nil => simp [firstMatch] at h
  | cons s specs ih =>
    simp only [firstMatch] at h
    split_ifs at h
    · simp only [Option.some.injEq] at h
      subst h
      simp
    · have := ih (k + 1) h
      simp only [List.length_cons]
      omega

theorem appendAt_length (i : Nat) (p : P) (acc : List (List P)) :
    (appendAt i p acc).length = acc.length := by
  induction acc generalizing i with
  | nil => simp [appendAt]
  | cons l ls ih => cases i <;> simp [appendAt, ih]

theorem appendAt_get (i : Nat) (p : P) (acc : List (List P)) (j : Nat) :
    (appendAt i p acc)[j]? = acc[j]?.map fun l => if j = i then l ++ [p] else l := by
  induction acc generalizing i j with
  | nil => simp [appendAt]
  | cons l ls ih =>
    cases i with
    | zero => cases j <;> simp [appendAt]
    | succ i =>
      cases j with
      | zero => simp [appendAt]
      | succ j => simp [appendAt, ih]

theorem assign_length (specs : List Spec) (gidx : Nat → Nat) (ps : List P) (acc : List (List P))
    (idx : List (Nat × Nat)) : (assign specs gidx ps acc idx).1.length = acc.length := by
  induction ps generalizing acc idx with
  | nil => rfl
  | cons p ps ih =>
    simp only [assign]
    cases firstMatch 0 p specs with
    | none => rfl
    | some i => simp only [ih, appendAt_length]

theorem assign_ok (specs : List Spec) (gidx : Nat → Nat) (ps : List P) (acc : List (List P))
    (idx : List (Nat × Nat)) :
    (assign specs gidx ps acc idx).2.2 = true ↔ ∀ p ∈ ps, ∃ i, firstMatch 0 p specs = some i := by
  induction ps generalizing acc idx with
  | nil => simp [assign]
  | cons p ps ih =>
    simp only [assign]
    cases h : firstMatch 0 p specs with
    | none =>
      simp only [Bool.false_eq_true, List.mem_cons, forall_eq_or_imp, h, reduceCtorEq, exists_false,
        false_and]
    | some i =>
      simp only [ih, List.mem_cons, forall_eq_or_imp, h, Option.some.injEq, exists_eq', true_and]

theorem assign_get (specs : List Spec) (gidx : Nat → Nat) (ps : List P) (acc : List (List P))
    (idx : List (Nat × Nat)) (hok : (assign specs gidx ps acc idx).2.2 = true) (j : Nat) :
    (assign specs gidx ps acc idx).1[j]? = acc[j]?.map fun l => l ++ sel specs j ps := by
  induction ps generalizing acc idx with
  | nil => simp [assign, sel]
  | cons p ps ih =>
    simp only [assign] at hok ⊢
    cases h : firstMatch 0 p specs with
    | none => simp [h] at hok
    | some i =>
      simp only [h] at hok ⊢
      rw [ih _ _ hok, appendAt_get, Option.map_map]
      congr 1
      funext l
      simp only [Function.comp, sel, List.filter_cons, h, Option.some.injEq]
      by_cases hj : j = i
      · simp [hj]
      · simp [hj, Ne.symm hj]

theorem assign_idx (specs : List Spec) (gidx : Nat → Nat) (ps : List P) (acc : List (List P))
    (idx : List (Nat × Nat)) (hok : (assign specs gidx ps acc idx).2.2 = true) (x : Nat × Nat) :
    x ∈ (assign specs gidx ps acc idx).2.1 ↔
      x ∈ idx ∨ (x.2 = gidx x.1 ∧ sel specs x.1 ps ≠ []) := by
  induction ps generalizing acc idx with
  | nil => simp [assign, sel]
  | cons p ps ih =>
    simp only [assign] at hok ⊢
    cases h : firstMatch 0 p specs with
    | none => simp [h] at hok
    | some i =>
      simp only [h] at hok ⊢
      rw [ih _ _ hok]
      have hmem : x ∈ (if (i, gidx i) ∈ idx then idx else idx ++ [(i, gidx i)]) ↔
          x ∈ idx ∨ x = (i, gidx i) := by
        split_ifs with hin
        · constructor
          · exact Or.inl
          · rintro (h | rfl)
            · exact h
            · exact hin
        · simp
      rw [hmem]
      obtain ⟨a, b⟩ := x
      simp only [sel, List.filter_cons, h, Option.some.injEq, Prod.mk.injEq]
      by_cases ha : a = i
      · subst ha
        simp
        tauto
      · simp [ha, Ne.symm ha]

/-! ### Sub-optimizer learning rates -/

/-- Rewrite every sub-group's learning rate. -/
def relabel (f : Nat → Nat → Int → Int) (subs : List Sub) : List Sub :=
  subs.mapIdx fun o s =>
    { s with groups := s.groups.mapIdx fun g sg => { sg with lr := f o g sg.lr } }

theorem relabel_relabel (f f' : Nat → Nat → Int → Int) (subs : List Sub) :
    relabel f (relabel f' subs) = relabel (fun o g l => f o g (f' o g l)) subs := by
  unfold relabel
  rw [List.mapIdx_mapIdx]
  congr 1
  funext o s
  simp only [Function.comp_def, List.mapIdx_mapIdx]

theorem mapIdx_id (l : List SubGroup) :
    l.mapIdx (fun _ sg => ({ sg with lr := sg.lr } : SubGroup)) = l := by
  apply List.ext_getElem
  · simp
  · intro j _ _
    simp

theorem relabel_id (subs : List Sub) : relabel (fun _ _ l => l) subs = subs := by
  unfold relabel
  apply List.ext_getElem
  · simp
  · intro i h1 h2
    simp only [List.getElem_mapIdx]
    rw [mapIdx_id]

/-- `(o, g)` names an existing sub-optimizer group. -/
def Valid (subs : List Sub) (x : Nat × Nat) : Prop :=
  ∃ s, subs[x.1]? = some s ∧ x.2 < s.groups.length

theorem valid_relabel (f : Nat → Nat → Int → Int) (subs : List Sub) (x : Nat × Nat) :
    Valid (relabel f subs) x ↔ Valid subs x := by
  unfold Valid relabel
  rw [List.getElem?_mapIdx]
  cases subs[x.1]? <;> simp

theorem setSubLr_eq (subs : List Sub) (o g : Nat) (lr : Int) (hv : Valid subs (o, g)) :
    setSubLr subs o g lr
      = some (relabel (fun o' g' l => if (o', g') = (o, g) then lr else l) subs) := by
  obtain ⟨s, hs, hg⟩ := hv
  simp only at hs hg
  unfold setSubLr
  rw [hs]
  simp only [List.getElem?_eq_getElem hg, Option.some.injEq]
  unfold relabel
  obtain ⟨ho, hso⟩ := List.getElem?_eq_some_iff.mp hs
  apply List.ext_getElem
  · simp
  · intro i h1 h2
    simp only [List.getElem_mapIdx, List.getElem_set]
    by_cases hi : o = i
    · subst hi
      simp only [if_true, hso]
      congr 1
      apply List.ext_getElem
      · simp
      · intro j h3 h4
        simp only [List.getElem_set, List.getElem_mapIdx, Prod.mk.injEq, true_and]
        by_cases hj : g = j
        · subst hj
          simp
        · simp [hj, Ne.symm hj]
    · simp only [hi, if_false, Prod.mk.injEq, Ne.symm hi, false_and]
      rw [mapIdx_id]

theorem copyGroup_eq (lr : Int) (idx : List (Nat × Nat)) (subs : List Sub)
    (hv : ∀ x ∈ idx, Valid subs x) :
    copyGroup lr idx subs = some (relabel (fun o g l => if (o, g) ∈ idx then lr else l) subs) := by
  induction idx generalizing subs with
  | nil => simp [copyGroup, relabel_id]
  | cons x idx ih =>
    obtain ⟨o, g⟩ := x
    simp only [copyGroup]
    rw [setSubLr_eq _ _ _ _ (hv (o, g) List.mem_cons_self)]
    simp only
    rw [ih _ (fun x hx => (valid_relabel _ _ _).mpr (hv x (List.mem_cons_of_mem _ hx))),
      relabel_relabel]
    congr 2
    funext o' g' l
    by_cases h1 : (o', g') ∈ idx
    · simp [h1]
    · by_cases h2 : (o', g') = (o, g) <;> simp [h1, h2]

/-- The learning rate `copyLr` leaves at `(o, g)`: the last outer group naming it wins. -/
def lastLr (gs : List Group) (o g : Nat) (l : Int) : Int :=
  match gs with
  | [] => l
  | gr :: grs => lastLr grs o g (if (o, g) ∈ gr.indices then gr.lr else l)

theorem copyLr_eq (gs : List Group) (subs : List Sub)
    (hv : ∀ gr ∈ gs, ∀ x ∈ gr.indices, Valid subs x) :
    copyLr gs subs = some (relabel (lastLr gs) subs) := by
  induction gs generalizing subs with
  | nil =>
    simp only [copyLr]
    congr 1
    exact (relabel_id subs).symm
  | cons gr gs ih =>
    simp only [copyLr]
    rw [copyGroup_eq _ _ _ (hv gr List.mem_cons_self)]
    simp only
    rw [ih _ (fun g hg x hx => (valid_relabel _ _ _).mpr (hv g (List.mem_cons_of_mem _ hg) x hx)),
      relabel_relabel]
    rfl

/-- All parameters of a sub-optimizer, in order. -/
def Sub.params (s : Sub) : List P := s.groups.flatMap SubGroup.params

theorem mapIdx_params (f : Nat → Int → Int) (gs : List SubGroup) :
    (gs.mapIdx fun g sg => ({ sg with lr := f g sg.lr } : SubGroup)).map SubGroup.params
      = gs.map SubGroup.params := by
  apply List.ext_getElem
  · simp
  · intro i h1 h2
    simp

theorem relabel_get (f : Nat → Nat → Int → Int) (subs : List Sub) (i : Nat) :
    (relabel f subs)[i]?.map Sub.params = subs[i]?.map Sub.params := by
  unfold relabel
  rw [List.getElem?_mapIdx]
  cases subs[i]? with
  | none => rfl
  | some s =>
    simp only [Option.map_some, Option.some.injEq, Sub.params]
    rw [List.flatMap_def, mapIdx_params, ← List.flatMap_def]

theorem relabel_map_params (f : Nat → Nat → Int → Int) (subs : List Sub) :
    (relabel f subs).map Sub.params = subs.map Sub.params := by
  apply List.ext_getElem?
  intro i
  rw [List.getElem?_map, List.getElem?_map, relabel_get]

theorem updates_fst (subs : List Sub) :
    (updates subs).map Prod.fst = subs.flatMap Sub.params := by
  unfold updates Sub.params
  rw [List.map_flatMap]
  congr 1
  funext s
  rw [List.map_flatMap]
  congr 1
  funext g
  simp [List.map_map, Function.comp_def]

/-! ### Perm of the classes -/

theorem classes_perm (specs : List Spec) (l : List P)
    (h : ∀ p ∈ l, ∃ i, firstMatch 0 p specs = some i) :
    ((List.range specs.length).flatMap fun i => sel specs i l).Perm l := by
  rw [List.perm_iff_count]
  intro a
  rw [List.count_flatMap]
  by_cases ha : a ∈ l
  · obtain ⟨i, hi⟩ := h a ha
    have hib := (firstMatch_bound a specs 0 i hi).2
    rw [Nat.zero_add] at hib
    have e : ∀ j, (List.count a ∘ fun i => sel specs i l) j = if j = i then List.count a l else 0 := by
      intro j
      simp only [Function.comp, sel]
      by_cases hj : j = i
      · subst hj
        rw [if_pos rfl, List.count_filter (by simp [hi])]
      · rw [if_neg hj, List.count_eq_zero]
        simp only [List.mem_filter, hi, Option.some.injEq, decide_eq_true_eq, not_and]
        intro _ hc
        exact hj hc.symm
    rw [List.map_congr_left (fun j _ => e j)]
    generalize List.count a l = c
    generalize specs.length = n at hib
    clear e hi ha h
    induction n with
    | zero => omega
    | succ n ih =>
      rw [List.range_succ, List.map_append, List.sum_append]
      by_cases hn : i < n
      · rw [ih hn]
        have : n ≠ i := by omega
        simp [this]
      · have hin : i = n := by omega
        subst hin
        have : (List.map (fun j => if j = i then c else 0) (List.range i)).sum = 0 := by
          apply List.sum_eq_zero
          intro x hx
          simp only [List.mem_map, List.mem_range] at hx
          obtain ⟨y, hy, rfl⟩ := hx
          rw [if_neg (by omega)]
        simp [this]
  · rw [List.count_eq_zero.mpr ha]
    apply List.sum_eq_zero
    intro x hx
    simp only [List.mem_map, Function.comp] at hx
    obtain ⟨y, -, rfl⟩ := hx
    rw [List.count_eq_zero]
    simp [sel, ha]

end Verif.Utils
