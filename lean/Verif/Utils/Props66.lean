/-
C66: the chained optimizer updates every parameter exactly once.
-/
import Verif.Utils.ChainedLemmas

namespace Verif.Utils

/-! ### Specification -/

/-- All parameters handed to the chained optimizer, group after group. -/
def Chained.outer (c : Chained) : List P := c.groups.flatMap Group.params

/-- `i` is the first spec accepting `p`. -/
def FirstAccepting (specs : List Spec) (p : P) (i : Nat) : Prop :=
  (∃ s, specs[i]? = some s ∧ s.accepts p = true) ∧
    ∀ j s, j < i → specs[j]? = some s → s.accepts p = false

/-- States reachable from a construction with the initial groups `gs0`: groups added later (calls
that returned), steps, and learning rates set by a scheduler. -/
inductive Reachable (specs : List Spec) (lr : Int) (gs0 : List (List P × Int)) : Chained → Prop
  | init (c : Chained) (h : Chained.init specs lr gs0 = some c) : Reachable specs lr gs0 c
  | add (c : Chained) (ps : List P) (l : Int) (hr : Reachable specs lr gs0 c)
      (h : (c.add ps l).2 = true) : Reachable specs lr gs0 (c.add ps l).1
  | step (c c' : Chained) (ups : List (P × Int)) (hr : Reachable specs lr gs0 c)
      (h : c.step = some (c', ups)) : Reachable specs lr gs0 c'
  | setLr (c : Chained) (g : Nat) (l : Int) (hr : Reachable specs lr gs0 c) :
      Reachable specs lr gs0 (c.setLr g l)

/-! ### Invariant -/

theorem firstMatch_iff (specs : List Spec) (p : P) (k i : Nat) :
    firstMatch k p specs = some (k + i) ↔ FirstAccepting specs p i := by
  induction specs generalizing k i with
  | nil => simp [firstMatch, FirstAccepting]
  | cons s specs ih =>
    simp only [firstMatch]
    by_cases hs : s.accepts p = true
    · simp only [hs, if_true, Option.some.injEq]
      constructor
      · intro h
        have : i = 0 := by omega
        subst this
        exact ⟨⟨s, rfl, hs⟩, fun j s hj => by omega⟩
      · rintro ⟨-, h⟩
        rcases Nat.eq_zero_or_pos i with h0 | h0
        · omega
        · have := h 0 s h0 rfl
          simp [hs] at this
    · simp only [hs, if_false, Bool.false_eq_true]
      cases i with
      | zero =>
        constructor
        · intro h
          have := (firstMatch_bound p specs (k + 1) _ h).1
          omega
        · rintro ⟨⟨s', h1, h2⟩, -⟩
          simp only [List.getElem?_cons_zero, Option.some.injEq] at h1
          subst h1
          exact absurd h2 hs
      | succ i =>
        have hk : k + (i + 1) = k + 1 + i := by omega
        rw [hk, ih (k + 1) i]
        unfold FirstAccepting
        constructor
        · rintro ⟨h1, h2⟩
          refine ⟨by simpa using h1, ?_⟩
          intro j s' hj hs'
          cases j with
          | zero =>
            simp only [List.getElem?_cons_zero, Option.some.injEq] at hs'
            subst hs'
            simpa using hs
          | succ j => exact h2 j s' (by omega) (by simpa using hs')
        · rintro ⟨h1, h2⟩
          refine ⟨by simpa using h1, ?_⟩
          intro j s' hj hs'
          exact h2 (j + 1) s' (by omega) (by simpa using hs')

structure Inv (c : Chained) : Prop where
  len : c.subs.length = c.specs.length
  matched : ∀ p ∈ c.outer, ∃ i, firstMatch 0 p c.specs = some i
  params : ∀ i s, c.subs[i]? = some s → s.params = sel c.specs i c.outer
  valid : ∀ gr ∈ c.groups, ∀ x ∈ gr.indices, Valid c.subs x

theorem assignAll_some (specs : List Spec) (gs : List (List P × Int)) (acc : List (List P))
    (done : List Group) (acc' : List (List P)) (groups : List Group)
    (h : assignAll specs gs acc done = some (acc', groups)) :
    acc'.length = acc.length ∧
    (∀ p ∈ gs.flatMap Prod.fst, ∃ i, firstMatch 0 p specs = some i) ∧
    (∀ j, acc'[j]? = acc[j]?.map fun l => l ++ sel specs j (gs.flatMap Prod.fst)) ∧
    ∃ new : List Group, groups = done ++ new ∧ new.map (fun g => (g.params, g.lr)) = gs ∧
      ∀ g ∈ new, ∀ x, x ∈ g.indices ↔ (x.2 = 0 ∧ sel specs x.1 g.params ≠ []) := by
  induction gs generalizing acc done with
  | nil =>
    simp only [assignAll, Option.some.injEq, Prod.mk.injEq] at h
    obtain ⟨rfl, rfl⟩ := h
    exact ⟨rfl, by simp, by simp [sel], [], by simp, rfl, by simp⟩
  | cons g gs ih =>
    obtain ⟨ps, lr⟩ := g
    simp only [assignAll] at h
    split_ifs at h with hok
    obtain ⟨h1, h2, h3, new, h4, h5, h6⟩ := ih _ _ h
    refine ⟨by rw [h1, assign_length], ?_, ?_, ⟨⟨ps, lr, _⟩ :: new, by rw [h4, List.append_assoc]; rfl,
      by rw [List.map_cons, h5], ?_⟩⟩
    · intro p hp
      simp only [List.flatMap_cons, List.mem_append] at hp
      rcases hp with hp | hp
      · exact (assign_ok _ _ _ _ _).mp hok p hp
      · exact h2 p hp
    · intro j
      rw [h3 j, assign_get _ _ _ _ _ hok, Option.map_map]
      congr 1
      funext l
      simp [sel]
    · intro g hg x
      rcases List.mem_cons.mp hg with rfl | hg
      · rw [assign_idx _ _ _ _ _ hok]
        simp
      · exact h6 g hg x

theorem buildSubs_some (lr : Int) (specs : List Spec) (acc : List (List P)) (subs : List Sub)
    (hl : acc.length = specs.length) (h : buildSubs lr specs acc = some subs) :
    subs.length = specs.length ∧ ∀ (i : Nat) (s : Sub), subs[i]? = some s → ∃ ps, acc[i]? = some ps ∧ ps ≠ [] ∧
      s.groups = [⟨ps, s.defaultLr⟩] := by
  induction specs generalizing acc subs with
  | nil =>
    simp only [buildSubs, Option.some.injEq] at h
    subst h
    simp
  | cons sp specs ih =>
    cases acc with
    | nil => simp at hl
    | cons ps acc =>
      simp only [buildSubs] at h
      split_ifs at h with hps
      cases hb : buildSubs lr specs acc with
      | none => simp [hb] at h
      | some rest =>
        simp only [hb, Option.some.injEq] at h
        subst h
        obtain ⟨h1, h2⟩ := ih acc rest (by simpa using hl) hb
        refine ⟨by simp [h1], ?_⟩
        intro i s hs
        cases i with
        | zero =>
          simp only [List.getElem?_cons_zero, Option.some.injEq] at hs
          subst hs
          exact ⟨ps, rfl, hps, rfl⟩
        | succ i =>
          simp only [List.getElem?_cons_succ] at hs ⊢
          exact h2 i s hs

theorem buildSubs_iff (lr : Int) (specs : List Spec) (acc : List (List P))
    (hl : acc.length = specs.length) :
    (∃ subs, buildSubs lr specs acc = some subs) ↔ ∀ (i : Nat) (ps : List P), acc[i]? = some ps → ps ≠ [] := by
  induction specs generalizing acc with
  | nil =>
    cases acc with
    | nil => simp [buildSubs]
    | cons _ _ => simp at hl
  | cons sp specs ih =>
    cases acc with
    | nil => simp at hl
    | cons ps acc =>
      simp only [buildSubs]
      have hi := ih acc (by simpa using hl)
      constructor
      · rintro ⟨subs, h⟩ i qs hq
        split_ifs at h with hps
        cases hb : buildSubs lr specs acc with
        | none => simp [hb] at h
        | some rest =>
          cases i with
          | zero =>
            simp only [List.getElem?_cons_zero, Option.some.injEq] at hq
            subst hq
            exact hps
          | succ i => exact hi.mp ⟨rest, hb⟩ i qs (by simpa using hq)
      · intro h
        obtain ⟨rest, hr⟩ := hi.mpr (fun i qs hq => h (i + 1) qs (by simpa using hq))
        rw [if_neg (h 0 ps rfl), hr]
        exact ⟨_, rfl⟩

theorem empties_get (specs : List Spec) (j : Nat) :
    (specs.map fun _ => ([] : List P))[j]? = if j < specs.length then some [] else none := by
  rw [List.getElem?_map]
  split_ifs with h
  · simp [List.getElem?_eq_getElem h]
  · simp [List.getElem?_eq_none (Nat.le_of_not_lt h)]

theorem sel_ne_nil {specs : List Spec} {i : Nat} {ps : List P} (h : sel specs i ps ≠ []) :
    i < specs.length := by
  obtain ⟨p, hp⟩ := List.exists_mem_of_ne_nil _ h
  simp only [sel, List.mem_filter, decide_eq_true_eq] at hp
  have := (firstMatch_bound p specs 0 i hp.2).2
  omega

/-- What a successful construction looks like. -/
theorem init_some (specs : List Spec) (lr : Int) (gs : List (List P × Int)) (c : Chained)
    (h : Chained.init specs lr gs = some c) :
    gs ≠ [] ∧ baseInit gs [] = true ∧ c.specs = specs ∧
    c.groups.map (fun g => (g.params, g.lr)) = gs ∧
    c.subs.length = specs.length ∧
    (∀ p ∈ gs.flatMap Prod.fst, ∃ i, firstMatch 0 p specs = some i) ∧
    (∀ i s, c.subs[i]? = some s → sel specs i (gs.flatMap Prod.fst) ≠ [] ∧
      s.groups = [⟨sel specs i (gs.flatMap Prod.fst), s.defaultLr⟩]) ∧
    (∀ g ∈ c.groups, ∀ x, x ∈ g.indices ↔ (x.2 = 0 ∧ sel specs x.1 g.params ≠ [])) := by
  unfold Chained.init at h
  split_ifs at h with h1 h2
  cases ha : assignAll specs gs (specs.map fun _ => []) [] with
  | none => simp only [ha, reduceCtorEq] at h
  | some r =>
    obtain ⟨acc, groups⟩ := r
    simp only [ha] at h
    cases hb : buildSubs lr specs acc with
    | none => simp [hb] at h
    | some subs =>
      simp only [hb, Option.some.injEq] at h
      subst h
      obtain ⟨a1, a2, a3, new, a4, a5, a6⟩ := assignAll_some _ _ _ _ _ _ ha
      rw [List.nil_append] at a4
      subst a4
      rw [List.length_map] at a1
      obtain ⟨b1, b2⟩ := buildSubs_some lr specs acc subs a1 hb
      refine ⟨h1, h2, rfl, a5, b1, a2, ?_, a6⟩
      intro i s hs
      obtain ⟨ps, c1, c2, c3⟩ := b2 i s hs
      rw [a3, empties_get] at c1
      split_ifs at c1 with hi
      · simp only [Option.map_some, List.nil_append, Option.some.injEq] at c1
        subst c1
        exact ⟨c2, c3⟩
      · simp at c1

theorem outer_of_groups (gs : List Group) (gs0 : List (List P × Int))
    (h : gs.map (fun g => (g.params, g.lr)) = gs0) :
    gs.flatMap Group.params = gs0.flatMap Prod.fst := by
  subst h
  simp [List.flatMap_map]

theorem inv_init (specs : List Spec) (lr : Int) (gs : List (List P × Int)) (c : Chained)
    (h : Chained.init specs lr gs = some c) : Inv c := by
  obtain ⟨-, -, hs, hg, hl, hm, hp, hi⟩ := init_some specs lr gs c h
  have ho : c.outer = gs.flatMap Prod.fst := outer_of_groups _ _ hg
  refine ⟨by rw [hl, hs], by rw [ho, hs]; exact hm, ?_, ?_⟩
  · intro i s his
    rw [ho, hs]
    unfold Sub.params
    rw [(hp i s his).2]
    simp
  · intro gr hgr x hx
    obtain ⟨h1, h2⟩ := (hi gr hgr x).mp hx
    have hlt : x.1 < c.subs.length := by rw [hl]; exact sel_ne_nil h2
    refine ⟨c.subs[x.1], List.getElem?_eq_getElem hlt, ?_⟩
    rw [(hp x.1 _ (List.getElem?_eq_getElem hlt)).2, h1]
    simp

theorem addSelected_get (subs : List Sub) (pss : List (List P)) (i : Nat)
    (hl : subs.length = pss.length) :
    (addSelected subs pss)[i]? = match subs[i]?, pss[i]? with
      | some s, some ps =>
        some (if ps = [] then s else { s with groups := s.groups ++ [⟨ps, s.defaultLr⟩] })
      | _, _ => none := by
  induction subs generalizing pss i with
  | nil => simp [addSelected]
  | cons s subs ih =>
    cases pss with
    | nil => simp at hl
    | cons ps pss =>
      cases i with
      | zero => simp [addSelected]
      | succ i => simpa [addSelected] using ih pss i (by simpa using hl)

theorem addSelected_length (subs : List Sub) (pss : List (List P)) :
    (addSelected subs pss).length = subs.length := by
  induction subs generalizing pss with
  | nil => simp [addSelected]
  | cons s subs ih => cases pss <;> simp [addSelected, ih]

/-- What a successful `add_param_group` does. -/
theorem add_some (c : Chained) (ps : List P) (l : Int) (hlen : c.subs.length = c.specs.length)
    (h : (c.add ps l).2 = true) :
    disjointFrom ps (c.groups.map Group.params) = true ∧
    (∀ p ∈ ps, ∃ i, firstMatch 0 p c.specs = some i) ∧
    ∃ idx, (c.add ps l).1 = { c with
        groups := c.groups ++ [⟨ps, l, idx⟩], subs := (c.add ps l).1.subs } ∧
      (∀ x, x ∈ idx ↔ (x.2 = groupCount c.subs x.1 ∧ sel c.specs x.1 ps ≠ [])) ∧
      (c.add ps l).1.subs.length = c.subs.length ∧
      ∀ i, (c.add ps l).1.subs[i]? = c.subs[i]?.map fun s =>
        if sel c.specs i ps = [] then s
        else { s with groups := s.groups ++ [⟨sel c.specs i ps, s.defaultLr⟩] } := by
  unfold Chained.add at *
  by_cases hd : disjointFrom ps (c.groups.map Group.params) = true
  · simp only [hd, if_true] at h ⊢
    by_cases hok : (assign c.specs (groupCount c.subs) ps (c.specs.map fun _ => []) []).2.2 = true
    · simp only [hok, if_true] at h ⊢
      refine ⟨trivial, (assign_ok _ _ _ _ _).mp hok, _, rfl, ?_, addSelected_length _ _, ?_⟩
      · intro x
        rw [assign_idx _ _ _ _ _ hok]
        simp
      · intro i
        rw [addSelected_get _ _ _ (by rw [assign_length, List.length_map, hlen]),
          assign_get _ _ _ _ _ hok, empties_get, ← hlen]
        by_cases hi : i < c.subs.length
        · rw [if_pos hi, List.getElem?_eq_getElem hi]
          simp
        · rw [if_neg hi, List.getElem?_eq_none (Nat.le_of_not_lt hi)]
          simp
    · simp only [hok, if_false, Bool.false_eq_true] at h
  · simp [hd] at h

theorem inv_add (c : Chained) (ps : List P) (l : Int) (hi : Inv c) (h : (c.add ps l).2 = true) :
    Inv (c.add ps l).1 := by
  obtain ⟨-, hm, idx, he, hidx, hlen, hget⟩ := add_some c ps l hi.len h
  generalize (c.add ps l).1 = c' at *
  have hspec : c'.specs = c.specs := by rw [he]
  have hgr : c'.groups = c.groups ++ [⟨ps, l, idx⟩] := by rw [he]
  have hout : c'.outer = c.outer ++ ps := by
    unfold Chained.outer
    rw [hgr]
    simp
  refine ⟨by rw [hlen, hi.len, hspec], ?_, ?_, ?_⟩
  · intro p hp
    rw [hout] at hp
    rw [hspec]
    rcases List.mem_append.mp hp with hp | hp
    · exact hi.matched p hp
    · exact hm p hp
  · intro i s hs
    rw [hget i] at hs
    cases hc : c.subs[i]? with
    | none => simp [hc] at hs
    | some s0 =>
      simp only [hc, Option.map_some, Option.some.injEq] at hs
      have h0 := hi.params i s0 hc
      rw [hspec, hout]
      unfold sel at *
      rw [List.filter_append, ← h0]
      split_ifs at hs with hsel
      · subst hs
        rw [hsel, List.append_nil]
      · subst hs
        simp [Sub.params]
  · intro gr hg x hx
    rw [hgr] at hg
    rcases List.mem_append.mp hg with hg | hg
    · obtain ⟨s, h1, h2⟩ := hi.valid gr hg x hx
      unfold Valid
      rw [hget x.1, h1]
      refine ⟨_, rfl, ?_⟩
      split_ifs
      · exact h2
      · simp
        omega
    · simp only [List.mem_singleton] at hg
      subst hg
      obtain ⟨h1, h2⟩ := (hidx x).mp hx
      have hlt : x.1 < c.subs.length := by rw [hi.len]; exact sel_ne_nil h2
      unfold Valid
      rw [hget x.1, List.getElem?_eq_getElem hlt]
      refine ⟨_, rfl, ?_⟩
      simp only
      rw [if_neg h2, h1]
      simp [groupCount, List.getElem?_eq_getElem hlt]

theorem inv_relabel (c : Chained) (f : Nat → Nat → Int → Int) (hi : Inv c) :
    Inv { c with subs := relabel f c.subs } := by
  refine ⟨by simpa [relabel] using hi.len, hi.matched, ?_, ?_⟩
  · intro i s hs
    have h1 := relabel_get f c.subs i
    simp only at hs
    rw [hs] at h1
    cases hc : c.subs[i]? with
    | none => simp [hc] at h1
    | some s0 =>
      simp only [hc, Option.map_some, Option.some.injEq] at h1
      rw [h1]
      exact hi.params i s0 hc
  · intro gr hg x hx
    exact (valid_relabel _ _ _).mpr (hi.valid gr hg x hx)

theorem step_eq (c : Chained) (hi : Inv c) :
    c.step = some ({ c with subs := relabel (lastLr c.groups) c.subs },
      updates (relabel (lastLr c.groups) c.subs)) := by
  unfold Chained.step
  rw [copyLr_eq _ _ hi.valid]

theorem setLr_shape (c : Chained) (g : Nat) (l : Int) :
    (c.setLr g l).specs = c.specs ∧ (c.setLr g l).subs = c.subs ∧
    (c.setLr g l).groups.map (fun x => (x.params, x.indices))
      = c.groups.map (fun x => (x.params, x.indices)) := by
  unfold Chained.setLr
  cases h : c.groups[g]? with
  | none => simp
  | some gr =>
    refine ⟨rfl, rfl, ?_⟩
    obtain ⟨hg, rfl⟩ := List.getElem?_eq_some_iff.mp h
    apply List.ext_getElem
    · simp
    · intro i h1 h2
      simp only [List.getElem_map, List.getElem_set]
      split_ifs with h3
      · subst h3
        rfl
      · rfl

theorem outer_shape (c c' : Chained)
    (h : c'.groups.map (fun x => (x.params, x.indices))
      = c.groups.map (fun x => (x.params, x.indices))) : c'.outer = c.outer := by
  unfold Chained.outer
  have := congrArg (fun l => l.flatMap Prod.fst) h
  simpa [List.flatMap_map] using this

theorem inv_setLr (c : Chained) (g : Nat) (l : Int) (hi : Inv c) : Inv (c.setLr g l) := by
  obtain ⟨h1, h2, h3⟩ := setLr_shape c g l
  have ho := outer_shape c _ h3
  refine ⟨by rw [h1, h2]; exact hi.len, by rw [ho, h1]; exact hi.matched,
    by rw [h1, h2, ho]; exact hi.params, ?_⟩
  intro gr hgr x hx
  rw [h2]
  have hmem : (gr.params, gr.indices) ∈ c.groups.map (fun x => (x.params, x.indices)) := by
    rw [← h3]
    exact List.mem_map_of_mem hgr (f := fun x : Group => (x.params, x.indices))
  obtain ⟨gr', hgr', he⟩ := List.mem_map.mp hmem
  simp only [Prod.mk.injEq] at he
  exact hi.valid gr' hgr' x (by rw [he.2]; exact hx)

theorem reachable_inv {specs : List Spec} {lr : Int} {gs0 : List (List P × Int)} {c : Chained}
    (h : Reachable specs lr gs0 c) : Inv c ∧ c.specs = specs := by
  induction h with
  | init c h => exact ⟨inv_init _ _ _ _ h, (init_some _ _ _ _ h).2.2.1⟩
  | add c ps l hr h ih =>
    refine ⟨inv_add c ps l ih.1 h, ?_⟩
    obtain ⟨-, -, idx, he, -⟩ := add_some c ps l ih.1.len h
    rw [he]
    exact ih.2
  | step c c' ups hr h ih =>
    rw [step_eq c ih.1] at h
    simp only [Option.some.injEq, Prod.mk.injEq] at h
    rw [← h.1]
    exact ⟨inv_relabel c _ ih.1, ih.2⟩
  | setLr c g l hr ih => exact ⟨inv_setLr c g l ih.1, by rw [(setLr_shape c g l).1]; exact ih.2⟩

/-! ### Theorems -/

theorem subs_params_perm {c : Chained} (hi : Inv c) :
    (c.subs.flatMap Sub.params).Perm c.outer := by
  have : c.subs.map Sub.params = (List.range c.specs.length).map fun i => sel c.specs i c.outer := by
    apply List.ext_getElem
    · simp [hi.len]
    · intro i h1 h2
      simp only [List.length_map] at h1
      simp only [List.getElem_map, List.getElem_range]
      exact hi.params i _ (List.getElem?_eq_getElem h1)
  rw [List.flatMap_def, this, ← List.flatMap_def]
  exact classes_perm _ _ hi.matched

/-- **C66 (each parameter in the first accepting sub-optimizer, in order).** In every reachable
state the `i`-th sub-optimizer holds exactly the parameters whose first accepting spec is the
`i`-th, in the order they were given. -/
theorem C66_assignment {specs : List Spec} {lr : Int} {gs0 : List (List P × Int)} {c : Chained}
    (h : Reachable specs lr gs0 c) (i : Nat) (s : Sub) (hs : c.subs[i]? = some s) (p : P) :
    (p ∈ s.params ↔ p ∈ c.outer ∧ FirstAccepting specs p i) ∧ s.params.Sublist c.outer := by
  obtain ⟨hi, hsp⟩ := reachable_inv h
  have := hi.params i s hs
  rw [this, hsp]
  constructor
  · unfold sel
    rw [List.mem_filter, decide_eq_true_eq]
    have := firstMatch_iff specs p 0 i
    rw [Nat.zero_add] at this
    rw [this]
  · exact List.filter_sublist

/-- **C66 (partition).** Taken together the sub-optimizers hold every parameter exactly as often
as it was given: nothing dropped, nothing duplicated. -/
theorem C66_partition {specs : List Spec} {lr : Int} {gs0 : List (List P × Int)} {c : Chained}
    (h : Reachable specs lr gs0 c) : (c.subs.flatMap Sub.params).Perm c.outer :=
  subs_params_perm (reachable_inv h).1

/-- **C66 (step).** A step never fails, updates every parameter exactly once per time it was
given, and clears/keeps nothing else; `zero_grad` covers the same parameters. -/
theorem C66_step {specs : List Spec} {lr : Int} {gs0 : List (List P × Int)} {c : Chained}
    (h : Reachable specs lr gs0 c) :
    ∃ c' ups, c.step = some (c', ups) ∧ (ups.map Prod.fst).Perm c.outer ∧
      c.zeroed.Perm c.outer ∧ c'.outer = c.outer := by
  obtain ⟨hi, -⟩ := reachable_inv h
  refine ⟨_, _, step_eq c hi, ?_, ?_, rfl⟩
  · rw [updates_fst]
    exact subs_params_perm (inv_relabel c _ hi)
  · unfold Chained.zeroed
    rw [updates_fst]
    exact subs_params_perm hi

/-- **C66 (exactly once).** With distinct parameters, each is updated exactly once per step. -/
theorem C66_once {specs : List Spec} {lr : Int} {gs0 : List (List P × Int)} {c c' : Chained}
    {ups : List (P × Int)} (h : Reachable specs lr gs0 c) (hn : c.outer.Nodup)
    (hs : c.step = some (c', ups)) (p : P) :
    (ups.map Prod.fst).count p = if p ∈ c.outer then 1 else 0 := by
  obtain ⟨c2, ups2, h1, h2, -⟩ := C66_step h
  rw [hs] at h1
  simp only [Option.some.injEq, Prod.mk.injEq] at h1
  rw [h1.2, h2.count_eq]
  split_ifs with hp
  · exact List.count_eq_one_of_mem hn hp
  · exact List.count_eq_zero.mpr hp

/-- Groups share no parameter with an earlier group. -/
def GroupsDisjoint (gs : List (List P × Int)) : Prop :=
  gs.Pairwise fun a b => ∀ p ∈ b.1, p ∉ a.1

theorem baseInit_iff (gs : List (List P × Int)) (seen : List (List P)) :
    baseInit gs seen = true ↔
      GroupsDisjoint gs ∧ ∀ g ∈ gs, ∀ p ∈ g.1, ∀ q ∈ seen, p ∉ q := by
  induction gs generalizing seen with
  | nil => simp [baseInit, GroupsDisjoint]
  | cons g gs ih =>
    obtain ⟨ps, l⟩ := g
    simp only [baseInit, Bool.and_eq_true, ih, GroupsDisjoint, List.pairwise_cons]
    simp only [disjointFrom, List.all_eq_true, Bool.not_eq_true', List.contains_eq_mem,
      decide_eq_false_iff_not, List.mem_append, List.mem_cons, List.not_mem_nil, or_false]
    constructor
    · rintro ⟨h1, h2, h3⟩
      refine ⟨⟨fun b hb p hp => h3 b hb p hp ps (Or.inr rfl), h2⟩, ?_⟩
      rintro g (rfl | hg) p hp q hq
      · exact h1 p hp q hq
      · exact h3 g hg p hp q (Or.inl hq)
    · rintro ⟨⟨h1, h2⟩, h3⟩
      refine ⟨fun p hp q hq => h3 _ (Or.inl rfl) p hp q hq, h2, ?_⟩
      rintro g hg p hp q (hq | rfl)
      · exact h3 g (Or.inr hg) p hp q hq
      · exact h1 g hg p hp

/-- **C66 (construction).** The constructor accepts exactly: at least one group, groups pairwise
disjoint, every parameter accepted by some spec, and every spec chosen by some parameter. -/
theorem C66_init_iff (specs : List Spec) (lr : Int) (gs : List (List P × Int)) :
    (∃ c, Chained.init specs lr gs = some c) ↔
      gs ≠ [] ∧ GroupsDisjoint gs ∧
      (∀ p ∈ gs.flatMap Prod.fst, ∃ s ∈ specs, s.accepts p = true) ∧
      (∀ i < specs.length, ∃ p ∈ gs.flatMap Prod.fst, FirstAccepting specs p i) := by
  have hbase : baseInit gs [] = true ↔ GroupsDisjoint gs := by simp [baseInit_iff]
  rw [← hbase]
  have hm : ∀ p, (∃ i, firstMatch 0 p specs = some i) ↔ ∃ s ∈ specs, s.accepts p = true := by
    intro p
    generalize 0 = k
    induction specs generalizing k with
    | nil => simp [firstMatch]
    | cons s specs ih =>
      simp only [firstMatch]
      by_cases hs : s.accepts p = true
      · simp [hs]
      · simp only [hs, if_false, Bool.false_eq_true, List.mem_cons, exists_eq_or_imp, false_or]
        exact ih (k + 1)
  have hsel : ∀ i, sel specs i (gs.flatMap Prod.fst) ≠ [] ↔
      ∃ p ∈ gs.flatMap Prod.fst, FirstAccepting specs p i := by
    intro i
    unfold sel
    rw [Ne, List.filter_eq_nil_iff]
    push_neg
    constructor
    · rintro ⟨p, hp, h⟩
      have := (firstMatch_iff specs p 0 i).mp (by simpa using h)
      exact ⟨p, hp, this⟩
    · rintro ⟨p, hp, h⟩
      have := (firstMatch_iff specs p 0 i).mpr h
      exact ⟨p, hp, by simpa using this⟩
  constructor
  · rintro ⟨c, h⟩
    obtain ⟨h1, h2, -, -, h5, h6, h7, -⟩ := init_some specs lr gs c h
    refine ⟨h1, h2, fun p hp => (hm p).mp (h6 p hp), ?_⟩
    intro i hi
    rw [← h5] at hi
    exact (hsel i).mp (h7 i _ (List.getElem?_eq_getElem hi)).1
  · rintro ⟨h1, h2, h3, h4⟩
    unfold Chained.init
    rw [if_neg h1, if_pos h2]
    have hall : ∀ (gs : List (List P × Int)) (acc : List (List P)) (done : List Group),
        (∀ p ∈ gs.flatMap Prod.fst, ∃ i, firstMatch 0 p specs = some i) →
        ∃ r, assignAll specs gs acc done = some r := by
      intro gs
      induction gs with
      | nil => intro acc done _; exact ⟨_, rfl⟩
      | cons g gs ih =>
        intro acc done hg
        obtain ⟨ps, l⟩ := g
        simp only [assignAll]
        have hok : (assign specs (fun _ => 0) ps acc []).2.2 = true :=
          (assign_ok _ _ _ _ _).mpr (fun p hp => hg p (by simp [hp]))
        rw [if_pos hok]
        exact ih _ _ (fun p hp => hg p (by
          simp only [List.flatMap_cons, List.mem_append]; exact Or.inr hp))
    obtain ⟨⟨acc, groups⟩, ha⟩ := hall gs (specs.map fun _ => []) []
      (fun p hp => (hm p).mpr (h3 p hp))
    rw [ha]
    obtain ⟨a1, -, a3, -⟩ := assignAll_some _ _ _ _ _ _ ha
    rw [List.length_map] at a1
    obtain ⟨subs, hb⟩ := (buildSubs_iff lr specs acc a1).mpr (by
      intro i ps hps
      rw [a3, empties_get] at hps
      split_ifs at hps with hi
      · simp only [Option.map_some, List.nil_append, Option.some.injEq] at hps
        subst hps
        exact (hsel i).mpr (h4 i hi)
      · simp at hps)
    simp only [hb]
    exact ⟨_, rfl⟩

/-- **C66 (adding a group).** `add_param_group` returns exactly when the new parameters are in no
existing group and each is accepted by some spec; a rejected overlap changes nothing. -/
theorem C66_add_iff {specs : List Spec} {lr : Int} {gs0 : List (List P × Int)} {c : Chained}
    (_h : Reachable specs lr gs0 c) (ps : List P) (l : Int) :
    ((c.add ps l).2 = true ↔
      (∀ p ∈ ps, p ∉ c.outer) ∧ ∀ p ∈ ps, ∃ i, firstMatch 0 p c.specs = some i) ∧
    ((∃ p ∈ ps, p ∈ c.outer) → (c.add ps l).1 = c) := by
  have hd : disjointFrom ps (c.groups.map Group.params) = true ↔ ∀ p ∈ ps, p ∉ c.outer := by
    unfold disjointFrom Chained.outer
    simp only [List.all_eq_true, List.mem_map, Bool.not_eq_true', List.contains_eq_mem,
      decide_eq_false_iff_not, forall_exists_index, and_imp, forall_apply_eq_imp_iff₂,
      List.mem_flatMap, not_exists, not_and]
  unfold Chained.add
  constructor
  · by_cases h1 : disjointFrom ps (c.groups.map Group.params) = true
    · simp only [h1, if_true]
      rw [← assign_ok c.specs (groupCount c.subs) ps (c.specs.map fun _ => []) []]
      have h2 := hd.mp h1
      by_cases hok : (assign c.specs (groupCount c.subs) ps (c.specs.map fun _ => []) []).2.2 = true
      · simp only [hok, if_true, true_iff, and_true]
        exact h2
      · simp only [hok, if_false, Bool.false_eq_true, and_false]
    · simp only [h1, if_false, Bool.false_eq_true, false_iff, not_and]
      intro h2
      exact absurd (hd.mpr h2) h1
  · rintro ⟨p, hp, ho⟩
    have h1 : ¬ disjointFrom ps (c.groups.map Group.params) = true := fun h => hd.mp h p hp ho
    simp [h1]

/-! ### Learning rates -/

/-- The sub-groups of sub-optimizer `i` are, in order, the non-empty selections of the outer
groups, and each outer group's index set names exactly its own. -/
def Aligned (specs : List Spec) (i : Nat) :
    List (List P × List (Nat × Nat)) → Nat → List (List P) → Prop
  | [], _, ps => ps = []
  | g :: gs, start, ps =>
    (sel specs i g.1 = [] ∧ (∀ j, (i, j) ∉ g.2) ∧ Aligned specs i gs start ps) ∨
    (∃ ps', ps = sel specs i g.1 :: ps' ∧ sel specs i g.1 ≠ [] ∧
      (∀ j, (i, j) ∈ g.2 ↔ j = start) ∧ Aligned specs i gs (start + 1) ps')

theorem aligned_low {specs : List Spec} {i : Nat} {gs : List (List P × List (Nat × Nat))}
    {start : Nat} {ps : List (List P)} (h : Aligned specs i gs start ps) (g) (hg : g ∈ gs) (j : Nat)
    (hj : (i, j) ∈ g.2) : start ≤ j := by
  induction gs generalizing start ps with
  | nil => simp at hg
  | cons g0 gs ih =>
    rcases h with ⟨-, h2, h3⟩ | ⟨ps', -, -, h3, h4⟩
    · rcases List.mem_cons.mp hg with rfl | hg
      · exact absurd hj (h2 j)
      · exact ih h3 hg
    · rcases List.mem_cons.mp hg with rfl | hg
      · exact Nat.le_of_eq ((h3 j).mp hj).symm
      · have := ih h4 hg
        omega

theorem aligned_pos {specs : List Spec} {i : Nat} {gs : List (List P × List (Nat × Nat))}
    {start : Nat} {ps : List (List P)} (h : Aligned specs i gs start ps) (j : Nat) (q : List P)
    (hj : ps[j]? = some q) :
    ∃ (k : Nat) (g : List P × List (Nat × Nat)), gs[k]? = some g ∧ q = sel specs i g.1 ∧
      ∀ (k' : Nat) (g' : List P × List (Nat × Nat)), gs[k']? = some g' → ((i, start + j) ∈ g'.2 ↔ k' = k) := by
  induction gs generalizing start ps j with
  | nil =>
    simp only [Aligned] at h
    subst h
    simp at hj
  | cons g0 gs ih =>
    rcases h with ⟨-, h2, h3⟩ | ⟨ps', rfl, -, h3, h4⟩
    · obtain ⟨k, g, a1, a2, a3⟩ := ih h3 j hj
      refine ⟨k + 1, g, by simpa using a1, a2, ?_⟩
      intro k' g' hg'
      cases k' with
      | zero =>
        simp only [List.getElem?_cons_zero, Option.some.injEq] at hg'
        subst hg'
        simp [h2]
      | succ k' =>
        rw [a3 k' g' (by simpa using hg')]
        simp
    · cases j with
      | zero =>
        simp only [List.getElem?_cons_zero, Option.some.injEq] at hj
        refine ⟨0, g0, rfl, hj.symm, ?_⟩
        intro k' g' hg'
        cases k' with
        | zero =>
          simp only [List.getElem?_cons_zero, Option.some.injEq] at hg'
          subst hg'
          simp [h3]
        | succ k' =>
          simp only [List.getElem?_cons_succ] at hg'
          constructor
          · intro hm
            have := aligned_low h4 g' (List.mem_of_getElem? hg') _ hm
            omega
          · intro h
            omega
      | succ j =>
        obtain ⟨k, g, a1, a2, a3⟩ := ih h4 j (by simpa using hj)
        refine ⟨k + 1, g, by simpa using a1, a2, ?_⟩
        intro k' g' hg'
        cases k' with
        | zero =>
          simp only [List.getElem?_cons_zero, Option.some.injEq] at hg'
          subst hg'
          rw [h3]
          constructor <;> intro h <;> omega
        | succ k' =>
          have := a3 k' g' (by simpa using hg')
          rw [show start + (j + 1) = start + 1 + j by omega, this]
          simp

theorem aligned_snoc {specs : List Spec} {i : Nat} {gs : List (List P × List (Nat × Nat))}
    {start : Nat} {ps : List (List P)} (h : Aligned specs i gs start ps)
    (g : List P × List (Nat × Nat))
    (hg : ∀ j, (i, j) ∈ g.2 ↔ (j = start + ps.length ∧ sel specs i g.1 ≠ [])) :
    Aligned specs i (gs ++ [g]) start
      (if sel specs i g.1 = [] then ps else ps ++ [sel specs i g.1]) := by
  induction gs generalizing start ps with
  | nil =>
    simp only [Aligned] at h
    subst h
    simp only [List.nil_append, Aligned]
    split_ifs with hs
    · left
      exact ⟨hs, fun j => by simp [hg, hs], rfl⟩
    · right
      exact ⟨[], rfl, hs, fun j => by simp [hg, hs], rfl⟩
  | cons g0 gs ih =>
    rcases h with ⟨h1, h2, h3⟩ | ⟨ps', rfl, h2, h3, h4⟩
    · left
      exact ⟨h1, h2, ih h3 hg⟩
    · right
      have := ih h4 (fun j => by
        rw [hg j, List.length_cons]
        rw [show start + (ps'.length + 1) = start + 1 + ps'.length by omega])
      split_ifs at this ⊢ with hs
      · exact ⟨_, rfl, h2, h3, this⟩
      · exact ⟨_, rfl, h2, h3, this⟩

def AInv (c : Chained) : Prop := ∀ i s, c.subs[i]? = some s →
  Aligned c.specs i (c.groups.map fun g => (g.params, g.indices)) 0 (s.groups.map SubGroup.params)

theorem reachable_aligned {specs : List Spec} {lr : Int} {g0 : List P × Int} {c : Chained}
    (h : Reachable specs lr [g0] c) : AInv c := by
  induction h with
  | init c h =>
    obtain ⟨-, -, hs, hg, hl, -, hp, hi⟩ := init_some specs lr _ c h
    intro i s his
    obtain ⟨h1, h2⟩ := hp i s his
    match hgs : c.groups, hg with
    | [g], hg =>
      simp only [List.map_cons, List.map_nil, List.cons.injEq, and_true] at hg
      have hgp : g.params = g0.1 := by rw [← hg]
      simp only [List.flatMap_cons, List.flatMap_nil, List.append_nil] at h1 h2
      rw [hs, h2]
      simp only [List.map_cons, List.map_nil, Aligned]
      right
      refine ⟨[], by rw [hgp], by rw [hgp]; exact h1, ?_, rfl⟩
      intro j
      rw [hi g (by rw [hgs]; simp)]
      simp only [hgp]
      constructor
      · exact fun h => h.1
      · exact fun h => ⟨h, h1⟩
  | add c ps l hr h ih =>
    have hinv := (reachable_inv hr).1
    obtain ⟨-, -, idx, he, hidx, hlen, hget⟩ := add_some c ps l hinv.len h
    intro i s his
    generalize (c.add ps l).1 = c' at *
    have hspec : c'.specs = c.specs := by rw [he]
    have hgr : c'.groups = c.groups ++ [⟨ps, l, idx⟩] := by rw [he]
    rw [hget i] at his
    cases hc : c.subs[i]? with
    | none => simp [hc] at his
    | some s0 =>
      simp only [hc, Option.map_some, Option.some.injEq] at his
      have ha := aligned_snoc (ih i s0 hc) (ps, idx) (fun j => by
        rw [hidx (i, j)]
        simp [groupCount, hc])
      rw [hspec, hgr]
      simp only [List.map_append, List.map_cons, List.map_nil]
      split_ifs at his ha with hsel
      · subst his
        exact ha
      · subst his
        simpa using ha
  | step c c' ups hr h ih =>
    have hinv := (reachable_inv hr).1
    rw [step_eq c hinv] at h
    simp only [Option.some.injEq, Prod.mk.injEq] at h
    intro i s his
    rw [← h.1] at his ⊢
    simp only [relabel, List.getElem?_mapIdx] at his
    cases hc : c.subs[i]? with
    | none => simp [hc] at his
    | some s0 =>
      simp only [hc, Option.map_some, Option.some.injEq] at his
      subst his
      simp only
      rw [mapIdx_params]
      exact ih i s0 hc
  | setLr c g l hr ih =>
    obtain ⟨h1, h2, h3⟩ := setLr_shape c g l
    intro i s his
    rw [h2] at his
    rw [h1, h3]
    exact ih i s his

theorem lastLr_unique (gs : List Group) (o j : Nat) (k : Nat) (g : Group) (l : Int)
    (hk : gs[k]? = some g) (hin : (o, j) ∈ g.indices)
    (hu : ∀ k' g', gs[k']? = some g' → k' ≠ k → (o, j) ∉ g'.indices) :
    lastLr gs o j l = g.lr := by
  have hnone : ∀ (gs : List Group) (l : Int), (∀ g' ∈ gs, (o, j) ∉ g'.indices) →
      lastLr gs o j l = l := by
    intro gs
    induction gs with
    | nil => intro l _; rfl
    | cons g gs ih =>
      intro l h
      simp only [lastLr, if_neg (h g List.mem_cons_self)]
      exact ih l (fun g' hg' => h g' (List.mem_cons_of_mem _ hg'))
  induction gs generalizing k l with
  | nil => simp at hk
  | cons g0 gs ih =>
    cases k with
    | zero =>
      simp only [List.getElem?_cons_zero, Option.some.injEq] at hk
      subst hk
      simp only [lastLr, if_pos hin]
      apply hnone
      intro g' hg'
      obtain ⟨n, hn, rfl⟩ := List.getElem_of_mem hg'
      exact hu (n + 1) _ (by simp [List.getElem?_eq_getElem hn]) (by omega)
    | succ k =>
      simp only [lastLr]
      exact ih k _ (by simpa using hk) (fun k' g' hg' hne =>
        hu (k' + 1) g' (by simpa using hg') (by omega))

/-- **C66 (learning rate).** For an optimizer built from one parameter list (as
`build_optimizer` does), with any groups added later and any scheduler writes: a step updates
each parameter with the current learning rate of *its own* group, and only so. -/
theorem C66_learning_rate {specs : List Spec} {lr : Int} {g0 : List P × Int} {c c' : Chained}
    {ups : List (P × Int)} (h : Reachable specs lr [g0] c) (hs : c.step = some (c', ups))
    (p : P) (l : Int) :
    (p, l) ∈ ups ↔ ∃ g ∈ c.groups, p ∈ g.params ∧ l = g.lr := by
  have hinv := (reachable_inv h).1
  have ha := reachable_aligned h
  rw [step_eq c hinv] at hs
  simp only [Option.some.injEq, Prod.mk.injEq] at hs
  -- every update carries its group's learning rate
  have hfwd : ∀ p l, (p, l) ∈ ups → ∃ g ∈ c.groups, p ∈ g.params ∧ l = g.lr := by
    intro p l hm
    rw [← hs.2] at hm
    simp only [updates, List.mem_flatMap, List.mem_map, Prod.mk.injEq] at hm
    obtain ⟨s, hsm, sg, hsg, q, hq, rfl, rfl⟩ := hm
    obtain ⟨i, hi, rfl⟩ := List.getElem_of_mem hsm
    have hi' : i < c.subs.length := by simpa [relabel] using hi
    simp only [relabel, List.getElem_mapIdx] at hsg
    obtain ⟨j, hj, rfl⟩ := List.getElem_of_mem hsg
    have hj' : j < c.subs[i].groups.length := by simpa using hj
    simp only [List.getElem_mapIdx] at hq ⊢
    have hal := ha i _ (List.getElem?_eq_getElem hi')
    obtain ⟨k, g, a1, a2, a3⟩ := aligned_pos hal j (c.subs[i].groups[j].params) (by
      rw [List.getElem?_map, List.getElem?_eq_getElem hj']; rfl)
    rw [List.getElem?_map] at a1
    cases hgk : c.groups[k]? with
    | none => simp [hgk] at a1
    | some gr =>
      simp only [hgk, Option.map_some, Option.some.injEq] at a1
      subst a1
      simp only [Nat.zero_add] at a2 a3
      refine ⟨gr, List.mem_of_getElem? hgk, ?_, ?_⟩
      · rw [a2] at hq
        exact List.mem_of_mem_filter hq
      · apply lastLr_unique c.groups i j k gr _ hgk
        · exact (a3 k _ (by rw [List.getElem?_map, hgk]; rfl)).mpr rfl
        · intro k' g' hg' hne hin
          exact hne ((a3 k' _ (by rw [List.getElem?_map, hg']; rfl)).mp hin)
  constructor
  · exact hfwd p l
  · rintro ⟨g, hg, hp, rfl⟩
    -- the group's selection for p's sub-optimizer is a sub-group
    have hout : p ∈ c.outer := List.mem_flatMap.mpr ⟨g, hg, hp⟩
    obtain ⟨i, hi⟩ := hinv.matched p hout
    have hlt : i < c.subs.length := by
      rw [hinv.len]
      have := (firstMatch_bound p c.specs 0 i hi).2
      omega
    have hal := ha i _ (List.getElem?_eq_getElem hlt)
    have hB : ∀ (gs : List (List P × List (Nat × Nat))) (start : Nat) (ps : List (List P)),
        Aligned c.specs i gs start ps → ∀ (k : Nat) (x : List P × List (Nat × Nat)),
        gs[k]? = some x → sel c.specs i x.1 ≠ [] →
        ∃ j, ps[j]? = some (sel c.specs i x.1) ∧ (i, start + j) ∈ x.2 := by
      intro gs
      induction gs with
      | nil => intro start ps _ k x hx; simp at hx
      | cons g0 gs ih =>
        rintro start ps (⟨h1, h2, h3⟩ | ⟨ps', rfl, h2, h3, h4⟩) k x hx hne
        · cases k with
          | zero =>
            simp only [List.getElem?_cons_zero, Option.some.injEq] at hx
            subst hx
            exact absurd h1 hne
          | succ k => exact ih start ps h3 k x (by simpa using hx) hne
        · cases k with
          | zero =>
            simp only [List.getElem?_cons_zero, Option.some.injEq] at hx
            subst hx
            exact ⟨0, rfl, by simp [h3]⟩
          | succ k =>
            obtain ⟨j, b1, b2⟩ := ih (start + 1) ps' h4 k x (by simpa using hx) hne
            exact ⟨j + 1, by simpa using b1, by
              rw [show start + (j + 1) = start + 1 + j by omega]; exact b2⟩
    obtain ⟨k, hk, hgk⟩ := List.getElem_of_mem hg
    have hpsel : p ∈ sel c.specs i g.params := by
      simp [sel, hp, hi]
    obtain ⟨j, b1, b2⟩ := hB _ _ _ hal k (g.params, g.indices) (by
      rw [List.getElem?_map, List.getElem?_eq_getElem hk, hgk]; rfl)
      (List.ne_nil_of_mem hpsel)
    simp only [Nat.zero_add] at b1 b2
    rw [List.getElem?_map] at b1
    have hj : j < c.subs[i].groups.length := by
      by_contra hcon
      rw [List.getElem?_eq_none (Nat.le_of_not_lt hcon)] at b1
      simp at b1
    rw [List.getElem?_eq_getElem hj] at b1
    simp only [Option.map_some, Option.some.injEq] at b1
    obtain ⟨k2, g2, a1, a2, a3⟩ := aligned_pos hal j (c.subs[i].groups[j].params) (by
      rw [List.getElem?_map, List.getElem?_eq_getElem hj]; rfl)
    simp only [Nat.zero_add] at a3
    have hkk : k = k2 := (a3 k (g.params, g.indices) (by
      rw [List.getElem?_map, List.getElem?_eq_getElem hk, hgk]; rfl)).mp b2
    have hl := lastLr_unique c.groups i j k g (c.subs[i].groups[j].lr)
      (by rw [List.getElem?_eq_getElem hk, hgk]) b2 (by
        intro k' g' hg' hne hin
        exact hne ((a3 k' _ (by rw [List.getElem?_map, hg']; rfl)).mp hin |>.trans hkk.symm))
    rw [← hs.2]
    simp only [updates, List.mem_flatMap, List.mem_map, Prod.mk.injEq]
    refine ⟨_, List.getElem_mem (l := relabel (lastLr c.groups) c.subs) (n := i)
      (by simpa [relabel] using hlt), ⟨c.subs[i].groups[j].params, g.lr⟩, ?_, p, ?_, rfl, rfl⟩
    · simp only [relabel, List.getElem_mapIdx]
      rw [List.mem_iff_getElem]
      exact ⟨j, by simpa using hj, by simp [hl]⟩
    · rw [b1]
      exact hpsel

/-! ### The shipped Muon + AdamW pair, findings, non-vacuity -/

/-- utils/training_utils.py:129-165 `_make_muon_adamw`: Muon takes the parameters in `muon`,
AdamW accepts everything. -/
def muonAdamW (muon : P → Bool) : List Spec := [⟨none, some muon⟩, ⟨none, none⟩]

/-- **C66 (Muon + AdamW).** Construction from one list of parameters succeeds exactly when both
kinds occur; then the first sub-optimizer holds the Muon parameters and the second all others. -/
theorem C66_muon_adamw (muon : P → Bool) (lr : Int) (ps : List P) :
    ((∃ c, Chained.init (muonAdamW muon) lr [(ps, lr)] = some c) ↔
      (∃ p ∈ ps, muon p = true) ∧ ∃ p ∈ ps, muon p = false) ∧
    ∀ c, Reachable (muonAdamW muon) lr [(ps, lr)] c → ∀ i s p, c.subs[i]? = some s →
      (p ∈ s.params ↔ p ∈ c.outer ∧ ((i = 0 ∧ muon p = true) ∨ (i = 1 ∧ muon p = false))) := by
  have hfa : ∀ p i, FirstAccepting (muonAdamW muon) p i ↔
      ((i = 0 ∧ muon p = true) ∨ (i = 1 ∧ muon p = false)) := by
    intro p i
    have h := firstMatch_iff (muonAdamW muon) p 0 i
    rw [Nat.zero_add] at h
    rw [← h]
    cases hm : muon p <;> simp [muonAdamW, firstMatch, Spec.accepts, hm, eq_comm]
  constructor
  · rw [C66_init_iff]
    constructor
    · rintro ⟨-, -, -, h⟩
      obtain ⟨p, hp, h0⟩ := h 0 (by simp [muonAdamW])
      obtain ⟨q, hq, h1⟩ := h 1 (by simp [muonAdamW])
      rw [hfa] at h0 h1
      simp only [List.flatMap_cons, List.flatMap_nil, List.append_nil] at hp hq
      exact ⟨⟨p, hp, by simpa using h0⟩, q, hq, by simpa using h1⟩
    · rintro ⟨⟨p, hp, h0⟩, q, hq, h1⟩
      refine ⟨by simp, by simp [GroupsDisjoint], ?_, ?_⟩
      · intro r _
        exact ⟨⟨none, none⟩, by simp [muonAdamW], rfl⟩
      · intro i hi
        simp only [muonAdamW, List.length_cons, List.length_nil] at hi
        simp only [List.flatMap_cons, List.flatMap_nil, List.append_nil]
        rcases (by omega : i = 0 ∨ i = 1) with rfl | rfl
        · exact ⟨p, hp, (hfa p 0).mpr (Or.inl ⟨rfl, h0⟩)⟩
        · exact ⟨q, hq, (hfa q 1).mpr (Or.inr ⟨rfl, h1⟩)⟩
  · intro c hr i s p hs
    rw [(C66_assignment hr i s hs p).1, hfa]

/-- Finding: with several initial groups the sub-optimizers merge them, so the last group's
learning rate is applied to all of its sub-optimizer's parameters. -/
theorem C66_initial_groups_merge :
    ∃ c c' : Chained, Chained.init (muonAdamW (· == 1)) 10 [([1, 2], 10), ([3], 99)] = some c ∧
      c.step = some (c', [(1, 10), (2, 99), (3, 99)]) := by
  refine ⟨⟨_, _, _, _⟩, _, rfl, rfl⟩

/-- Finding: `add_param_group` that raises for an unaccepted parameter leaves its outer group
behind, and the next step raises `IndexError`. -/
theorem C66_failed_add_breaks_step :
    ∃ c : Chained, Chained.init [⟨none, some (· < 5)⟩] 10 [([1], 10)] = some c ∧
      (c.add [2, 7] 3).2 = false ∧ (c.add [2, 7] 3).1.step.isNone = true := by
  refine ⟨⟨_, _, _, _⟩, rfl, ?_, ?_⟩ <;> decide +kernel

/-- Non-vacuity: one initial group, one added, a scheduler write; each group keeps its rate. -/
example : ∃ c, Chained.init (muonAdamW (fun p => p % 2 == 1)) 10 [([1, 2, 3, 4], 10)] = some c ∧
    (c.add [6, 5] 20).2 = true ∧
    ((c.add [6, 5] 20).1.setLr 0 7).step.map Prod.snd
      = some [(1, 7), (3, 7), (5, 20), (2, 7), (4, 7), (6, 20)] := by
  refine ⟨⟨_, _, _, _⟩, rfl, ?_, ?_⟩ <;> decide +kernel

end Verif.Utils
