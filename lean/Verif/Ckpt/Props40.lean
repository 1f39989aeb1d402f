import Verif.Ckpt.Props38

/-!
# C40: pruning keeps the newest states and never touches permanent snapshots
-/
namespace Verif.Ckpt

/-- How many states in the listing are newer than iteration `i`. -/
def newerStates (ls : List File) (i : Nat) : Nat :=
  ls.countP fun f => match f.stateIter with
    | some j => decide (i < j)
    | none => false

/-- The state of iteration `i` is one of the newest `keep` (all are when `keep` is negative). -/
def KeptState (d : Disk) (ls : List File) (keep : Int) (i : Nat) : Prop :=
  d.fs (.state i) ≠ none ∧ (keep < 0 ∨ (newerStates ls i : Int) < keep)

theorem newerStates_eq (ls : List File) (i : Nat) : newerStates ls i = (stateIters ls).countP (fun j => decide (i < j)) := by
  unfold stateIters newerStates
  rw [(List.perm_insertionSort _ _).countP_eq, List.countP_filterMap]
  congr 1
  funext f
  cases f <;> rfl

/-- In an increasing duplicate-free list, an element lies beyond position `n` iff fewer than `length - n` elements exceed it. -/
theorem mem_drop_iff : ∀ (l : List Nat) (n : Nat), l.Pairwise (· ≤ ·) → l.Nodup → n ≤ l.length → ∀ i ∈ l,
    (i ∈ l.drop n ↔ l.countP (fun j => decide (i < j)) < l.length - n)
  | [], n, _, _, _, i, hi => by simp at hi
  | a :: l, 0, hs, hn, _, i, hi => by
    simp only [List.drop_zero, hi, true_iff, Nat.sub_zero]
    have h1 : (a :: l).countP (fun j => decide (i < j)) ≠ (a :: l).length := by
      intro h
      rw [List.countP_eq_length] at h
      have := h i hi
      simp at this
    have := List.countP_le_length (p := fun j => decide (i < j)) (l := a :: l)
    omega
  | a :: l, n + 1, hs, hn, hlen, i, hi => by
    rw [List.pairwise_cons] at hs
    rw [List.nodup_cons] at hn
    simp only [List.drop_succ_cons, List.length_cons] at hlen ⊢
    by_cases hia : i = a
    · subst hia
      have h1 : i ∉ l.drop n := fun h => hn.1 (List.mem_of_mem_drop h)
      have h2 : (i :: l).countP (fun j => decide (i < j)) = l.length := by
        rw [List.countP_cons]
        simp only [Nat.lt_irrefl, decide_false, Bool.false_eq_true, if_false, Nat.add_zero]
        rw [List.countP_eq_length]
        intro j hj
        have := hs.1 j hj
        have : i ≠ j := fun h => hn.1 (h ▸ hj)
        simp; omega
      rw [h2]
      simp only [h1, false_iff]
      omega
    · have hil : i ∈ l := by simpa [hia] using hi
      rw [mem_drop_iff l n hs.2 hn.2 (by omega) i hil, List.countP_cons]
      have : ¬ i < a := by have := hs.1 i hil; omega
      simp [this]

theorem numDelete_le (n : Nat) (keep : Int) : numDelete n keep ≤ n := by
  unfold numDelete
  split <;> omega

theorem retained_iff (d : Disk) (ls : List File) (temp : List Nat) (keep : Int) (hls : Lists d ls) (i : Nat) :
    i ∈ (cleanup d ls temp keep).retained ↔ KeptState d ls keep i := by
  show i ∈ (stateIters ls).drop (numDelete (stateIters ls).length keep) ↔ _
  unfold KeptState
  rw [← hls.2, ← mem_stateIters]
  by_cases hi : i ∈ stateIters ls
  · rw [mem_drop_iff _ _ (stateIters_sorted ls) (stateIters_nodup ls hls.1) (numDelete_le _ _) i hi, newerStates_eq]
    simp only [hi, true_and]
    have hc : (stateIters ls).countP (fun j => decide (i < j)) < (stateIters ls).length := by
      have h1 : (stateIters ls).countP (fun j => decide (i < j)) ≠ (stateIters ls).length := by
        intro h
        rw [List.countP_eq_length] at h
        have := h i hi
        simp at this
      have := List.countP_le_length (p := fun j => decide (i < j)) (l := stateIters ls)
      omega
    unfold numDelete
    split <;> omega
  · simp only [hi, false_and, iff_false]
    exact fun h => hi (List.mem_of_mem_drop h)

theorem removed_iff (d : Disk) (ls : List File) (temp : List Nat) (keep : Int) (hls : Lists d ls) (i : Nat) :
    i ∈ (cleanup d ls temp keep).removed ↔ d.fs (.state i) ≠ none ∧ ¬ KeptState d ls keep i := by
  rw [← retained_iff d ls temp keep hls, ← hls.2, ← mem_stateIters]
  show i ∈ (stateIters ls).take _ ↔ _ ∧ i ∉ (stateIters ls).drop _
  have happ := List.take_append_drop (numDelete (stateIters ls).length keep) (stateIters ls)
  have hnd := stateIters_nodup ls hls.1
  rw [← happ] at hnd
  have hdis := List.disjoint_of_nodup_append hnd
  constructor
  · intro h
    exact ⟨List.mem_of_mem_take h, fun h' => hdis h h'⟩
  · rintro ⟨h1, h2⟩
    rw [← happ] at h1
    rcases List.mem_append.mp h1 with h | h
    · exact h
    · exact absurd h h2

theorem latestModel_iff (d : Disk) (ls : List File) (hls : Lists d ls) (i m : Nat) (hm : d.fs (.model m i) ≠ none) :
    some i ≠ latestModel ls ↔ ∃ m' j, i < j ∧ d.fs (.model m' j) ≠ none := by
  have hmem : ∀ j, j ∈ ls.filterMap File.modelIter ↔ ∃ m', d.fs (.model m' j) ≠ none := by
    intro j
    rw [List.mem_filterMap]
    constructor
    · rintro ⟨f, hf, h⟩
      cases f with
      | model a b =>
        simp only [File.modelIter, Option.some.injEq] at h
        subst h
        exact ⟨a, (hls.2 _).mp hf⟩
      | _ => simp [File.modelIter] at h
    · rintro ⟨m', h⟩
      exact ⟨_, (hls.2 _).mpr h, rfl⟩
  unfold latestModel
  constructor
  · intro h
    cases hx : (ls.filterMap File.modelIter).max? with
    | none =>
      rw [List.max?_eq_none_iff] at hx
      have := (hmem i).mpr ⟨m, hm⟩
      rw [hx] at this; simp at this
    | some j =>
      rw [hx] at h
      rw [List.max?_eq_some_iff] at hx
      obtain ⟨m', hm'⟩ := (hmem j).mp hx.1
      have := hx.2 i ((hmem i).mpr ⟨m, hm⟩)
      have hne : i ≠ j := fun hij => h (by rw [hij])
      exact ⟨m', j, by omega, hm'⟩
  · rintro ⟨m', j, hij, hm'⟩ heq
    have := heq.symm
    rw [List.max?_eq_some_iff] at this
    have := this.2 j ((hmem j).mpr ⟨m', hm'⟩)
    omega

theorem prune_fs (d : Disk) (ls : List File) (temp : List Nat) (keep : Int) (k : Nat) (f : File) :
    (runAll d ((cleanup d ls temp keep).ops.take k)).fs f =
      if f ∈ (Cleanup.files d ls temp keep).take k then none else d.fs f := by
  rw [Cleanup.ops_eq, ← List.map_take]
  exact removes_fs _ d f

/-- Which files a pruning removes, by kind. -/
theorem mem_cleanup_files (d : Disk) (ls : List File) (temp : List Nat) (keep : Int) (hls : Lists d ls) (f : File) (hf : d.fs f ≠ none) :
    f ∈ Cleanup.files d ls temp keep ↔ match f with
      | .state i => ¬ KeptState d ls keep i
      | .model _ i => i ∈ temp ∧ (∃ m' j, i < j ∧ d.fs (.model m' j) ≠ none) ∧ ¬ KeptState d ls keep i
      | .sidecar .. => ¬ ∃ i, KeptState d ls keep i ∧ f ∈ sidecarsOf d i
      | .other _ => False := by
  have hin := (hls.2 f).mpr hf
  unfold Cleanup.files
  simp only [List.mem_append, List.mem_map, List.mem_filter, List.mem_flatMap, Bool.and_eq_true, decide_eq_true_eq]
  cases f with
  | state i =>
    simp only [File.state.injEq, exists_eq_right, File.isSidecar, File.modelIter]
    rw [removed_iff d ls temp keep hls]
    simp [hf]
  | model m i =>
    simp only [File.isSidecar, File.modelIter, Option.some.injEq]
    rw [← latestModel_iff d ls hls i m hf, ← retained_iff d ls temp keep hls]
    simp only [hin, true_and]
    constructor
    · rintro ((⟨a, _, h⟩ | h) | ⟨a, ⟨h1, h2, h3⟩, h4⟩)
      · simp at h
      · simp at h
      · subst h4; exact ⟨h1, h2, h3⟩
    · rintro ⟨h1, h2, h3⟩
      exact Or.inr ⟨i, ⟨h1, h2, h3⟩, rfl⟩
  | sidecar i g r =>
    simp only [File.isSidecar, File.modelIter, hin, true_and]
    have : (∃ a ∈ (cleanup d ls temp keep).retained, File.sidecar i g r ∈ sidecarsOf d a) ↔
        ∃ a, KeptState d ls keep a ∧ File.sidecar i g r ∈ sidecarsOf d a := by
      constructor
      · rintro ⟨a, h1, h2⟩; exact ⟨a, (retained_iff d ls temp keep hls a).mp h1, h2⟩
      · rintro ⟨a, h1, h2⟩; exact ⟨a, (retained_iff d ls temp keep hls a).mpr h1, h2⟩
    rw [← this]
    simp
  | other n => simp [File.isSidecar, File.modelIter]

/-- **C40.** A pruning that is not interrupted: exactly the newest `num_keep_states` states remain (all of them when it is negative); a
model snapshot is removed exactly when this session recorded it as temporary, a newer snapshot exists and its state is not kept; a sidecar
is removed exactly when no kept state refers to it; other files and the contents of everything left are untouched. -/
theorem C40_prune (d : Disk) (ls : List File) (temp : List Nat) (keep : Int) (hls : Lists d ls) (f : File) (hf : d.fs f ≠ none) :
    let d' := runAll d (cleanup d ls temp keep).ops
    (d'.fs f = none ∨ d'.fs f = d.fs f) ∧
    (d'.fs f = none ↔ match f with
      | .state i => ¬ KeptState d ls keep i
      | .model _ i => i ∈ temp ∧ (∃ m' j, i < j ∧ d.fs (.model m' j) ≠ none) ∧ ¬ KeptState d ls keep i
      | .sidecar .. => ¬ ∃ i, KeptState d ls keep i ∧ f ∈ sidecarsOf d i
      | .other _ => False) := by
  intro d'
  have h : d'.fs f = if f ∈ Cleanup.files d ls temp keep then none else d.fs f := by
    have := prune_fs d ls temp keep (cleanup d ls temp keep).ops.length f
    rw [List.take_length, List.take_of_length_le (by rw [Cleanup.ops_eq]; simp)] at this
    exact this
  rw [← mem_cleanup_files d ls temp keep hls f hf, h]
  split
  · rename_i hm; simp [hm]
  · rename_i hm; simp [hm, hf]

/-- Nothing appears by pruning, and whatever a (possibly interrupted) pruning removes is something the full one would remove. -/
theorem C40_interrupted (d : Disk) (ls : List File) (temp : List Nat) (keep : Int) (k : Nat) (f : File) :
    let d1 := runAll d ((cleanup d ls temp keep).ops.take k)
    let d' := runAll d (cleanup d ls temp keep).ops
    d1.fs f = d.fs f ∨ (d1.fs f = none ∧ d'.fs f = none) := by
  intro d1 d'
  have h1 : d1.fs f = _ := prune_fs d ls temp keep k f
  have h2 := prune_fs d ls temp keep (cleanup d ls temp keep).ops.length f
  rw [List.take_length, List.take_of_length_le (by rw [Cleanup.ops_eq]; simp)] at h2
  have h2' : d'.fs f = _ := h2
  rw [h1, h2']
  by_cases h : f ∈ (Cleanup.files d ls temp keep).take k
  · rw [if_pos h, if_pos (List.mem_of_mem_take h)]; exact Or.inr ⟨rfl, rfl⟩
  · rw [if_neg h]; exact Or.inl rfl

/-- **C40 (how many remain).** With `num_keep_states ≥ 0`, the number of states left is the smaller of it and the number of states before. -/
theorem C40_count (d : Disk) (ls : List File) (temp : List Nat) (keep : Nat) :
    (cleanup d ls temp keep).retained.length = min keep (stateIters ls).length := by
  show ((stateIters ls).drop (numDelete (stateIters ls).length keep)).length = _
  rw [List.length_drop]
  unfold numDelete
  split <;> omega

theorem temp_inv (ms : List Nat) (interval : Nat) (keep : Int) (w0 w : World) (h0 : w0.temp = []) (h : WExec ms interval keep w0 w) :
    ∀ i ∈ w.temp, i ∈ w.saved ∧ i % interval ≠ 0 := by
  induction h with
  | refl => rw [h0]; simp
  | step _ hs ih =>
    cases hs with
    | save s k =>
      intro i hi
      simp only [addTemp] at hi ⊢
      split at hi
      · rename_i hn
        rcases List.mem_cons.mp hi with rfl | hi
        · exact ⟨List.mem_cons_self .., hn⟩
        · exact ⟨List.mem_cons_of_mem _ (ih i hi).1, (ih i hi).2⟩
      · exact ⟨List.mem_cons_of_mem _ (ih i hi).1, (ih i hi).2⟩
    | prune ls k temp' _ hsub =>
      intro i hi
      exact ih i (hsub i hi)
    | crash => simp

/-- **C40 (permanent snapshots).** In any history starting from a fresh session over any directory, a step that deletes a model snapshot
(interrupted or not) deletes one that the current session saved, at an iteration that is not a multiple of `save_interval`, while a newer
snapshot exists.  So snapshots at `save_interval` iterations, snapshots of other sessions and the newest snapshot are never deleted. -/
theorem C40_permanent_snapshots (ms : List Nat) (interval : Nat) (keep : Int) (w0 w w' : World) (h0 : w0.temp = [])
    (h : WExec ms interval keep w0 w) (hs : WStep ms interval keep w w') (m i : Nat) (hm : w.disk.fs (.model m i) ≠ none)
    (hgone : w'.disk.fs (.model m i) = none) :
    i ∈ w.saved ∧ i % interval ≠ 0 ∧ ∃ m' j, i < j ∧ w.disk.fs (.model m' j) ≠ none := by
  cases hs with
  | save s k =>
    exfalso
    rcases C37_checkpoint w.disk s k (.model m i) with h1 | ⟨v, _, h1⟩
    · exact hm (h1.symm.trans hgone)
    · have := hgone.symm.trans h1
      simp at this
  | prune ls k temp' hls _ =>
    rcases C40_interrupted w.disk ls w.temp keep k (.model m i) with h1 | ⟨_, h1⟩
    · exact absurd (h1.symm.trans hgone) hm
    · have h2 := ((C40_prune w.disk ls w.temp keep hls (.model m i) hm).2).mp h1
      simp only at h2
      have h3 := temp_inv ms interval keep w0 w h0 h i h2.1
      exact ⟨h3.1, h3.2, h2.2.1⟩
  | crash => exact absurd hgone hm

/-- A directory with states 5, 10, 15 and models at 4 (another session), 5, 10, 12 and 15; this session saved 5, 12 and 15 as temporary.
Keeping two states removes state 5 and the snapshots 5 and 12, and nothing else. -/
def exDisk : Disk :=
  ⟨fun f => if f ∈ [File.state 5, .state 10, .state 15, .model 0 4, .model 0 5, .model 0 10, .model 0 12, .model 0 15, .sidecar 5 0 0,
      .sidecar 10 0 0] then some (.full (if f = .state 10 then ⟨[.sidecar 10 0 0], 0⟩ else ⟨[], 0⟩)) else none, fun _ => none⟩

def exList : List File := [File.model 0 5, .state 5, .state 15, .model 0 4, .state 10, .model 0 10, .model 0 12, .model 0 15,
  .sidecar 5 0 0, .sidecar 10 0 0]

example : Lists exDisk exList := by
  refine ⟨by decide, fun f => ?_⟩
  simp only [exDisk]
  split
  · rename_i h
    simp only [ne_eq, reduceCtorEq, not_false_eq_true, iff_true]
    simp only [List.mem_cons, List.not_mem_nil, or_false] at h
    rcases h with rfl | rfl | rfl | rfl | rfl | rfl | rfl | rfl | rfl | rfl <;> decide
  · rename_i h
    simp only [ne_eq, not_true, iff_false]
    intro h'
    apply h
    simp only [exList, List.mem_cons, List.not_mem_nil, or_false] at h' ⊢
    rcases h' with rfl | rfl | rfl | rfl | rfl | rfl | rfl | rfl | rfl | rfl <;> simp

example : (exList.filter fun f => (runAll exDisk (cleanup exDisk exList [5, 12, 15] 2).ops).fs f = none) =
    [File.model 0 5, .state 5, .model 0 12, .sidecar 5 0 0] := by decide +kernel

/-- Finding: with `num_keep_states = 0` the pruning that follows a save deletes the state just saved. -/
example : (runAll exDisk (cleanup exDisk exList [5, 12, 15] 0).ops).fs (.state 15) = none := by decide +kernel

end Verif.Ckpt
