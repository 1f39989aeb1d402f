import Verif.Ckpt.Fs
import Mathlib.Data.List.Nodup

/-! Effects of prefixes of the save and prune operation lists. -/
namespace Verif.Ckpt

theorem runAll_append (d : Disk) (a b : List Prim) : runAll d (a ++ b) = runAll (runAll d a) b := List.foldl_append ..

/-- The effect of committing one file. -/
def put (fs : File → Option Content) (e : File × Val) : File → Option Content :=
  fun g => if g = e.1 then some (.full e.2) else fs g

theorem saveOps_fs (d : Disk) (f : File) (v : Val) : (runAll d (saveOps f v)).fs = put d.fs (f, v) := by
  funext g
  simp [runAll, saveOps, Prim.run, put]

theorem saveOps_take (d : Disk) (f : File) (v : Val) (k : Nat) (hk : k < 3) : (runAll d ((saveOps f v).take k)).fs = d.fs := by
  rcases k with _ | _ | _ | k
  · rfl
  · rfl
  · rfl
  · omega

/-- Any prefix of the operations saving the files `L` has committed a prefix of `L` and nothing else. -/
theorem saves_take : ∀ (L : List (File × Val)) (d : Disk) (k : Nat),
    ∃ j, (runAll d ((L.flatMap fun e => saveOps e.1 e.2).take k)).fs = (L.take j).foldl put d.fs ∧ (3 * L.length ≤ k → j = L.length)
  | [], d, k => ⟨0, by simp [runAll], by simp⟩
  | e :: L, d, k => by
    by_cases hk : k < 3
    · refine ⟨0, ?_, by simp; omega⟩
      simp only [List.flatMap_cons, List.take_zero, List.foldl_nil]
      rw [List.take_append_of_le_length (by simp [saveOps]; omega), saveOps_take _ _ _ _ hk]
    · obtain ⟨j, h1, h2⟩ := saves_take L (runAll d (saveOps e.1 e.2)) (k - 3)
      refine ⟨j + 1, ?_, ?_⟩
      · simp only [List.flatMap_cons, List.take_succ_cons, List.foldl_cons]
        rw [List.take_append, runAll_append, List.take_of_length_le (by simp [saveOps]; omega)]
        have h3 : (saveOps e.1 e.2).length = 3 := rfl
        rw [h3, h1, saveOps_fs]
      · intro h
        have := h2 (by simp only [List.length_cons] at h; omega)
        simp [this]

theorem puts_not_mem : ∀ (L : List (File × Val)) (fs : File → Option Content) (f : File), f ∉ L.map (·.1) →
    (L.foldl put fs) f = fs f
  | [], _, _, _ => rfl
  | e :: L, fs, f, h => by
    simp only [List.map_cons, List.mem_cons, not_or] at h
    rw [List.foldl_cons, puts_not_mem L _ f h.2, put, if_neg h.1]

theorem puts_mem : ∀ (L : List (File × Val)) (fs : File → Option Content) (f : File), f ∈ L.map (·.1) →
    ∃ v, (f, v) ∈ L ∧ (L.foldl put fs) f = some (.full v)
  | [], _, _, h => by simp at h
  | e :: L, fs, f, h => by
    by_cases hf : f ∈ L.map (·.1)
    · obtain ⟨v, h1, h2⟩ := puts_mem L (put fs e) f hf
      exact ⟨v, List.mem_cons_of_mem _ h1, h2⟩
    · simp only [List.map_cons, List.mem_cons, hf, or_false] at h
      refine ⟨e.2, by rw [h]; exact List.mem_cons_self .., ?_⟩
      rw [List.foldl_cons, puts_not_mem L _ f hf, put, if_pos h]

/-- A complete file stays complete (perhaps with new content) whatever is saved. -/
theorem puts_full (L : List (File × Val)) (fs : File → Option Content) (f : File) (h : ∃ w, fs f = some (.full w)) :
    ∃ w, (L.foldl put fs) f = some (.full w) := by
  by_cases hf : f ∈ L.map (·.1)
  · obtain ⟨v, _, h2⟩ := puts_mem L fs f hf
    exact ⟨v, h2⟩
  · rw [puts_not_mem L fs f hf]; exact h

theorem puts_not_torn (L : List (File × Val)) (fs : File → Option Content) (f : File) (h : fs f ≠ some .torn) :
    (L.foldl put fs) f ≠ some .torn := by
  by_cases hf : f ∈ L.map (·.1)
  · obtain ⟨v, _, h2⟩ := puts_mem L fs f hf
    rw [h2]; simp
  · rw [puts_not_mem L fs f hf]; exact h

/-- The files a checkpoint writes, in order. -/
def Save.files (s : Save) : List (File × Val) :=
  (s.state.elim [] (·.sidecars)).map (fun f => (f, ⟨[], 0⟩)) ++ s.models.map (fun m => (.model m.1 s.iter, m.2)) ++
  s.state.elim [] fun v => [(.state s.iter, v)]

theorem Save.ops_eq (s : Save) : s.ops = s.files.flatMap fun e => saveOps e.1 e.2 := by
  unfold Save.ops Save.files
  simp only [List.flatMap_append, List.flatMap_map]
  cases s.state <;> simp

/-- Removing a list of files. -/
theorem removes_fs : ∀ (L : List File) (d : Disk) (f : File),
    (runAll d (L.map .remove)).fs f = if f ∈ L then none else d.fs f
  | [], d, f => by simp [runAll]
  | g :: L, d, f => by
    have h := removes_fs L (Prim.run d (.remove g)) f
    simp only [List.map_cons, runAll, List.foldl_cons] at h ⊢
    rw [h]
    by_cases h1 : f ∈ L
    · simp [h1]
    · by_cases h2 : f = g <;> simp [Prim.run, h1, h2]

/-- The files a pruning removes, in order. -/
def Cleanup.files (d : Disk) (ls : List File) (temp : List Nat) (keep : Int) : List File :=
  let c := cleanup d ls temp keep
  (c.removed.map .state) ++ (ls.filter fun f => f.isSidecar && decide (f ∉ c.retained.flatMap (sidecarsOf d))) ++
  ((temp.filter fun i => decide (some i ≠ latestModel ls) && decide (i ∉ c.retained)).flatMap
    fun i => ls.filter fun f => decide (f.modelIter = some i))

theorem Cleanup.ops_eq (d : Disk) (ls : List File) (temp : List Nat) (keep : Int) :
    (cleanup d ls temp keep).ops = (Cleanup.files d ls temp keep).map .remove := by
  simp only [Cleanup.files, cleanup, List.map_append, List.map_map, List.map_flatMap]
  rfl

theorem mem_stateIters (ls : List File) (i : Nat) : i ∈ stateIters ls ↔ File.state i ∈ ls := by
  unfold stateIters
  rw [List.mem_insertionSort, List.mem_filterMap]
  constructor
  · rintro ⟨f, hf, h⟩
    cases f <;> simp [File.stateIter] at h
    subst h; exact hf
  · intro h; exact ⟨_, h, rfl⟩

theorem stateIters_sorted (ls : List File) : (stateIters ls).Pairwise (· ≤ ·) := by
  exact List.pairwise_insertionSort _ _

theorem stateIters_nodup (ls : List File) (h : ls.Nodup) : (stateIters ls).Nodup := by
  unfold stateIters
  rw [(List.perm_insertionSort _ _).nodup_iff]
  refine List.Nodup.filterMap ?_ h
  intro a b c ha hb
  cases a <;> cases b <;> simp_all [File.stateIter]

end Verif.Ckpt
