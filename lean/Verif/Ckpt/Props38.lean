import Verif.Ckpt.FsLemmas

/-!
# C37, C38: atomic replacement, and states always have their model files
-/
namespace Verif.Ckpt

/-- **C37.** Wherever a save of one file stops (after any number of primitive operations: the temporary file not opened, partly
written, complete, renamed), the destination holds its previous content or exactly the complete new one, no other destination changes,
and a save that is not interrupted leaves the new content.  The state of leftover temporary files is arbitrary. -/
theorem C37_atomic (d : Disk) (f : File) (v : Val) (k : Nat) :
    let d' := runAll d ((saveOps f v).take k)
    (d'.fs f = d.fs f ∨ d'.fs f = some (.full v)) ∧ (∀ g, g ≠ f → d'.fs g = d.fs g) ∧
    ((saveOps f v).length ≤ k → d'.fs f = some (.full v)) := by
  intro d'
  by_cases hk : k < 3
  · have : d'.fs = d.fs := saveOps_take d f v k hk
    rw [this]
    exact ⟨Or.inl rfl, fun _ _ => rfl, fun h => by simp [saveOps] at h; omega⟩
  · have : d'.fs = put d.fs (f, v) := by
      show (runAll d ((saveOps f v).take k)).fs = _
      rw [List.take_of_length_le (by simp [saveOps]; omega), saveOps_fs]
    rw [this]
    refine ⟨Or.inr (by simp [put]), fun g hg => by simp [put, hg], fun _ => by simp [put]⟩

/-- **C37 (whole checkpoint).** The same for a checkpoint of many files stopped anywhere: each destination holds its old content or a
complete content this checkpoint writes there; a crash never leaves a torn file at a final path. -/
theorem C37_checkpoint (d : Disk) (s : Save) (k : Nat) (f : File) :
    let d' := runAll d (s.ops.take k)
    d'.fs f = d.fs f ∨ ∃ v, (f, v) ∈ s.files ∧ d'.fs f = some (.full v) := by
  intro d'
  obtain ⟨j, h, _⟩ := saves_take s.files d k
  rw [← s.ops_eq] at h
  show (runAll d (s.ops.take k)).fs f = _ ∨ _
  rw [h]
  by_cases hf : f ∈ (s.files.take j).map (·.1)
  · obtain ⟨v, h1, h2⟩ := puts_mem _ d.fs f hf
    exact Or.inr ⟨v, List.mem_of_mem_take h1, h2⟩
  · exact Or.inl (puts_not_mem _ _ _ hf)

/-- A complete file. -/
def Complete (d : Disk) (f : File) : Prop := ∃ w, d.fs f = some (.full w)

/-- The directory can be resumed from each state on disk: the state itself is complete, and so are the file of every model of its
iteration and every runtime sidecar it refers to; and no final path holds a torn file. -/
def Resumable (ms : List Nat) (d : Disk) : Prop :=
  (∀ f, d.fs f ≠ some .torn) ∧
  ∀ i c, d.fs (.state i) = some c →
    ∃ v, c = .full v ∧ (∀ m ∈ ms, Complete d (.model m i)) ∧ ∀ f ∈ v.sidecars, f.isSidecar = true ∧ Complete d f

theorem mem_files_state {s : Save} {i : Nat} {v : Val} (hsc : ∀ v, s.state = some v → ∀ f ∈ v.sidecars, f.isSidecar = true)
    (h : (File.state i, v) ∈ s.files) : i = s.iter ∧ s.state = some v := by
  unfold Save.files at h
  simp only [List.mem_append, List.mem_map] at h
  cases hs : s.state with
  | none =>
    simp [hs] at h
  | some u =>
    simp only [hs, Option.elim_some, List.mem_singleton] at h
    rcases h with (⟨f, hf, he⟩ | ⟨m, _, he⟩) | he
    · have := hsc u hs f hf
      simp only [Prod.mk.injEq] at he
      rw [he.1] at this
      simp [File.isSidecar] at this
    · simp at he
    · simp only [Prod.mk.injEq, File.state.injEq] at he
      exact ⟨he.1, by rw [he.2]⟩

theorem save_resumable (ms : List Nat) (d : Disk) (s : Save) (k : Nat) (hms : s.models.map (·.1) = ms)
    (hst : ∀ v, s.state = some v → d.fs (.state s.iter) = none ∧ ∀ f ∈ v.sidecars, f.isSidecar = true) (h : Resumable ms d) :
    Resumable ms (runAll d (s.ops.take k)) := by
  obtain ⟨j, hj, _⟩ := saves_take s.files d k
  rw [← s.ops_eq] at hj
  have hsc := fun v hv => (hst v hv).2
  refine ⟨fun f => ?_, ?_⟩
  · rw [hj]; exact puts_not_torn _ _ _ (h.1 f)
  · intro i c hc
    have keepC : ∀ f, Complete d f → Complete (runAll d (s.ops.take k)) f := by
      intro f hf
      unfold Complete
      rw [hj]
      exact puts_full _ _ _ hf
    rw [hj] at hc
    by_cases hf : File.state i ∈ (s.files.take j).map (·.1)
    · obtain ⟨v, h1, h2⟩ := puts_mem _ d.fs _ hf
      rw [h2] at hc
      obtain ⟨hi, hs⟩ := mem_files_state hsc (List.mem_of_mem_take h1)
      subst hi
      refine ⟨v, by simpa using hc.symm, ?_⟩
      -- the state is the last file, so everything has been committed
      have hall : s.files.take j = s.files := by
        have hfl : s.files = (v.sidecars.map (fun f => (f, ⟨[], 0⟩)) ++ s.models.map (fun m => (File.model m.1 s.iter, m.2))) ++
            [(.state s.iter, v)] := by
          unfold Save.files; rw [hs]; rfl
        rw [hfl] at h1 ⊢
        refine List.take_of_length_le ?_
        by_contra hlt
        rw [List.take_append_of_le_length (by simp only [List.length_append, List.length_singleton] at hlt ⊢; omega)] at h1
        have h3 := List.mem_of_mem_take h1
        simp only [List.mem_append, List.mem_map] at h3
        rcases h3 with ⟨f, hf, he⟩ | ⟨m, _, he⟩
        · have := hsc v hs f hf
          simp only [Prod.mk.injEq] at he
          rw [he.1] at this
          simp [File.isSidecar] at this
        · simp at he
      rw [hall] at hj
      have full : ∀ f, f ∈ s.files.map (·.1) → Complete (runAll d (s.ops.take k)) f := by
        intro f hf
        obtain ⟨w, _, hw⟩ := puts_mem s.files d.fs f hf
        exact ⟨w, by rw [hj]; exact hw⟩
      refine ⟨fun m hm => full _ ?_, fun f hf => ⟨hsc v hs f hf, full _ ?_⟩⟩
      · rw [← hms] at hm
        obtain ⟨e, he, rfl⟩ := List.mem_map.mp hm
        exact List.mem_map.mpr ⟨(.model e.1 s.iter, e.2), by unfold Save.files; simp only [List.mem_append, List.mem_map]; exact Or.inl (Or.inr ⟨e, he, rfl⟩), rfl⟩
      · exact List.mem_map.mpr ⟨(f, ⟨[], 0⟩), by unfold Save.files; rw [hs]; simp only [List.mem_append, List.mem_map]; exact Or.inl (Or.inl ⟨f, hf, rfl⟩), rfl⟩
    · rw [puts_not_mem _ _ _ hf] at hc
      obtain ⟨v, h1, h2, h3⟩ := h.2 i c hc
      exact ⟨v, h1, fun m hm => keepC _ (h2 m hm), fun f hf => ⟨(h3 f hf).1, keepC _ (h3 f hf).2⟩⟩

theorem take_mem_order {α : Type _} (a b : List α) (k : Nat) (x : α) (hx : x ∈ (a ++ b).take k) : x ∈ a ∨ (x ∈ b ∧ a.length ≤ k) := by
  rw [List.take_append] at hx
  rcases List.mem_append.mp hx with h | h
  · exact Or.inl (List.mem_of_mem_take h)
  · refine Or.inr ⟨List.mem_of_mem_take h, ?_⟩
    by_contra hlt
    rw [Nat.sub_eq_zero_of_le (by omega)] at h
    simp at h

theorem prune_resumable (ms : List Nat) (d : Disk) (ls : List File) (temp : List Nat) (keep : Int) (k : Nat) (hls : Lists d ls)
    (h : Resumable ms d) : Resumable ms (runAll d ((cleanup d ls temp keep).ops.take k)) := by
  have hfs : ∀ f, (runAll d ((cleanup d ls temp keep).ops.take k)).fs f =
      if f ∈ (Cleanup.files d ls temp keep).take k then none else d.fs f := by
    intro f
    rw [Cleanup.ops_eq, ← List.map_take]
    exact removes_fs _ d f
  refine ⟨fun f => ?_, ?_⟩
  · rw [hfs]
    split
    · simp
    · exact h.1 f
  · intro i c hc
    rw [hfs] at hc
    by_cases hr : File.state i ∈ (Cleanup.files d ls temp keep).take k
    · rw [if_pos hr] at hc; simp at hc
    · rw [if_neg hr] at hc
      obtain ⟨v, h1, h2, h3⟩ := h.2 i c hc
      have hmem : i ∈ stateIters ls := by
        rw [mem_stateIters, hls.2]; rw [hc]; simp
      -- a state that has not been removed although other files have is retained
      have hret : (cleanup d ls temp keep).removed.length ≤ k → i ∈ (cleanup d ls temp keep).retained := by
        intro hk
        by_contra hn
        have : i ∈ (cleanup d ls temp keep).removed := by
          have := List.take_append_drop (numDelete (stateIters ls).length keep) (stateIters ls)
          rw [← this] at hmem
          rcases List.mem_append.mp hmem with h | h
          · exact h
          · exact absurd h hn
        apply hr
        unfold Cleanup.files
        simp only [List.append_assoc]
        rw [List.take_append]
        refine List.mem_append_left _ ?_
        rw [List.take_of_length_le (by simpa using hk)]
        exact List.mem_map.mpr ⟨i, this, rfl⟩
      refine ⟨v, h1, fun m hm => ?_, fun f hf => ?_⟩
      · obtain ⟨w, hw⟩ := h2 m hm
        refine ⟨w, ?_⟩
        rw [hfs, if_neg, hw]
        intro hx
        unfold Cleanup.files at hx
        simp only [List.append_assoc] at hx
        rcases take_mem_order _ _ _ _ hx with hx | ⟨hx, hk⟩
        · simp at hx
        · have hi := hret (by simpa using hk)
          rcases List.mem_append.mp hx with hx | hx
          · simp [File.isSidecar] at hx
          · simp only [List.mem_flatMap, List.mem_filter] at hx
            obtain ⟨a, ⟨_, ha⟩, _, hb⟩ := hx
            simp only [File.modelIter, decide_eq_true_eq, Option.some.injEq] at hb
            subst hb
            simp only [Bool.and_eq_true, decide_eq_true_eq] at ha
            exact ha.2 hi
      · obtain ⟨hside, w, hw⟩ := h3 f hf
        refine ⟨hside, w, ?_⟩
        rw [hfs, if_neg, hw]
        intro hx
        unfold Cleanup.files at hx
        simp only [List.append_assoc] at hx
        rcases take_mem_order _ _ _ _ hx with hx | ⟨hx, hk⟩
        · obtain ⟨a, ha, rfl⟩ := List.mem_map.mp hx
          simp [File.isSidecar] at hside
        · have hi := hret (by simpa using hk)
          rcases List.mem_append.mp hx with hx | hx
          · simp only [List.mem_filter, Bool.and_eq_true, decide_eq_true_eq, List.mem_flatMap, not_exists, not_and] at hx
            refine hx.2.2 i hi ?_
            unfold sidecarsOf
            rw [hc, h1]
            exact hf
          · simp only [List.mem_flatMap, List.mem_filter] at hx
            obtain ⟨a, _, _, hb⟩ := hx
            cases f <;> simp_all [File.modelIter, File.isSidecar]

/-- **C38.** After any history of saves (periodic or temporary, with or without a state, of the models `ms`), prunings and restarts, each
stopped at any point by a crash, every state file in the directory is complete and has the complete file of every model of its iteration
and of every sidecar it refers to; so every state, in particular the newest, can be resumed. -/
theorem C38_states_resumable (ms : List Nat) (interval : Nat) (keep : Int) (w0 w : World) (h0 : Resumable ms w0.disk)
    (h : WExec ms interval keep w0 w) : Resumable ms w.disk := by
  induction h with
  | refl => exact h0
  | step _ hs ih =>
    cases hs with
    | save s k hms hst => exact save_resumable ms _ s k hms hst ih
    | prune ls k temp' hls _ => exact prune_resumable ms _ ls _ keep k hls ih
    | crash => exact ih

/-- **C38 (a finished save).** A save that is not interrupted leaves the new state and every new model file of its iteration on disk. -/
theorem C38_save_complete (d : Disk) (s : Save) (k : Nat) (hk : s.ops.length ≤ k) (hnd : (s.models.map (·.1)).Nodup)
    (hsc : ∀ v, s.state = some v → ∀ f ∈ v.sidecars, f.isSidecar = true) :
    let d' := runAll d (s.ops.take k)
    (∀ v, s.state = some v → d'.fs (.state s.iter) = some (.full v) ∧ ∀ f ∈ v.sidecars, Complete d' f) ∧
    ∀ m v, (m, v) ∈ s.models → d'.fs (.model m s.iter) = some (.full v) := by
  intro d'
  obtain ⟨j, hj, hall⟩ := saves_take s.files d k
  rw [← s.ops_eq] at hj
  have hlen : s.ops.length = 3 * s.files.length := by
    rw [s.ops_eq, List.length_flatMap]
    simp [saveOps, List.map_const', Nat.mul_comm]
  rw [hall (by omega), List.take_length] at hj
  have hj' : d'.fs = s.files.foldl put d.fs := hj
  refine ⟨fun v hv => ⟨?_, fun f hf => ?_⟩, fun m v hm => ?_⟩
  · obtain ⟨u, h1, h2⟩ := puts_mem s.files d.fs (.state s.iter)
      (List.mem_map.mpr ⟨(.state s.iter, v), by unfold Save.files; simp [hv], rfl⟩)
    rw [hj', h2]
    have := (mem_files_state hsc h1).2
    rw [hv] at this
    simp at this; rw [this]
  · obtain ⟨u, h1, h2⟩ := puts_mem s.files d.fs f
      (List.mem_map.mpr ⟨(f, ⟨[], 0⟩), by unfold Save.files; simp [hv]; exact Or.inl hf, rfl⟩)
    exact ⟨u, by rw [hj', h2]⟩
  · obtain ⟨u, h1, h2⟩ := puts_mem s.files d.fs (.model m s.iter)
      (List.mem_map.mpr ⟨(.model m s.iter, v), by unfold Save.files; simp; exact Or.inr (Or.inl hm), rfl⟩)
    rw [hj', h2]
    have hu : (m, u) ∈ s.models := by
      unfold Save.files at h1
      simp only [List.mem_append, List.mem_map] at h1
      rcases h1 with (⟨f, hf, he⟩ | ⟨e, he, heq⟩) | h1
      · cases hs : s.state with
        | none => simp [hs] at hf
        | some v' =>
          simp only [hs, Option.elim_some] at hf
          have := hsc v' hs f hf
          simp only [Prod.mk.injEq] at he
          rw [he.1] at this
          simp [File.isSidecar] at this
      · simp only [Prod.mk.injEq, File.model.injEq, and_true] at heq
        rw [← heq.1, ← heq.2]; exact he
      · cases hs : s.state <;> simp [hs] at h1
    have := List.inj_on_of_nodup_map hnd hu hm rfl
    simp at this; rw [this]

/-- An empty directory. -/
def Disk.empty : Disk := ⟨fun _ => none, fun _ => none⟩

theorem empty_resumable (ms : List Nat) : Resumable ms Disk.empty :=
  ⟨fun _ => by simp [Disk.empty], fun i c h => by simp [Disk.empty] at h⟩

/-- A history with two models: a periodic save at iteration 10 with a sidecar, a temporary one at 15 cut just before its state is renamed,
a restart, another try that completes, and a pruning: the hypotheses of C38 are met and two states exist at the end. -/
example : ∃ w, WExec [0, 1] 10 2 ⟨Disk.empty, [], []⟩ w ∧ w.disk.fs (.state 10) ≠ none ∧ w.disk.fs (.state 15) ≠ none ∧
    w.disk.fs (.model 1 15) = some (.full ⟨[], 8⟩) ∧ w.disk.fs (.sidecar 10 3 0) ≠ none := by
  let s10 : Save := ⟨10, [(0, ⟨[], 1⟩), (1, ⟨[], 2⟩)], some ⟨[.sidecar 10 3 0], 3⟩⟩
  let s15 : Save := ⟨15, [(0, ⟨[], 7⟩), (1, ⟨[], 8⟩)], some ⟨[], 9⟩⟩
  have h1 := WExec.step (.refl (ms := [0, 1]) (interval := 10) (keep := 2) (w0 := ⟨Disk.empty, [], []⟩))
    (.save s10 100 rfl (fun v hv => by cases hv; exact ⟨by decide +kernel, by decide⟩))
  have h2 := h1.step (.save s15 8 rfl (fun v hv => by cases hv; exact ⟨by decide +kernel, by decide⟩))
  have h3 := h2.step .crash
  have h4 := h3.step (.save s15 100 rfl (fun v hv => by cases hv; exact ⟨by decide +kernel, by decide⟩))
  exact ⟨_, h4, by decide +kernel, by decide +kernel, by decide +kernel, by decide +kernel⟩

end Verif.Ckpt
