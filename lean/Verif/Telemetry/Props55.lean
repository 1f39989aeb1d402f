import Verif.Telemetry.Store
import Mathlib.Tactic.SplitIfs
import Mathlib.Tactic.ByContra
import Mathlib.Data.List.Perm.Subperm
import Mathlib.Data.List.Nodup

/-! C55: the profile store. -/
namespace Verif.Telemetry

/-! ### Specification -/

/-- File names are unique. -/
def Unique (d : Dir) : Prop := (d.map (·.name)).Nodup

/-- The directory holds this valid record under this name. -/
def Holds (d : Dir) (n : FName) (r : Rec) : Prop := ∃ f ∈ d, f.name = n ∧ f.content = .record r

/-- Number of profile files. -/
def profiles (d : Dir) : Nat := (d.filter (isProfile ·.name)).length

/-! ### Lookup and directory updates -/

theorem lookup_some {d : Dir} {n : FName} {f : PFile} (h : lookup d n = some f) : f ∈ d ∧ f.name = n :=
  ⟨List.mem_of_find?_eq_some h, by simpa using List.find?_some h⟩

theorem lookup_of_mem {d : Dir} (hu : Unique d) {f : PFile} (h : f ∈ d) : lookup d f.name = some f := by
  unfold lookup
  unfold Unique at hu
  induction d with
  | nil => simp at h
  | cons x xs ih =>
      rw [List.map_cons, List.nodup_cons] at hu
      rw [List.find?_cons]
      by_cases hx : x.name = f.name
      · simp only [hx, decide_true]
        rcases List.mem_cons.1 h with rfl | h
        · rfl
        · exact absurd (List.mem_map.2 ⟨f, h, hx.symm⟩) hu.1
      · simp only [hx, decide_false]
        rcases List.mem_cons.1 h with rfl | h
        · exact absurd rfl hx
        · exact ih hu.2 h

theorem lookup_none {d : Dir} {n : FName} : lookup d n = none ↔ ∀ f ∈ d, f.name ≠ n := by
  unfold lookup
  rw [List.find?_eq_none]
  simp

theorem unique_filter {d : Dir} (p : PFile → Bool) (h : Unique d) : Unique (d.filter p) := by
  unfold Unique at *
  exact (List.filter_sublist.map _).nodup h

theorem unique_put {d : Dir} (f : PFile) (h : Unique d) : Unique (put d f) := by
  unfold put
  have h1 := unique_filter (fun g => decide (g.name ≠ f.name)) h
  unfold Unique at *
  rw [List.map_append, List.nodup_append]
  refine ⟨h1, by simp, ?_⟩
  intro a ha b hb
  simp at hb
  subst hb
  obtain ⟨g, hg, rfl⟩ := List.mem_map.1 ha
  simpa using (List.mem_filter.1 hg).2

theorem unique_step {d : Dir} (op : FsOp) (h : Unique d) : Unique (fsStep d op) := by
  cases op with
  | begin tmp now => exact unique_put _ h
  | write tmp now r => exact unique_put _ h
  | replace tmp stem =>
      unfold fsStep
      simp only
      split
      · exact unique_put _ (unique_filter _ h)
      · exact h
  | unlink n => exact unique_filter _ h

theorem unique_run (ops : List FsOp) : ∀ {d : Dir}, Unique d → Unique (fsRun d ops) := by
  induction ops with
  | nil => intro d h; exact h
  | cons op ops ih => intro d h; exact ih (unique_step op h)

theorem mem_put {d : Dir} {f g : PFile} : g ∈ put d f ↔ (g ∈ d ∧ g.name ≠ f.name) ∨ g = f := by
  unfold put
  simp [List.mem_append, List.mem_filter]

/-- The directory after the writing half: the new file under its key, the temporary name gone, the rest
as before. -/
theorem mem_write (d : Dir) (tmp : Str) (now : Int) (r : Rec) (g : PFile) :
    g ∈ fsRun d (writeOps tmp now r) ↔
      (g ∈ d ∧ g.name ≠ .other tmp ∧ g.name ≠ .json r.exactKey) ∨ g = ⟨.json r.exactKey, now, .record r⟩ := by
  have hl : lookup (put (put d ⟨.other tmp, now, .junk⟩) ⟨.other tmp, now, .record r⟩) (.other tmp)
      = some ⟨.other tmp, now, .record r⟩ := by
    unfold put lookup
    rw [List.find?_append]
    have : List.find? (fun x : PFile => decide (x.name = FName.other tmp))
        (List.filter (fun x => decide (x.name ≠ FName.other tmp))
          (List.filter (fun x => decide (x.name ≠ FName.other tmp)) d ++ [⟨.other tmp, now, .junk⟩])) = none := by
      rw [List.find?_eq_none]
      intro x hx
      have := (List.mem_filter.1 hx).2
      simpa using this
    rw [this]
    simp
  unfold writeOps fsRun
  simp only [List.foldl_cons, List.foldl_nil]
  unfold fsStep
  simp only
  rw [hl]
  simp only [mem_put, List.mem_filter, decide_eq_true_eq]
  constructor
  · rintro (⟨⟨(⟨(⟨h1, h2⟩ | h1), h3⟩ | h1), h4⟩, h5⟩ | h1)
    · exact .inl ⟨h1, h2, h5⟩
    · subst h1; exact absurd rfl h4
    · subst h1; exact absurd rfl h4
    · exact .inr h1
  · rintro (⟨h1, h2, h3⟩ | h1)
    · exact .inl ⟨⟨.inl ⟨.inl ⟨h1, h2⟩, h2⟩, h2⟩, h3⟩
    · exact .inr h1

theorem mem_prune (l : List PFile) : ∀ (d : Dir) (g : PFile),
    g ∈ fsRun d (l.map fun f => FsOp.unlink f.name) ↔ g ∈ d ∧ ∀ f ∈ l, g.name ≠ f.name := by
  induction l with
  | nil => intro d g; simp [fsRun]
  | cons f l ih =>
      intro d g
      have := ih (d.filter (·.name ≠ f.name)) g
      have hstep : fsRun d ((f :: l).map fun f => FsOp.unlink f.name)
          = fsRun (d.filter (·.name ≠ f.name)) (l.map fun f => FsOp.unlink f.name) := rfl
      rw [hstep, this]
      simp only [List.mem_filter, decide_eq_true_eq, List.mem_cons, forall_eq_or_imp]
      constructor
      · rintro ⟨⟨h1, h2⟩, h3⟩; exact ⟨h1, h2, h3⟩
      · rintro ⟨h1, h2, h3⟩; exact ⟨⟨h1, h2⟩, h3⟩

/-- Files that survive pruning: non-profiles, and the first `maxEntries` profiles. -/
theorem mem_pruned (maxEntries : Nat) {d : Dir} (hu : Unique d) (g : PFile) :
    g ∈ fsRun d (pruneOps maxEntries d) ↔
      g ∈ d ∧ (isProfile g.name = false ∨ g ∈ (newestFirst (profilePaths d)).take maxEntries) := by
  unfold pruneOps
  rw [mem_prune]
  have hperm : (newestFirst (profilePaths d)).Perm (profilePaths d) := List.perm_insertionSort _ _
  have hmem : ∀ f, f ∈ newestFirst (profilePaths d) ↔ f ∈ d ∧ isProfile f.name = true := by
    intro f
    rw [hperm.mem_iff]
    unfold profilePaths
    rw [List.mem_filter]
  have hnd : ((newestFirst (profilePaths d)).map (·.name)).Nodup :=
    (hperm.map _).nodup_iff.2 (unique_filter (isProfile ·.name) hu)
  rw [← List.take_append_drop maxEntries (newestFirst (profilePaths d)), List.map_append,
    List.nodup_append] at hnd
  constructor
  · rintro ⟨h1, h2⟩
    refine ⟨h1, ?_⟩
    cases hp : isProfile g.name with
    | false => exact .inl rfl
    | true =>
        right
        have : g ∈ newestFirst (profilePaths d) := (hmem g).2 ⟨h1, hp⟩
        rw [← List.take_append_drop maxEntries (newestFirst (profilePaths d)), List.mem_append] at this
        rcases this with h | h
        · exact h
        · exact absurd rfl (h2 g h)
  · rintro ⟨h1, h2⟩
    refine ⟨h1, fun f hf heq => ?_⟩
    rcases h2 with h2 | h2
    · have := ((hmem f).1 (List.mem_of_mem_drop hf)).2
      rw [heq] at h2
      rw [h2] at this
      cases this
    · exact hnd.2.2 _ (List.mem_map.2 ⟨g, h2, rfl⟩) _ (List.mem_map.2 ⟨f, hf, rfl⟩) heq

/-! ### Loading -/

theorem accept_some {e k : Str} {u : ReuseMode} {f : PFile} {r : Rec} {kind : Kind}
    (h : accept e k u f = some (r, kind)) :
    f.content = .record r ∧ ((kind = .exact ∧ r.exactKey = e)
      ∨ (kind = .compatible ∧ u = .compatible ∧ r.exactKey ≠ e ∧ r.compatibleKey = k)) := by
  unfold accept at h
  split at h
  · cases h
  · next r' hc =>
    split_ifs at h with h1 h2
    · cases h; exact ⟨hc, .inl ⟨rfl, h1⟩⟩
    · cases h; exact ⟨hc, .inr ⟨rfl, h2.1, h1, h2.2⟩⟩

/-- **C55** (right key).  A profile is reused as exact only if it was recorded for exactly this key, and as
compatible only when that is allowed and it was recorded for the same compatible key; it always is a
record held by the directory. -/
theorem C55_load_key (d : Option Dir) (e k : Str) (u : ReuseMode) (r : Rec) (kind : Kind)
    (h : load d e k u = some (r, kind)) :
    (∃ d', d = some d' ∧ ∃ n, Holds d' n r) ∧ u ≠ .off
    ∧ ((kind = .exact ∧ r.exactKey = e)
      ∨ (kind = .compatible ∧ u = .compatible ∧ r.exactKey ≠ e ∧ r.compatibleKey = k)) := by
  unfold load at h
  cases d with
  | none => cases h
  | some d =>
      simp only at h
      by_cases hu : u = .off
      · rw [if_pos hu] at h; cases h
      rw [if_neg hu] at h
      obtain ⟨f, hf, ha⟩ := List.exists_of_findSome?_eq_some h
      obtain ⟨hc, hk⟩ := accept_some ha
      refine ⟨⟨d, rfl, f.name, f, ?_, rfl, hc⟩, hu, hk⟩
      rw [List.mem_append] at hf
      rcases hf with hf | hf
      · rw [Option.mem_toList] at hf
        exact (lookup_some hf).1
      · split_ifs at hf with hcnd
        · have := (List.perm_insertionSort (fun a b : PFile => b.mtime ≤ a.mtime) (profilePaths d)).mem_iff.1 hf
          exact (List.mem_filter.1 this).1
        · simp at hf

/-- **C55** (exact hit).  Unless reuse is off, a valid record stored under its own key is found. -/
theorem C55_load_exact (d : Dir) (e k : Str) (u : ReuseMode) (r : Rec) (hu : Unique d) (hoff : u ≠ .off)
    (hd : Holds d (.json e) r) (he : r.exactKey = e) : load (some d) e k u = some (r, .exact) := by
  obtain ⟨f, hf, hn, hc⟩ := hd
  have hl := lookup_of_mem hu hf
  rw [hn] at hl
  unfold load
  simp only
  rw [if_neg hoff, hl]
  simp only [Option.toList_some, reduceCtorEq, and_false, if_false, List.append_nil, List.findSome?_cons,
    List.findSome?_nil]
  unfold accept
  rw [hc]
  simp only
  rw [if_pos he]

theorem newest_sorted (l : List PFile) : (newestFirst l).Pairwise (fun a b => b.mtime ≤ a.mtime) := by
  have htrans : IsTrans PFile (fun a b => b.mtime ≤ a.mtime) := ⟨fun _ _ _ h1 h2 => Int.le_trans h2 h1⟩
  have htotal : Std.Total (α := PFile) (fun a b => b.mtime ≤ a.mtime) := ⟨fun a b => Int.le_total _ _⟩
  exact List.pairwise_insertionSort _ _

/-- **C55** (newest compatible).  With compatible reuse and no file under the exact key, the profile
returned is one recorded for the key, and every profile that could also be used is no newer; if there is
any usable profile, one is returned. -/
theorem C55_load_newest (d : Dir) (e k : Str) (hno : ∀ f ∈ d, f.name ≠ .json e) :
    (∀ f ∈ d, isProfile f.name = true → ∀ r, f.content = .record r →
        (r.exactKey = e ∨ r.compatibleKey = k) →
        ∃ r' kind f', load (some d) e k .compatible = some (r', kind) ∧ f' ∈ d
          ∧ f'.content = .record r' ∧ f.mtime ≤ f'.mtime) := by
  intro f hf hp r hc hk
  have hl : lookup d (.json e) = none := lookup_none.2 hno
  have hload : load (some d) e k .compatible
      = (newestFirst (profilePaths d)).findSome? (accept e k .compatible) := by
    unfold load
    simp only
    rw [if_neg (by simp), hl]
    simp
  have hperm : (newestFirst (profilePaths d)).Perm (profilePaths d) := List.perm_insertionSort _ _
  have hmem : f ∈ newestFirst (profilePaths d) := hperm.mem_iff.2 (List.mem_filter.2 ⟨hf, hp⟩)
  have hacc : (accept e k .compatible f).isSome = true := by
    unfold accept
    rw [hc]
    simp only
    split_ifs with h1 h2
    · rfl
    · rfl
    · rcases hk with hk | hk
      · exact absurd hk h1
      · exact absurd ⟨trivial, hk⟩ h2
  have hs := newest_sorted (profilePaths d)
  rw [hload]
  have hsub : ∀ x ∈ newestFirst (profilePaths d), x ∈ d :=
    fun x hx => (List.mem_filter.1 (hperm.mem_iff.1 hx)).1
  generalize newestFirst (profilePaths d) = L at hmem hs hsub
  induction L with
  | nil => simp at hmem
  | cons x xs ih =>
      rw [List.findSome?_cons]
      cases hx : accept e k .compatible x with
      | some v =>
          obtain ⟨r', kind⟩ := v
          refine ⟨r', kind, x, rfl, hsub x List.mem_cons_self, (accept_some hx).1, ?_⟩
          rcases List.mem_cons.1 hmem with rfl | hm
          · exact Int.le_refl _
          · exact (List.pairwise_cons.1 hs).1 f hm
      | none =>
          simp only
          rcases List.mem_cons.1 hmem with rfl | hm
          · rw [hx] at hacc; cases hacc
          · exact ih hm (List.pairwise_cons.1 hs).2 (fun y hy => hsub y (List.mem_cons_of_mem _ hy))

/-! ### Saving -/

theorem filter_profile_pruned (maxEntries : Nat) {d : Dir} (hu : Unique d) :
    profiles (fsRun d (pruneOps maxEntries d)) ≤ maxEntries := by
  unfold profiles
  have hu' : Unique (fsRun d (pruneOps maxEntries d)) := unique_run _ hu
  have hnd : ((fsRun d (pruneOps maxEntries d)).filter (isProfile ·.name)).Nodup := by
    have := unique_filter (isProfile ·.name) hu'
    unfold Unique at this
    exact List.Nodup.of_map _ this
  have hsub : (fsRun d (pruneOps maxEntries d)).filter (isProfile ·.name)
      ⊆ (newestFirst (profilePaths d)).take maxEntries := by
    intro g hg
    rw [List.mem_filter] at hg
    rcases ((mem_pruned maxEntries hu g).1 hg.1).2 with h | h
    · rw [h] at hg; cases hg.2
    · exact h
  have := (List.subperm_of_subset hnd hsub).length_le
  rw [List.length_take] at this
  omega

theorem save_eq (maxEntries : Nat) (tmp : Str) (now : Int) (r : Rec) (d : Dir) :
    save maxEntries tmp now r d
      = fsRun (fsRun d (writeOps tmp now r)) (pruneOps maxEntries (fsRun d (writeOps tmp now r))) := by
  unfold save saveOps
  unfold fsRun
  rw [List.foldl_append]

/-- **C55** (bounded).  After a save at most `maxEntries` profiles remain; every file that is not a profile
and not the temporary file is untouched, and no file other than the new one appears or changes; a deleted
profile is no newer than any profile that remains. -/
theorem C55_save_bounded (maxEntries : Nat) (tmp : Str) (now : Int) (r : Rec) (d : Dir) (hu : Unique d) :
    profiles (save maxEntries tmp now r d) ≤ maxEntries
    ∧ (∀ g ∈ d, isProfile g.name = false → g.name ≠ .other tmp → g.name ≠ .json r.exactKey →
        g ∈ save maxEntries tmp now r d)
    ∧ (∀ g ∈ save maxEntries tmp now r d, g ∈ d ∨ g = ⟨.json r.exactKey, now, .record r⟩)
    ∧ (∀ g ∈ d, g.name ≠ .json r.exactKey → isProfile g.name = true → g ∉ save maxEntries tmp now r d →
        ∀ f ∈ save maxEntries tmp now r d, isProfile f.name = true → g.mtime ≤ f.mtime) := by
  rw [save_eq]
  have hu1 : Unique (fsRun d (writeOps tmp now r)) := unique_run _ hu
  refine ⟨filter_profile_pruned maxEntries hu1, ?_, ?_, ?_⟩
  · intro g hg hp h1 h2
    exact (mem_pruned maxEntries hu1 g).2 ⟨(mem_write d tmp now r g).2 (.inl ⟨hg, h1, h2⟩), .inl hp⟩
  · intro g hg
    have := ((mem_pruned maxEntries hu1 g).1 hg).1
    rcases (mem_write d tmp now r g).1 this with h | h
    · exact .inl h.1
    · exact .inr h
  · intro g hg hne hp hnot f hf hfp
    have hgt : g.name ≠ .other tmp := by
      intro h
      rw [h] at hp
      cases hp
    have hg1 := (mem_write d tmp now r g).2 (.inl ⟨hg, hgt, hne⟩)
    have hsort := newest_sorted (profilePaths (fsRun d (writeOps tmp now r)))
    have hperm : (newestFirst (profilePaths (fsRun d (writeOps tmp now r)))).Perm
        (profilePaths (fsRun d (writeOps tmp now r))) := List.perm_insertionSort _ _
    have hgm : g ∈ newestFirst (profilePaths (fsRun d (writeOps tmp now r))) :=
      hperm.mem_iff.2 (List.mem_filter.2 ⟨hg1, hp⟩)
    have hft : f ∈ (newestFirst (profilePaths (fsRun d (writeOps tmp now r)))).take maxEntries := by
      rcases ((mem_pruned maxEntries hu1 f).1 hf).2 with h | h
      · rw [h] at hfp; cases hfp
      · exact h
    have hgd : g ∈ (newestFirst (profilePaths (fsRun d (writeOps tmp now r)))).drop maxEntries := by
      rw [← List.take_append_drop maxEntries (newestFirst _), List.mem_append] at hgm
      rcases hgm with h | h
      · exact absurd ((mem_pruned maxEntries hu1 g).2 ⟨hg1, .inr h⟩) hnot
      · exact h
    rw [← List.take_append_drop maxEntries (newestFirst _), List.pairwise_append] at hsort
    exact hsort.2.2 f hft g hgd

/-- **C55** (saved profile is found).  If the new profile is strictly newer than every other one (and at
least one entry is allowed), it survives and the next load with its key returns it. -/
theorem C55_save_load (maxEntries : Nat) (tmp : Str) (now : Int) (r : Rec) (d : Dir) (hu : Unique d)
    (h1 : 1 ≤ maxEntries) (hnew : ∀ g ∈ d, isProfile g.name = true → g.mtime < now) (u : ReuseMode)
    (hoff : u ≠ .off) (k : Str) :
    load (some (save maxEntries tmp now r d)) r.exactKey k u = some (r, .exact) := by
  have hu1 : Unique (fsRun d (writeOps tmp now r)) := unique_run _ hu
  have hu2 : Unique (save maxEntries tmp now r d) := by rw [save_eq]; exact unique_run _ hu1
  refine C55_load_exact _ _ _ _ _ hu2 hoff ?_ rfl
  refine ⟨⟨.json r.exactKey, now, .record r⟩, ?_, rfl, rfl⟩
  rw [save_eq, mem_pruned maxEntries hu1]
  have hin : (⟨.json r.exactKey, now, .record r⟩ : PFile) ∈ fsRun d (writeOps tmp now r) :=
    (mem_write d tmp now r _).2 (.inr rfl)
  refine ⟨hin, ?_⟩
  cases hp : isProfile (FName.json r.exactKey) with
  | false => exact .inl rfl
  | true =>
      right
      have hsort := newest_sorted (profilePaths (fsRun d (writeOps tmp now r)))
      have hperm : (newestFirst (profilePaths (fsRun d (writeOps tmp now r)))).Perm
          (profilePaths (fsRun d (writeOps tmp now r))) := List.perm_insertionSort _ _
      have hm := hperm.mem_iff.2 (List.mem_filter.2 ⟨hin, hp⟩)
      have hall : ∀ g ∈ newestFirst (profilePaths (fsRun d (writeOps tmp now r))),
          g = ⟨.json r.exactKey, now, .record r⟩ ∨ g.mtime < now := by
        intro g hg
        have hg' := List.mem_filter.1 (hperm.mem_iff.1 hg)
        rcases (mem_write d tmp now r g).1 hg'.1 with h | h
        · exact .inr (hnew g h.1 hg'.2)
        · exact .inl h
      generalize newestFirst (profilePaths (fsRun d (writeOps tmp now r))) = L at hsort hm hall
      cases L with
      | nil => simp at hm
      | cons x xs =>
          have hx : x = ⟨.json r.exactKey, now, .record r⟩ := by
            rcases List.mem_cons.1 hm with h | h
            · exact h.symm
            · rcases hall x List.mem_cons_self with h' | h'
              · exact h'
              · have := (List.pairwise_cons.1 hsort).1 _ h
                simp only at this
                omega
          rw [hx]
          cases maxEntries with
          | zero => omega
          | succ m => simp

/-- **C55** (crash safety).  Stop a save after any number of its operations: every profile file holds what
it held before the save or the complete new record — never a partial one. -/
theorem C55_save_atomic (maxEntries : Nat) (tmp : Str) (now : Int) (r : Rec) (d : Dir) (n : Nat) (g : PFile)
    (hg : g ∈ fsRun d ((saveOps maxEntries tmp now r d).take n)) :
    g ∈ d ∨ g = ⟨.json r.exactKey, now, .record r⟩ ∨ g.name = .other tmp := by
  unfold saveOps at hg
  rcases n with _ | _ | _ | n
  · exact .inl hg
  · unfold writeOps fsRun at hg
    simp only [List.cons_append, List.take_succ_cons, List.take_zero, List.foldl_cons, List.foldl_nil] at hg
    unfold fsStep at hg
    rcases mem_put.1 hg with h | h
    · exact .inl h.1
    · subst h; exact .inr (.inr rfl)
  · unfold writeOps fsRun at hg
    simp only [List.cons_append, List.take_succ_cons, List.take_zero, List.foldl_cons, List.foldl_nil] at hg
    unfold fsStep at hg
    rcases mem_put.1 hg with ⟨h, hn⟩ | h
    · rcases mem_put.1 h with h | h
      · exact .inl h.1
      · subst h; exact .inr (.inr rfl)
    · subst h; exact .inr (.inr rfl)
  · have hw : (writeOps tmp now r ++ pruneOps maxEntries (fsRun d (writeOps tmp now r))).take (n + 3)
        = writeOps tmp now r ++ (pruneOps maxEntries (fsRun d (writeOps tmp now r))).take n := by
      rw [List.take_append]
      have e1 : (writeOps tmp now r).length = 3 := rfl
      rw [e1, List.take_of_length_le (by rw [e1]; omega), Nat.add_sub_cancel]
    rw [hw] at hg
    unfold fsRun at hg
    rw [List.foldl_append] at hg
    unfold pruneOps at hg
    rw [← List.map_take] at hg
    have := ((mem_prune _ _ _).1 hg).1
    rcases (mem_write d tmp now r g).1 this with h | h
    · exact .inl h.1
    · exact .inr (.inl h)

/-! ### Several processes -/

/-- Where a saving thread is. -/
inductive Saving where
  | idle
  | begun (r : Rec)
  | written (r : Rec)

/-- What a saving thread does next; it may also stop for good anywhere. -/
inductive SaveEv where
  | begin (r : Rec) (now : Int)
  | write (now : Int)
  | replace
  | unlink (stem : Str)

/-- The next operation of a thread that uses the temporary name `tmp`, in the order of the code; `none` if
it is not its turn. -/
def nextOp (tmp : Str) : Saving → SaveEv → Option (FsOp × Saving)
  | .idle, .begin r now => some (.begin tmp now, .begun r)
  | .begun r, .write now => some (.write tmp now r, .written r)
  | .written r, .replace => some (.replace tmp r.exactKey, .idle)
  | .idle, .unlink stem => some (.unlink (.json stem), .idle)
  | _, _ => none

/-- Threads interleaved in any order. -/
def interleave (tmp : Nat → Str) : Dir → (Nat → Saving) → List (Nat × SaveEv) → Option Dir
  | d, _, [] => some d
  | d, st, (i, ev) :: evs => do
      let (op, s) ← nextOp (tmp i) (st i) ev
      interleave tmp (fsStep d op) (fun j => if j = i then s else st j) evs

theorem lookup_put_self (d : Dir) (f : PFile) : lookup (put d f) f.name = some f := by
  unfold put lookup
  rw [List.find?_append]
  have : List.find? (fun x : PFile => decide (x.name = f.name))
      (List.filter (fun x => decide (x.name ≠ f.name)) d) = none := by
    rw [List.find?_eq_none]
    intro x hx
    simpa using (List.mem_filter.1 hx).2
  rw [this]
  simp

theorem lookup_filter_ne (d : Dir) (n m : FName) (h : n ≠ m) :
    lookup (d.filter (·.name ≠ m)) n = lookup d n := by
  unfold lookup
  rw [List.find?_filter]
  congr 1
  funext x
  by_cases hx : x.name = n
  · simp [hx, h]
  · simp [hx]

theorem lookup_put_ne (d : Dir) (f : PFile) (n : FName) (h : n ≠ f.name) :
    lookup (put d f) n = lookup d n := by
  unfold put
  have := lookup_filter_ne d n f.name h
  unfold lookup at this ⊢
  rw [List.find?_append, this]
  have hs : List.find? (fun x : PFile => decide (x.name = n)) [f] = none := by
    simp
    exact fun h' => h h'.symm
  rw [hs]
  simp

/-- **C55** (concurrent saves).  However the operations of any number of saving threads with distinct
temporary names interleave — and wherever some of them stop — every `.json` file is an original file or a
complete record stored under its own key. -/
theorem C55_concurrent (tmp : Nat → Str) (hinj : ∀ i j, tmp i = tmp j → i = j) (evs : List (Nat × SaveEv))
    (d0 d : Dir) (h : interleave tmp d0 (fun _ => .idle) evs = some d) (g : PFile) (hg : g ∈ d) (stem : Str)
    (hn : g.name = .json stem) :
    g ∈ d0 ∨ ∃ r, g.content = .record r ∧ r.exactKey = stem := by
  have main : ∀ (evs : List (Nat × SaveEv)) (d' : Dir) (st : Nat → Saving),
      (∀ i r, st i = .written r → ∃ f, lookup d' (.other (tmp i)) = some f ∧ f.content = .record r) →
      (∀ g ∈ d', ∀ stem, g.name = .json stem → g ∈ d0 ∨ ∃ r, g.content = .record r ∧ r.exactKey = stem) →
      ∀ d, interleave tmp d' st evs = some d →
      ∀ g ∈ d, ∀ stem, g.name = .json stem → g ∈ d0 ∨ ∃ r, g.content = .record r ∧ r.exactKey = stem := by
    intro evs
    induction evs with
    | nil => intro d' st _ h2 d h; cases h; exact h2
    | cons ev evs ih =>
        intro d' st h1 h2 d h
        obtain ⟨i, ev⟩ := ev
        unfold interleave at h
        cases ho : nextOp (tmp i) (st i) ev with
        | none => rw [ho] at h; simp at h
        | some q =>
            obtain ⟨op, s⟩ := q
            rw [ho] at h
            simp only [Option.bind_eq_bind, Option.bind_some] at h
            have htmp : ∀ j, j ≠ i → FName.other (tmp j) ≠ FName.other (tmp i) := by
              intro j hj he
              exact hj (hinj j i (by simpa using he))
            refine ih _ _ ?_ ?_ d h
            · intro j r hj
              unfold nextOp at ho
              by_cases hji : j = i
              · subst hji
                simp only [if_true] at hj
                subst hj
                split at ho <;> cases ho
                exact ⟨_, lookup_put_self d' ⟨.other (tmp j), _, .record _⟩, rfl⟩
              · rw [if_neg hji] at hj
                obtain ⟨f, hf, hfc⟩ := h1 j r hj
                refine ⟨f, ?_, hfc⟩
                split at ho <;> cases ho
                · exact (lookup_put_ne _ _ _ (htmp j hji)).trans hf
                · exact (lookup_put_ne _ _ _ (htmp j hji)).trans hf
                · unfold fsStep
                  simp only
                  split
                  · rw [lookup_put_ne _ _ _ (by simp), lookup_filter_ne _ _ _ (htmp j hji)]
                    exact hf
                  · exact hf
                · unfold fsStep
                  simp only
                  rw [lookup_filter_ne _ _ _ (by simp)]
                  exact hf
            · intro g hg stem hn
              unfold nextOp at ho
              split at ho <;> cases ho
              · rcases mem_put.1 hg with hg | hg
                · exact h2 g hg.1 stem hn
                · subst hg; cases hn
              · rcases mem_put.1 hg with hg | hg
                · exact h2 g hg.1 stem hn
                · subst hg; cases hn
              · next r hst =>
                obtain ⟨f, hf, hfc⟩ := h1 i r hst
                unfold fsStep at hg
                simp only [hf] at hg
                rcases mem_put.1 hg with hg | hg
                · exact h2 g (List.mem_filter.1 hg.1).1 stem hn
                · subst hg
                  simp only [FName.json.injEq] at hn
                  exact .inr ⟨r, hfc, hn⟩
              · exact h2 g (List.mem_filter.1 hg).1 stem hn
  exact main evs d0 _ (by intro i r h; cases h) (fun g hg _ _ => .inl hg) d h g hg stem hn

/-! ### Non-vacuity -/

def keyA : Str := List.replicate 64 'a'
def keyB : Str := List.replicate 64 'b'
def keyC : Str := List.replicate 64 'c'

def exDir : Dir := [⟨.json keyA, 5, .record ⟨keyA, ['k'], 1⟩⟩, ⟨.other ['x'], 9, .junk⟩,
  ⟨.json keyB, 3, .record ⟨keyB, ['k'], 2⟩⟩]

/-- With room for two profiles the oldest goes. -/
example : save 2 ['t'] 10 ⟨keyC, ['k'], 3⟩ exDir = [⟨.json keyA, 5, .record ⟨keyA, ['k'], 1⟩⟩,
    ⟨.other ['x'], 9, .junk⟩, ⟨.json keyC, 10, .record ⟨keyC, ['k'], 3⟩⟩] := by decide +kernel

/-- No exact profile: the newest compatible one is reused. -/
example : load (some exDir) keyC ['k'] .compatible = some (⟨keyA, ['k'], 1⟩, .compatible)
    ∧ load (some exDir) keyC ['k'] .exact = none := by decide +kernel

example : Unique exDir := by unfold Unique; decide +kernel

end Verif.Telemetry
