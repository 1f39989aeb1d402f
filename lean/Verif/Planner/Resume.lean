import Verif.Planner.Runs
import Mathlib.Data.List.Perm.Subperm

/-!
# Planner snapshots: `state` and `restore` (`dataset/planner.py:682-770`), object path
-/
namespace Verif.Planner
open Verif.Reservoir (Res Snapshot SameButCache)

variable {σ κ ε : Type}

/-- `PlannerState` (`planner.py:67-81`); `κ` are saved cursors.  `schema` and `algorithm` are constants of the format
(written at lines 684-685, compared at 713-716) and left out. -/
structure Saved (κ ε : Type) where
  manifest : String
  cfg : Config
  epoch : Int
  batchIndex : Int
  cycle : Int
  cursor : κ
  res : Snapshot ε
  ready : List ε
  queues : List (Nat × List ε)
  exhausted : Bool
  finished : Bool

/-- Insertion of an entry into a list sorted by shape code. -/
def insertShape (p : Nat × List ε) : List (Nat × List ε) → List (Nat × List ε)
  | [] => [p]
  | x :: q => if p.1 ≤ x.1 then p :: x :: q else x :: insertShape p q

/-- `sorted(self._shape_queues.items())` (keys of a dict are distinct, so the order is by shape code). -/
def sortShapes (q : List (Nat × List ε)) : List (Nat × List ε) := q.foldr insertShape []

/-- `state` (`planner.py:682-710`).  The reservoir returns its cached snapshot if it has one (`shuffle.py:281-300`). -/
def save (P : Planner σ ε) (saveCursor : σ → κ) (st : St σ ε) : Saved κ ε where
  manifest := P.manifest
  cfg := P.cfg
  epoch := st.epoch
  batchIndex := st.batchIndex
  cycle := st.cycle
  cursor := saveCursor st.cursor
  res := (Reservoir.state (resCfg P st.epoch st.cycle) st.res).2
  ready := st.ready
  queues := (sortShapes st.queues).filter fun p => !p.2.isEmpty
  exhausted := st.exhausted
  finished := st.finished

/-- The checks of `restore` (`planner.py:717-757, 761-762`). -/
def restoreOk (P : Planner σ ε) (s : Saved κ ε) : Prop :=
  s.manifest = P.manifest ∧ s.cfg = P.cfg ∧ 0 ≤ s.batchIndex ∧
  (∀ n, P.cfg.steps = some n → s.batchIndex ≤ n ∧ (s.batchIndex = n → s.finished = true)) ∧
  s.exhausted = s.res.closed ∧
  (s.finished = true → s.exhausted = true ∧ s.ready = [] ∧ s.queues = []) ∧
  s.queues.length ≤ P.cfg.maxQueues ∧
  (s.queues.map (·.1)).Nodup ∧
  (∀ p ∈ s.queues, p.2 ≠ [] ∧ p.2.length < P.batch) ∧
  (∀ p ∈ s.queues, ∀ e ∈ p.2, P.shape e = p.1) ∧
  0 ≤ s.epoch ∧ 0 ≤ s.cycle

open Classical in
/-- `restore` (`planner.py:712-770`). -/
noncomputable def restore (P : Planner σ ε) (restoreCursor : κ → Option σ) (s : Saved κ ε) : Option (St σ ε) :=
  if restoreOk P s then do
    let cursor ← restoreCursor s.cursor
    let res ← Reservoir.restore (resCfg P s.epoch.toNat s.cycle.toNat) s.res
    some ⟨s.epoch.toNat, s.batchIndex.toNat, s.cycle.toNat, cursor, res, s.ready, s.queues, s.exhausted, s.finished⟩
  else none

/-- A source whose cursors can be saved: a restored cursor behaves like the saved one.  `eqv` is any relation under which
reads return the same records and stay related. -/
structure Resumable (S : Source σ ε) (ok : σ → Prop) (saveCursor : σ → κ) (restoreCursor : κ → Option σ)
    (eqv : σ → σ → Prop) : Prop where
  refl : ∀ s, eqv s s
  restore : ∀ s, ok s → ∃ s', restoreCursor (saveCursor s) = some s' ∧ eqv s s'
  next1 : ∀ s s', eqv s s' → (S.next1 s).1 = (S.next1 s').1 ∧ eqv (S.next1 s).2 (S.next1 s').2
  many : ∀ f, S.many = some f → ∀ k s s', eqv s s' → (f k s).1 = (f k s').1 ∧ eqv (f k s).2 (f k s').2
  left : ∀ s s', eqv s s' → S.left s = S.left s'

/-! ### Shape queues up to empty entries and order -/

theorem qget_qset (q : List (Nat × List ε)) (s t : Nat) (l : List ε) :
    qget (qset q s l) t = if t = s then some l else qget q t := by
  induction q with
  | nil =>
    simp only [qset, qget_cons, qget_nil]
    by_cases h : t = s
    · subst h; simp
    · rw [if_neg h, if_neg (by simpa using fun h' => h h'.symm)]
  | cons p q ih =>
    rw [qset]
    by_cases hp : p.1 = s
    · rw [if_pos hp, qget_cons, qget_cons]
      by_cases h : t = s
      · subst h; simp
      · rw [if_neg h, if_neg (fun h' => h h'.symm), if_neg (by rw [hp]; exact fun h' => h h'.symm)]
    · rw [if_neg hp, qget_cons, qget_cons, ih]
      by_cases h : t = s
      · subst h; rw [if_neg hp]
        by_cases hpt : p.1 = t <;> simp_all
      · simp [h]

theorem qget_filter_ne (q : List (Nat × List ε)) (s t : Nat) :
    qget (q.filter fun p => p.1 != s) t = if t = s then none else qget q t := by
  induction q with
  | nil => simp [qget_nil]
  | cons p q ih =>
    rw [List.filter_cons]
    by_cases hp : p.1 = s
    · rw [if_neg (by simp [hp]), ih, qget_cons]
      by_cases h : t = s
      · simp [h]
      · rw [if_neg h, if_neg h, if_neg (by rw [hp]; exact fun h' => h h'.symm)]
    · rw [if_pos (by simp [hp]), qget_cons, qget_cons, ih]
      by_cases h : t = s
      · subst h; simp [hp]
      · simp [h]

/-- Same records per shape; the second has no additional shapes. -/
structure QRel (q q' : List (Nat × List ε)) : Prop where
  nd : (q.map (·.1)).Nodup
  nd' : (q'.map (·.1)).Nodup
  same : ∀ s, (qget q s).getD [] = (qget q' s).getD []
  sub : ∀ s, qget q s = none → qget q' s = none

theorem QRel.refl {q : List (Nat × List ε)} (h : (q.map (·.1)).Nodup) : QRel q q := ⟨h, h, fun _ => rfl, fun _ h => h⟩

theorem mem_keys_iff {q : List (Nat × List ε)} (hn : (q.map (·.1)).Nodup) {s : Nat} :
    s ∈ q.map (·.1) ↔ qget q s ≠ none := by
  constructor
  · intro h
    obtain ⟨p, hp, rfl⟩ := List.mem_map.mp h
    rw [qget_of_mem hn hp]; simp
  · intro h
    cases hg : qget q s with
    | none => exact absurd hg h
    | some l => exact List.mem_map.mpr ⟨(s, l), qget_mem hg, rfl⟩

theorem QRel.keys {q q' : List (Nat × List ε)} (h : QRel q q') : q'.map (·.1) ⊆ q.map (·.1) := by
  intro s hs
  rw [mem_keys_iff h.nd'] at hs
  rw [mem_keys_iff h.nd]
  exact fun h' => hs (h.sub s h')

theorem QRel.length {q q' : List (Nat × List ε)} (h : QRel q q') : q'.length ≤ q.length := by
  have := (h.nd'.subperm h.keys).length_le
  simpa using this

theorem QRel.length_lt {q q' : List (Nat × List ε)} (h : QRel q q') {s : Nat} (h1 : qget q s ≠ none) (h2 : qget q' s = none) :
    q'.length < q.length := by
  have hs : s ∉ q'.map (·.1) := qget_none h2
  have hnd : (s :: q'.map (·.1)).Nodup := List.nodup_cons.mpr ⟨hs, h.nd'⟩
  have hsub : s :: q'.map (·.1) ⊆ q.map (·.1) := by
    intro t ht
    rcases List.mem_cons.mp ht with rfl | ht
    · exact (mem_keys_iff h.nd).mpr h1
    · exact h.keys ht
  have := (hnd.subperm hsub).length_le
  simp at this
  omega

theorem qset_keys_nodup {q : List (Nat × List ε)} (hn : (q.map (·.1)).Nodup) (s : Nat) (l : List ε) :
    ((qset q s l).map (·.1)).Nodup := by
  cases hg : qget q s with
  | some l0 => rw [qset_keys_some hg]; exact hn
  | none =>
    rw [qset_none hg]
    simp only [List.map_append, List.map_cons, List.map_nil]
    have := qget_none hg
    rw [List.nodup_append]
    refine ⟨hn, by simp, ?_⟩
    intro a ha b hb
    simp only [List.mem_cons, List.not_mem_nil, or_false] at hb
    subst hb
    intro h; subst h; exact this ha

theorem QRel.qset {q q' : List (Nat × List ε)} (h : QRel q q') (s : Nat) (l : List ε) :
    QRel (qset q s l) (qset q' s l) := by
  refine ⟨qset_keys_nodup h.nd s l, qset_keys_nodup h.nd' s l, ?_, ?_⟩
  · intro t
    rw [qget_qset, qget_qset]
    by_cases ht : t = s
    · simp [ht]
    · simp [ht, h.same t]
  · intro t
    rw [qget_qset, qget_qset]
    by_cases ht : t = s
    · simp [ht]
    · simpa [ht] using h.sub t

theorem QRel.filter {q q' : List (Nat × List ε)} (h : QRel q q') (s : Nat) :
    QRel (q.filter fun p => p.1 != s) (q'.filter fun p => p.1 != s) := by
  have nd : ∀ {q : List (Nat × List ε)}, (q.map (·.1)).Nodup → ((q.filter fun p => p.1 != s).map (·.1)).Nodup :=
    fun hq => hq.sublist (List.Sublist.map _ List.filter_sublist)
  refine ⟨nd h.nd, nd h.nd', ?_, ?_⟩
  · intro t
    rw [qget_filter_ne, qget_filter_ne]
    split
    · rfl
    · exact h.same t
  · intro t
    rw [qget_filter_ne, qget_filter_ne]
    split
    · simp
    · exact h.sub t

/-- The shapes with pending records. -/
def Pending (q : List (Nat × List ε)) (s : Nat) : Prop := ∃ l, (s, l) ∈ q ∧ l ≠ []

theorem pending_iff {q : List (Nat × List ε)} (hn : (q.map (·.1)).Nodup) (s : Nat) :
    Pending q s ↔ (qget q s).getD [] ≠ [] := by
  constructor
  · rintro ⟨l, hl, hne⟩
    rw [qget_of_mem hn hl]; exact hne
  · intro h
    cases hg : qget q s with
    | none => rw [hg] at h; simp at h
    | some l => rw [hg] at h; exact ⟨l, qget_mem hg, h⟩

theorem QRel.pending {q q' : List (Nat × List ε)} (h : QRel q q') (s : Nat) : Pending q s ↔ Pending q' s := by
  rw [pending_iff h.nd, pending_iff h.nd', h.same]

theorem minShape_iff (q : List (Nat × List ε)) :
    (minShape q = none ∧ ∀ s, ¬ Pending q s) ∨ ∃ s, minShape q = some s ∧ Pending q s ∧ ∀ t, Pending q t → s ≤ t := by
  induction q with
  | nil => exact Or.inl ⟨rfl, fun s ⟨l, h, _⟩ => by simp at h⟩
  | cons p q ih =>
    obtain ⟨s, l⟩ := p
    have hcons : ∀ t, Pending ((s, l) :: q) t ↔ (t = s ∧ l ≠ []) ∨ Pending q t := by
      intro t
      constructor
      · rintro ⟨l', h, hne⟩
        rcases List.mem_cons.mp h with h | h
        · simp only [Prod.mk.injEq] at h; obtain ⟨rfl, rfl⟩ := h; exact Or.inl ⟨rfl, hne⟩
        · exact Or.inr ⟨l', h, hne⟩
      · rintro (⟨rfl, h⟩ | ⟨l', h, hne⟩)
        · exact ⟨l, by simp, h⟩
        · exact ⟨l', by simp [h], hne⟩
    rw [minShape]
    rcases ih with ⟨h1, h2⟩ | ⟨m, h1, h2, h3⟩
    · rw [h1]
      by_cases hl : l = []
      · left
        refine ⟨by simp [hl], fun t ht => ?_⟩
        rcases (hcons t).mp ht with h | h
        · exact h.2 hl
        · exact h2 t h
      · right
        refine ⟨s, by simp [hl], (hcons s).mpr (Or.inl ⟨rfl, hl⟩), fun t ht => ?_⟩
        rcases (hcons t).mp ht with h | h
        · exact h.1.ge
        · exact absurd h (h2 t)
    · rw [h1]
      right
      by_cases hl : l = []
      · refine ⟨m, by simp [hl], (hcons m).mpr (Or.inr h2), fun t ht => ?_⟩
        rcases (hcons t).mp ht with h | h
        · exact absurd hl h.2
        · exact h3 t h
      · refine ⟨min s m, by simp [hl], ?_, fun t ht => ?_⟩
        · rcases Nat.le_total s m with h | h
          · rw [Nat.min_eq_left h]; exact (hcons s).mpr (Or.inl ⟨rfl, hl⟩)
          · rw [Nat.min_eq_right h]; exact (hcons m).mpr (Or.inr h2)
        · rcases (hcons t).mp ht with h | h
          · rw [h.1]; exact Nat.min_le_left _ _
          · exact (Nat.min_le_right _ _).trans (h3 t h)

theorem QRel.minShape {q q' : List (Nat × List ε)} (h : QRel q q') : minShape q = minShape q' := by
  rcases minShape_iff q with ⟨h1, h2⟩ | ⟨s, h1, h2, h3⟩ <;> rcases minShape_iff q' with ⟨k1, k2⟩ | ⟨t, k1, k2, k3⟩
  · rw [h1, k1]
  · exact absurd ((h.pending t).mpr k2) (h2 t)
  · exact absurd ((h.pending s).mp h2) (k2 s)
  · rw [h1, k1, Nat.le_antisymm (h3 t ((h.pending t).mpr k2)) (k3 s ((h.pending s).mp h2))]

theorem all_empty_iff (q : List (Nat × List ε)) : (q.all fun p => p.2.isEmpty) = true ↔ ∀ s, ¬ Pending q s := by
  simp only [List.all_eq_true, List.isEmpty_iff, Pending, not_exists, not_and, not_not]
  constructor
  · intro h s l hl; exact h (s, l) hl
  · intro h p hp; exact h p.1 p.2 hp

theorem QRel.all {q q' : List (Nat × List ε)} (h : QRel q q') :
    (q.all fun p => p.2.isEmpty) = q'.all fun p => p.2.isEmpty := by
  rw [Bool.eq_iff_iff, all_empty_iff, all_empty_iff]
  exact forall_congr' fun s => not_congr (h.pending s)

theorem insertShape_perm (p : Nat × List ε) (q : List (Nat × List ε)) : (insertShape p q).Perm (p :: q) := by
  induction q with
  | nil => exact List.Perm.refl _
  | cons x q ih =>
    rw [insertShape]
    split
    · exact List.Perm.refl _
    · exact (ih.cons x).trans (List.Perm.swap p x q)

theorem sortShapes_perm (q : List (Nat × List ε)) : (sortShapes q).Perm q := by
  induction q with
  | nil => exact List.Perm.refl _
  | cons p q ih => exact (insertShape_perm p _).trans (ih.cons p)

/-- Saving and loading the queues keeps the records of every shape. -/
theorem QRel.saved {q : List (Nat × List ε)} (hn : (q.map (·.1)).Nodup) :
    QRel q ((sortShapes q).filter fun p => !p.2.isEmpty) := by
  have hp := sortShapes_perm q
  have nd1 : ((sortShapes q).map (·.1)).Nodup := (hp.map _).nodup_iff.mpr hn
  have nd2 : (((sortShapes q).filter fun p => !p.2.isEmpty).map (·.1)).Nodup :=
    nd1.sublist (List.Sublist.map _ List.filter_sublist)
  refine ⟨hn, nd2, ?_, ?_⟩
  · intro s
    cases hg : qget q s with
    | none =>
      cases hg' : qget ((sortShapes q).filter fun p => !p.2.isEmpty) s with
      | none => rfl
      | some l =>
        have hm := hp.subset (List.mem_of_mem_filter (qget_mem hg'))
        rw [qget_of_mem hn hm] at hg
        simp at hg
    | some l =>
      have hm := hp.symm.subset (qget_mem hg)
      by_cases hl : l = []
      · subst hl
        cases hg' : qget ((sortShapes q).filter fun p => !p.2.isEmpty) s with
        | none => rfl
        | some l' =>
          have hm' := qget_mem hg'
          have := hp.subset (List.mem_of_mem_filter hm')
          rw [qget_of_mem hn this] at hg
          simp only [Option.some.injEq] at hg
          simp [hg]
      · rw [qget_of_mem nd2 (p := (s, l)) (List.mem_filter.mpr ⟨hm, by simpa using hl⟩)]
  · intro s hs
    cases hg' : qget ((sortShapes q).filter fun p => !p.2.isEmpty) s with
    | none => rfl
    | some l =>
      have hm := hp.subset (List.mem_of_mem_filter (qget_mem hg'))
      rw [qget_of_mem hn hm] at hs
      simp at hs

end Verif.Planner
