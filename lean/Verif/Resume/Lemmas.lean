import Verif.Resume.Model
import Verif.Canon.Props07
import Mathlib.Data.List.Perm.Basic
import Mathlib.Data.List.Nodup
import Mathlib.Data.List.Range

/-! Lemmas for C84: dictionary access, normalised dictionaries, the validation loop. -/

namespace Verif.Resume

open Verif.Canon

theorem find_eq_some {d : Dict} (hn : (d.map Prod.fst).Nodup) (k : Str) (v : Val) :
    find d k = some v ↔ (Key.str k, v) ∈ d := by
  induction d with
  | nil => simp [find]
  | cons e r ih =>
    obtain ⟨k', v'⟩ := e
    rw [List.map_cons, List.nodup_cons] at hn
    rw [find]
    by_cases h : k' = Key.str k
    · rw [if_pos h]
      subst h
      constructor
      · intro he; cases he; exact List.mem_cons_self ..
      · intro he
        rcases List.mem_cons.mp he with he | he
        · cases he; rfl
        · exact absurd (List.mem_map.mpr ⟨_, he, rfl⟩) hn.1
    · rw [if_neg h, ih hn.2, List.mem_cons]
      constructor
      · exact Or.inr
      · rintro (he | he)
        · cases he; exact absurd rfl h
        · exact he

theorem find_put_self (d : Dict) (k : Str) (v : Val) : find (put d k v) k = some v := by
  induction d with
  | nil => simp [put, find]
  | cons e r ih =>
    obtain ⟨k', v'⟩ := e
    by_cases h : k' = Key.str k
    · simp [put, find, h]
    · simp [put, find, h, ih]

theorem find_put_ne (d : Dict) {k j : Str} (v : Val) (h : j ≠ k) : find (put d k v) j = find d j := by
  induction d with
  | nil =>
    have : ¬ (Key.str k = Key.str j) := by intro e; cases e; exact h rfl
    simp [put, find, this]
  | cons e r ih =>
    obtain ⟨k', v'⟩ := e
    by_cases h' : k' = Key.str k
    · have : ¬ (Key.str k = Key.str j) := by intro e; cases e; exact h rfl
      simp [put, find, h', this]
    · rw [put, if_neg h', find, find, ih]

theorem find_pop_self (d : Dict) (k : Str) : find (pop d k) k = none := by
  induction d with
  | nil => rfl
  | cons e r ih =>
    obtain ⟨k', v'⟩ := e
    by_cases h : k' = Key.str k
    · have : pop ((k', v') :: r) k = pop r k := by simp [pop, h]
      rw [this, ih]
    · have : pop ((k', v') :: r) k = (k', v') :: pop r k := by simp [pop, h]
      rw [this, find, if_neg h, ih]

theorem find_pop_ne (d : Dict) {k j : Str} (h : j ≠ k) : find (pop d k) j = find d j := by
  induction d with
  | nil => rfl
  | cons e r ih =>
    obtain ⟨k', v'⟩ := e
    by_cases h' : k' = Key.str k
    · have : pop ((k', v') :: r) k = pop r k := by simp [pop, h']
      have h2 : ¬ (k' = Key.str j) := by rw [h']; intro e; cases e; exact h rfl
      rw [this, ih, find, if_neg h2]
    · have : pop ((k', v') :: r) k = (k', v') :: pop r k := by simp [pop, h']
      rw [this, find, find, ih]

theorem pop_of_find_none (d : Dict) (k : Str) (h : find d k = none) : pop d k = d := by
  induction d with
  | nil => rfl
  | cons e r ih =>
    obtain ⟨k', v'⟩ := e
    rw [find] at h
    by_cases h' : k' = Key.str k
    · rw [if_pos h'] at h; cases h
    · rw [if_neg h'] at h
      have : pop ((k', v') :: r) k = (k', v') :: pop r k := by simp [pop, h']
      rw [this, ih h]

theorem pop_put (d : Dict) (k : Str) (v : Val) (h : find d k = none) : pop (put d k v) k = d := by
  induction d with
  | nil => simp [put, pop]
  | cons e r ih =>
    obtain ⟨k', v'⟩ := e
    rw [find] at h
    by_cases h' : k' = Key.str k
    · rw [if_pos h'] at h; cases h
    · rw [if_neg h'] at h
      rw [put, if_neg h']
      have : pop ((k', v') :: put r k v) k = (k', v') :: pop (put r k v) k := by simp [pop, h']
      rw [this, ih h]

theorem pyval_pop {d : Dict} (k : Str) (h : PyVal (.dict d)) : PyVal (.dict (pop d k)) := by
  cases h with
  | dict _ hn hv =>
  refine .dict _ ?_ ?_
  · exact List.Nodup.sublist (List.Sublist.map _ List.filter_sublist) hn
  · intro kv hkv; exact hv kv (List.mem_filter.mp hkv).1

theorem pyval_nodup {d : Dict} (h : PyVal (.dict d)) : (d.map Prod.fst).Nodup := by
  cases h with
  | dict _ hn hv => exact hn

theorem find_norm {d : Dict} (hn : (d.map Prod.fst).Nodup) (k : Str) :
    (find d k).map norm = find (normEntries d) k := by
  rw [normEntries_eq]
  induction d with
  | nil => rfl
  | cons e r ih =>
    obtain ⟨k', v'⟩ := e
    rw [List.map_cons, List.nodup_cons] at hn
    simp only [List.map_cons, find]
    by_cases h : k' = Key.str k
    · rw [if_pos h, if_pos h]; rfl
    · rw [if_neg h, if_neg h]; exact ih hn.2

/-- dictionaries equal after normalisation have the same normalised fields -/
theorem fields_of_norm {a b : Dict} (ha : (a.map Prod.fst).Nodup) (hb : (b.map Prod.fst).Nodup)
    (h : norm (.dict a) = norm (.dict b)) (k : Str) : (find a k).map norm = (find b k).map norm := by
  rw [norm, norm] at h
  injection h with h
  have hp : (normEntries a).Perm (normEntries b) :=
    ((List.perm_insertionSort _ _).symm.trans (List.Perm.of_eq h)).trans (List.perm_insertionSort _ _)
  have na : ((normEntries a).map Prod.fst).Nodup := by
    rw [normEntries_eq, List.map_map]; exact ha
  have nb : ((normEntries b).map Prod.fst).Nodup := by
    rw [normEntries_eq, List.map_map]; exact hb
  rw [find_norm ha, find_norm hb]
  apply Option.ext
  intro v
  rw [find_eq_some na, find_eq_some nb, hp.mem_iff]

/-! ### The validation loop -/

theorem isStr_iff (v : Val) (t : Str) : isStr v t = true ↔ v = .str t := by
  cases v <;> simp [isStr]

theorem get_eq_str (d : Dict) (k t : Str) : get d k = .str t ↔ find d k = some (.str t) := by
  unfold get
  cases find d k <;> simp

theorem get_eq_int (d : Dict) (k : Str) (n : Int) : get d k = .int n ↔ find d k = some (.int n) := by
  unfold get
  cases find d k <;> simp

theorem get_eq_bool (d : Dict) (k : Str) (n : Bool) : get d k = .bool n ↔ find d k = some (.bool n) := by
  unfold get
  cases find d k <;> simp

theorem get_eq_null (d : Dict) (k : Str) : get d k = .null ↔ find d k = none ∨ find d k = some .null := by
  unfold get
  cases find d k <;> simp

theorem digest_ok (P : PyOps) (d : Dict) (t : Str) :
    digest P d = .ok t ↔ ∃ b, encode P.lib (.dict d) = .ok b ∧ P.sha b = t := by
  unfold digest
  cases encode P.lib (.dict d) with
  | error e => simp
  | ok b => simp

/-- everything `checkOne` checks except that the slot is new -/
structure Checked (P : PyOps) (world slot : Nat) (s : Dict) : Prop where
  cursor : cursorOk s = true
  slotOf : slotOf world s = some slot
  rank : pyEqInt P (get s kRank) slot = true
  loc : ∃ l, digest P (pop s kLocal) = .ok l ∧ get s kLocal = .str l
  glob : ∃ pr g, projection P s = .ok pr ∧ digest P pr = .ok g ∧ get s kGlobal = .str g

theorem checkOne_ok (P : PyOps) (world : Nat) (seen : List Nat) (v : Val) (p : Nat × Dict) :
    checkOne P world seen v = .ok p ↔ v = .dict p.2 ∧ p.1 ∉ seen ∧ Checked P world p.1 p.2 := by
  constructor
  · intro h
    unfold checkOne at h
    split at h
    · rename_i s
      by_cases h1 : cursorOk s = false
      · rw [if_pos h1] at h; cases h
      rw [if_neg h1] at h
      split at h
      · cases h
      rename_i slot hs
      by_cases h2 : pyEqInt P (get s kRank) slot = false
      · rw [if_pos h2] at h; cases h
      rw [if_neg h2] at h
      by_cases h3 : seen.contains slot = true
      · rw [if_pos h3] at h; cases h
      rw [if_neg h3] at h
      split at h
      · cases h
      rename_i l hl
      by_cases h4 : isStr (get s kLocal) l = false
      · rw [if_pos h4] at h; cases h
      rw [if_neg h4] at h
      split at h
      · cases h
      rename_i pr hpr
      split at h
      · cases h
      rename_i g hg
      by_cases h5 : isStr (get s kGlobal) g = false
      · rw [if_pos h5] at h; cases h
      rw [if_neg h5] at h
      cases h
      refine ⟨rfl, by simpa using h3, ?_⟩
      exact ⟨by simpa using h1, hs, by simpa using h2,
        ⟨l, hl, (isStr_iff _ _).mp (by simpa using h4)⟩,
        ⟨pr, g, hpr, hg, (isStr_iff _ _).mp (by simpa using h5)⟩⟩
    · cases h
  · rintro ⟨rfl, h3, hc⟩
    obtain ⟨h1, hs, h2, ⟨l, hl, hl'⟩, ⟨pr, g, hpr, hg, hg'⟩⟩ := hc
    have e3 : seen.contains p.1 = false := by simpa using h3
    have e4 := (isStr_iff _ _).mpr hl'
    have e5 := (isStr_iff _ _).mpr hg'
    unfold checkOne
    simp only [h1, hs, h2, e3, hl, e4, hpr, hg, e5, Bool.true_eq_false, Bool.false_eq_true, if_false]

theorem checkAll_ok (P : PyOps) (world : Nat) (vs : List Val) : ∀ (acc m : List (Nat × Dict)),
    (acc.map Prod.fst).Nodup →
    (checkAll P world acc vs = .ok m ↔ ∃ ps : List (Nat × Dict), m = acc ++ ps ∧
      vs = ps.map (fun p => .dict p.2) ∧ (m.map Prod.fst).Nodup ∧
      ∀ p ∈ ps, Checked P world p.1 p.2) := by
  induction vs with
  | nil =>
    intro acc m hn
    rw [checkAll]
    constructor
    · intro h; cases h; exact ⟨[], by simp, rfl, hn, by simp⟩
    · rintro ⟨ps, rfl, h, -, -⟩
      have : ps = [] := List.map_eq_nil_iff.mp h.symm
      rw [this, List.append_nil]
  | cons v r ih =>
    intro acc m hn
    rw [checkAll]
    constructor
    · intro h
      split at h
      · cases h
      rename_i p hp
      obtain ⟨h1, h2, h3⟩ := (checkOne_ok _ _ _ _ _).mp hp
      have hn' : ((acc ++ [p]).map Prod.fst).Nodup := by
        rw [List.map_append, List.nodup_append]
        refine ⟨hn, by simp, ?_⟩
        intro a ha b hb hab
        simp only [List.map_cons, List.map_nil, List.mem_singleton] at hb
        rw [hab, hb] at ha
        exact h2 ha
      obtain ⟨ps, e1, e2, e3, e4⟩ := (ih _ _ hn').mp h
      refine ⟨p :: ps, by rw [e1]; simp, by rw [h1, e2]; rfl, e3, ?_⟩
      intro q hq
      rcases List.mem_cons.mp hq with rfl | hq
      · exact h3
      · exact e4 q hq
    · rintro ⟨ps, rfl, h2, h3, h4⟩
      cases ps with
      | nil => cases h2
      | cons p ps =>
        rw [List.map_cons] at h2
        injection h2 with h2 h2'
        have hns : p.1 ∉ acc.map Prod.fst := by
          intro hc
          rw [List.map_append, List.nodup_append] at h3
          exact h3.2.2 _ hc p.1 (by simp) rfl
        rw [(checkOne_ok P world _ v p).mpr ⟨h2, hns, h4 p (List.mem_cons_self ..)⟩]
        have hn' : ((acc ++ [p]).map Prod.fst).Nodup := by
          have : acc ++ p :: ps = (acc ++ [p]) ++ ps := by simp
          rw [this, List.map_append, List.nodup_append] at h3
          exact h3.1
        exact (ih _ _ hn').mpr ⟨ps, by simp, h2', h3, fun q hq => h4 q (List.mem_cons_of_mem _ hq)⟩

theorem bySlot_eq {m : List (Nat × Dict)} (hn : (m.map Prod.fst).Nodup) (k : Nat) (d : Dict) :
    bySlot m k = some d ↔ (k, d) ∈ m := by
  induction m with
  | nil => simp [bySlot]
  | cons e r ih =>
    obtain ⟨k', d'⟩ := e
    rw [List.map_cons, List.nodup_cons] at hn
    rw [bySlot]
    by_cases h : k' = k
    · rw [if_pos h]
      subst h
      constructor
      · intro he; cases he; exact List.mem_cons_self ..
      · intro he
        rcases List.mem_cons.mp he with he | he
        · cases he; rfl
        · exact absurd (List.mem_map.mpr ⟨_, he, rfl⟩) hn.1
    · rw [if_neg h, ih hn.2, List.mem_cons]
      constructor
      · exact Or.inr
      · rintro (he | he)
        · cases he; exact absurd rfl h
        · exact he

/-- the slot table read in slot order -/
theorem ordered_table {m : List (Nat × Dict)} {n : Nat} (hn : (m.map Prod.fst).Nodup)
    (hlt : ∀ p ∈ m, p.1 < n) (hall : ∀ i < n, i ∈ m.map Prod.fst) :
    ∃ ds : List Dict, (List.range n).filterMap (bySlot m) = ds ∧ ds.length = n ∧
      (∀ (r : Nat) (d : Dict), ds[r]? = some d → (r, d) ∈ m) ∧ (m.map Prod.snd).Perm ds := by
  have hex : ∀ i, ∃ d, i < n → bySlot m i = some d := by
    intro i
    by_cases hi : i < n
    · obtain ⟨p, hp, rfl⟩ := List.mem_map.mp (hall i hi)
      exact ⟨p.2, fun _ => (bySlot_eq hn _ _).mpr hp⟩
    · exact ⟨[], fun h => absurd h hi⟩
  obtain ⟨f, hf⟩ := Classical.axiomOfChoice hex
  have e : (List.range n).filterMap (bySlot m) = (List.range n).map f := by
    rw [← List.filterMap_eq_map]
    apply List.filterMap_congr
    intro i hi
    rw [hf i (List.mem_range.mp hi)]; rfl
  refine ⟨(List.range n).map f, e, by simp, ?_, ?_⟩
  · intro r d h
    rw [List.getElem?_map] at h
    by_cases hr : r < n
    · rw [List.getElem?_range hr] at h
      simp only [Option.map_some, Option.some.injEq] at h
      rw [← h]
      exact (bySlot_eq hn _ _).mp (hf r hr)
    · rw [List.getElem?_eq_none (by simpa using hr)] at h
      cases h
  · have hperm : m.Perm ((List.range n).map (fun i => (i, f i))) := by
      rw [List.perm_ext_iff_of_nodup (List.Nodup.of_map _ hn)]
      · rintro ⟨k, d⟩
        rw [List.mem_map]
        constructor
        · intro h
          refine ⟨k, List.mem_range.mpr (hlt _ h), ?_⟩
          have h1 := hf k (hlt _ h)
          rw [(bySlot_eq hn _ _).mpr h] at h1
          cases h1; rfl
        · rintro ⟨i, hi, he⟩
          cases he
          exact (bySlot_eq hn _ _).mp (hf _ (List.mem_range.mp hi))
      · apply List.Nodup.of_map Prod.fst
        rw [List.map_map]
        have : (Prod.fst ∘ fun i : Nat => (i, f i)) = id := rfl
        rw [this, List.map_id]
        exact List.nodup_range
    have := hperm.map Prod.snd
    rw [List.map_map] at this
    exact this

end Verif.Resume
