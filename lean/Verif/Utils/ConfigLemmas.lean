/-
Lemmas about the model of `deep_update_dict`.
-/
import Verif.Utils.Config
import Mathlib.Tactic.SplitIfs
import Mathlib.Data.List.Nodup

namespace Verif.Utils

/-- The keys of a dictionary, in insertion order. -/
def keys (d : Items) : List String := d.map Prod.fst

theorem lookup_none_iff (k : String) (d : Items) : lookup k d = none ↔ k ∉ keys d := by
  induction d with
  | nil => simp [lookup, keys]
  | cons x d ih =>
    obtain ⟨k', v⟩ := x
    simp only [lookup, keys, List.map_cons, List.mem_cons, not_or] at *
    split_ifs with h
    · simp [h]
    · simp [ih, Ne.symm h]

theorem lookup_setKey (k k' : String) (v : Cfg) (d : Items) :
    lookup k' (setKey k v d) = if k = k' then some v else lookup k' d := by
  induction d with
  | nil => simp [setKey, lookup]
  | cons x d ih =>
    obtain ⟨k2, v2⟩ := x
    simp only [setKey]
    by_cases h : k2 = k
    · subst h
      by_cases h2 : k2 = k' <;> simp [lookup, h2]
    · by_cases h2 : k2 = k'
      · subst h2
        simp [lookup, h, Ne.symm h]
      · simp [lookup, h, h2, ih]

theorem setKey_same (k : String) (v : Cfg) (d : Items) (h : lookup k d = some v) :
    setKey k v d = d := by
  induction d with
  | nil => simp [lookup] at h
  | cons x d ih =>
    obtain ⟨k', v'⟩ := x
    simp only [lookup, setKey] at *
    split_ifs at * with h1
    · simp_all
    · simp [ih h]

theorem keys_setKey (k : String) (v : Cfg) (d : Items) :
    keys (setKey k v d) = if k ∈ keys d then keys d else keys d ++ [k] := by
  induction d with
  | nil => simp [setKey, keys]
  | cons x d ih =>
    obtain ⟨k', v'⟩ := x
    simp only [setKey, keys, List.map_cons, List.mem_cons] at *
    by_cases h : k' = k
    · simp [h]
    · simp only [h, if_false, List.map_cons, ih, Ne.symm h, false_or]
      by_cases hm : k ∈ List.map Prod.fst d <;> simp only [hm, if_true, if_false] <;> rfl

/-- What the loop body stores under its key, as a function of the value already there. -/
def mval (pre : String) (old : Option Cfg) (key : String) : Cfg → Cfg × Option String
  | .leaf v => (.leaf v, none)
  | .dict vs =>
    match old with
    | none => (.dict vs, none)
    | some (.leaf x) => (.leaf x, some (fullKey pre key))
    | some (.dict ds) => (.dict (recursiveUpdate (fullKey pre key) ds vs).1,
        (recursiveUpdate (fullKey pre key) ds vs).2)

theorem updateItem_eq (pre : String) (d1 : Items) (k : String) (v : Cfg) :
    updateItem pre d1 (k, v)
      = (setKey k (mval pre (lookup k d1) k v).1 d1, (mval pre (lookup k d1) k v).2) := by
  cases v with
  | leaf v => simp [updateItem, updateValue, mval]
  | dict vs =>
    simp only [updateItem, updateValue, mval]
    cases h : lookup k d1 with
    | none => simp
    | some c =>
      cases c with
      | leaf x => simp [setKey_same _ _ _ h]
      | dict ds => simp

theorem recursiveUpdate_cons (pre : String) (d1 : Items) (k : String) (v : Cfg) (rest : Items) :
    recursiveUpdate pre d1 ((k, v) :: rest) =
      match (mval pre (lookup k d1) k v).2 with
      | some e => (setKey k (mval pre (lookup k d1) k v).1 d1, some e)
      | none => recursiveUpdate pre (setKey k (mval pre (lookup k d1) k v).1 d1) rest := by
  rw [recursiveUpdate, updateItem_eq]
  cases (mval pre (lookup k d1) k v).2 <;> rfl

/-- One level of the update, for a `dict2` with distinct keys. -/
theorem level_ok (pre : String) (d1 d2 : Items) (hn : (keys d2).Nodup) :
    ((recursiveUpdate pre d1 d2).2 = none ↔
      ∀ k v, lookup k d2 = some v → (mval pre (lookup k d1) k v).2 = none) := by
  induction d2 generalizing d1 with
  | nil => simp [recursiveUpdate, lookup]
  | cons x d2 ih =>
    obtain ⟨k, v⟩ := x
    simp only [keys, List.map_cons, List.nodup_cons] at hn
    rw [recursiveUpdate_cons]
    cases he : (mval pre (lookup k d1) k v).2 with
    | some e =>
      simp only [reduceCtorEq, false_iff]
      intro h
      have := h k v (by simp [lookup])
      rw [he] at this
      simp at this
    | none =>
      simp only
      rw [ih _ hn.2]
      constructor
      · intro h k' v' hv'
        by_cases hk : k = k'
        · subst hk
          simp only [lookup, if_true, Option.some.injEq] at hv'
          subst hv'
          exact he
        · simp only [lookup, hk, if_false] at hv'
          have := h k' v' hv'
          rwa [lookup_setKey, if_neg hk] at this
      · intro h k' v' hv'
        have hk : k ≠ k' := by
          rintro rfl
          exact absurd ((lookup_none_iff k d2).mpr hn.1) (by simp [hv'])
        rw [lookup_setKey, if_neg hk]
        exact h k' v' (by simp [lookup, hk, hv'])

theorem level_lookup (pre : String) (d1 d2 : Items) (hn : (keys d2).Nodup)
    (hok : (recursiveUpdate pre d1 d2).2 = none) (k : String) :
    lookup k (recursiveUpdate pre d1 d2).1 =
      match lookup k d2 with
      | none => lookup k d1
      | some v => some (mval pre (lookup k d1) k v).1 := by
  induction d2 generalizing d1 with
  | nil => simp [recursiveUpdate, lookup]
  | cons x d2 ih =>
    obtain ⟨k0, v0⟩ := x
    simp only [keys, List.map_cons, List.nodup_cons] at hn
    rw [recursiveUpdate_cons] at *
    cases he : (mval pre (lookup k0 d1) k0 v0).2 with
    | some e => simp [he] at hok
    | none =>
      simp only [he] at hok ⊢
      rw [ih _ hn.2 hok]
      by_cases hk : k0 = k
      · subst hk
        rw [(lookup_none_iff k0 d2).mpr hn.1]
        simp [lookup, lookup_setKey]
      · simp only [lookup, hk, if_false, lookup_setKey]

theorem level_any (pre : String) (d1 d2 : Items) (hn : (keys d2).Nodup) (k : String) :
    lookup k (recursiveUpdate pre d1 d2).1 = lookup k d1 ∨
      ∃ v, lookup k d2 = some v ∧
        lookup k (recursiveUpdate pre d1 d2).1 = some (mval pre (lookup k d1) k v).1 := by
  induction d2 generalizing d1 with
  | nil => simp [recursiveUpdate]
  | cons x d2 ih =>
    obtain ⟨k0, v0⟩ := x
    simp only [keys, List.map_cons, List.nodup_cons] at hn
    rw [recursiveUpdate_cons]
    cases he : (mval pre (lookup k0 d1) k0 v0).2 with
    | some e =>
      by_cases hk : k0 = k
      · subst hk
        exact Or.inr ⟨v0, by simp [lookup], by simp [lookup_setKey]⟩
      · left
        simp [lookup_setKey, hk]
    | none =>
      simp only
      have hi := ih (setKey k0 (mval pre (lookup k0 d1) k0 v0).1 d1) hn.2
      by_cases hk : k0 = k
      · subst hk
        right
        refine ⟨v0, by simp [lookup], ?_⟩
        rcases hi with hi | ⟨v, hv, -⟩
        · rw [hi]
          simp [lookup_setKey]
        · exact absurd ((lookup_none_iff k0 d2).mpr hn.1) (by simp [hv])
      · rw [lookup_setKey, if_neg hk] at hi
        simpa [lookup, hk] using hi

theorem level_error (pre : String) (d1 d2 : Items) (hn : (keys d2).Nodup) (e : String)
    (h : (recursiveUpdate pre d1 d2).2 = some e) :
    ∃ k v, lookup k d2 = some v ∧ (mval pre (lookup k d1) k v).2 = some e := by
  induction d2 generalizing d1 with
  | nil => simp [recursiveUpdate] at h
  | cons x d2 ih =>
    obtain ⟨k0, v0⟩ := x
    simp only [keys, List.map_cons, List.nodup_cons] at hn
    rw [recursiveUpdate_cons] at h
    cases he : (mval pre (lookup k0 d1) k0 v0).2 with
    | some e' =>
      simp only [he, Option.some.injEq] at h
      subst h
      exact ⟨k0, v0, by simp [lookup], he⟩
    | none =>
      simp only [he] at h
      obtain ⟨k, v, hv, hm⟩ := ih _ hn.2 h
      have hk : k0 ≠ k := by
        rintro rfl
        exact absurd ((lookup_none_iff k0 d2).mpr hn.1) (by simp [hv])
      rw [lookup_setKey, if_neg hk] at hm
      exact ⟨k, v, by simp [lookup, hk, hv], hm⟩

theorem level_keys (pre : String) (d1 d2 : Items) (hn : (keys d2).Nodup)
    (hok : (recursiveUpdate pre d1 d2).2 = none) :
    keys (recursiveUpdate pre d1 d2).1
      = keys d1 ++ (keys d2).filter (fun k => decide (k ∉ keys d1)) := by
  induction d2 generalizing d1 with
  | nil => simp [recursiveUpdate, keys]
  | cons x d2 ih =>
    obtain ⟨k0, v0⟩ := x
    have hn' := hn
    simp only [keys, List.map_cons, List.nodup_cons] at hn
    rw [recursiveUpdate_cons] at *
    cases he : (mval pre (lookup k0 d1) k0 v0).2 with
    | some e => simp [he] at hok
    | none =>
      simp only [he] at hok ⊢
      rw [ih _ hn.2 hok, keys_setKey]
      have hk : keys ((k0, v0) :: d2) = k0 :: keys d2 := rfl
      rw [hk, List.filter_cons]
      by_cases hmem : k0 ∈ keys d1
      · simp [hmem]
      · simp only [hmem, if_false, not_false_eq_true, decide_true, if_true, List.append_assoc,
          List.singleton_append, List.append_cancel_left_eq, List.cons.injEq, true_and]
        apply List.filter_congr
        intro k hk2
        have : k ≠ k0 := by
          rintro rfl
          exact hn.1 hk2
        simp [this]

end Verif.Utils
