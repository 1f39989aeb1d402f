import Verif.Total.Model
import Verif.Stats.Props08d
import Mathlib.Data.List.Perm.Basic
import Mathlib.Data.List.Nodup
import Mathlib.Tactic.SplitIfs
import Mathlib.Tactic.ByContra

/-! String keys and dictionaries. -/

namespace Verif.Total

open Verif.Stats

theorem str_ext {a b : String} (h : a.toList = b.toList) : a = b := String.toList_inj.1 h

/-! ### Prefixes -/

theorem isPrefixOf_iff' (p k : List Char) : p.isPrefixOf k = true ↔ ∃ r, k = p ++ r := by
  rw [List.isPrefixOf_iff_prefix]
  constructor
  · rintro ⟨r, rfl⟩; exact ⟨r, rfl⟩
  · rintro ⟨r, rfl⟩; exact ⟨r, rfl⟩

theorem strip_iff (p k r : String) : stripPrefix p k = some r ↔ k = p ++ r := by
  unfold stripPrefix
  constructor
  · intro h
    split_ifs at h with hp
    rw [isPrefixOf_iff'] at hp
    obtain ⟨x, hx⟩ := hp
    injection h with h
    apply str_ext
    rw [String.toList_append, ← h, String.toList_ofList, hx]
    simp
  · rintro rfl
    rw [if_pos (by rw [isPrefixOf_iff', String.toList_append]; exact ⟨_, rfl⟩)]
    congr 1
    apply str_ext
    simp

theorem mem_schemaIds {α : Type} (d : Dict α) (p id : String) :
    id ∈ schemaIds d p ↔ p ++ id ∈ names d := by
  unfold schemaIds
  rw [List.mem_dedup, List.mem_filterMap]
  constructor
  · rintro ⟨k, hk, h⟩
    rw [strip_iff] at h
    exact h ▸ hk
  · intro h
    exact ⟨_, h, (strip_iff _ _ _).2 rfl⟩

theorem nodup_schemaIds {α : Type} (d : Dict α) (p : String) : (schemaIds d p).Nodup := List.nodup_dedup _

theorem mem_vqIds {α : Type} (d : Dict α) (g id : String) :
    id ∈ vqIds d g ↔ ∃ r, "vq:" ++ g ++ "." ++ r ∈ names d ∧ beforeColon r = id := by
  unfold vqIds
  rw [List.mem_dedup, List.mem_map]
  constructor
  · rintro ⟨r, hr, h⟩
    rw [List.mem_filterMap] at hr
    obtain ⟨k, hk, hs⟩ := hr
    rw [strip_iff] at hs
    exact ⟨r, hs ▸ hk, h⟩
  · rintro ⟨r, hr, h⟩
    exact ⟨r, List.mem_filterMap.2 ⟨_, hr, (strip_iff _ _ _).2 rfl⟩, h⟩

theorem mem_names_extract {α : Type} (d : Dict α) (p k : String) :
    k ∈ names (extract d p) ↔ p ++ k ∈ names d := by
  unfold names extract
  simp only [List.mem_map, List.mem_filterMap, Option.map_eq_some_iff, Prod.exists]
  constructor
  · rintro ⟨k', v, ⟨k0, v0, hm, r, hr, he⟩, rfl⟩
    cases he
    rw [strip_iff] at hr
    exact ⟨k0, v, hm, hr⟩
  · rintro ⟨k0, v, hm, hk⟩
    refine ⟨k, v, ⟨k0, v, hm, k, (strip_iff _ _ _).2 hk, rfl⟩, rfl⟩

theorem get?_extract {α : Type} (d : Dict α) (p k : String) :
    get? k (extract d p) = get? (p ++ k) d := by
  unfold extract
  induction d with
  | nil => rfl
  | cons a d ih =>
    obtain ⟨k0, v⟩ := a
    rw [List.filterMap_cons]
    cases hs : stripPrefix p k0 with
    | none =>
      simp only [Option.map_none]
      rw [ih]
      have : k0 ≠ p ++ k := by
        intro h
        rw [(strip_iff p k0 k).2 h] at hs
        cases hs
      simp only [get?, if_neg this]
    | some r =>
      simp only [Option.map_some, get?]
      rw [strip_iff] at hs
      subst hs
      by_cases hk : r = k
      · subst hk; simp
      · have : p ++ r ≠ p ++ k := by
          intro h
          apply hk
          have := congrArg String.toList h
          simp only [String.toList_append, List.append_cancel_left_eq] at this
          exact str_ext this
        rw [if_neg hk, if_neg this, ih]

theorem get?_of_mem {α : Type} (d : Dict α) (hnd : (names d).Nodup) (k : String) (v : α)
    (h : (k, v) ∈ d) : get? k d = some v := by
  induction d with
  | nil => simp at h
  | cons a d ih =>
    obtain ⟨k0, v0⟩ := a
    simp only [names, List.map_cons, List.nodup_cons] at hnd
    simp only [get?]
    rcases List.mem_cons.1 h with h | h
    · cases h; simp
    · have : k0 ≠ k := by
        rintro rfl
        exact hnd.1 (List.mem_map.2 ⟨_, h, rfl⟩)
      rw [if_neg this]
      exact ih hnd.2 h

/-! ### Sets and sorting -/

theorem eqSet_iff (a b : List String) : eqSet a b = true ↔ ∀ k, k ∈ a ↔ k ∈ b := by
  unfold eqSet
  simp only [Bool.and_eq_true, List.all_eq_true, List.contains_iff_mem]
  constructor
  · rintro ⟨h1, h2⟩ k; exact ⟨h1 k, h2 k⟩
  · intro h; exact ⟨fun x hx => (h x).1 hx, fun x hx => (h x).2 hx⟩

theorem sortIds_perm (l : List String) : (sortIds l).Perm l := List.mergeSort_perm l _

theorem perm_map_inv {α β : Type} (f : α → β) :
    ∀ {l l' : List β}, l.Perm l' → ∀ t : List α, l' = t.map f → ∃ t' : List α, t'.Perm t ∧ l = t'.map f := by
  intro l l' h
  induction h with
  | nil => intro t ht; exact ⟨[], by cases t with
      | nil => exact .nil
      | cons a t => simp at ht, rfl⟩
  | cons x _ ih =>
    intro t ht
    cases t with
    | nil => simp at ht
    | cons a t =>
      simp only [List.map_cons] at ht
      injection ht with h1 h2
      obtain ⟨t', hp, he⟩ := ih t h2
      exact ⟨a :: t', hp.cons a, by rw [List.map_cons, he, h1]⟩
  | swap x y l0 =>
    intro t ht
    cases t with
    | nil => simp at ht
    | cons a t =>
      cases t with
      | nil => simp at ht
      | cons b t =>
        simp only [List.map_cons] at ht
        injection ht with h1 h2
        injection h2 with h2 h3
        exact ⟨b :: a :: t, List.Perm.swap a b t, by simp [h1, h2, h3]⟩
  | trans _ _ ih1 ih2 =>
    intro t ht
    obtain ⟨t2, hp2, he2⟩ := ih2 t ht
    obtain ⟨t1, hp1, he1⟩ := ih1 t2 he2
    exact ⟨t1, hp1.trans hp2, he1⟩

/-! ### Dictionary updates with new names -/

theorem setKey_new {α : Type} (d : Dict α) (k : String) (v : α) (h : k ∉ names d) :
    setKey d k v = d ++ [(k, v)] := by
  unfold setKey; rw [if_neg h]

theorem names_append {α : Type} (d e : Dict α) : names (d ++ e) = names d ++ names e := by
  unfold names; exact List.map_append

theorem update_new {α : Type} (d e : Dict α) (h : (names (d ++ e)).Nodup) : update d e = d ++ e := by
  unfold update
  induction e generalizing d with
  | nil => simp
  | cons a e ih =>
    obtain ⟨k, v⟩ := a
    rw [List.foldl_cons]
    have hk : k ∉ names d := by
      rw [names_append] at h
      intro hm
      have := (List.nodup_append.1 h).2.2 _ hm k (by simp [names])
      exact this rfl
    dsimp only
    rw [setKey_new d k v hk, ih (d ++ [(k, v)])]
    · simp
    · simpa using h

/-! ### `f"{n:04d}"` -/

theorem ofDigitChars_zeros (k : Nat) (l : List Char) :
    Nat.ofDigitChars 10 (List.replicate k '0' ++ l) 0 = Nat.ofDigitChars 10 l 0 := by
  induction k with
  | zero => simp
  | succ k ih =>
    rw [List.replicate_succ, List.cons_append, Nat.ofDigitChars_cons]
    exact ih

theorem pad4_inj {a b : Nat} (h : pad4 a = pad4 b) : a = b := by
  have h2 := congrArg String.toList h
  unfold pad4 at h2
  rw [String.toList_ofList, String.toList_ofList] at h2
  have h3 := congrArg (fun l => Nat.ofDigitChars 10 l 0) h2
  simp only [ofDigitChars_zeros] at h3
  rwa [Nat.ofDigitChars_toDigits (by decide) (by decide), Nat.ofDigitChars_toDigits (by decide) (by decide)] at h3

theorem pad4_digit (n : Nat) (c : Char) (h : c ∈ (pad4 n).toList) : c.isDigit = true := by
  unfold pad4 at h
  rw [String.toList_ofList, List.mem_append] at h
  rcases h with h | h
  · rw [List.mem_replicate] at h
    rw [h.2]; decide
  · exact Nat.isDigit_of_mem_toDigits (by decide) (by decide) h

theorem pad4_colon (n : Nat) : ':' ∉ (pad4 n).toList := by
  intro h
  have := pad4_digit n _ h
  revert this; decide

/-! ### Composite names -/

/-- `K:g.r` -/
def ckey (K g r : String) : String := K ++ ":" ++ g ++ "." ++ r

/-- `N:id` -/
def nkey (N id : String) : String := N ++ ":" ++ id

theorem split_unique (c : Char) :
    ∀ (a a' b b' : List Char), c ∉ a → c ∉ a' → a ++ c :: b = a' ++ c :: b' → a = a' ∧ b = b' := by
  intro a
  induction a with
  | nil =>
    intro a' b b' _ h' h
    cases a' with
    | nil => simpa using h
    | cons x a' =>
      simp only [List.nil_append, List.cons_append, List.cons.injEq] at h
      exact absurd (h.1 ▸ List.mem_cons_self) h'
  | cons x a ih =>
    intro a' b b' h0 h' h
    cases a' with
    | nil =>
      simp only [List.nil_append, List.cons_append, List.cons.injEq] at h
      exact absurd (h.1 ▸ List.mem_cons_self) h0
    | cons y a' =>
      simp only [List.cons_append, List.cons.injEq] at h
      obtain ⟨rfl, h⟩ := h
      have := ih a' b b' (fun hm => h0 (List.mem_cons_of_mem _ hm))
        (fun hm => h' (List.mem_cons_of_mem _ hm)) h
      exact ⟨by rw [this.1], this.2⟩

theorem nkey_inj {N N' i i' : String} (h0 : ':' ∉ N.toList) (h0' : ':' ∉ N'.toList)
    (h : nkey N i = nkey N' i') : N = N' ∧ i = i' := by
  have h2 := congrArg String.toList h
  unfold nkey at h2
  simp only [String.toList_append, List.append_assoc] at h2
  have h3 := split_unique ':' N.toList N'.toList i.toList i'.toList h0 h0' h2
  exact ⟨str_ext h3.1, str_ext h3.2⟩

theorem ckey_inj {K K' g g' r r' : String} (hK : ':' ∉ K.toList) (hK' : ':' ∉ K'.toList)
    (hg : '.' ∉ g.toList) (hg' : '.' ∉ g'.toList) (h : ckey K g r = ckey K' g' r') :
    K = K' ∧ g = g' ∧ r = r' := by
  have h2 := congrArg String.toList h
  unfold ckey at h2
  simp only [String.toList_append, List.append_assoc] at h2
  have h3 := split_unique ':' K.toList K'.toList _ _ hK hK' h2
  have h4 := split_unique '.' g.toList g'.toList r.toList r'.toList hg hg' h3.2
  exact ⟨str_ext h3.1, str_ext h4.1, str_ext h4.2⟩

theorem ckey_colon (K g r : String) : ':' ∈ (ckey K g r).toList := by
  unfold ckey; simp

theorem beforeColon_nkey (N i : String) (h : ':' ∉ N.toList) : beforeColon (nkey N i) = N := by
  apply str_ext
  unfold beforeColon nkey
  rw [String.toList_ofList]
  simp only [String.toList_append, List.append_assoc]
  rw [List.takeWhile_append_of_pos]
  · show N.toList ++ List.takeWhile _ (':' :: i.toList) = N.toList
    simp
  · intro c hc
    simp only [bne_iff_ne, ne_eq]
    rintro rfl
    exact h hc

theorem afterColon_nkey (N i : String) (h : ':' ∉ N.toList) : afterColon (nkey N i) = i := by
  apply str_ext
  unfold afterColon nkey
  rw [String.toList_ofList]
  simp only [String.toList_append, List.append_assoc]
  rw [List.dropWhile_append_of_pos]
  · show List.drop 1 (List.dropWhile _ (':' :: i.toList)) = i.toList
    simp
  · intro c hc
    simp only [bne_iff_ne, ne_eq]
    rintro rfl
    exact h hc

end Verif.Total
