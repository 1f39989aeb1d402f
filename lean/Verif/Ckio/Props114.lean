import Verif.Ckio.Model
import Mathlib.Tactic.ByContra
import Mathlib.Data.List.Nodup
import Mathlib.Data.List.Infix
import Mathlib.Tactic.Push
import Mathlib.Data.List.TakeWhile

/-!
# C114: what is saved to a checkpoint file is what is loaded from it
-/
namespace Verif.Ckio

variable {D O : Type}

/-! ### Specification -/

/-- The last component of the path has a dot with some character other than a dot before it. -/
def HasExt (p : Str) : Prop :=
  ∃ dir a b : Str, p = dir ++ a ++ '.' :: b ∧ (dir = [] ∨ ∃ d, dir = d ++ ['/']) ∧ '/' ∉ a ∧ '/' ∉ b ∧ '.' ∉ b ∧ ∃ c ∈ a, c ≠ '.'

/-- The extra dicts and the metadata, as passed to `save_torch_ckpt`. -/
def extrasOf (ex : List (Str × D)) : Dict D O := ex.map fun e => (e.1, .dict e.2)
def metaOfStr (ms : List (Str × Str)) : Dict D O := ms.map fun e => (e.1, .str e.2)

/-- The keys of a dict. -/
def keys {V : Type} (l : List (Str × V)) : List Str := l.map (·.1)

/-! ### Auxiliary -/

theorem putAll_ok_iff (ok : Val D O → Bool) : ∀ (l d : Dict D O), (∃ d', putAll ok d l = .ok d') ↔ ∀ e ∈ l, ok e.2 = true
  | [], d => ⟨fun _ e he => absurd he List.not_mem_nil, fun _ => ⟨d, rfl⟩⟩
  | (k, v) :: r, d => by
    rw [show putAll ok d ((k, v) :: r) = if ok v = false then .error .type else putAll ok (put d k v) r from rfl]
    cases hv : ok v with
    | false =>
      rw [if_pos rfl]
      constructor
      · rintro ⟨d', h⟩; cases h
      · intro h
        have := h (k, v) List.mem_cons_self
        simp only at this
        rw [hv] at this
        cases this
    | true =>
      rw [if_neg (by decide), putAll_ok_iff ok r]
      constructor
      · intro h e he
        rcases List.mem_cons.mp he with rfl | he
        · exact hv
        · exact h e he
      · exact fun h e he => h e (List.mem_cons_of_mem _ he)

theorem putAll_err (ok : Val D O → Bool) : ∀ (l d : Dict D O) (e : Err), putAll ok d l = .error e → e = .type
  | [], d, e, h => by cases h
  | (k, v) :: r, d, e, h => by
    rw [show putAll ok d ((k, v) :: r) = if ok v = false then .error .type else putAll ok (put d k v) r from rfl] at h
    cases hv : ok v with
    | false => rw [hv, if_pos rfl] at h; cases h; rfl
    | true => rw [hv, if_neg (by decide)] at h; exact putAll_err ok r _ e h

theorem put_keys (d : Dict D O) (k : Str) (v : Val D O) : keys (put d k v) = if k ∈ keys d then keys d else keys d ++ [k] := by
  unfold put keys
  by_cases h : d.any (fun e => decide (e.1 = k)) = true
  · rw [if_pos h]
    obtain ⟨e, he, hk⟩ := List.any_eq_true.mp h
    rw [if_pos (List.mem_map.mpr ⟨e, he, of_decide_eq_true hk⟩), List.map_map]
    refine List.map_congr_left fun a _ => ?_
    show (if a.1 = k then (k, v) else a).1 = a.1
    by_cases hak : a.1 = k
    · rw [if_pos hak, hak]
    · rw [if_neg hak]
  · rw [if_neg h, if_neg, List.map_append]
    · rfl
    · intro hm
      obtain ⟨e, he, hk⟩ := List.mem_map.mp hm
      exact h (List.any_eq_true.mpr ⟨e, he, decide_eq_true hk⟩)

theorem put_nodup {d : Dict D O} (h : (keys d).Nodup) (k : Str) (v : Val D O) : (keys (put d k v)).Nodup := by
  rw [put_keys]
  by_cases hk : k ∈ keys d
  · rw [if_pos hk]; exact h
  · rw [if_neg hk]
    refine List.nodup_append.mpr ⟨h, List.nodup_singleton _, ?_⟩
    intro a ha b hb hab
    rw [List.mem_singleton.mp hb] at hab
    exact hk (hab ▸ ha)

theorem putAll_nodup (ok : Val D O → Bool) : ∀ (l d d' : Dict D O), (keys d).Nodup → putAll ok d l = .ok d' → (keys d').Nodup
  | [], d, d', hd, h => by cases h; exact hd
  | (k, v) :: r, d, d', hd, h => by
    rw [show putAll ok d ((k, v) :: r) = if ok v = false then .error .type else putAll ok (put d k v) r from rfl] at h
    cases hv : ok v with
    | false => rw [hv, if_pos rfl] at h; cases h
    | true => rw [hv, if_neg (by decide)] at h; exact putAll_nodup ok r _ d' (put_nodup hd k v) h

theorem put_fresh (d : Dict D O) (k : Str) (v : Val D O) (h : k ∉ keys d) : put d k v = d ++ [(k, v)] := by
  unfold put
  rw [if_neg]
  intro ha
  obtain ⟨e, he, hk⟩ := List.any_eq_true.mp ha
  exact h (List.mem_map.mpr ⟨e, he, of_decide_eq_true hk⟩)

theorem putAll_fresh (ok : Val D O → Bool) : ∀ (l d : Dict D O), (∀ e ∈ l, ok e.2 = true) → (keys l).Nodup → (∀ k ∈ keys l, k ∉ keys d) →
    putAll ok d l = .ok (d ++ l)
  | [], d, _, _, _ => by rw [List.append_nil]; rfl
  | (k, v) :: r, d, hok, hn, hd => by
    rw [show putAll ok d ((k, v) :: r) = if ok v = false then .error .type else putAll ok (put d k v) r from rfl]
    have hv : ok v = true := hok (k, v) List.mem_cons_self
    have hn' := List.nodup_cons.mp hn
    rw [if_neg (by rw [hv]; decide), put_fresh d k v (hd k List.mem_cons_self),
      putAll_fresh ok r _ (fun e he => hok e (List.mem_cons_of_mem _ he)) hn'.2]
    · rw [List.append_assoc]; rfl
    · intro k' hk' hm
      rw [keys, List.map_append] at hm
      rcases List.mem_append.mp hm with h | h
      · exact hd k' (List.mem_cons_of_mem _ hk') h
      · have : k' = k := List.mem_singleton.mp h
        rw [this] at hk'
        exact hn'.1 hk'

theorem takeWhile_mem {α : Type} (f : α → Bool) : ∀ (l : List α) (a : α), a ∈ l.takeWhile f → f a = true
  | [], a, h => absurd h List.not_mem_nil
  | x :: l, a, h => by
    cases hx : f x with
    | false => rw [List.takeWhile_cons_of_neg (by rw [hx]; decide)] at h; exact absurd h List.not_mem_nil
    | true =>
      rw [List.takeWhile_cons_of_pos hx] at h
      rcases List.mem_cons.mp h with rfl | h
      · exact hx
      · exact takeWhile_mem f l a h

theorem dropWhile_head {α : Type} (f : α → Bool) : ∀ (l : List α) (a : α) (r : List α), l.dropWhile f = a :: r → f a = false
  | [], a, r, h => by cases h
  | x :: l, a, r, h => by
    cases hx : f x with
    | true => rw [List.dropWhile_cons_of_pos hx] at h; exact dropWhile_head f l a r h
    | false =>
      rw [List.dropWhile_cons_of_neg (by rw [hx]; decide)] at h
      cases h
      exact hx

theorem dropWhile_nil {α : Type} (f : α → Bool) : ∀ l : List α, l.dropWhile f = [] ↔ ∀ a ∈ l, f a = true
  | [] => ⟨fun _ a h => absurd h List.not_mem_nil, fun _ => rfl⟩
  | x :: l => by
    cases hx : f x with
    | true =>
      rw [List.dropWhile_cons_of_pos hx, dropWhile_nil f l]
      exact ⟨fun h a ha => (List.mem_cons.mp ha).elim (fun e => e ▸ hx) (h a), fun h a ha => h a (List.mem_cons_of_mem _ ha)⟩
    | false =>
      rw [List.dropWhile_cons_of_neg (by rw [hx]; decide)]
      exact ⟨fun h => (by cases h), fun h => by have := h x List.mem_cons_self; rw [hx] at this; cases this⟩

theorem dirname_nil (p : Str) : dirname p = [] ↔ '/' ∉ p := by
  unfold dirname
  rw [List.reverse_eq_nil_iff, dropWhile_nil]
  constructor
  · intro h hm
    have := h '/' (List.mem_reverse.mpr hm)
    simp at this
  · intro h c hc
    have : c ≠ '/' := fun e => h (e ▸ List.mem_reverse.mp hc)
    simpa using this

theorem content_ok_iff (m : D) (extras : Dict D O) (md : Option (Dict D O)) :
    (∃ d, content m extras md = .ok d) ↔ (∀ e ∈ extras, isDict e.2 = true) ∧ ∀ l, md = some l → ∀ e ∈ l, isStr e.2 = true := by
  unfold content
  cases h1 : putAll isDict [(kModel, Val.dict m)] extras with
  | error e =>
    simp only []
    constructor
    · rintro ⟨d, h⟩; cases h
    · rintro ⟨h, _⟩
      obtain ⟨d, hd⟩ := (putAll_ok_iff isDict extras [(kModel, Val.dict m)]).mpr h
      rw [h1] at hd
      cases hd
  | ok d =>
    have hex := (putAll_ok_iff isDict extras [(kModel, Val.dict m)]).mp ⟨d, h1⟩
    simp only []
    cases md with
    | none => exact ⟨fun _ => ⟨hex, fun l h => by cases h⟩, fun _ => ⟨d, rfl⟩⟩
    | some l =>
      simp only []
      rw [putAll_ok_iff]
      exact ⟨fun h => ⟨hex, fun l' hl => by cases hl; exact h⟩, fun h => h.2 l rfl⟩

theorem content_nodup (m : D) (extras : Dict D O) (md : Option (Dict D O)) (d : Dict D O) (h : content m extras md = .ok d) : (keys d).Nodup := by
  unfold content at h
  cases h1 : putAll isDict [(kModel, Val.dict m)] extras with
  | error e => rw [h1] at h; cases h
  | ok d1 =>
    rw [h1] at h
    simp only [] at h
    have hd1 := putAll_nodup isDict extras [(kModel, Val.dict m)] d1 (List.nodup_singleton _) h1
    cases md with
    | none => cases h; exact hd1
    | some l => exact putAll_nodup isStr l d1 d hd1 h

theorem isDict_iff (v : Val D O) : isDict v = true ↔ ∃ d, v = .dict d := by
  cases v with
  | dict d => exact ⟨fun _ => ⟨d, rfl⟩, fun _ => rfl⟩
  | str s => exact ⟨fun h => (by cases h), fun ⟨d, h⟩ => (by cases h)⟩
  | other o => exact ⟨fun h => (by cases h), fun ⟨d, h⟩ => (by cases h)⟩

theorem isStr_iff (v : Val D O) : isStr v = true ↔ ∃ s, v = .str s := by
  cases v with
  | dict d => exact ⟨fun h => (by cases h), fun ⟨d, h⟩ => (by cases h)⟩
  | str s => exact ⟨fun _ => ⟨s, rfl⟩, fun _ => rfl⟩
  | other o => exact ⟨fun h => (by cases h), fun ⟨d, h⟩ => (by cases h)⟩

theorem ne_append_cons {α : Type} (p q : List α) (hq : q ≠ []) : p ≠ p ++ q := by
  intro h
  have := congrArg List.length h
  rw [List.length_append] at this
  exact hq (List.length_eq_zero_iff.mp (by omega))

/-! ### Theorems -/

/-- **C114 (the path).** The file written is the path given, with `.pt` added exactly if its last component has no extension. -/
theorem C114_target (p : Str) : (HasExt p → target p = p) ∧ (¬ HasExt p → target p = p ++ ext) := by
  have hiff : hasExt p = true ↔ HasExt p := by
    unfold hasExt
    obtain ⟨base, hbase⟩ : ∃ base, base = p.reverse.takeWhile (fun c => c != '/') := ⟨_, rfl⟩
    rw [← hbase]
    have hsplit : base ++ p.reverse.dropWhile (fun c => c != '/') = p.reverse := by rw [hbase]; exact List.takeWhile_append_dropWhile
    have hnb : '/' ∉ base := by
      intro h
      rw [hbase] at h
      have := takeWhile_mem _ _ _ h
      simp at this
    obtain ⟨rest, hrest⟩ : ∃ rest, rest = p.reverse.dropWhile (fun c => c != '/') := ⟨_, rfl⟩
    rw [← hrest] at hsplit
    have hb : base.takeWhile (fun c => c != '.') ++ base.dropWhile (fun c => c != '.') = base := List.takeWhile_append_dropWhile
    have hp : p = rest.reverse ++ base.reverse := by
      rw [← List.reverse_append, hsplit, List.reverse_reverse]
    have hdir : rest.reverse = [] ∨ ∃ d, rest.reverse = d ++ ['/'] := by
      cases hr : rest with
      | nil => exact Or.inl rfl
      | cons c r =>
        have hc : c = '/' := by
          have h1 : p.reverse.dropWhile (fun c => c != '/') = c :: r := by rw [← hrest, hr]
          have := dropWhile_head _ _ _ _ h1
          simpa using this
        rw [hc]
        exact Or.inr ⟨r.reverse, by rw [List.reverse_cons]⟩
    constructor
    · intro h
      cases hdw : base.dropWhile (fun c => c != '.') with
      | nil => rw [hdw] at h; cases h
      | cons c before =>
        rw [hdw] at h hb
        simp only [] at h
        obtain ⟨x, hx, hxd⟩ := List.any_eq_true.mp h
        have hc : c = '.' := by
          have := dropWhile_head _ _ _ _ hdw
          simpa using this
        have hnt : '.' ∉ base.takeWhile (fun c => c != '.') := by
          intro h
          have := takeWhile_mem _ _ _ h
          simp at this
        refine ⟨rest.reverse, before.reverse, (base.takeWhile fun c => c != '.').reverse, ?_, hdir, ?_, ?_, ?_, x, List.mem_reverse.mpr hx, ?_⟩
        · rw [hp]
          conv_lhs => rw [← hb, hc]
          rw [List.reverse_append, List.reverse_cons]
          simp
        · intro hm
          exact hnb (by rw [← hb]; exact List.mem_append_right _ (List.mem_cons_of_mem _ (List.mem_reverse.mp hm)))
        · intro hm
          exact hnb (by rw [← hb]; exact List.mem_append_left _ (List.mem_reverse.mp hm))
        · exact fun hm => hnt (List.mem_reverse.mp hm)
        · simpa using hxd
    · rintro ⟨dir, a, b, hpe, hd, ha, hbs, hbd, x, hx, hxd⟩
      have hrev : p.reverse = (b.reverse ++ '.' :: a.reverse) ++ dir.reverse := by
        rw [hpe]; simp
      have hb2 : base = b.reverse ++ '.' :: a.reverse := by
        rw [hbase, hrev, List.takeWhile_append_of_pos]
        · have : dir.reverse.takeWhile (fun c => c != '/') = [] := by
            rcases hd with rfl | ⟨d, rfl⟩
            · rfl
            · rw [List.reverse_append]; simp
          rw [this, List.append_nil]
        · intro c hc
          have : c ≠ '/' := by
            rintro rfl
            rcases List.mem_append.mp hc with h | h
            · exact hbs (List.mem_reverse.mp h)
            · rcases List.mem_cons.mp h with h | h
              · exact absurd h (by decide)
              · exact ha (List.mem_reverse.mp h)
          simpa using this
      have hdw : base.dropWhile (fun c => c != '.') = '.' :: a.reverse := by
        rw [hb2, List.dropWhile_append_of_pos]
        · simp
        · intro c hc
          have : c ≠ '.' := fun e => hbd (List.mem_reverse.mp (e ▸ hc))
          simpa using this
      rw [hdw]
      simp only []
      exact List.any_eq_true.mpr ⟨x, List.mem_reverse.mpr hx, by simpa using hxd⟩
  unfold target
  constructor
  · intro h
    rw [if_neg (by rw [hiff.mpr h]; decide)]
  · intro h
    rw [if_pos]
    cases hc : hasExt p with
    | false => rfl
    | true => exact absurd (hiff.mp hc) h

/-- **C114 (saving).** A save succeeds exactly if the path names a directory, every extra is a dict and every metadata value a string. If not, no file
changes. If so, only the file written (and its temporary name, gone afterwards) changes. -/
theorem C114_save (fs : Fs D O) (p : Str) (m : D) (extras : Dict D O) (md : Option (Dict D O)) :
    ((save fs p m extras md).2 = none ↔
      '/' ∈ p ∧ (∀ e ∈ extras, ∃ d, e.2 = .dict d) ∧ ∀ l, md = some l → ∀ e ∈ l, ∃ s, e.2 = .str s) ∧
    ((save fs p m extras md).2 ≠ none → (save fs p m extras md).1 = fs) ∧
    (∀ q, q ≠ target p → q ≠ target p ++ tmpExt → (save fs p m extras md).1 q = fs q) ∧
    ((save fs p m extras md).2 = none → (save fs p m extras md).1 (target p) ≠ none ∧ (save fs p m extras md).1 (target p ++ tmpExt) = none) := by
  have hc := content_ok_iff m extras md
  simp only [isDict_iff, isStr_iff] at hc
  unfold save
  by_cases hd : dirname p = []
  · rw [if_pos hd]
    refine ⟨⟨fun h => (by cases h), fun h => absurd h.1 ((dirname_nil p).mp hd)⟩, fun _ => rfl, fun _ _ _ => rfl, fun h => (by cases h)⟩
  · rw [if_neg hd]
    have hslash : '/' ∈ p := by
      by_contra h
      exact hd ((dirname_nil p).mpr h)
    cases he : content m extras md with
    | error e =>
      simp only []
      refine ⟨⟨fun h => (by cases h), fun h => ?_⟩, fun _ => trivial, fun _ _ _ => trivial, fun h => (by cases h)⟩
      obtain ⟨d, hd⟩ := hc.mpr h.2
      rw [he] at hd
      cases hd
    | ok d =>
      simp only []
      refine ⟨⟨fun _ => ⟨hslash, hc.mp ⟨d, he⟩⟩, fun _ => trivial⟩, fun h => absurd rfl h, fun q h1 h2 => ?_, fun _ => ⟨?_, ?_⟩⟩
      · unfold write; rw [if_neg h1, if_neg h2]
      · unfold write; rw [if_pos rfl]; exact Option.some_ne_none d
      · unfold write
        rw [if_neg (ne_append_cons (target p) tmpExt (by decide)).symm, if_pos rfl]

/-- **C114 (loading).** Loading a file that is not there, or has no "model", fails. Otherwise the extra dicts are all other dicts and the metadata all other
values that can be written as text, in the order of the file. -/
theorem C114_load (toStr : O → Option Str) (fs : Fs D O) (p : Str) :
    (fs p = none → load toStr fs p = .error .notFound) ∧
    (∀ d, fs p = some d → kModel ∉ keys d → load toStr fs p = .error .noModel) ∧
    ∀ d v, fs p = some d → (keys d).Nodup → (kModel, v) ∈ d → ∃ ex ms, load toStr fs p = .ok (v, ex, ms) ∧
      (∀ k c, (k, c) ∈ ex ↔ k ≠ kModel ∧ (k, .dict c) ∈ d) ∧
      (∀ k s, (k, s) ∈ ms ↔ k ≠ kModel ∧ ((k, .str s) ∈ d ∨ ∃ o, (k, .other o) ∈ d ∧ toStr o = some s)) ∧
      (keys ex).Sublist (keys d) ∧ (keys ms).Sublist (keys d) := by
  refine ⟨fun h => ?_, fun d h hn => ?_, fun d v h hnd hv => ?_⟩
  · unfold load; rw [h]
  · have : popModel d = none := by
      unfold popModel
      rw [Option.map_eq_none_iff, List.find?_eq_none]
      intro e he hk
      exact hn (List.mem_map.mpr ⟨e, he, of_decide_eq_true hk⟩)
    unfold load
    rw [h]
    simp only [this]
  · have hpop : popModel d = some v := by
      unfold popModel
      cases hf : d.find? fun e => decide (e.1 = kModel) with
      | none => exact absurd (decide_eq_true rfl) (List.find?_eq_none.mp hf _ hv)
      | some e =>
        have h1 : e.1 = kModel := of_decide_eq_true (List.find?_some (p := fun e : Str × Val D O => decide (e.1 = kModel)) hf)
        have h2 := List.mem_of_find?_eq_some hf
        have : e = (kModel, v) := List.inj_on_of_nodup_map hnd h2 hv h1
        rw [this]
        rfl
    refine ⟨(d.filter fun e => !decide (e.1 = kModel)).filterMap extraOf, (d.filter fun e => !decide (e.1 = kModel)).filterMap (metaOf toStr), ?_, ?_, ?_,
      ?_, ?_⟩
    · unfold load
      rw [h]
      simp only [hpop]
    · intro k c
      rw [List.mem_filterMap]
      constructor
      · rintro ⟨⟨k', v'⟩, he, hx⟩
        obtain ⟨hm, hk⟩ := List.mem_filter.mp he
        cases v' with
        | dict a =>
          have : (k', a) = (k, c) := Option.some.inj hx
          obtain ⟨rfl, rfl⟩ := Prod.mk.inj this
          exact ⟨by simpa using hk, hm⟩
        | str s => cases hx
        | other o => cases hx
      · rintro ⟨hk, hm⟩
        exact ⟨(k, .dict c), List.mem_filter.mpr ⟨hm, by simpa using hk⟩, rfl⟩
    · intro k s
      rw [List.mem_filterMap]
      constructor
      · rintro ⟨⟨k', v'⟩, he, hx⟩
        obtain ⟨hm, hk⟩ := List.mem_filter.mp he
        have hk' : k' ≠ kModel := by simpa using hk
        cases v' with
        | dict a => cases hx
        | str s' =>
          have : (k', s') = (k, s) := Option.some.inj hx
          obtain ⟨rfl, rfl⟩ := Prod.mk.inj this
          exact ⟨hk', Or.inl hm⟩
        | other o =>
          obtain ⟨s', hs', hx⟩ := Option.map_eq_some_iff.mp hx
          obtain ⟨rfl, rfl⟩ := Prod.mk.inj hx
          exact ⟨hk', Or.inr ⟨o, hm, hs'⟩⟩
      · rintro ⟨hk, hm | ⟨o, hm, hs⟩⟩
        · exact ⟨(k, .str s), List.mem_filter.mpr ⟨hm, by simpa using hk⟩, rfl⟩
        · refine ⟨(k, .other o), List.mem_filter.mpr ⟨hm, by simpa using hk⟩, ?_⟩
          unfold metaOf strOf
          simp only [hs]
          rfl
    · refine List.Sublist.trans (l₂ := keys (d.filter fun e : Str × Val D O => !decide (e.1 = kModel))) ?_ (List.filter_sublist.map _)
      exact sub (V := Val D O) (W := D) extraOf (fun e y hy => by
        obtain ⟨k, v⟩ := e
        cases v with
        | dict a => have : (k, a) = y := Option.some.inj hy; rw [← this]
        | str s => cases hy
        | other o => cases hy) _
    · refine List.Sublist.trans (l₂ := keys (d.filter fun e : Str × Val D O => !decide (e.1 = kModel))) ?_ (List.filter_sublist.map _)
      exact sub (V := Val D O) (W := Str) (metaOf toStr) (fun e y hy => by
        obtain ⟨s, _, hy⟩ := Option.map_eq_some_iff.mp hy
        rw [← hy]) _
where
  sub {V W : Type} (f : Str × V → Option (Str × W)) (hf : ∀ e y, f e = some y → y.1 = e.1) : ∀ l : List (Str × V),
      (keys (l.filterMap f)).Sublist (keys l)
    | [] => List.Sublist.refl _
    | e :: l => by
      cases he : f e with
      | none => rw [List.filterMap_cons_none he]; exact List.Sublist.cons _ (sub f hf l)
      | some y =>
        rw [List.filterMap_cons_some he]
        show (y.1 :: keys (l.filterMap f)).Sublist (e.1 :: keys l)
        rw [hf e y he]
        exact List.Sublist.cons_cons _ (sub f hf l)

/-- **C114 (round trip).** With dicts and strings and a path in a directory, the save succeeds; and loading the file gives back exactly the model, the extra
dicts and the metadata if and only if no name is "model" and no extra and metadata entry share a name. -/
theorem C114_roundtrip (toStr : O → Option Str) (fs : Fs D O) (p : Str) (m : D) (ex : List (Str × D)) (md : Option (List (Str × Str)))
    (hp : '/' ∈ p) (hex : (keys ex).Nodup) (hmd : (keys (md.getD [])).Nodup) :
    (save fs p m (extrasOf ex) (md.map metaOfStr)).2 = none ∧
    (load toStr (save fs p m (extrasOf ex) (md.map metaOfStr)).1 (target p) = .ok (.dict m, ex, md.getD []) ↔
      kModel ∉ keys ex ∧ kModel ∉ keys (md.getD []) ∧ ∀ k ∈ keys ex, k ∉ keys (md.getD [])) := by
  have hdicts : ∀ e ∈ (extrasOf ex : Dict D O), isDict e.2 = true := by
    intro e he
    obtain ⟨a, _, rfl⟩ := List.mem_map.mp he
    rfl
  have hstrs : ∀ e ∈ (metaOfStr (md.getD []) : Dict D O), isStr e.2 = true := by
    intro e he
    obtain ⟨a, _, rfl⟩ := List.mem_map.mp he
    rfl
  have hkx : keys (extrasOf ex : Dict D O) = keys ex := by unfold keys extrasOf; rw [List.map_map]; rfl
  have hkm : keys (metaOfStr (md.getD []) : Dict D O) = keys (md.getD []) := by unfold keys metaOfStr; rw [List.map_map]; rfl
  have hdn : dirname p ≠ [] := fun h => (dirname_nil p).mp h hp
  obtain ⟨d, hd⟩ := (content_ok_iff m (extrasOf ex : Dict D O) (md.map metaOfStr)).mpr ⟨hdicts, by
    intro l hl
    cases md with
    | none => cases hl
    | some ms => cases hl; exact hstrs⟩
  have hsave : save fs p m (extrasOf ex) (md.map metaOfStr) = (write fs (target p) d, none) := by
    unfold save
    rw [if_neg hdn, hd]
  have hfile : (write fs (target p) d) (target p) = some d := by unfold write; rw [if_pos rfl]
  rw [hsave]
  refine ⟨rfl, ?_⟩
  show load toStr (write fs (target p) d) (target p) = _ ↔ _
  constructor
  · intro h
    have hnd := content_nodup m _ _ d hd
    unfold load at h
    rw [hfile] at h
    simp only [] at h
    cases hpm : popModel d with
    | none => rw [hpm] at h; cases h
    | some v =>
      rw [hpm] at h
      simp only [Except.ok.injEq, Prod.mk.injEq] at h
      obtain ⟨_, h2, h3⟩ := h
      have hx : ∀ k ∈ keys ex, k ≠ kModel ∧ ∃ c, (k, Val.dict c) ∈ d := by
        intro k hk
        obtain ⟨e, he, rfl⟩ := List.mem_map.mp hk
        rw [← h2] at he
        obtain ⟨⟨k', v'⟩, he', hx⟩ := List.mem_filterMap.mp he
        obtain ⟨hm, hk'⟩ := List.mem_filter.mp he'
        cases v' with
        | dict a =>
          have : (k', a) = e := Option.some.inj hx
          rw [← this]
          exact ⟨by simpa using hk', a, hm⟩
        | str s => cases hx
        | other o => cases hx
      have hm : ∀ k ∈ keys (md.getD []), k ≠ kModel ∧ ∀ c, (k, Val.dict c) ∉ d := by
        intro k hk
        obtain ⟨e, he, rfl⟩ := List.mem_map.mp hk
        rw [← h3] at he
        obtain ⟨⟨k', v'⟩, he', hx⟩ := List.mem_filterMap.mp he
        obtain ⟨hm, hk'⟩ := List.mem_filter.mp he'
        obtain ⟨s, hs, hx⟩ := Option.map_eq_some_iff.mp hx
        rw [← hx]
        refine ⟨by simpa using hk', fun c hc => ?_⟩
        have : ((k', v') : Str × Val D O) = (k', .dict c) := List.inj_on_of_nodup_map hnd hm hc rfl
        rw [(Prod.mk.inj this).2] at hs
        cases hs
      refine ⟨fun h => (hx _ h).1 rfl, fun h => (hm _ h).1 rfl, fun k h1 h2 => ?_⟩
      obtain ⟨_, c, hc⟩ := hx k h1
      exact (hm k h2).2 c hc
  · rintro ⟨h1, h2, h3⟩
    have hd' : d = (kModel, .dict m) :: (extrasOf ex ++ metaOfStr (md.getD [])) := by
      have e1 : putAll isDict [(kModel, Val.dict m)] (extrasOf ex : Dict D O) = .ok ([(kModel, .dict m)] ++ extrasOf ex) := by
        refine putAll_fresh isDict _ _ hdicts (by rw [hkx]; exact hex) ?_
        intro k hk hm
        rw [hkx] at hk
        have : k = kModel := List.mem_singleton.mp hm
        exact h1 (this ▸ hk)
      unfold content at hd
      rw [e1] at hd
      simp only [] at hd
      cases md with
      | none =>
        cases hd
        show _ = (kModel, Val.dict m) :: (extrasOf ex ++ [])
        rw [List.append_nil]
        rfl
      | some ms =>
        have e2 : putAll isStr ([(kModel, .dict m)] ++ extrasOf ex) (metaOfStr ms : Dict D O) = .ok (([(kModel, .dict m)] ++ extrasOf ex) ++ metaOfStr ms) := by
          refine putAll_fresh isStr _ _ hstrs (hkm.symm ▸ hmd : (keys (metaOfStr ((some ms).getD []) : Dict D O)).Nodup) ?_
          intro k hk hm
          have hk : k ∈ keys (metaOfStr ((some ms).getD []) : Dict D O) := hk
          rw [hkm] at hk
          rw [keys, List.map_append] at hm
          rcases List.mem_append.mp hm with h | h
          · have : k = kModel := List.mem_singleton.mp h
            exact h2 (this ▸ hk)
          · have h' : k ∈ keys (extrasOf ex : Dict D O) := h
            rw [hkx] at h'
            exact h3 k h' hk
        have hd2 : putAll isStr ([(kModel, .dict m)] ++ extrasOf ex) (metaOfStr ms : Dict D O) = .ok d := hd
        rw [e2] at hd2
        cases hd2
        rfl
    have hpop : popModel d = some (.dict m) := by
      unfold popModel
      rw [hd', List.find?_cons_of_pos (p := fun e : Str × Val D O => decide (e.1 = kModel)) (decide_eq_true rfl)]
      rfl
    have hrest : d.filter (fun e => !decide (e.1 = kModel)) = extrasOf ex ++ metaOfStr (md.getD []) := by
      rw [hd', List.filter_cons_of_neg (by simp), List.filter_eq_self]
      intro e he
      have : e.1 ≠ kModel := by
        intro h
        rcases List.mem_append.mp he with he | he
        · exact h1 (by rw [← hkx, ← h]; exact List.mem_map.mpr ⟨e, he, rfl⟩)
        · exact h2 (by rw [← hkm, ← h]; exact List.mem_map.mpr ⟨e, he, rfl⟩)
      simpa using this
    have f1 : (extrasOf ex : Dict D O).filterMap extraOf = ex := by
      unfold extrasOf
      rw [List.filterMap_map]
      exact List.filterMap_some
    have f2 : (metaOfStr (md.getD []) : Dict D O).filterMap extraOf = [] := by
      rw [List.filterMap_eq_nil_iff]
      intro e he
      obtain ⟨a, _, rfl⟩ := List.mem_map.mp he
      rfl
    have f3 : (extrasOf ex : Dict D O).filterMap (metaOf toStr) = [] := by
      rw [List.filterMap_eq_nil_iff]
      intro e he
      obtain ⟨a, _, rfl⟩ := List.mem_map.mp he
      rfl
    have f4 : (metaOfStr (md.getD []) : Dict D O).filterMap (metaOf toStr) = md.getD [] := by
      unfold metaOfStr
      rw [List.filterMap_map]
      exact List.filterMap_some
    unfold load
    rw [hfile]
    simp only [hpop]
    rw [hrest, List.filterMap_append, List.filterMap_append, f1, f2, f3, f4, List.append_nil, List.nil_append]

/-- **C114 (a path without extension).** After a save, loading the very path given fails if it has no extension and was not a file before. -/
theorem C114_reload_path (toStr : O → Option Str) (fs : Fs D O) (p : Str) (m : D) (extras : Dict D O) (md : Option (Dict D O))
    (hext : ¬ HasExt p) (hno : fs p = none) : load toStr (save fs p m extras md).1 p = .error .notFound := by
  have ht := (C114_target p).2 hext
  have h := (C114_save fs p m extras md).2.2.1 p (by rw [ht]; exact ne_append_cons p ext (by decide))
    (by rw [ht, List.append_assoc]; exact ne_append_cons p _ (by decide))
  exact (C114_load toStr _ p).1 (h.trans hno)

end Verif.Ckio
