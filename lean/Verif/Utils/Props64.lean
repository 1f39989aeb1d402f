/-
C64: nested config update is a right-biased deep merge.
-/
import Verif.Utils.ConfigLemmas

namespace Verif.Utils

/-! ### Specification: what is stored at a path -/

/-- The value reached by following `path` (e.g. `["model", "dim"]`) through nested dicts. -/
def get : Cfg → List String → Option Cfg
  | c, [] => some c
  | .leaf _, _ :: _ => none
  | .dict items, k :: p =>
    match lookup k items with
    | none => none
    | some c => get c p

/-- Keys of every nested dictionary are distinct (always true of Python dicts). -/
def WF (c : Cfg) : Prop := ∀ p items, get c p = some (.dict items) → (keys items).Nodup

/-- `path` is in conflict: the update has a dict where the base has something else. -/
def Conflict (base new : Items) (p : List String) : Prop :=
  (∃ vs, get (.dict new) p = some (.dict vs)) ∧ ∃ v, get (.dict base) p = some (.leaf v)

/-- The update says nothing about `p`: no entry there, and no non-dict value above it. -/
def Untouched (new : Items) (p : List String) : Prop :=
  get (.dict new) p = none ∧ ∀ q v, q <+: p → get (.dict new) q ≠ some (.leaf v)

/-! ### Lemmas -/

theorem get_cons (d : Items) (k : String) (p : List String) :
    get (.dict d) (k :: p) = match lookup k d with | none => none | some c => get c p := rfl

theorem wf_top {d : Items} (h : WF (.dict d)) : (keys d).Nodup := h [] d rfl

theorem wf_child {d : Items} (h : WF (.dict d)) {k : String} {c : Cfg} (hk : lookup k d = some c) :
    WF c := by
  intro p items hp
  exact h (k :: p) items (by rw [get_cons, hk]; exact hp)

theorem untouched_child {new : Items} {k : String} {vs : Items} {p : List String}
    (h : Untouched new (k :: p)) (hk : lookup k new = some (.dict vs)) : Untouched vs p := by
  refine ⟨?_, ?_⟩
  · have := h.1
    rw [get_cons, hk] at this
    exact this
  · intro q v hq hg
    apply h.2 (k :: q) v
    · obtain ⟨t, rfl⟩ := hq
      exact ⟨t, rfl⟩
    · rw [get_cons, hk]
      exact hg

/-! ### Theorems -/

theorem ok_iff_aux (p : List String) : ∀ (pre : String) (base new : Items), WF (.dict new) →
    (recursiveUpdate pre base new).2 = none → ¬ Conflict base new p := by
  induction p with
  | nil =>
    rintro pre base new _ _ ⟨-, v, hv⟩
    simp [get] at hv
  | cons k p ih =>
    rintro pre base new hwf hok ⟨⟨vs, hvs⟩, v, hv⟩
    rw [get_cons] at hvs hv
    cases hn : lookup k new with
    | none => simp [hn] at hvs
    | some cn =>
      cases hb : lookup k base with
      | none => simp [hb] at hv
      | some cb =>
        simp only [hn, hb] at hvs hv
        have hm := (level_ok pre base new (wf_top hwf)).mp hok k cn hn
        rw [hb] at hm
        cases cn with
        | leaf x =>
          cases p with
          | nil => simp [get] at hvs
          | cons _ _ => simp [get] at hvs
        | dict ns =>
          cases cb with
          | leaf x => simp [mval] at hm
          | dict bs =>
            simp only [mval] at hm
            exact ih _ bs ns (wf_child hwf hn) hm ⟨⟨vs, hvs⟩, v, hv⟩

/-- The dotted name reported for a path. -/
def dotted (pre : String) : List String → String
  | [] => pre
  | k :: p => dotted (fullKey pre k) p

theorem error_aux : ∀ (n : Nat) (pre : String) (base new : Items), sizeOf new ≤ n → WF (.dict new) →
    ∀ e, (recursiveUpdate pre base new).2 = some e →
      ∃ p, p ≠ [] ∧ Conflict base new p ∧ e = dotted pre p := by
  intro n
  induction n with
  | zero =>
    intro pre base new hs
    cases new <;> simp at hs
  | succ n ih =>
    intro pre base new hs hwf e he
    obtain ⟨k, v, hk, hm⟩ := level_error pre base new (wf_top hwf) e he
    cases v with
    | leaf x => simp [mval] at hm
    | dict vs =>
      cases hb : lookup k base with
      | none => simp [mval, hb] at hm
      | some cb =>
        cases cb with
        | leaf x =>
          simp only [hb, mval, Option.some.injEq] at hm
          exact ⟨[k], by simp, ⟨⟨vs, by simp [get_cons, hk, get]⟩, x, by simp [get_cons, hb, get]⟩,
            by simp [dotted, hm]⟩
        | dict bs =>
          simp only [hb, mval] at hm
          have hlt : sizeOf vs < sizeOf new := by
            clear hm he hwf ih hs
            induction new with
            | nil => simp [lookup] at hk
            | cons x rest ihn =>
              obtain ⟨k', v'⟩ := x
              simp only [lookup] at hk
              split_ifs at hk
              · simp only [Option.some.injEq] at hk
                subst hk
                simp
                omega
              · have := ihn hk
                simp
                omega
          obtain ⟨p, hp, ⟨⟨ws, h1⟩, x, h2⟩, h3⟩ := ih (fullKey pre k) bs vs (by omega)
            (wf_child hwf hk) e hm
          exact ⟨k :: p, by simp, ⟨⟨ws, by rw [get_cons, hk]; exact h1⟩,
            x, by rw [get_cons, hb]; exact h2⟩, by simp [dotted, h3]⟩

/-- **C64 (when it succeeds).** The update succeeds exactly when nowhere a dict of the update
meets a non-dict of the base. -/
theorem C64_ok_iff (base new : Items) (hwf : WF (.dict new)) :
    (deepUpdate base new).2 = none ↔ ∀ p, ¬ Conflict base new p := by
  constructor
  · intro h p
    exact ok_iff_aux p "" base new hwf h
  · intro h
    cases he : (deepUpdate base new).2 with
    | none => rfl
    | some e =>
      obtain ⟨p, -, hc, -⟩ := error_aux _ "" base new (Nat.le_refl _) hwf e he
      exact absurd hc (h p)

/-- **C64 (error).** A failing update names the dotted path of a conflict. -/
theorem C64_error (base new : Items) (hwf : WF (.dict new)) (e : String)
    (h : (deepUpdate base new).2 = some e) :
    ∃ p, p ≠ [] ∧ Conflict base new p ∧ e = dotted "" p :=
  error_aux _ "" base new (Nat.le_refl _) hwf e h

theorem leaf_wins_aux (p : List String) : ∀ (pre : String) (base new : Items), WF (.dict new) →
    (recursiveUpdate pre base new).2 = none → ∀ v, get (.dict new) p = some (.leaf v) →
      get (.dict (recursiveUpdate pre base new).1) p = some (.leaf v) := by
  induction p with
  | nil => simp [get]
  | cons k p ih =>
    intro pre base new hwf hok v hv
    rw [get_cons] at hv ⊢
    rw [level_lookup pre base new (wf_top hwf) hok]
    cases hn : lookup k new with
    | none => simp [hn] at hv
    | some cn =>
      simp only [hn] at hv ⊢
      have hm := (level_ok pre base new (wf_top hwf)).mp hok k cn hn
      cases cn with
      | leaf x => simpa [mval] using hv
      | dict vs =>
        cases hb : lookup k base with
        | none => simpa [mval] using hv
        | some cb =>
          cases cb with
          | leaf x => simp [hb, mval] at hm
          | dict bs =>
            simp only [hb, mval] at hm ⊢
            exact ih _ bs vs (wf_child hwf hn) hm v hv

/-- **C64 (right-biased).** A non-dict value of the update is what the result holds at its
path, whatever the base held there (even a whole sub-dictionary). -/
theorem C64_new_value_wins (base new : Items) (hwf : WF (.dict new))
    (hok : (deepUpdate base new).2 = none) (p : List String) (v : Nat)
    (hv : get (.dict new) p = some (.leaf v)) :
    get (.dict (deepUpdate base new).1) p = some (.leaf v) :=
  leaf_wins_aux p "" base new hwf hok v hv

theorem untouched_aux (p : List String) : ∀ (pre : String) (base new : Items), WF (.dict new) →
    Untouched new p →
      get (.dict (recursiveUpdate pre base new).1) p = get (.dict base) p := by
  induction p with
  | nil =>
    rintro pre base new _ ⟨h, -⟩
    simp [get] at h
  | cons k p ih =>
    intro pre base new hwf hu
    rw [get_cons, get_cons]
    rcases level_any pre base new (wf_top hwf) k with h | ⟨v, hv, h⟩
    · rw [h]
    · rw [h]
      cases v with
      | leaf x =>
        exfalso
        apply hu.2 [k] x (List.prefix_append [k] p)
        simp [get_cons, hv, get]
      | dict vs =>
        have hu' := untouched_child hu hv
        cases hb : lookup k base with
        | none => simpa [mval] using hu'.1
        | some cb =>
          cases cb with
          | leaf x => simp [mval]
          | dict bs =>
            simp only [mval]
            exact ih _ bs vs (wf_child hwf hv) hu'

/-- **C64 (everything else is kept).** A path the update says nothing about keeps its base value
(or absence) — even when the update fails half-way. -/
theorem C64_untouched_kept (base new : Items) (hwf : WF (.dict new)) (p : List String)
    (h : Untouched new p) :
    get (.dict (deepUpdate base new).1) p = get (.dict base) p :=
  untouched_aux p "" base new hwf h

theorem both_aux (p : List String) : ∀ (pre : String) (base new : Items), WF (.dict new) →
    (recursiveUpdate pre base new).2 = none → ∀ bs vs, get (.dict base) p = some (.dict bs) →
      get (.dict new) p = some (.dict vs) →
      ∃ rs, get (.dict (recursiveUpdate pre base new).1) p = some (.dict rs) ∧
        keys rs = keys bs ++ (keys vs).filter (fun k => decide (k ∉ keys bs)) := by
  induction p with
  | nil =>
    intro pre base new hwf hok bs vs hb hv
    simp only [get, Option.some.injEq, Cfg.dict.injEq] at hb hv
    subst hb hv
    exact ⟨_, rfl, level_keys pre base new (wf_top hwf) hok⟩
  | cons k p ih =>
    intro pre base new hwf hok bs vs hb hv
    rw [get_cons] at hb hv
    cases hn : lookup k new with
    | none => simp [hn] at hv
    | some cn =>
      cases hbk : lookup k base with
      | none => simp [hbk] at hb
      | some cb =>
        simp only [hn, hbk] at hv hb
        have hm := (level_ok pre base new (wf_top hwf)).mp hok k cn hn
        rw [get_cons, level_lookup pre base new (wf_top hwf) hok, hn]
        cases cn with
        | leaf x => cases p <;> simp [get] at hv
        | dict ns =>
          cases cb with
          | leaf x => simp [hbk, mval] at hm
          | dict ds =>
            simp only [hbk, mval] at hm ⊢
            exact ih _ ds ns (wf_child hwf hn) hm bs vs hb hv

/-- **C64 (recursion and key order).** Where both sides have a dict the result has a dict with
the base's keys in their order, followed by the update's new keys in theirs (`p = []` is the top
level). -/
theorem C64_both_dicts (base new : Items) (hwf : WF (.dict new))
    (hok : (deepUpdate base new).2 = none) (p : List String) (bs vs : Items)
    (hb : get (.dict base) p = some (.dict bs)) (hv : get (.dict new) p = some (.dict vs)) :
    ∃ rs, get (.dict (deepUpdate base new).1) p = some (.dict rs) ∧
      keys rs = keys bs ++ (keys vs).filter (fun k => decide (k ∉ keys bs)) :=
  both_aux p "" base new hwf hok bs vs hb hv

theorem fresh_aux (p : List String) : ∀ (pre : String) (base new : Items), WF (.dict new) →
    (recursiveUpdate pre base new).2 = none → ∀ c, get (.dict base) p = none →
      get (.dict new) p = some c →
      get (.dict (recursiveUpdate pre base new).1) p = some c := by
  induction p with
  | nil => simp [get]
  | cons k p ih =>
    intro pre base new hwf hok c hb hv
    rw [get_cons] at hb hv
    cases hn : lookup k new with
    | none => simp [hn] at hv
    | some cn =>
      simp only [hn] at hv
      have hm := (level_ok pre base new (wf_top hwf)).mp hok k cn hn
      rw [get_cons, level_lookup pre base new (wf_top hwf) hok, hn]
      simp only
      cases cn with
      | leaf x => simpa [mval] using hv
      | dict ns =>
        cases hbk : lookup k base with
        | none => simpa [mval] using hv
        | some cb =>
          cases cb with
          | leaf x => simp [hbk, mval] at hm
          | dict ds =>
            simp only [hbk, mval] at hm hb ⊢
            exact ih _ ds ns (wf_child hwf hn) hm c hb hv

/-- **C64 (additions).** Whatever the update has at a path absent from the base is in the result
unchanged. -/
theorem C64_addition (base new : Items) (hwf : WF (.dict new))
    (hok : (deepUpdate base new).2 = none) (p : List String) (c : Cfg)
    (hb : get (.dict base) p = none) (hv : get (.dict new) p = some c) :
    get (.dict (deepUpdate base new).1) p = some c :=
  fresh_aux p "" base new hwf hok c hb hv

/-! Idempotence -/

theorem noop (pre : String) (d1 d2 : Items)
    (h : ∀ k v, (k, v) ∈ d2 → lookup k d1 = some (mval pre (lookup k d1) k v).1
      ∧ (mval pre (lookup k d1) k v).2 = none) :
    recursiveUpdate pre d1 d2 = (d1, none) := by
  induction d2 with
  | nil => simp [recursiveUpdate]
  | cons x d2 ih =>
    obtain ⟨k, v⟩ := x
    have h0 := h k v List.mem_cons_self
    rw [recursiveUpdate_cons, h0.2]
    simp only
    rw [setKey_same _ _ _ h0.1]
    exact ih (fun k' v' hm => h k' v' (List.mem_cons_of_mem _ hm))

theorem lookup_of_mem {d : Items} (hn : (keys d).Nodup) {k : String} {v : Cfg} (h : (k, v) ∈ d) :
    lookup k d = some v := by
  induction d with
  | nil => simp at h
  | cons x d ih =>
    obtain ⟨k', v'⟩ := x
    simp only [keys, List.map_cons, List.nodup_cons] at hn
    rcases List.mem_cons.mp h with he | h
    · simp only [Prod.mk.injEq] at he
      simp [lookup, he.1, he.2]
    · have : k' ≠ k := by
        rintro rfl
        exact hn.1 (List.mem_map_of_mem h (f := Prod.fst))
      simp [lookup, this, ih hn.2 h]

theorem sizeOf_child {d : Items} {k : String} {vs : Items} (h : (k, Cfg.dict vs) ∈ d) :
    sizeOf vs < sizeOf d := by
  have := List.sizeOf_lt_of_mem h
  simp at this
  omega

theorem self_update : ∀ (n : Nat) (pre : String) (d : Items), sizeOf d ≤ n → WF (.dict d) →
    recursiveUpdate pre d d = (d, none) := by
  intro n
  induction n with
  | zero =>
    intro pre d hs
    cases d <;> simp at hs
  | succ n ih =>
    intro pre d hs hwf
    apply noop
    intro k v hm
    have hl := lookup_of_mem (wf_top hwf) hm
    rw [hl]
    cases v with
    | leaf x => simp [mval]
    | dict vs =>
      have := ih (fullKey pre k) vs (by have := sizeOf_child hm; omega) (wf_child hwf hl)
      simp [mval, this]

theorem idem_aux : ∀ (n : Nat) (pre : String) (d1 d2 : Items), sizeOf d2 ≤ n → WF (.dict d2) →
    (recursiveUpdate pre d1 d2).2 = none →
    recursiveUpdate pre (recursiveUpdate pre d1 d2).1 d2 = ((recursiveUpdate pre d1 d2).1, none) := by
  intro n
  induction n with
  | zero =>
    intro pre d1 d2 hs
    cases d2 <;> simp at hs
  | succ n ih =>
    intro pre d1 d2 hs hwf hok
    apply noop
    intro k v hm
    have hl := lookup_of_mem (wf_top hwf) hm
    have hm2 := (level_ok pre d1 d2 (wf_top hwf)).mp hok k v hl
    rw [level_lookup pre d1 d2 (wf_top hwf) hok, hl]
    simp only
    cases v with
    | leaf x => simp [mval]
    | dict vs =>
      have hsz : sizeOf vs ≤ n := by have := sizeOf_child hm; omega
      cases hb : lookup k d1 with
      | none =>
        simp [mval, self_update n _ vs hsz (wf_child hwf hl)]
      | some cb =>
        cases cb with
        | leaf x => simp [hb, mval] at hm2
        | dict bs =>
          simp only [hb, mval] at hm2 ⊢
          simp [ih (fullKey pre k) bs vs hsz (wf_child hwf hl) hm2]

/-- **C64 (idempotent).** Applying the same update twice is the same as applying it once. -/
theorem C64_idempotent (base new : Items) (hwf : WF (.dict new))
    (hok : (deepUpdate base new).2 = none) :
    deepUpdate (deepUpdate base new).1 new = ((deepUpdate base new).1, none) :=
  idem_aux _ "" base new (Nat.le_refl _) hwf hok

/-- **C64 (empty update).** -/
theorem C64_empty (base : Items) : deepUpdate base [] = (base, none) := rfl

/-! ### Non-vacuity -/

def exBase : Items :=
  [("dim", .leaf 64), ("head", .dict [("type", .leaf 1), ("opt", .dict [("a", .leaf 5)])])]
def exNew : Items :=
  [("head", .dict [("type", .leaf 2), ("bias", .leaf 0)]), ("vq", .dict [("codes", .leaf 9)])]

theorem exNew_wf : WF (.dict exNew) := by
  intro p items hp
  match p with
  | [] =>
    simp only [get, Option.some.injEq, Cfg.dict.injEq] at hp
    subst hp
    decide +kernel
  | k :: p =>
    rw [get_cons] at hp
    by_cases h1 : "head" = k
    · subst h1
      match p with
      | [] =>
        simp [exNew, lookup, get] at hp
        subst hp
        decide +kernel
      | k2 :: p =>
        simp only [exNew, lookup, if_true, get_cons] at hp
        by_cases h2 : "type" = k2
        · cases p <;> simp [h2, get] at hp
        · by_cases h3 : "bias" = k2
          · cases p <;> simp [h2, h3, get] at hp
          · simp [h2, h3] at hp
    · by_cases h2 : "vq" = k
      · subst h2
        match p with
        | [] =>
          simp [exNew, lookup, get] at hp
          subst hp
          decide +kernel
        | k2 :: p =>
          simp only [exNew, lookup, if_true, get_cons, h1, if_false] at hp
          by_cases h2 : "codes" = k2
          · cases p <;> simp [h2, get] at hp
          · simp [h2] at hp
      · simp [exNew, lookup, h1, h2] at hp

example : (deepUpdate exBase exNew).2 = none ∧ deepUpdate exBase exNew =
    ([("dim", .leaf 64),
      ("head", .dict [("type", .leaf 2), ("opt", .dict [("a", .leaf 5)]), ("bias", .leaf 0)]),
      ("vq", .dict [("codes", .leaf 9)])], none) := by
  constructor <;> rfl

/-- A conflict: the keys before it have already been updated (the base is left half-updated). -/
example : deepUpdate exBase [("new", .leaf 1), ("head", .dict [("type", .dict [("x", .leaf 0)])])]
    = ([("dim", .leaf 64), ("head", .dict [("type", .leaf 1), ("opt", .dict [("a", .leaf 5)])]),
        ("new", .leaf 1)], some "head.type") := by
  rfl

end Verif.Utils
