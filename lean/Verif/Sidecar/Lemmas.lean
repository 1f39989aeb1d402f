import Verif.Sidecar.Model
import Mathlib.Data.List.Nodup
import Mathlib.Data.List.Basic
import Mathlib.Tactic.SplitIfs

/-! # Lemmas for C101 -/
namespace Verif.Sidecar
open Verif.Ckpt (Name toInt)

variable {V : Type}

/-! ### Discovery -/

def key (e : Entry) : String × String := (e.model, e.path)

structure Inv (done : List (String × String × Nat)) (d : List Entry) : Prop where
  nodup : (d.map Entry.id).Nodup
  aliases : ∀ e ∈ d, e.aliases = (done.filter fun s => decide (s.2.2 = e.id)).map fun s => (s.1, s.2.1)
  head : ∀ e ∈ d, e.aliases.head? = some (key e)
  ids : ∀ i, (∃ s ∈ done, s.2.2 = i) ↔ ∃ e ∈ d, e.id = i

theorem addSite_inv (done : List (String × String × Nat)) (d : List Entry) (h : Inv done d) (m p : String) (i : Nat) :
    Inv (done ++ [(m, p, i)]) (addSite d m p i) := by
  unfold addSite
  by_cases ha : (d.any fun e => decide (e.id = i)) = true
  · rw [if_pos ha]
    have hid : ∀ e : Entry, (if e.id = i then { e with aliases := e.aliases ++ [(m, p)] } else e).id = e.id := by
      intro e; split_ifs <;> rfl
    refine ⟨?_, ?_, ?_, ?_⟩
    · rw [List.map_map, show (Entry.id ∘ fun e : Entry => if e.id = i then { e with aliases := e.aliases ++ [(m, p)] } else e) = Entry.id from
        funext hid]
      exact h.nodup
    · intro e' he'
      obtain ⟨e, he, rfl⟩ := List.mem_map.mp he'
      rw [hid, List.filter_append, List.map_append, ← h.aliases e he]
      by_cases hi : e.id = i
      · rw [if_pos hi, List.filter_cons_of_pos (by simpa using hi.symm)]; rfl
      · rw [if_neg hi, List.filter_cons_of_neg (by simpa using fun h => hi h.symm)]; simp
    · intro e' he'
      obtain ⟨e, he, rfl⟩ := List.mem_map.mp he'
      have := h.head e he
      by_cases hi : e.id = i
      · rw [if_pos hi]
        show (e.aliases ++ [(m, p)]).head? = some (e.model, e.path)
        rw [List.head?_append, this]; rfl
      · rw [if_neg hi]; exact this
    · intro j
      have h2 : (∃ e' ∈ d.map (fun e : Entry => if e.id = i then { e with aliases := e.aliases ++ [(m, p)] } else e), e'.id = j) ↔ ∃ e ∈ d, e.id = j := by
        constructor
        · rintro ⟨e', he', hj⟩
          obtain ⟨e, he, rfl⟩ := List.mem_map.mp he'
          exact ⟨e, he, (hid e).symm.trans hj⟩
        · rintro ⟨e, he, hj⟩
          exact ⟨_, List.mem_map.mpr ⟨e, he, rfl⟩, (hid e).trans hj⟩
      rw [h2, ← h.ids j]
      constructor
      · rintro ⟨s, hs, hj⟩
        rcases List.mem_append.mp hs with hs | hs
        · exact ⟨s, hs, hj⟩
        · rw [List.mem_singleton] at hs
          subst hs
          obtain ⟨e, he, hei⟩ := List.any_eq_true.mp ha
          rw [h.ids j]
          exact ⟨e, he, (of_decide_eq_true hei).trans hj⟩
      · rintro ⟨s, hs, hj⟩
        exact ⟨s, List.mem_append_left _ hs, hj⟩
  · rw [if_neg ha]
    have hno : ∀ e ∈ d, e.id ≠ i := by
      intro e he hi
      exact ha (List.any_eq_true.mpr ⟨e, he, decide_eq_true hi⟩)
    have hno2 : ∀ s ∈ done, s.2.2 ≠ i := by
      intro s hs hi
      obtain ⟨e, he, hei⟩ := (h.ids i).mp ⟨s, hs, hi⟩
      exact hno e he hei
    refine ⟨?_, ?_, ?_, ?_⟩
    · rw [List.map_append, List.map_singleton]
      refine List.nodup_append.mpr ⟨h.nodup, List.nodup_singleton _, ?_⟩
      intro a ha b hb
      rw [List.mem_singleton] at hb
      obtain ⟨e, he, rfl⟩ := List.mem_map.mp ha
      rw [hb]
      exact hno e he
    · intro e he
      rw [List.filter_append, List.map_append]
      rcases List.mem_append.mp he with he | he
      · rw [← h.aliases e he, List.filter_cons_of_neg (by simpa using fun h => hno e he h.symm)]; simp
      · rw [List.mem_singleton] at he
        subst he
        rw [List.filter_eq_nil_iff.mpr (by intro s hs; simpa using hno2 s hs)]
        simp
    · intro e he
      rcases List.mem_append.mp he with he | he
      · exact h.head e he
      · rw [List.mem_singleton] at he; subst he; rfl
    · intro j
      constructor
      · rintro ⟨s, hs, hj⟩
        rcases List.mem_append.mp hs with hs | hs
        · obtain ⟨e, he, hej⟩ := (h.ids j).mp ⟨s, hs, hj⟩
          exact ⟨e, List.mem_append_left _ he, hej⟩
        · rw [List.mem_singleton] at hs; subst hs
          exact ⟨_, List.mem_append_right _ (List.mem_singleton.mpr rfl), hj⟩
      · rintro ⟨e, he, hj⟩
        rcases List.mem_append.mp he with he | he
        · obtain ⟨s, hs, hsj⟩ := (h.ids j).mpr ⟨e, he, hj⟩
          exact ⟨s, List.mem_append_left _ hs, hsj⟩
        · rw [List.mem_singleton] at he; subst he
          exact ⟨_, List.mem_append_right _ (List.mem_singleton.mpr rfl), hj⟩

theorem fold_inv (l done : List (String × String × Nat)) (d : List Entry) (h : Inv done d) :
    Inv (done ++ l) (l.foldl (fun d s => addSite d s.1 s.2.1 s.2.2) d) := by
  induction l generalizing done d with
  | nil => simpa using h
  | cons s l ih =>
    rw [List.foldl_cons]
    have := ih (done ++ [s]) _ (addSite_inv done d h s.1 s.2.1 s.2.2)
    rwa [List.append_assoc] at this

theorem discover_inv (p : Proc V) (d : List Entry) (h : discover p = .ok d) : Inv (sites p) d := by
  unfold discover at h
  split_ifs at h with hm
  simp only [Except.ok.injEq] at h
  subst h
  have := fold_inv (sites p) [] [] ⟨List.nodup_nil, by simp, by simp, by simp⟩
  simpa using this

theorem key_site (p : Proc V) (d : List Entry) (h : Inv (sites p) d) (e : Entry) (he : e ∈ d) :
    (e.model, e.path, e.id) ∈ sites p := by
  have h1 := h.head e he
  rw [h.aliases e he] at h1
  have h2 := List.mem_of_mem_head? (Option.mem_def.mpr h1)
  obtain ⟨s, hs, hk⟩ := List.mem_map.mp h2
  rw [List.mem_filter] at hs
  have hid := of_decide_eq_true hs.2
  simp only [key, Prod.mk.injEq] at hk
  obtain ⟨a, b, c⟩ := s
  simp only at hk hid
  rw [← hk.1, ← hk.2, ← hid]
  exact hs.1

theorem id_inj (d : List Entry) (h : (d.map Entry.id).Nodup) (e e' : Entry) (he : e ∈ d) (he' : e' ∈ d) (hi : e.id = e'.id) : e = e' :=
  List.inj_on_of_nodup_map h he he' hi

/-- Keys of the discovered modules are distinct when a path of a model names one module. -/
theorem key_inj (p : Proc V) (d : List Entry) (h : Inv (sites p) d)
    (huniq : ∀ m q i j, (m, q, i) ∈ sites p → (m, q, j) ∈ sites p → i = j) (e e' : Entry) (he : e ∈ d) (he' : e' ∈ d)
    (hk : key e = key e') : e = e' := by
  have h1 := key_site p d h e he
  have h2 := key_site p d h e' he'
  simp only [key, Prod.mk.injEq] at hk
  rw [hk.1, hk.2] at h1
  exact id_inj d h.nodup e e' he he' (huniq _ _ _ _ h1 h2)

theorem key_nodup (p : Proc V) (d : List Entry) (h : Inv (sites p) d)
    (huniq : ∀ m q i j, (m, q, i) ∈ sites p → (m, q, j) ∈ sites p → i = j) : (d.map key).Nodup :=
  (List.Nodup.of_map _ h.nodup).map_on fun e he e' he' hk => key_inj p d h huniq e e' he he' hk

/-- The same entry in another process. -/
def ren (σ : Nat → Nat) (e : Entry) : Entry := { e with id := σ e.id }

theorem addSite_ren (σ : Nat → Nat) (hσ : Function.Injective σ) (d : List Entry) (m p : String) (i : Nat) :
    addSite (d.map (ren σ)) m p (σ i) = (addSite d m p i).map (ren σ) := by
  unfold addSite
  have hany : ((d.map (ren σ)).any fun e => decide (e.id = σ i)) = d.any fun e => decide (e.id = i) := by
    rw [List.any_map]
    congr 1
    funext e
    show decide (σ e.id = σ i) = decide (e.id = i)
    simp only [hσ.eq_iff]
  rw [hany]
  by_cases h : (d.any fun e => decide (e.id = i)) = true
  · rw [if_pos h, if_pos h, List.map_map, List.map_map]
    congr 1
    funext e
    show (if σ e.id = σ i then _ else _) = ren σ (if e.id = i then _ else _)
    by_cases hi : e.id = i
    · rw [if_pos hi, if_pos (by rw [hi])]; rfl
    · rw [if_neg hi, if_neg (fun h => hi (hσ h))]
  · rw [if_neg h, if_neg h, List.map_append]; rfl

theorem foldl_ren (σ : Nat → Nat) (hσ : Function.Injective σ) (l : List (String × String × Nat)) (d : List Entry) :
    (l.map fun s => (s.1, s.2.1, σ s.2.2)).foldl (fun d s => addSite d s.1 s.2.1 s.2.2) (d.map (ren σ)) =
      (l.foldl (fun d s => addSite d s.1 s.2.1 s.2.2) d).map (ren σ) := by
  induction l generalizing d with
  | nil => rfl
  | cons s l ih =>
    rw [List.map_cons, List.foldl_cons, List.foldl_cons]
    show List.foldl _ (addSite (d.map (ren σ)) s.1 s.2.1 (σ s.2.2)) _ = _
    rw [addSite_ren σ hσ, ih]

/-! ### Dictionaries -/

theorem findKey_eq {β : Type} (l : List ((String × String) × β)) (k : String × String) (v : β) (h1 : (k, v) ∈ l)
    (h2 : ∀ v', (k, v') ∈ l → v' = v) : findKey l k = some v := by
  unfold findKey
  cases h : l.find? (fun e => decide (e.1 = k)) with
  | none =>
    have := List.find?_eq_none.mp h (k, v) h1
    simp at this
  | some e =>
    have he := List.mem_of_find?_eq_some h
    have hk := List.find?_some h
    simp only [decide_eq_true_eq] at hk
    obtain ⟨a, b⟩ := e
    simp only at hk
    subst hk
    rw [Option.map_some, h2 b he]

theorem findKey_mem {β : Type} (l : List ((String × String) × β)) (k : String × String) (v : β) (h : findKey l k = some v) : (k, v) ∈ l := by
  unfold findKey at h
  cases h1 : l.find? (fun e => decide (e.1 = k)) with
  | none => rw [h1] at h; simp at h
  | some e =>
    rw [h1] at h
    have he := List.mem_of_find?_eq_some h1
    have hk := List.find?_some h1
    simp only [decide_eq_true_eq] at hk
    simp only [Option.map_some, Option.some.injEq] at h
    obtain ⟨a, b⟩ := e
    simp only at hk h
    rw [← hk, ← h]; exact he

theorem pushKey_mem {β : Type} (d : List (String × List β)) (k : String) (v : β) (m : String) (x : β) :
    (∃ l, (m, l) ∈ pushKey d k v ∧ x ∈ l) ↔ (∃ l, (m, l) ∈ d ∧ x ∈ l) ∨ (m = k ∧ x = v) := by
  unfold pushKey
  by_cases ha : (d.any fun e => decide (e.1 = k)) = true
  · rw [if_pos ha]
    constructor
    · rintro ⟨l, hl, hx⟩
      obtain ⟨e, he, heq⟩ := List.mem_map.mp hl
      by_cases hk : e.1 = k
      · rw [if_pos hk] at heq
        simp only [Prod.mk.injEq] at heq
        rw [← heq.2] at hx
        rcases List.mem_append.mp hx with hx | hx
        · left; refine ⟨e.2, ?_, hx⟩; rw [← heq.1]; exact he
        · right; rw [List.mem_singleton] at hx; exact ⟨heq.1.symm.trans hk, hx⟩
      · rw [if_neg hk] at heq
        left; exact ⟨l, by rw [← heq]; exact he, hx⟩
    · rintro (⟨l, hl, hx⟩ | ⟨rfl, rfl⟩)
      · by_cases hk : m = k
        · refine ⟨l ++ [v], List.mem_map.mpr ⟨(m, l), hl, ?_⟩, List.mem_append_left _ hx⟩
          show (if m = k then (m, l ++ [v]) else (m, l)) = _
          rw [if_pos hk]
        · refine ⟨l, List.mem_map.mpr ⟨(m, l), hl, ?_⟩, hx⟩
          show (if m = k then (m, l ++ [v]) else (m, l)) = _
          rw [if_neg hk]
      · obtain ⟨e, he, hek⟩ := List.any_eq_true.mp ha
        have hek := of_decide_eq_true hek
        refine ⟨e.2 ++ [x], List.mem_map.mpr ⟨e, he, ?_⟩, List.mem_append_right _ (List.mem_singleton.mpr rfl)⟩
        rw [if_pos hek, hek]
  · rw [if_neg ha]
    constructor
    · rintro ⟨l, hl, hx⟩
      rcases List.mem_append.mp hl with hl | hl
      · exact .inl ⟨l, hl, hx⟩
      · simp only [List.mem_singleton, Prod.mk.injEq] at hl
        rw [hl.2, List.mem_singleton] at hx
        exact .inr ⟨hl.1, hx⟩
    · rintro (⟨l, hl, hx⟩ | ⟨rfl, rfl⟩)
      · exact ⟨l, List.mem_append_left _ hl, hx⟩
      · exact ⟨[x], List.mem_append_right _ (List.mem_singleton.mpr rfl), List.mem_singleton.mpr rfl⟩

/-- The schema entry of a discovered module. -/
def schemaEntry (store : Nat → Vq V) (e : Entry) : ModSchema := ⟨e.path, e.aliases, (store e.id).desc, (store e.id).inited⟩

theorem schema_mem (store : Nat → Vq V) (d : List Entry) (m : String) (x : ModSchema) :
    (∃ l, (m, l) ∈ schemaOf store d ∧ x ∈ l) ↔ ∃ e ∈ d, m = e.model ∧ x = schemaEntry store e := by
  unfold schemaOf
  have : ∀ (d : List Entry) (s : Schema), (∃ l, (m, l) ∈ d.foldl (fun s e => pushKey s e.model ⟨e.path, e.aliases, (store e.id).desc,
      (store e.id).inited⟩) s ∧ x ∈ l) ↔ (∃ l, (m, l) ∈ s ∧ x ∈ l) ∨ ∃ e ∈ d, m = e.model ∧ x = schemaEntry store e := by
    intro d
    induction d with
    | nil => intro s; simp
    | cons e d ih =>
      intro s
      rw [List.foldl_cons, ih, pushKey_mem]
      constructor
      · rintro ((h | h) | ⟨e', he', h⟩)
        · exact .inl h
        · exact .inr ⟨e, List.mem_cons_self .., h⟩
        · exact .inr ⟨e', List.mem_cons_of_mem _ he', h⟩
      · rintro (h | ⟨e', he', h⟩)
        · exact .inl (.inl h)
        · rcases List.mem_cons.mp he' with rfl | he'
          · exact .inl (.inr h)
          · exact .inr ⟨e', he', h⟩
  rw [this]
  simp

theorem desc_mem (store : Nat → Vq V) (d : List Entry) (k : String × String) (x : ModSchema) :
    (k, x) ∈ descByKey (schemaOf store d) ↔ ∃ e ∈ d, k = key e ∧ x = schemaEntry store e := by
  unfold descByKey
  rw [List.mem_flatMap]
  constructor
  · rintro ⟨m, hm, hx⟩
    obtain ⟨y, hy, heq⟩ := List.mem_map.mp hx
    simp only [Prod.mk.injEq] at heq
    obtain ⟨e, he, h1, h2⟩ := (schema_mem store d m.1 y).mp ⟨m.2, hm, hy⟩
    refine ⟨e, he, ?_, heq.2.symm.trans h2⟩
    rw [← heq.1, h1, h2]; rfl
  · rintro ⟨e, he, rfl, rfl⟩
    obtain ⟨l, hl, hx⟩ := (schema_mem store d e.model (schemaEntry store e)).mpr ⟨e, he, rfl, rfl⟩
    exact ⟨_, hl, List.mem_map.mpr ⟨_, hx, rfl⟩⟩

theorem find_map_if {β : Type} (q : β → Bool) (f : β → β) (hf : ∀ b, q (f b) = q b) (l : List β) :
    (l.map f).find? q = (l.find? q).map f := by
  induction l with
  | nil => rfl
  | cons b l ih =>
    rw [List.map_cons]
    by_cases h : q b = true
    · rw [List.find?_cons_of_pos (by rw [hf]; exact h), List.find?_cons_of_pos h]; rfl
    · rw [List.find?_cons_of_neg (by rw [hf]; exact h), List.find?_cons_of_neg h, ih]

/-- The inner dictionary assignment. -/
def setPath {β : Type} (l : List (String × β)) (p : String) (v : β) : List (String × β) :=
  if l.any (fun x => decide (x.1 = p)) then l.map (fun x => if x.1 = p then (p, v) else x) else l ++ [(p, v)]

theorem setPath_find {β : Type} (l : List (String × β)) (p : String) (v : β) (q : String) :
    ((setPath l p v).find? fun x => decide (x.1 = q)).map Prod.snd =
      if q = p then some v else (l.find? fun x => decide (x.1 = q)).map Prod.snd := by
  unfold setPath
  by_cases ha : (l.any fun x => decide (x.1 = p)) = true
  · rw [if_pos ha, find_map_if]
    · by_cases hq : q = p
      · rw [if_pos hq]
        obtain ⟨x, hx, hxp⟩ := List.any_eq_true.mp ha
        cases hf : l.find? (fun x => decide (x.1 = q)) with
        | none =>
          have := List.find?_eq_none.mp hf x hx
          rw [hq] at this
          exact absurd hxp this
        | some y =>
          have hy := List.find?_some hf
          simp only [decide_eq_true_eq] at hy
          rw [Option.map_some, Option.map_some, if_pos (hy.trans hq)]
      · rw [if_neg hq]
        cases hf : l.find? (fun x => decide (x.1 = q)) with
        | none => rfl
        | some y =>
          have hy := List.find?_some hf
          simp only [decide_eq_true_eq] at hy
          rw [Option.map_some, Option.map_some, if_neg (fun h => hq (hy.symm.trans h))]; rfl
    · intro b
      by_cases hb : b.1 = p
      · rw [if_pos hb, hb]
      · rw [if_neg hb]
  · rw [if_neg ha, List.find?_append]
    have hno : ∀ x ∈ l, x.1 ≠ p := fun x hx h => ha (List.any_eq_true.mpr ⟨x, hx, decide_eq_true h⟩)
    by_cases hq : q = p
    · rw [if_pos hq, List.find?_eq_none.mpr (by intro x hx; rw [hq]; simpa using hno x hx)]
      simp [hq]
    · rw [if_neg hq]
      cases hf : l.find? (fun x => decide (x.1 = q)) with
      | none => simpa using fun h => hq (Eq.symm h)
      | some y => rfl

theorem savedAt_put (d : List (String × List (String × Saved V))) (m p : String) (v : Saved V) (k : String × String) :
    savedAt (putKey d m p v) k = if k = (m, p) then some v else savedAt d k := by
  have hput : putKey d m p v = if d.any (fun e => decide (e.1 = m)) then d.map (fun e => if e.1 = m then (e.1, setPath e.2 p v) else e)
      else d ++ [(m, setPath [] p v)] := rfl
  obtain ⟨k1, k2⟩ := k
  rw [hput]
  by_cases ha : (d.any fun e => decide (e.1 = m)) = true
  · rw [if_pos ha]
    unfold savedAt
    simp only []
    rw [find_map_if _ _ (by
      intro b
      by_cases hb : b.1 = m
      · rw [if_pos hb]
      · rw [if_neg hb])]
    obtain ⟨y, hy, hym⟩ := List.any_eq_true.mp ha
    cases hf : d.find? (fun e => decide (e.1 = k1)) with
    | none =>
      rw [Option.map_none, if_neg]
      intro h
      simp only [Prod.mk.injEq] at h
      have := List.find?_eq_none.mp hf y hy
      rw [h.1] at this
      exact this hym
    | some e =>
      have he := List.find?_some hf
      simp only [decide_eq_true_eq] at he
      rw [Option.map_some]
      simp only []
      by_cases hm : e.1 = m
      · rw [if_pos hm]
        simp only []
        rw [setPath_find]
        by_cases hp : k2 = p
        · rw [if_pos hp, if_pos (by rw [← he, hm, hp])]
        · rw [if_neg hp, if_neg (by simp [hp])]
      · rw [if_neg hm, if_neg (by
          intro h
          simp only [Prod.mk.injEq] at h
          exact hm (he.trans h.1))]
  · rw [if_neg ha]
    have hno : ∀ x ∈ d, x.1 ≠ m := fun x hx h => ha (List.any_eq_true.mpr ⟨x, hx, decide_eq_true h⟩)
    unfold savedAt
    simp only []
    rw [List.find?_append]
    by_cases hk : k1 = m
    · rw [List.find?_eq_none.mpr (by intro x hx; rw [hk]; simpa using hno x hx), Option.none_or,
        List.find?_cons_of_pos (by simp [hk])]
      simp only []
      rw [setPath_find]
      by_cases hp : k2 = p
      · rw [if_pos hp, if_pos (by rw [hk, hp])]
      · rw [if_neg hp, if_neg (by simp [hp])]; rfl
    · rw [if_neg (by simp [hk])]
      cases hf : d.find? (fun e => decide (e.1 = k1)) with
      | none =>
        rw [Option.none_or, List.find?_cons_of_neg (by simpa using fun h => hk h.symm)]; rfl
      | some e => rfl

theorem put_names {β : Type} (d : List (String × List (String × β))) (m p : String) (v : β) (n : String) :
    n ∈ (putKey d m p v).map Prod.fst ↔ n ∈ d.map Prod.fst ∨ n = m := by
  unfold putKey
  by_cases ha : (d.any fun e => decide (e.1 = m)) = true
  · rw [if_pos ha, List.map_map]
    have : (Prod.fst ∘ fun e : String × List (String × β) => if e.1 = m then (e.1, if e.2.any (fun x => decide (x.1 = p)) then
        e.2.map (fun x => if x.1 = p then (p, v) else x) else e.2 ++ [(p, v)]) else e) = Prod.fst := by
      funext e
      show Prod.fst (if e.1 = m then _ else e) = _
      by_cases h : e.1 = m
      · rw [if_pos h]
      · rw [if_neg h]
    rw [this]
    constructor
    · exact .inl
    · rintro (h | rfl)
      · exact h
      · obtain ⟨y, hy, hym⟩ := List.any_eq_true.mp ha
        exact List.mem_map.mpr ⟨y, hy, of_decide_eq_true hym⟩
  · rw [if_neg ha]; simp

theorem setPath_names {β : Type} (l : List (String × β)) (p : String) (v : β) (q : String) :
    q ∈ (setPath l p v).map Prod.fst ↔ q ∈ l.map Prod.fst ∨ q = p := by
  unfold setPath
  by_cases ha : (l.any fun x => decide (x.1 = p)) = true
  · rw [if_pos ha, List.map_map]
    have : (Prod.fst ∘ fun x : String × β => if x.1 = p then (p, v) else x) = Prod.fst := by
      funext e
      show Prod.fst (if e.1 = p then _ else e) = _
      by_cases h : e.1 = p
      · rw [if_pos h, h]
      · rw [if_neg h]
    rw [this]
    constructor
    · exact .inl
    · rintro (h | rfl)
      · exact h
      · obtain ⟨y, hy, hym⟩ := List.any_eq_true.mp ha
        exact List.mem_map.mpr ⟨y, hy, of_decide_eq_true hym⟩
  · rw [if_neg ha]; simp

theorem payloadKeys_mem (d : List (String × List (String × Saved V))) (k : String × String) :
    k ∈ payloadKeys d ↔ ∃ l, (k.1, l) ∈ d ∧ k.2 ∈ l.map Prod.fst := by
  unfold payloadKeys
  rw [List.mem_flatMap]
  constructor
  · rintro ⟨m, hm, hk⟩
    obtain ⟨x, hx, rfl⟩ := List.mem_map.mp hk
    exact ⟨m.2, hm, List.mem_map.mpr ⟨x, hx, rfl⟩⟩
  · rintro ⟨l, hl, hk⟩
    obtain ⟨x, hx, hxe⟩ := List.mem_map.mp hk
    exact ⟨_, hl, List.mem_map.mpr ⟨x, hx, by rw [hxe]⟩⟩

theorem put_keys (d : List (String × List (String × Saved V))) (m p : String) (v : Saved V) (k : String × String) :
    k ∈ payloadKeys (putKey d m p v) ↔ k ∈ payloadKeys d ∨ k = (m, p) := by
  have hput : putKey d m p v = if d.any (fun e => decide (e.1 = m)) then d.map (fun e => if e.1 = m then (e.1, setPath e.2 p v) else e)
      else d ++ [(m, setPath [] p v)] := rfl
  obtain ⟨k1, k2⟩ := k
  rw [payloadKeys_mem, payloadKeys_mem, hput]
  by_cases ha : (d.any fun e => decide (e.1 = m)) = true
  · rw [if_pos ha]
    constructor
    · rintro ⟨l, hl, hk⟩
      obtain ⟨e, he, heq⟩ := List.mem_map.mp hl
      by_cases hm : e.1 = m
      · rw [if_pos hm] at heq
        simp only [Prod.mk.injEq] at heq
        rw [← heq.2, setPath_names] at hk
        rcases hk with hk | hk
        · left; exact ⟨e.2, by rw [← heq.1]; exact he, hk⟩
        · right; rw [← heq.1, hm]; exact congrArg (Prod.mk m) hk
      · rw [if_neg hm] at heq
        left; exact ⟨l, by rw [← heq]; exact he, hk⟩
    · rintro (⟨l, hl, hk⟩ | h)
      · by_cases hm : k1 = m
        · refine ⟨setPath l p v, List.mem_map.mpr ⟨(k1, l), hl, ?_⟩, (setPath_names l p v k2).mpr (.inl hk)⟩
          show (if k1 = m then (k1, setPath l p v) else (k1, l)) = _
          rw [if_pos hm]
        · refine ⟨l, List.mem_map.mpr ⟨(k1, l), hl, ?_⟩, hk⟩
          show (if k1 = m then (k1, setPath l p v) else (k1, l)) = _
          rw [if_neg hm]
      · simp only [Prod.mk.injEq] at h
        obtain ⟨rfl, rfl⟩ := h
        obtain ⟨y, hy, hym⟩ := List.any_eq_true.mp ha
        have hym := of_decide_eq_true hym
        refine ⟨setPath y.2 k2 v, List.mem_map.mpr ⟨y, hy, ?_⟩, (setPath_names _ _ _ _).mpr (.inr rfl)⟩
        rw [if_pos hym, hym]
  · rw [if_neg ha]
    constructor
    · rintro ⟨l, hl, hk⟩
      rcases List.mem_append.mp hl with hl | hl
      · exact .inl ⟨l, hl, hk⟩
      · simp only [List.mem_singleton, Prod.mk.injEq] at hl
        rw [hl.2, setPath_names] at hk
        right
        rcases hk with hk | hk
        · simp at hk
        · simp only at hk; rw [hl.1, hk]
    · rintro (⟨l, hl, hk⟩ | h)
      · exact ⟨l, List.mem_append_left _ hl, hk⟩
      · simp only [Prod.mk.injEq] at h
        obtain ⟨rfl, rfl⟩ := h
        exact ⟨_, List.mem_append_right _ (List.mem_singleton.mpr rfl), (setPath_names _ _ _ _).mpr (.inr rfl)⟩

/-- A payload assembled from a list of entries. -/
def assemble (f : Entry → Saved V) (d : List Entry) (a : List (String × List (String × Saved V))) :
    List (String × List (String × Saved V)) := d.foldl (fun m e => putKey m e.model e.path (f e)) a

theorem assemble_keys (f : Entry → Saved V) (d : List Entry) (a : List (String × List (String × Saved V))) (k : String × String) :
    k ∈ payloadKeys (assemble f d a) ↔ k ∈ payloadKeys a ∨ k ∈ d.map key := by
  unfold assemble
  induction d generalizing a with
  | nil => simp
  | cons e d ih =>
    rw [List.foldl_cons, ih, put_keys, List.map_cons, List.mem_cons, or_assoc]; rfl

theorem assemble_names (f : Entry → Saved V) (d : List Entry) (a : List (String × List (String × Saved V))) (n : String) :
    n ∈ (assemble f d a).map Prod.fst ↔ n ∈ a.map Prod.fst ∨ n ∈ d.map Entry.model := by
  unfold assemble
  induction d generalizing a with
  | nil => simp
  | cons e d ih =>
    rw [List.foldl_cons, ih, put_names, List.map_cons, List.mem_cons, or_assoc]

theorem assemble_other (f : Entry → Saved V) (d : List Entry) (a : List (String × List (String × Saved V))) (k : String × String)
    (h : k ∉ d.map key) : savedAt (assemble f d a) k = savedAt a k := by
  unfold assemble
  induction d generalizing a with
  | nil => rfl
  | cons e d ih =>
    rw [List.map_cons, List.mem_cons, not_or] at h
    rw [List.foldl_cons, ih _ h.2, savedAt_put]
    exact if_neg h.1

theorem assemble_at (f : Entry → Saved V) (d : List Entry) (a : List (String × List (String × Saved V))) (hd : (d.map key).Nodup)
    (e : Entry) (he : e ∈ d) : savedAt (assemble f d a) (key e) = some (f e) := by
  induction d generalizing a with
  | nil => simp at he
  | cons e' d ih =>
    rw [List.map_cons, List.nodup_cons] at hd
    rcases List.mem_cons.mp he with rfl | he
    · show savedAt (assemble f d (putKey a e.model e.path (f e))) (key e) = _
      rw [assemble_other f d _ _ hd.1, savedAt_put]
      exact if_pos rfl
    · exact ih _ hd.2 he

end Verif.Sidecar
