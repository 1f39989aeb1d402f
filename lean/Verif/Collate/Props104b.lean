import Verif.Collate.Props104
import Mathlib.Tactic.Push

/-!
# C104: a batch is valid exactly when its samples are; collation
-/
namespace Verif.Collate
open Verif.Pipe (Spec Collate Transform)

variable {A : Type}

theorem get_of_mem {B : Type} (d : List (String × B)) (hd : (names d).Nodup) (k : String) (v : B) (h : (k, v) ∈ d) : get d k = some v := by
  induction d with
  | nil => simp at h
  | cons e d ih =>
    unfold get
    rw [names, List.map_cons, List.nodup_cons] at hd
    rcases List.mem_cons.mp h with h | h
    · subst h
      simp
    · have hne : e.1 ≠ k := by
        intro he
        exact hd.1 (List.mem_map.mpr ⟨(k, v), h, he.symm⟩)
      rw [List.find?_cons_of_neg (by simpa using hne)]
      exact ih hd.2 h

theorem mem_of_get {B : Type} (d : List (String × B)) (k : String) (v : B) (h : get d k = some v) : (k, v) ∈ d := by
  unfold get at h
  rw [Option.map_eq_some_iff] at h
  obtain ⟨e, he, hv⟩ := h
  have h1 := List.mem_of_find?_eq_some he
  have h2 := List.find?_some he
  simp only [decide_eq_true_eq] at h2
  rw [← h2, ← hv]
  exact h1

theorem mem_names {B : Type} (d : List (String × B)) (k : String) : k ∈ names d ↔ ∃ v, (k, v) ∈ d := by
  unfold names
  simp

theorem get_names {B : Type} (d : List (String × B)) (k : String) (v : B) (h : get d k = some v) : k ∈ names d :=
  (mem_names d k).mpr ⟨v, mem_of_get d k v h⟩

theorem forall2_mem_left {B C : Type} (R : B → C → Prop) (l : List B) (m : List C) (h : List.Forall₂ R l m) (b : B) (hb : b ∈ l) :
    ∃ c ∈ m, R b c := by
  induction h with
  | nil => simp at hb
  | cons hr _ ih =>
    rcases List.mem_cons.mp hb with e | e
    · subst e; exact ⟨_, List.mem_cons_self, hr⟩
    · obtain ⟨c, hc, hR⟩ := ih e
      exact ⟨c, List.mem_cons_of_mem _ hc, hR⟩

theorem forall2_mem_right {B C : Type} (R : B → C → Prop) (l : List B) (m : List C) (h : List.Forall₂ R l m) (c : C) (hc : c ∈ m) :
    ∃ b ∈ l, R b c := by
  induction h with
  | nil => simp at hc
  | cons hr _ ih =>
    rcases List.mem_cons.mp hc with e | e
    · subst e; exact ⟨_, List.mem_cons_self, hr⟩
    · obtain ⟨b, hb, hR⟩ := ih e
      exact ⟨b, List.mem_cons_of_mem _ hb, hR⟩

theorem validateBatchFields_iff (x : Lib A) (specs : List Spec) (n : Nat) (sizes : List (List Int)) (d : Dict A)
    (hd : ∀ k ∈ names d, ∃ s ∈ specs, s.name = k) : validateBatchFields x specs n sizes d = .ok () ↔
      ∀ k v s, (k, v) ∈ d → specOf specs k = some s → validateBatchField x n sizes s v = .ok () := by
  induction d with
  | nil => simp [validateBatchFields]
  | cons e d ih =>
    obtain ⟨k, v⟩ := e
    rw [validateBatchFields]
    cases hs : specOf specs k with
    | none =>
      have := (specOf_isNone specs k).mp (by rw [hs]; rfl)
      exact absurd (hd k (by simp [names])) this
    | some s =>
      simp only
      rw [seq_ok, ih fun k hk => hd k (by simp only [names, List.map_cons, List.mem_cons] at *; exact Or.inr hk)]
      constructor
      · rintro ⟨h1, h2⟩ k' v' s' hm hs'
        rcases List.mem_cons.mp hm with h | h
        · cases h
          rw [hs] at hs'
          cases hs'
          exact h1
        · exact h2 k' v' s' h hs'
      · intro h
        exact ⟨h k v s List.mem_cons_self hs, fun k' v' s' hm hs' => h k' v' s' (List.mem_cons_of_mem _ hm) hs'⟩

/-- One field: the batch validator accepts it exactly when every row fits the declaration on its own board, and shared rows agree. -/
theorem validateBatchField_iff (x : Lib A) (s : Spec) (hsp : s.shared = true → s.spatial = none ∧ s.side = none)
    (hsd : ∀ a, s.side = some a → 0 ≤ a) (sizes : List (List Int)) (vs : List (Val A)) (hlen : sizes.length = vs.length) (v w0 : Val A)
    (ws : List (Val A)) (hvs : vs = w0 :: ws) (sh : List Nat) (hall : ∀ w ∈ vs, w.shape = sh ∧ w.kind = v.kind) (hsh : v.shape = vs.length :: sh)
    (hrows : x.rows v.body = vs.map Val.body) :
    validateBatchField x vs.length sizes s v = .ok () ↔
      (∀ p ∈ sizes.zip vs, FieldOk p.1 s p.2) ∧ (s.shared = true → ∀ w ∈ vs, x.eq w.body w0.body = true) := by
  have hne : sizes ≠ [] := by
    intro h
    rw [h, hvs] at hlen
    simp at hlen
  have hcr : checkRows x vs.length s v = .ok () ↔ (s.shared = true → ∀ w ∈ vs, x.eq w.body w0.body = true) := by
    rw [checkRows_iff x vs.length s v sh hsh w0.body (ws.map Val.body) (by rw [hrows, hvs]; rfl)]
    rw [hvs]
    simp
  unfold validateBatchField
  have zl : ∀ sz ∈ sizes, ∃ w ∈ vs, (sz, w) ∈ sizes.zip vs := by
    intro sz hsz
    obtain ⟨i, hi, he⟩ := List.getElem_of_mem hsz
    refine ⟨vs[i]'(by omega), List.getElem_mem _, ?_⟩
    have : (sizes.zip vs)[i]'(by simp; omega) = (sz, vs[i]'(by omega)) := by simp [he]
    rw [← this]
    exact List.getElem_mem _
  obtain ⟨sz0, hsz0⟩ := List.exists_mem_of_ne_nil _ hne
  obtain ⟨w1, hw1, hz1⟩ := zl sz0 hsz0
  by_cases h : s.kinds.contains v.kind = false
  · rw [if_pos h]
    refine ⟨fun h => by simp at h, fun h' => ?_⟩
    have := (h'.1 _ hz1).kind
    rw [(hall w1 hw1).2, ← List.contains_iff_mem, h] at this
    exact absurd this (by decide)
  · rw [if_neg h, seq_ok, seq_ok, hcr, spatialBatch_iff sizes hne s (fun h => (hsp h).1) v _ sh hsh,
      sideBatch_iff s (fun h => (hsp h).2) hsd v _ sh hsh]
    rw [Bool.not_eq_false, List.contains_iff_mem] at h
    constructor
    · rintro ⟨h1, h2, h3⟩
      refine ⟨fun p hp => ?_, h1⟩
      have hp2 := (List.of_mem_zip hp).2
      have hp1 := (List.of_mem_zip hp).1
      obtain ⟨e1, e2⟩ := hall _ hp2
      refine ⟨by rw [e2]; exact h, ?_, ?_⟩
      · intro a b hab
        rw [e1]
        exact h2 _ hp1 a b hab
      · intro a ha
        rw [e1]
        exact h3 a ha
    · rintro ⟨h1, h2⟩
      refine ⟨h2, fun sz hsz a b hab => ?_, fun a ha => ?_⟩
      · obtain ⟨w, hw, hz⟩ := zl sz hsz
        have := (h1 _ hz).spatial a b hab
        simp only [(hall w hw).1] at this
        exact this
      · have := (h1 _ hz1).side a ha
        simp only [(hall w1 hw1).1] at this
        exact this

theorem zip_forall2 {B C D : Type} (R : B → C → Prop) (f : B → D) (l : List B) (m : List C) (h : List.Forall₂ R l m) :
    ∀ p ∈ (l.map f).zip m, ∃ b ∈ l, p.1 = f b ∧ R b p.2 := by
  induction h with
  | nil => simp
  | cons hr _ ih =>
    intro p hp
    simp only [List.map_cons, List.zip_cons_cons, List.mem_cons] at hp
    rcases hp with hp | hp
    · subst hp
      exact ⟨_, List.mem_cons_self, rfl, hr⟩
    · obtain ⟨b, hb, h1⟩ := ih p hp
      exact ⟨b, List.mem_cons_of_mem _ hb, h1⟩

theorem zip_forall2_mem {B C D : Type} (R : B → C → Prop) (f : B → D) (l : List B) (m : List C) (h : List.Forall₂ R l m) (b : B) (hb : b ∈ l) :
    ∃ c, (f b, c) ∈ (l.map f).zip m ∧ R b c := by
  induction h with
  | nil => simp at hb
  | cons hr _ ih =>
    rcases List.mem_cons.mp hb with e | e
    · subst e
      exact ⟨_, by simp, hr⟩
    · obtain ⟨c, hc, hR⟩ := ih e
      exact ⟨c, List.mem_cons_of_mem _ hc, hR⟩

/-- The body of `board_size` of a sample. -/
def sizeOf (x : Lib A) (d : Dict A) : List Int := ((get d "board_size").map fun b => x.ints b.body).getD []

theorem sizes_eq (x : Lib A) (samples : List (Dict A)) (vs : List (Val A)) (h : List.Forall₂ (fun s w => get s "board_size" = some w) samples vs) :
    (vs.map Val.body).map x.ints = samples.map (sizeOf x) := by
  induction h with
  | nil => rfl
  | cons hr _ ih =>
    simp only [List.map_cons]
    rw [ih]
    congr 1
    unfold sizeOf
    rw [hr]
    rfl

theorem forall2_length {B C : Type} {R : B → C → Prop} {l : List B} {m : List C} (h : List.Forall₂ R l m) : l.length = m.length := by
  induction h with
  | nil => rfl
  | cons _ _ ih => simp [ih]

/-- **C104** (batches).  The batch validator accepts the batch of some samples exactly when the sample validator accepts every one of
them and shared fields agree. -/
theorem C104_batch_iff (x : Lib A) (specs : List Spec) (hp : Plain specs) (hbs : ∃ s ∈ specs, s.name = "board_size" ∧ s.required = true)
    (samples : List (Dict A)) (hne : samples ≠ []) (d : Dict A) (hd : BatchOf x samples d) :
    validateBatch x specs d = .ok () ↔ (∀ s ∈ samples, validateSample x specs s = .ok ()) ∧ SharedAgree x specs samples := by
  obtain ⟨s0, rest, hs0⟩ : ∃ s0 rest, samples = s0 :: rest := by
    cases samples with
    | nil => exact absurd rfl hne
    | cons a b => exact ⟨a, b, rfl⟩
  have hnames : ∀ s ∈ samples, NamesOk specs s ↔ NamesOk specs d := by
    intro s hs
    constructor
    · intro h
      exact ⟨fun k hk => h.declared k ((hd.keys s hs k).mpr hk), fun t ht hr => (hd.keys s hs _).mp (h.required t ht hr)⟩
    · intro h
      exact ⟨fun k hk => h.declared k ((hd.keys s hs k).mp hk), fun t ht hr => (hd.keys s hs _).mpr (h.required t ht hr)⟩
  have hs0m : s0 ∈ samples := by rw [hs0]; exact List.mem_cons_self
  simp only [C104_sample_iff]
  unfold validateBatch
  rw [seq_ok, checkNames_iff]
  by_cases hn : NamesOk specs d
  swap
  · exact ⟨fun h => absurd h.1 hn, fun h => absurd ((hnames s0 hs0m).mp (h.1 s0 hs0m).names) hn⟩
  have hbn : "board_size" ∈ names d := by
    obtain ⟨s, hs, h1, h2⟩ := hbs
    rw [← h1]
    exact hn.required s hs h2
  obtain ⟨b, hb⟩ := (mem_names d _).mp hbn
  obtain ⟨bsh, bvs, hbf, hball, hbshape, hbrows⟩ := hd.values _ _ hb
  rw [get_of_mem d hd.nodup _ _ hb]
  simp only
  have hget : ∀ s ∈ samples, ∃ w ∈ bvs, get s "board_size" = some w := fun s hs => forall2_mem_left _ _ _ hbf s hs
  have hsizes : (x.rows b.body).map x.ints = samples.map (sizeOf x) := by
    rw [hbrows]
    exact sizes_eq x samples bvs hbf
  have hspec : ∀ k ∈ names d, ∃ s, specOf specs k = some s := by
    intro k hk
    cases hsp : specOf specs k with
    | some s => exact ⟨s, rfl⟩
    | none => exact absurd (hn.declared k hk) ((specOf_isNone specs k).mp (by rw [hsp]; rfl))
  by_cases hb2 : bsh = [2]
  swap
  · have hcond : b.shape.length ≠ 2 ∨ b.shape.getD 1 0 ≠ 2 := by
      rw [hbshape]
      by_contra hc
      push Not at hc
      match bsh, hb2, hc with
      | [], _, hc => simp at hc
      | [m], hb2, hc =>
        simp at hc
        exact hb2 (by rw [hc])
      | _ :: _ :: _, _, hc => simp at hc
    rw [if_pos hcond]
    refine ⟨fun h => by simp at h, fun h => ?_⟩
    obtain ⟨b', hb', h2, _⟩ := (h.1 s0 hs0m).fields
    obtain ⟨w, hw, hw2⟩ := hget s0 hs0m
    rw [hw2] at hb'
    cases hb'
    rw [(hball _ hw).1] at h2
    exact absurd h2 hb2
  · have hcond : ¬ (b.shape.length ≠ 2 ∨ b.shape.getD 1 0 ≠ 2) := by
      rw [hbshape, hb2]
      simp
    rw [if_neg hcond, validateBatchFields_iff x specs _ _ d hn.declared, hsizes]
    have hhead : b.shape.headD 0 = samples.length := by rw [hbshape]; rfl
    rw [hhead]
    have hfield : ∀ k v t, (k, v) ∈ d → specOf specs k = some t → ∃ vs w0 ws, vs = w0 :: ws
        ∧ List.Forall₂ (fun s w => get s k = some w) samples vs
        ∧ (validateBatchField x samples.length (samples.map (sizeOf x)) t v = .ok () ↔
            (∀ p ∈ (samples.map (sizeOf x)).zip vs, FieldOk p.1 t p.2) ∧ (t.shared = true → ∀ w ∈ vs, x.eq w.body w0.body = true)) := by
      intro k v t hm ht
      obtain ⟨sh, vs, hf, hall, hsh, hr⟩ := hd.values k v hm
      have hlen := forall2_length hf
      have hts := (specOf_some specs k t ht).1
      obtain ⟨w0, ws, hvs⟩ : ∃ w0 ws, vs = w0 :: ws := by
        cases vs with
        | nil => rw [hs0] at hlen; simp at hlen
        | cons a b => exact ⟨a, b, rfl⟩
      refine ⟨vs, w0, ws, hvs, hf, ?_⟩
      rw [hlen] at hsh ⊢
      exact validateBatchField_iff x t (hp t hts).1 (hp t hts).2 _ vs (by rw [List.length_map, hlen]) v w0 ws hvs sh hall hsh hr
    constructor
    · rintro ⟨_, h⟩
      refine ⟨fun s hs => ⟨(hnames s hs).mpr hn, ?_⟩, ?_⟩
      · obtain ⟨wb, hwb, hwb2⟩ := hget s hs
        refine ⟨wb, hwb2, by rw [(hball wb hwb).1, hb2], ?_⟩
        intro k v t hm ht
        obtain ⟨V, hV⟩ := (mem_names d k).mp ((hd.keys s hs k).mp ((mem_names s k).mpr ⟨v, hm⟩))
        obtain ⟨vs, w0, ws, hvs, hf, hiff⟩ := hfield k V t hV ht
        obtain ⟨c, hc, hg⟩ := zip_forall2_mem _ (sizeOf x) _ _ hf s hs
        rw [get_of_mem s (hd.nodups s hs) k v hm] at hg
        cases hg
        have := (hiff.mp (h k V t hV ht)).1 _ hc
        have e : sizeOf x s = x.ints wb.body := by unfold sizeOf; rw [hwb2]; rfl
        rw [← e]
        exact this
      · intro k t ht hsh d' hd' e he v w hv hw
        obtain ⟨V, hV⟩ := (mem_names d k).mp ((hd.keys d' hd' k).mp (get_names _ _ _ hv))
        obtain ⟨vs, w0, ws, hvs, hf, hiff⟩ := hfield k V t hV ht
        obtain ⟨c, hc, hg⟩ := forall2_mem_left _ _ _ hf d' hd'
        rw [hv] at hg
        cases hg
        rw [hs0, hvs] at hf
        rw [hs0] at he
        simp only [List.head?_cons, Option.mem_def, Option.some.injEq] at he
        subst he
        cases hf with
        | cons hr _ =>
          rw [hw] at hr
          cases hr
          exact (hiff.mp (h k V t hV ht)).2 hsh v hc
    · rintro ⟨h1, h2⟩
      refine ⟨hn, fun k v t hm ht => ?_⟩
      obtain ⟨vs, w0, ws, hvs, hf, hiff⟩ := hfield k v t hm ht
      rw [hiff]
      constructor
      · intro p hpz
        obtain ⟨s, hs, e1, e2⟩ := zip_forall2 _ (sizeOf x) _ _ hf p hpz
        obtain ⟨b', hb', _, h3⟩ := (h1 s hs).fields
        have e : sizeOf x s = x.ints b'.body := by unfold sizeOf; rw [hb']; rfl
        rw [e1, e]
        exact h3 k p.2 t (mem_of_get _ _ _ e2) ht
      · intro hsh w hw
        obtain ⟨s, hs, hg⟩ := forall2_mem_right _ _ _ hf w hw
        have hf' := hf
        rw [hs0, hvs] at hf'
        cases hf' with
        | cons hr _ => exact h2 k t ht hsh s hs s0 (by rw [hs0]; rfl) w w0 hg hr

/-- The declarations of the core fields satisfy what `C104_batch_iff` asks for. -/
theorem C104_core_plain : Plain coreSpecs ∧ ∃ s ∈ coreSpecs, s.name = "board_size" ∧ s.required = true := by
  constructor
  · unfold Plain coreSpecs
    simp
  · exact ⟨_, List.mem_cons_self, rfl, rfl⟩

/-- A sample that passes the validation has all five core fields. -/
theorem C104_core_required (x : Lib A) (d : Dict A) (h : validateSample x coreSpecs d = .ok ()) :
    ∀ k ∈ ["board_size", "board_input", "stm_input", "value_target", "policy_target"], k ∈ names d := by
  have hr := ((C104_sample_iff x coreSpecs d).mp h).names.required
  have key : ∀ k ∈ ["board_size", "board_input", "stm_input", "value_target", "policy_target"], ∃ s ∈ coreSpecs, s.name = k ∧ s.required = true := by
    decide +kernel
  intro k hk
  obtain ⟨s, hs, he, hq⟩ := key k hk
  rw [← he]
  exact hr s hs hq

/-- Exactly two core fields are shared by the samples of a batch. -/
theorem C104_core_shared : (coreSpecs.filter Spec.shared).map Spec.name = ["sparse_feature_dim", "line_encoding_total_num"] := by
  decide +kernel

/-- Every field of an accepted batch has one row per board size. -/
theorem C104_batch_rows (x : Lib A) (specs : List Spec) (d : Dict A) (h : validateBatch x specs d = .ok ()) :
    ∃ b n, get d "board_size" = some b ∧ b.shape = [n, 2] ∧ ∀ k v, (k, v) ∈ d → v.shape.head? = some n := by
  unfold validateBatch at h
  rw [seq_ok, checkNames_iff] at h
  obtain ⟨hn, h⟩ := h
  cases hb : get d "board_size" with
  | none => rw [hb] at h; simp at h
  | some b =>
    rw [hb] at h
    simp only at h
    by_cases hc : b.shape.length ≠ 2 ∨ b.shape.getD 1 0 ≠ 2
    · rw [if_pos hc] at h; simp at h
    rw [if_neg hc] at h
    rw [validateBatchFields_iff x specs _ _ d hn.declared] at h
    obtain ⟨n, hs⟩ : ∃ n, b.shape = [n, 2] := by
      rcases hh : b.shape with _ | ⟨u, _ | ⟨w, _ | ⟨z, r⟩⟩⟩ <;> rw [hh] at hc <;> simp at hc
      exact ⟨u, by rw [hc]⟩
    refine ⟨b, n, rfl, hs, fun k v hk => ?_⟩
    obtain ⟨s, hsp⟩ : ∃ s, specOf specs k = some s := by
      cases ho : specOf specs k with
      | none => exact absurd (hn.declared k ((mem_names d k).mpr ⟨v, hk⟩)) ((specOf_isNone specs k).mp (by rw [ho]; rfl))
      | some s => exact ⟨s, rfl⟩
    have hv := h k v s hk hsp
    unfold validateBatchField at hv
    by_cases h1 : s.kinds.contains v.kind = false
    · rw [if_pos h1] at hv; simp at hv
    rw [if_neg h1, seq_ok] at hv
    have hr := hv.1
    unfold checkRows at hr
    by_cases h2 : (decide (v.shape.length = 0) || decide (v.shape.headD 0 ≠ b.shape.headD 0)) = true
    · rw [if_pos h2] at hr; simp at hr
    rw [hs] at h2
    cases hv' : v.shape with
    | nil => rw [hv'] at h2; simp at h2
    | cons u r => rw [hv'] at h2; simp at h2; simp [h2]

/-- The board planes, and no other core fields, are checked against the board size, on their last two axes. -/
theorem C104_core_spatial : (coreSpecs.filter fun s => s.spatial.isSome).map (fun s => (s.name, s.spatial))
    = ["board_input", "sparse_feature_input", "forbidden_point", "line_encoding"].map fun k => (k, some (-2, -1)) := by
  decide +kernel

end Verif.Collate
