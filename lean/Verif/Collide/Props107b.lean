import Verif.Collide.Props107

namespace Verif.Collide

open Verif.Canon Verif.Resume

/-! ### Accepting a committed checkpoint -/

theorem filter3 (d : Dict) (a b c : Key) :
    ((d.filter (fun e => e.1 ≠ a)).filter (fun e => e.1 ≠ b)).filter (fun e => e.1 ≠ c) =
    d.filter fun e => e.1 ≠ a ∧ e.1 ≠ b ∧ e.1 ≠ c := by
  rw [List.filter_filter, List.filter_filter]
  refine List.filter_congr fun e _ => ?_
  by_cases h1 : e.1 = a <;> by_cases h2 : e.1 = b <;> by_cases h3 : e.1 = c <;> simp_all

theorem comparable_eq (d : Dict) : comparable d = withoutRuntime d := filter3 d _ _ _

theorem modelsMatch_iff (L : Lib) (p : Process) : ∀ ms : List (Str × Val), modelsMatch L p ms = .ok () ↔
    ∀ name state, (name, state) ∈ ms → ∃ f, p.modelFile name = some f ∧
      f.iteration = some p.trainer.iteration ∧ SameValue L f.state state
  | [] => by simp [modelsMatch]
  | (name, current) :: r => by
    have one : modelMatches L p name current = .ok () ↔ ∃ f, p.modelFile name = some f ∧
        f.iteration = some p.trainer.iteration ∧ SameValue L f.state current := by
      unfold modelMatches
      cases hf : p.modelFile name with
      | none => simp
      | some f =>
        simp only [Option.some.injEq, exists_eq_left']
        cases hi : f.iteration with
        | none => simp
        | some i =>
          simp only [Option.some.injEq]
          by_cases h1 : i = p.trainer.iteration
          · rw [if_neg (not_not_intro h1)]
            cases hv : valuesEqual L f.state current with
            | false =>
              have : ¬ SameValue L f.state current := by
                rw [← C107_values_iff, hv]; simp
              simp [this]
            | true => simp [h1, (C107_values_iff L _ _).mp hv]
          · rw [if_pos h1]; simp [h1]
    have ih := modelsMatch_iff L p r
    constructor
    · intro h
      unfold modelsMatch at h
      split at h
      · cases h
      rename_i h0
      intro n s hm
      rcases List.mem_cons.mp hm with e | hm
      · cases e; exact one.mp h0
      · exact ih.mp h n s hm
    · intro h
      unfold modelsMatch
      rw [one.mpr (h name current (List.mem_cons_self ..))]
      exact ih.mpr fun n s hm => h n s (List.mem_cons_of_mem _ hm)

theorem manifestsMatch_iff (L : Lib) (p : Process) : ∀ (vs : List Val) (rank : Nat),
    manifestsMatch L p rank vs = .ok () ↔ ∀ k v, vs[k]? = some v → ∃ d m, v = .dict d ∧
      find d kVq = some (.dict m) ∧
      p.manifestValid p.trainer.iteration (rank + k) (.dict m) = true ∧
      L.py.eqVal (get m kSchema) p.schema = true
  | [], rank => by simp [manifestsMatch]
  | v :: r, rank => by
    have ih := manifestsMatch_iff L p r (rank + 1)
    constructor
    · intro h
      cases v with
      | dict s =>
        unfold manifestsMatch at h
        by_cases h1 : p.manifestValid p.trainer.iteration rank (get s kVq) = false
        · rw [if_pos h1] at h; cases h
        rw [if_neg h1] at h
        split at h
        · rename_i m hm
          by_cases h2 : L.py.eqVal (get m kSchema) p.schema = false
          · rw [if_pos h2] at h; cases h
          rw [if_neg h2] at h
          intro k v hk
          cases k with
          | zero =>
            simp only [List.getElem?_cons_zero, Option.some.injEq] at hk
            subst hk
            refine ⟨s, m, rfl, ?_, ?_, by simpa using h2⟩
            · unfold Resume.get at hm
              cases hf : find s kVq with
              | none => rw [hf] at hm; cases hm
              | some w => rw [hf] at hm; simp only [Option.getD_some] at hm; subst hm; rfl
            · rw [hm] at h1; simpa using h1
          | succ k =>
            obtain ⟨d, m', e1, e2, e3, e4⟩ := ih.mp h k v (by simpa using hk)
            exact ⟨d, m', e1, e2, by rw [show rank + (k + 1) = rank + 1 + k by omega]; exact e3, e4⟩
        · cases h
      | _ => simp [manifestsMatch] at h
    · intro h
      obtain ⟨d, m, e1, e2, e3, e4⟩ := h 0 v rfl
      subst e1
      have hg : Resume.get d kVq = .dict m := by
        unfold Resume.get
        rw [show find d kVq = some (.dict m) from e2]; rfl
      unfold manifestsMatch
      rw [hg, if_neg (by rw [show rank + 0 = rank from rfl] at e3; rw [e3]; simp)]
      simp only
      rw [if_neg (by rw [e4]; simp)]
      refine ih.mpr fun k v hk => ?_
      obtain ⟨d, m', e1, e2, e3, e4⟩ := h (k + 1) v (by simpa using hk)
      exact ⟨d, m', e1, e2, by rw [show rank + 1 + k = rank + (k + 1) by omega]; exact e3, e4⟩

theorem trainerMatches_iff (L : Lib) (st : Dict) (t : Trainer) : trainerMatches L st t = .ok () ↔
    L.py.eqVal (get st kOptCfg) t.optimizerConfig = true ∧
    L.py.eqVal (get st kSchedCfg) t.schedulerConfig = true ∧
    SameValue L (get st kOpts) (.dict t.optimizers) ∧
    SameValue L (get st kScheds) (.dict t.schedulers) ∧
    SameValue L (get st kScaler) (t.scaler.getD .null) := by
  simp only [← C107_values_iff]
  unfold trainerMatches
  generalize L.py.eqVal (get st kOptCfg) t.optimizerConfig = b1
  generalize L.py.eqVal (get st kSchedCfg) t.schedulerConfig = b2
  generalize valuesEqual L (get st kOpts) (.dict t.optimizers) = b3
  generalize valuesEqual L (get st kScheds) (.dict t.schedulers) = b4
  generalize valuesEqual L (get st kScaler) (t.scaler.getD .null) = b5
  cases b1 <;> cases b2 <;> cases b3 <;> cases b4 <;> cases b5 <;> simp

theorem localMatches_iff (L : Lib) (p : Process) (ranks : List Val) : localMatches L p ranks = .ok () ↔
    ∃ saved current, ranks[p.index]? = some (.dict saved) ∧
    localState L.py { p.env with vqRuntime := none } p.index = .ok current ∧
    SameValue L (.dict (withoutRuntime saved)) (.dict (withoutRuntime current)) := by
  unfold localMatches
  constructor
  · intro h
    split at h
    · rename_i saved hs
      split at h
      · cases h
      rename_i current hc
      by_cases h1 : valuesEqual L (.dict (comparable saved)) (.dict (comparable current)) = false
      · rw [if_pos h1] at h; cases h
      refine ⟨saved, current, hs, hc, ?_⟩
      rw [← comparable_eq, ← comparable_eq, ← C107_values_iff]
      simpa using h1
    · cases h
  · rintro ⟨saved, current, hs, hc, hv⟩
    rw [← comparable_eq, ← comparable_eq, ← C107_values_iff] at hv
    simp only [hs, hc]
    rw [if_neg (by rw [hv]; simp)]

theorem runtimeMatches_iff (L : Lib) (p : Process) (version : Int) (hv : version = 1 ∨ version = 2)
    (ranks : List Val) (saved : Dict) (hs : ranks[p.index]? = some (.dict saved)) :
    runtimeMatches L p version ranks = .ok () ↔
    (version = 2 → (∀ k v, ranks[k]? = some v → ∃ d m, v = .dict d ∧
      find d kVq = some (.dict m) ∧
      p.manifestValid p.trainer.iteration k (.dict m) = true ∧
      L.py.eqVal (get m kSchema) p.schema = true) ∧
      p.sidecarMatches p.trainer.iteration (get saved kVq) = true) ∧
    (version = 1 → p.v1Compatible p.trainer.iteration = true) := by
  have hm := manifestsMatch_iff L p ranks 0
  simp only [Nat.zero_add] at hm
  unfold runtimeMatches
  rcases hv with rfl | rfl
  · rw [if_neg (by decide)]
    cases p.v1Compatible p.trainer.iteration <;> simp
  · rw [if_pos rfl, ← hm, hs]
    cases h1 : manifestsMatch L p 0 ranks with
    | error e => simp
    | ok u => cases hsc : p.sidecarMatches p.trainer.iteration (get saved kVq) <;> simp [hsc]

theorem metadataMatches_iff (P : PyOps) (st : Dict) (t : Trainer) : metadataMatches P st t = .ok true ↔
    pyEqInt P (get st kFormat) 2 = true ∧
    ∃ md, (find st kMeta = some (.dict md) ∨ find st kMeta = none ∧ md = []) ∧
      metaInt P md kIter (-1) = some t.iteration ∧
      metaInt P md kEpoch (-1) = some t.epoch ∧
      metaInt P md kRows (-1) = some t.rows := by
  unfold metadataMatches
  by_cases h1 : pyEqInt P (get st kFormat) 2 = false
  · rw [if_pos h1]; simp [h1]
  rw [if_neg h1]
  simp only [Bool.not_eq_false] at h1
  simp only [h1, true_and]
  have hmd : ∀ md, (match metaInt P md kIter (-1), metaInt P md kEpoch (-1), metaInt P md kRows (-1) with
      | some i, some e, some r => .ok (i == t.iteration && e == t.epoch && r == t.rows)
      | _, _, _ => .error "ValueError" : Except String Bool) = .ok true ↔
      metaInt P md kIter (-1) = some t.iteration ∧
      metaInt P md kEpoch (-1) = some t.epoch ∧
      metaInt P md kRows (-1) = some t.rows := by
    intro md
    generalize metaInt P md kIter (-1) = a
    generalize metaInt P md kEpoch (-1) = b
    generalize metaInt P md kRows (-1) = c
    cases a <;> cases b <;> cases c <;> simp [Except.ok.injEq, and_assoc]
  cases hf : find st kMeta with
  | none =>
    simp only [Option.getD_none]
    refine Iff.trans (hmd []) ?_
    constructor
    · intro h; exact ⟨[], .inr ⟨trivial, rfl⟩, h⟩
    · rintro ⟨md, h | ⟨-, rfl⟩, h'⟩
      · cases h
      · exact h'
  | some v =>
    simp only [Option.getD_some]
    cases v with
    | dict md =>
      refine Iff.trans (hmd md) ?_
      constructor
      · intro h; exact ⟨md, .inl rfl, h⟩
      · rintro ⟨md', h | ⟨h, -⟩, h'⟩
        · cases h; exact h'
        · cases h
    | _ => simp

theorem find_of_get_dict {d : Dict} {k : Str} {m : Dict}  : Resume.get d k = .dict m ↔ find d k = some (.dict m) := by
  unfold Resume.get
  cases find d k <;> simp

theorem find_of_get_seq {d : Dict} {k : Str} {b : Bool} {m : List Val} :
    get d k = .seq b m ↔ find d k = some (.seq b m) := by
  unfold Resume.get
  cases find d k <;> simp

theorem versionOf_iff (P : PyOps) (r : Dict) (version : Int) : versionOf P r = some version ↔
    (version = 1 ∧ pyEqInt P (get r kVersion) 1 = true) ∨
    (version = 2 ∧ pyEqInt P (get r kVersion) 1 = false ∧
      pyEqInt P (get r kVersion) 2 = true) := by
  unfold versionOf
  cases pyEqInt P (get r kVersion) 1 <;> cases pyEqInt P (get r kVersion) 2 <;>
    simp [eq_comm]

/-- A checkpoint on disk is accepted exactly when the state file and the model files describe what this
process would save. -/
theorem C107_accept_iff (L : Lib) (p : Process) (state : Val) : committedMatches L p state = .ok () ↔
    ∃ st r md states ranks saved current version, state = .dict st ∧
      Describes L p st r md states ranks saved current version := by
  unfold committedMatches
  constructor
  · intro h
    split at h
    · rename_i st
      split at h
      · cases h
      · cases h
      rename_i hmeta
      obtain ⟨hf, md, hmd⟩ := (metadataMatches_iff _ _ _).mp hmeta
      split at h
      · rename_i r hr
        split at h
        · cases h
        rename_i version hver
        by_cases hw : pyEqInt L.py (get r kWorld) p.world = false
        · rw [if_pos hw] at h; cases h
        rw [if_neg hw] at h
        split at h
        · rename_i states hst
          by_cases hl : states.length = p.world
          · rw [if_neg (not_not_intro hl)] at h
            split at h
            · cases h
            rename_i ranks old hval
            unfold restMatches at h
            split at h
            · cases h
            rename_i h1
            split at h
            · cases h
            rename_i h2
            split at h
            · cases h
            rename_i h3
            obtain ⟨t1, t2, t3, t4, t5⟩ := (trainerMatches_iff _ _ _).mp h1
            obtain ⟨saved, current, l1, l2, l3⟩ := (localMatches_iff _ _ _).mp h2
            have hvv := (versionOf_iff _ _ _).mp hver
            have hv12 : version = 1 ∨ version = 2 := by rcases hvv with h | h <;> simp [h.1]
            obtain ⟨r1, r2⟩ := (runtimeMatches_iff L p version hv12 ranks saved l1).mp h
            exact ⟨st, r, md, states, ranks, saved, current, version, rfl,
              { format := hf, counters := hmd, resume := find_of_get_dict.mp hr, versionOk := hvv,
                world := Bool.eq_true_of_not_eq_false hw, statesOk := ⟨find_of_get_seq.mp hst, hl⟩,
                ranksOk := ⟨old, hval⟩, optimizerConfig := t1, schedulerConfig := t2, optimizers := t3,
                schedulers := t4, scaler := t5, loc := ⟨l1, l2, l3⟩,
                models := (modelsMatch_iff _ _ _).mp h3, runtime := r1, runtime1 := r2 }⟩
          · rw [if_pos hl] at h; cases h
        · cases h
      · cases h
    · cases h
  · rintro ⟨st, r, md, states, ranks, saved, current, version, rfl, H⟩
    obtain ⟨old, hval⟩ := H.ranksOk
    have hv12 : version = 1 ∨ version = 2 := by rcases H.versionOk with h | h <;> simp [h.1]
    simp only
    rw [(metadataMatches_iff _ _ _).mpr ⟨H.format, md, H.counters⟩]
    simp only
    rw [show get st kResume = .dict r from find_of_get_dict.mpr H.resume]
    simp only
    rw [(versionOf_iff _ _ _).mpr H.versionOk]
    simp only
    rw [if_neg (by rw [show kWorld = "world_size".toList from rfl, H.world]; simp),
      show get r kRanks = .seq false states from find_of_get_seq.mpr H.statesOk.1]
    simp only
    rw [if_neg (not_not_intro H.statesOk.2), hval]
    simp only
    unfold restMatches
    rw [(trainerMatches_iff _ _ _).mpr ⟨H.optimizerConfig, H.schedulerConfig, H.optimizers, H.schedulers,
      H.scaler⟩]
    simp only
    rw [(localMatches_iff _ _ _).mpr ⟨saved, current, H.loc⟩]
    simp only
    rw [(modelsMatch_iff _ _ _).mpr H.models]
    exact (runtimeMatches_iff L p version hv12 ranks saved H.loc.1).mpr ⟨H.runtime, H.runtime1⟩

/-! ### Values and fields -/

/-- A value is accepted as equal to itself exactly when nothing inside it differs from itself. -/
theorem C107_values_self (L : Lib) (v : Val) : valuesEqual L v v = true ↔ Calm L v := by
  rw [C107_values_iff]
  constructor
  · intro h path x hx
    have := h path
    rwa [hx] at this
  · intro h path
    cases hx : descend v path with
    | none => trivial
    | some x => exact h path x hx

theorem same_self {L : Lib} {v : Val} (h : Calm L v) : SameValue L v v :=
  (C107_values_iff L v v).mp ((C107_values_self L v).mpr h)

/-- Two dictionaries that agree have the same keys in the same order, and agreeing values under every
key. -/
theorem C107_fields (L : Lib) (a b : Dict) (h : SameValue L (.dict a) (.dict b)) :
    a.map Prod.fst = b.map Prod.fst ∧ ∀ k, (find a k = none ∧ find b k = none) ∨
      ∃ v w, find a k = some v ∧ find b k = some w ∧ SameValue L v w := by
  rw [same_dict] at h
  refine ⟨h.1, fun k => ?_⟩
  obtain ⟨h1, h2⟩ := h
  induction a generalizing b with
  | nil =>
    cases b with
    | nil => exact .inl ⟨rfl, rfl⟩
    | cons y s => simp at h1
  | cons x r ih =>
    cases b with
    | nil => simp at h1
    | cons y s =>
      simp only [List.map_cons, List.cons.injEq] at h1
      obtain ⟨h3, h4⟩ := (forall_cons x y r s (fun e f => SameValue L e.2 f.2)).mp h2
      by_cases hk : x.1 = Key.str k
      · right
        refine ⟨x.2, y.2, ?_, ?_, h3⟩
        · simp only [find]; rw [if_pos hk]
        · simp only [find]; rw [if_pos (h1.1 ▸ hk)]
      · rcases ih s h1.2 h4 with h | h
        · left
          simp only [find]
          rw [if_neg hk, if_neg (h1.1 ▸ hk)]
          exact h
        · right
          obtain ⟨v, w, e1, e2, e3⟩ := h
          refine ⟨v, w, ?_, ?_, e3⟩
          · simp only [find]; rw [if_neg hk]; exact e1
          · simp only [find]; rw [if_neg (h1.1 ▸ hk)]; exact e2

end Verif.Collide
