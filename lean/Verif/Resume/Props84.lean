import Verif.Resume.Lemmas

/-!
C84: every process resumes from the continuation state it saved, and a list of continuation states is
accepted only when it holds exactly one intact state per process, all describing the same run.
-/

namespace Verif.Resume

open Verif.Canon

/-! ### Specification -/

/-- `t` is the SHA-256 text of the canonical bytes of dictionary `d`. -/
def Fingerprint (P : PyOps) (d : Dict) (t : Str) : Prop :=
  ∃ b, encode P.lib (.dict d) = .ok b ∧ P.sha b = t

/-- Two different byte strings with the same SHA-256. -/
def Collision (P : PyOps) : Prop := ∃ b c : ByteArray, b ≠ c ∧ P.sha b = P.sha c

/-- The same value up to list/tuple and entry order. -/
def Same (v w : Option Val) : Prop := v.map norm = w.map norm

/-- An intact continuation state of process `r`. -/
structure Intact (P : PyOps) (r : Nat) (d : Dict) : Prop where
  /-- it says it belongs to process `r`, twice -/
  slot : find d "slot".toList = some (.int r)
  rank : pyEqInt P (get d "rank".toList) r = true
  /-- a supported state has one of the two known cursors, an unsupported one has none -/
  cursor : (find d "supported".toList = some (.bool true) ∧
      (find d "cursor_kind".toList = some (.str "file_stream_v1".toList) ∨
       find d "cursor_kind".toList = some (.str "map_sampler_v1".toList))) ∨
    (find d "supported".toList ≠ some (.bool true) ∧
      (find d "cursor_kind".toList = none ∨ find d "cursor_kind".toList = some .null))
  /-- the local digest covers every other field -/
  loc : ∃ l, find d "local_digest".toList = some (.str l) ∧
    Fingerprint P (d.filter (fun e => e.1 ≠ .str "local_digest".toList)) l
  /-- the global digest covers the part all processes share -/
  glob : ∃ g pr, find d "global_digest".toList = some (.str g) ∧ projection P d = .ok pr ∧
    Fingerprint P pr g

/-- The oldest format: exactly these four fields, no slot, no digest. -/
def OldFormat (v : Val) : Prop :=
  ∃ d, v = .dict d ∧ (∀ k, k ∈ d.map Prod.fst ↔ k = .str "supported".toList ∨
      k = .str "data_stream_signature".toList ∨ k = .str "sampler".toList ∨ k = .str "rng".toList) ∧
    find d "supported".toList = some (.bool true)

/-! ### Proofs -/

theorem mem_keys_iff (d : Dict) (k : Str) : Key.str k ∈ d.map Prod.fst ↔ (find d k).isSome = true := by
  induction d with
  | nil => simp [find]
  | cons e r ih =>
    obtain ⟨k', v'⟩ := e
    rw [List.map_cons, List.mem_cons, find]
    by_cases h : k' = Key.str k
    · simp [h]
    · rw [if_neg h, ← ih]
      constructor
      · rintro (h' | h')
        · exact absurd h'.symm h
        · exact h'
      · exact Or.inr

theorem legacy_any (k : Key) : legacyKeys.any (fun n => k == Key.str n) = true ↔
    k = .str "supported".toList ∨ k = .str "data_stream_signature".toList ∨
      k = .str "sampler".toList ∨ k = .str "rng".toList := by
  simp only [legacyKeys, List.any_cons, List.any_nil, Bool.or_eq_true, beq_iff_eq, Bool.false_eq_true,
    or_false]
  rfl

theorem isLegacy_iff (v : Val) : isLegacy v = true ↔ OldFormat v := by
  unfold OldFormat
  constructor
  · intro h
    unfold isLegacy at h
    split at h
    · rename_i d
      simp only [Bool.and_eq_true] at h
      obtain ⟨⟨⟨h1, h2⟩, h3⟩, h4⟩ := h
      refine ⟨d, rfl, ?_, ?_⟩
      · intro k
        constructor
        · intro hk
          obtain ⟨e, he, rfl⟩ := List.mem_map.mp hk
          exact (legacy_any e.1).mp ((List.all_eq_true.mp h3) e he)
        · have h4' := List.all_eq_true.mp h4
          rintro (rfl | rfl | rfl | rfl)
          · exact (mem_keys_iff _ _).mpr (h4' kSupported (by unfold legacyKeys; simp only [List.mem_cons, true_or, or_true]))
          · exact (mem_keys_iff _ _).mpr (h4' kSig (by unfold legacyKeys; simp only [List.mem_cons, true_or, or_true]))
          · exact (mem_keys_iff _ _).mpr (h4' kSampler (by unfold legacyKeys; simp only [List.mem_cons, true_or, or_true]))
          · exact (mem_keys_iff _ _).mpr (h4' kRng (by unfold legacyKeys; simp only [List.mem_cons, true_or, or_true]))
      · rw [← get_eq_bool]
        split at h2
        · rename_i hh; exact hh
        · cases h2
    · cases h
  · rintro ⟨d, rfl, hk, hs⟩
    unfold isLegacy
    simp only [Bool.and_eq_true]
    refine ⟨⟨⟨?_, ?_⟩, ?_⟩, ?_⟩
    · have : ¬ (Key.str kCursor ∈ d.map Prod.fst) := by
        rw [hk]; decide
      rw [mem_keys_iff] at this
      cases hf : find d kCursor with
      | none => rfl
      | some w => rw [hf] at this; exact absurd rfl this
    · rw [(get_eq_bool d kSupported true).mpr hs]
    · rw [List.all_eq_true]
      intro e he
      exact (legacy_any e.1).mpr ((hk e.1).mp (List.mem_map.mpr ⟨e, he, rfl⟩))
    · rw [List.all_eq_true]
      intro k hk'
      rw [← mem_keys_iff, hk, ← legacy_any, List.any_eq_true]
      exact ⟨k, hk', by simp only [beq_self_eq_true]⟩

theorem cursorOk_iff (s : Dict) : cursorOk s = true ↔
    (find s kSupported = some (.bool true) ∧
      (find s kCursor = some (.str "file_stream_v1".toList) ∨
       find s kCursor = some (.str "map_sampler_v1".toList))) ∨
    (find s kSupported ≠ some (.bool true) ∧ (find s kCursor = none ∨ find s kCursor = some .null)) := by
  have hb := get_eq_bool s kSupported true
  rw [← get_eq_str, ← get_eq_str, ← get_eq_null, ne_eq, ← hb]
  unfold cursorOk
  split
  · rename_i h
    rw [h]
    generalize get s kCursor = c
    cases c <;> simp
  · rename_i h
    have : ¬ get s kSupported = .bool true := fun hc => h hc
    generalize get s kCursor = c
    cases c <;> simp [this]

theorem slotOf_iff (world slot : Nat) (s : Dict) : slotOf world s = some slot ↔
    find s kSlot = some (.int slot) ∧ slot < world := by
  rw [← get_eq_int]
  unfold slotOf
  generalize get s kSlot = c
  cases c with
  | int n =>
    simp only [Val.int.injEq]
    by_cases h : 0 ≤ n ∧ n < world
    · rw [if_pos h]; simp only [Option.some.injEq]; omega
    · rw [if_neg h]; simp only [reduceCtorEq, false_iff]; omega
  | _ => simp

theorem checked_iff (P : PyOps) (world slot : Nat) (s : Dict) :
    Checked P world slot s ↔ Intact P slot s ∧ slot < world := by
  constructor
  · rintro ⟨h1, h2, h3, ⟨l, h4, h5⟩, ⟨pr, g, h6, h7, h8⟩⟩
    obtain ⟨h2, h2'⟩ := (slotOf_iff _ _ _).mp h2
    exact ⟨⟨h2, h3, (cursorOk_iff s).mp h1, ⟨l, (get_eq_str _ _ _).mp h5, (digest_ok _ _ _).mp h4⟩,
      ⟨g, pr, (get_eq_str _ _ _).mp h8, h6, (digest_ok _ _ _).mp h7⟩⟩, h2'⟩
  · rintro ⟨⟨h2, h3, h1, ⟨l, h5, h4⟩, ⟨g, pr, h8, h6, h7⟩⟩, h2'⟩
    exact ⟨(cursorOk_iff s).mpr h1, (slotOf_iff _ _ _).mpr ⟨h2, h2'⟩, h3,
      ⟨l, (digest_ok _ _ _).mpr h4, (get_eq_str _ _ _).mpr h5⟩,
      ⟨pr, g, h6, (digest_ok _ _ _).mpr h7, (get_eq_str _ _ _).mpr h8⟩⟩

theorem intact_slot_unique {P : PyOps} {r r' : Nat} {d : Dict} (h : Intact P r d) (h' : Intact P r' d) :
    r = r' := by
  have := h.slot.symm.trans h'.slot
  simpa using this

/-- The complete acceptance condition: the list is accepted (as anything but the oldest format) exactly
when it holds, in any order, one intact state for each of the `n` processes and all of them carry the
same global digest; the result is those states in process order. -/
theorem C84_accept_iff (P : PyOps) (n : Nat) (states out : List Val) :
    validate P n states = .ok (out, false) ↔
      (∃ v ∈ states, ¬ OldFormat v) ∧ ∃ ds : List Dict, out = ds.map .dict ∧ ds.length = n ∧
        states.Perm out ∧
        (∀ (r : Nat) (d : Dict), ds[r]? = some d → Intact P r d) ∧
        (∀ d ∈ ds, ∀ d' ∈ ds, find d "global_digest".toList = find d' "global_digest".toList) := by
  have hleg : states.all isLegacy = false ↔ ∃ v ∈ states, ¬ OldFormat v := by
    rw [List.all_eq_false]
    simp only [isLegacy_iff]
  rw [← hleg]
  unfold validate
  constructor
  · intro h
    by_cases h0 : states.all isLegacy = true
    · rw [if_pos h0] at h; cases h
    rw [if_neg h0] at h
    split at h
    · cases h
    rename_i m hm
    obtain ⟨ps, h1, h2, h3, h4⟩ := (checkAll_ok P n states [] m (by simp)).mp hm
    rw [List.nil_append] at h1
    subst h1
    by_cases h5 : (List.range n).all (fun i => (m.map Prod.fst).contains i) = false
    · rw [if_pos h5] at h; cases h
    rw [if_neg h5] at h
    have hall : ∀ i < n, i ∈ m.map Prod.fst := by
      intro i hi
      have h5' : (List.range n).all (fun i => (m.map Prod.fst).contains i) = true := by simpa using h5
      have := (List.all_eq_true.mp h5') i (List.mem_range.mpr hi)
      exact List.contains_iff_mem.mp this
    have hlt : ∀ p ∈ m, p.1 < n := fun p hp => ((checked_iff _ _ _ _).mp (h4 p hp)).2
    obtain ⟨ds, e1, e2, e3, e4⟩ := ordered_table h3 hlt hall
    rw [e1] at h
    refine ⟨by simpa using h0, ds, ?_⟩
    have hint : ∀ (r : Nat) (d : Dict), ds[r]? = some d → Intact P r d := fun r d hr =>
      ((checked_iff _ _ _ _).mp (h4 _ (e3 r d hr))).1
    cases ds with
    | nil => cases h
    | cons d r =>
      simp only at h
      by_cases hg : r.all (fun x => isStr (get x kGlobal) (strOf (get d kGlobal))) = false
      · rw [if_pos hg] at h; cases h
      · rw [if_neg hg] at h
        rw [Bool.not_eq_false] at hg
        cases h
        refine ⟨rfl, e2, ?_, hint, ?_⟩
        · rw [h2]
          have := e4.map Val.dict
          rw [List.map_map] at this
          exact this
        · obtain ⟨g, _, hg0, -⟩ := (hint 0 d rfl).glob
          have hh : ∀ x ∈ d :: r, find x "global_digest".toList = some (.str g) := by
            intro x hx
            rcases List.mem_cons.mp hx with rfl | hx
            · exact hg0
            · have := (List.all_eq_true.mp hg) x hx
              rw [isStr_iff, (get_eq_str d kGlobal g).mpr hg0] at this
              exact (get_eq_str _ _ _).mp this
          intro x hx y hy
          rw [hh x hx, hh y hy]
  · rintro ⟨h0, ds, rfl, hlen, hperm, hint, hglob⟩
    rw [if_neg (by rw [h0]; simp)]
    -- the permutation lifts to the table
    obtain ⟨es, hes, hst⟩ : ∃ es : List Dict, es.Perm ds ∧ states = es.map Val.dict := by
      have : ∀ v ∈ states, ∃ d, v = Val.dict d := by
        intro v hv
        obtain ⟨d, -, rfl⟩ := List.mem_map.mp (hperm.mem_iff.mp hv)
        exact ⟨d, rfl⟩
      obtain ⟨es, hes⟩ : ∃ es : List Dict, states = es.map Val.dict := by
        clear hperm h0 hleg
        induction states with
        | nil => exact ⟨[], rfl⟩
        | cons v r ih =>
          obtain ⟨d, rfl⟩ := this v (List.mem_cons_self ..)
          obtain ⟨es, rfl⟩ := ih (fun v hv => this v (List.mem_cons_of_mem _ hv))
          exact ⟨d :: es, rfl⟩
      refine ⟨es, ?_, hes⟩
      rw [hes] at hperm
      have hinj : Function.Injective Val.dict := fun a b h => by injection h
      exact (List.map_perm_map_iff hinj).mp hperm
    have hex : ∀ d : Dict, ∃ r : Nat, d ∈ ds → Intact P r d ∧ ds[r]? = some d := by
      intro d
      by_cases hd : d ∈ ds
      · obtain ⟨r, hr⟩ := List.mem_iff_getElem?.mp hd
        exact ⟨r, fun _ => ⟨hint r d hr, hr⟩⟩
      · exact ⟨0, fun h => absurd h hd⟩
    obtain ⟨f, hf⟩ := Classical.axiomOfChoice hex
    have hds : ds.map (fun d => f d) = List.range n := by
      apply List.ext_getElem?
      intro r
      rw [List.getElem?_map]
      by_cases hr : r < n
      · rw [List.getElem?_range hr]
        obtain ⟨d, hd⟩ : ∃ d, ds[r]? = some d := ⟨ds[r]'(by omega), List.getElem?_eq_getElem _⟩
        rw [hd]
        have := intact_slot_unique (hf d (List.mem_iff_getElem?.mpr ⟨r, hd⟩)).1 (hint r d hd)
        simp [this]
      · rw [List.getElem?_eq_none (by omega), List.getElem?_eq_none (by simpa using hr)]
        rfl
    have hkeys : ((es.map (fun d => (f d, d))).map Prod.fst).Perm (List.range n) := by
      rw [← hds, List.map_map]
      exact hes.map _
    have hmem : ∀ p ∈ es.map (fun d => (f d, d)), p.2 ∈ ds ∧ p.1 = f p.2 := by
      intro p hp
      obtain ⟨d, hd, rfl⟩ := List.mem_map.mp hp
      exact ⟨hes.mem_iff.mp hd, rfl⟩
    have hnd : ((es.map (fun d => (f d, d))).map Prod.fst).Nodup := hkeys.nodup_iff.mpr List.nodup_range
    have hm : checkAll P n [] states = .ok (es.map (fun d => (f d, d))) := by
      refine (checkAll_ok P n states [] _ (by simp)).mpr ⟨_, (List.nil_append _).symm, ?_, hnd, ?_⟩
      · rw [hst, List.map_map]; rfl
      · intro p hp
        obtain ⟨h1, h2⟩ := hmem p hp
        refine (checked_iff _ _ _ _).mpr ⟨by rw [h2]; exact (hf p.2 h1).1, ?_⟩
        have : p.1 ∈ (es.map (fun d => (f d, d))).map Prod.fst := List.mem_map.mpr ⟨p, hp, rfl⟩
        exact List.mem_range.mp (hkeys.mem_iff.mp this)
    rw [hm]
    have hall : (List.range n).all
        (fun i => ((es.map (fun d => (f d, d))).map Prod.fst).contains i) = true := by
      rw [List.all_eq_true]
      intro i hi
      exact List.contains_iff_mem.mpr (hkeys.mem_iff.mpr hi)
    simp only [hall, Bool.true_eq_false, if_false]
    have hord : (List.range n).filterMap (bySlot (es.map (fun d => (f d, d)))) = ds := by
      have : ∀ i ∈ List.range n, bySlot (es.map (fun d => (f d, d))) i = ds[i]? := by
        intro i hi
        have hi' := List.mem_range.mp hi
        obtain ⟨d, hd⟩ : ∃ d, ds[i]? = some d := ⟨ds[i]'(by omega), List.getElem?_eq_getElem _⟩
        rw [hd, bySlot_eq hnd]
        have hdm : d ∈ ds := List.mem_iff_getElem?.mpr ⟨i, hd⟩
        refine List.mem_map.mpr ⟨d, hes.mem_iff.mpr hdm, ?_⟩
        rw [intact_slot_unique (hf d hdm).1 (hint i d hd)]
      rw [List.filterMap_congr this]
      rw [← hlen]
      clear * -
      induction ds using List.reverseRecOn with
      | nil => rfl
      | append_singleton l a ih =>
        rw [List.length_append, List.length_singleton, List.range_succ, List.filterMap_append]
        have : (List.range l.length).filterMap (fun i => (l ++ [a])[i]?) =
            (List.range l.length).filterMap (fun i => l[i]?) := by
          apply List.filterMap_congr
          intro i hi
          exact List.getElem?_append_left (List.mem_range.mp hi)
        rw [this, ih]
        simp
    rw [hord]
    cases hdsc : ds with
    | nil =>
      exfalso
      rw [hdsc] at hes
      rw [hst, List.Perm.eq_nil hes] at h0
      cases h0
    | cons d r =>
      simp only
      have hd0 : ds[0]? = some d := by rw [hdsc]; rfl
      obtain ⟨g, _, hg0, -⟩ := (hint 0 d hd0).glob
      have hga : r.all (fun x => isStr (get x kGlobal) (strOf (get d kGlobal))) = true := by
        rw [List.all_eq_true]
        intro x hx
        have hxd := hglob x (by rw [hdsc]; exact List.mem_cons_of_mem _ hx) d
          (by rw [hdsc]; exact List.mem_cons_self ..)
        have hdg : get d kGlobal = .str g := (get_eq_str _ _ _).mpr hg0
        rw [hg0] at hxd
        rw [hdg, isStr_iff]
        exact (get_eq_str _ _ _).mpr hxd
      rw [if_neg (by rw [hga]; simp)]

/-- The oldest format is accepted as it stands, with no check on order or on content. -/
theorem C84_old_format (P : PyOps) (n : Nat) (states out : List Val) :
    validate P n states = .ok (out, true) ↔ (∀ v ∈ states, OldFormat v) ∧ out = states := by
  unfold validate
  constructor
  · intro h
    by_cases h0 : states.all isLegacy = true
    · rw [if_pos h0] at h
      cases h
      refine ⟨?_, rfl⟩
      intro v hv
      exact (isLegacy_iff v).mp ((List.all_eq_true.mp h0) v hv)
    · rw [if_neg h0] at h
      split at h
      · cases h
      by_cases h5 : (List.range n).all (fun i => (List.map Prod.fst ‹List (Nat × Dict)›).contains i) = false
      · rw [if_pos h5] at h; cases h
      rw [if_neg h5] at h
      simp only at h
      split at h
      · cases h
      · rename_i d r _
        by_cases hg : r.all (fun x => isStr (get x kGlobal) (strOf (get d kGlobal))) = false
        · rw [if_pos hg] at h; cases h
        · rw [if_neg hg] at h; cases h
  · rintro ⟨h, rfl⟩
    rw [if_pos]
    rw [List.all_eq_true]
    intro v hv
    exact (isLegacy_iff v).mpr (h v hv)

end Verif.Resume
