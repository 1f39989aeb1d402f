import Verif.Resume.Props84
import Mathlib.Tactic.SplitIfs

/-! Lemmas for C84: the states the trainer itself builds, and the projection. -/

namespace Verif.Resume

open Verif.Canon

theorem find_putOpt_ne (d : Dict) {k j : Str} (v : Option Val) (h : j ≠ k) :
    find (putOpt d k v) j = find d j := by
  unfold putOpt
  split
  · rfl
  · rfl
  · exact find_put_ne d _ h

/-- `state.get(k)` after an optional assignment -/
theorem find_putOpt_self (d : Dict) (k : Str) (v : Option Val) (hd : find d k = none) :
    find (putOpt d k v) k = (match v with | some .null => none | w => w) := by
  unfold putOpt
  split
  · rw [hd]
  · rw [hd]
  · rename_i w hw
    rw [find_put_self]
    cases w <;> first | rfl | exact absurd rfl hw

/-- the keys the projection reads -/
def projKeys : List Str := [kSupported, kCursor, kSig, kVq, kCoord, kStream, kSampler]

theorem projection_congr (P : PyOps) (a b : Dict) (h : ∀ k ∈ projKeys, find a k = find b k) :
    projection P a = projection P b := by
  have hg : ∀ k ∈ projKeys, get a k = get b k := by
    intro k hk; unfold get; rw [h k hk]
  have m1 : kSupported ∈ projKeys := by unfold projKeys; simp only [List.mem_cons, true_or]
  have m2 : kCursor ∈ projKeys := by unfold projKeys; simp only [List.mem_cons, true_or, or_true]
  have m3 : kSig ∈ projKeys := by unfold projKeys; simp only [List.mem_cons, true_or, or_true]
  have m4 : kVq ∈ projKeys := by unfold projKeys; simp only [List.mem_cons, true_or, or_true]
  have m5 : kCoord ∈ projKeys := by unfold projKeys; simp only [List.mem_cons, true_or, or_true]
  have m6 : kStream ∈ projKeys := by unfold projKeys; simp only [List.mem_cons, true_or, or_true]
  have m7 : kSampler ∈ projKeys := by unfold projKeys; simp only [List.mem_cons, true_or, or_true]
  unfold projection projCursor
  rw [hg _ m1, hg _ m2, hg _ m3, h _ m4, hg _ m5, hg _ m6, hg _ m7]

theorem projection_put (P : PyOps) (a : Dict) (k : Str) (v : Val) (h : k ∉ projKeys) :
    projection P (put a k v) = projection P a := by
  apply projection_congr
  intro j hj
  exact find_put_ne a v (fun e => h (e ▸ hj))

theorem kGlobal_not_proj : kGlobal ∉ projKeys := by decide
theorem kLocal_not_proj : kLocal ∉ projKeys := by decide

/-- the fields of a captured state -/
structure BareFacts (e : RankEnv) (r : Nat) (d : Dict) : Prop where
  slot : find d kSlot = some (.int r)
  rank : find d kRank = some (.int r)
  supported : find d kSupported = some (.bool e.reason.isNone)
  sig : e.reason = none → find d kSig = some e.signature
  rng : e.reason = none → find d kRng = some e.rng
  cursor : find d kCursor = (match e.reason, e.cursor with
    | some _, _ => none
    | none, .stream .. => some vFile
    | none, .sampler _ => some vMap)
  stream : ∀ st a b c, e.reason = none → e.cursor = .stream st a b c → find d kStream = some st ∧
    find d kSlice = some (.seq false [.int a, .int b]) ∧
    find d kCoord = (match c with | some .null => none | w => w)
  sampler : ∀ st, e.reason = none → e.cursor = .sampler st → find d kSampler = some st
  vq : find d kVq = (match e.vqRuntime with | some .null => none | w => w)
  tuning : e.reason = none → find d kTuning = (match e.tuning with | some .null => none | w => w)
  noGlobal : find d kGlobal = none
  noLocal : find d kLocal = none

theorem bare_facts (e : RankEnv) (r : Nat) : BareFacts e r (bareState e r) := by
  obtain ⟨reason, sig, rng, cursor, vq, tuning⟩ := e
  cases reason with
  | some why =>
    have hb : ∀ j, find [(Key.str kSupported, Val.bool false), (Key.str kReason, Val.str why),
        (Key.str kSlot, Val.int r), (Key.str kRank, Val.int r)] j =
        if kSupported = j then some (.bool false) else if kReason = j then some (.str why)
        else if kSlot = j then some (.int r) else if kRank = j then some (.int r) else none := by
      intro j; simp only [find, Key.str.injEq]
    constructor
    · show find (putOpt _ kVq vq) kSlot = _
      rw [find_putOpt_ne _ _ (by decide), hb]; rfl
    · show find (putOpt _ kVq vq) kRank = _
      rw [find_putOpt_ne _ _ (by decide), hb]; rfl
    · show find (putOpt _ kVq vq) kSupported = _
      rw [find_putOpt_ne _ _ (by decide), hb]; rfl
    · intro h; cases h
    · intro h; cases h
    · show find (putOpt _ kVq vq) kCursor = _
      rw [find_putOpt_ne _ _ (by decide), hb]; rfl
    · intro _ _ _ _ h; cases h
    · intro _ h; cases h
    · show find (putOpt _ kVq vq) kVq = _
      rw [find_putOpt_self]
      rw [hb]; rfl
    · intro h; cases h
    · show find (putOpt _ kVq vq) kGlobal = _
      rw [find_putOpt_ne _ _ (by decide), hb]; rfl
    · show find (putOpt _ kVq vq) kLocal = _
      rw [find_putOpt_ne _ _ (by decide), hb]; rfl
  | none =>
    cases cursor with
    | stream st a b c =>
      have hb : ∀ j, j ≠ kVq → j ≠ kTuning → j ≠ kCoord →
          find (bareState ⟨none, sig, rng, .stream st a b c, vq, tuning⟩ r) j =
          if kSupported = j then some (.bool true) else if kSlot = j then some (.int r)
          else if kRank = j then some (.int r) else if kSig = j then some sig
          else if kRng = j then some rng else if kCursor = j then some vFile
          else if kStream = j then some st
          else if kSlice = j then some (.seq false [.int a, .int b]) else none := by
        intro j h1 h2 h3
        show find (putOpt (putOpt (putOpt _ kCoord c) kVq vq) kTuning tuning) j = _
        rw [find_putOpt_ne _ _ h2, find_putOpt_ne _ _ h1, find_putOpt_ne _ _ h3]
        have e1 : put (put (put [(Key.str kSupported, .bool true), (.str kSlot, .int r),
            (.str kRank, .int r), (.str kSig, sig), (.str kRng, rng)] kCursor vFile) kStream st) kSlice
            (.seq false [.int a, .int b]) = [(Key.str kSupported, .bool true), (.str kSlot, .int r),
            (.str kRank, .int r), (.str kSig, sig), (.str kRng, rng), (.str kCursor, vFile),
            (.str kStream, st), (.str kSlice, .seq false [.int a, .int b])] := rfl
        rw [e1]
        simp only [find, Key.str.injEq]
      constructor
      · rw [hb _ (by decide) (by decide) (by decide)]; rfl
      · rw [hb _ (by decide) (by decide) (by decide)]; rfl
      · rw [hb _ (by decide) (by decide) (by decide)]; rfl
      · intro _; rw [hb _ (by decide) (by decide) (by decide)]; rfl
      · intro _; rw [hb _ (by decide) (by decide) (by decide)]; rfl
      · rw [hb _ (by decide) (by decide) (by decide)]; rfl
      · intro st' a' b' c' _ he
        cases he
        refine ⟨?_, ?_, ?_⟩
        · rw [hb _ (by decide) (by decide) (by decide)]; rfl
        · rw [hb _ (by decide) (by decide) (by decide)]; rfl
        · show find (putOpt (putOpt (putOpt _ kCoord c) kVq vq) kTuning tuning) kCoord = _
          rw [find_putOpt_ne _ _ (by decide), find_putOpt_ne _ _ (by decide), find_putOpt_self]
          rfl
      · intro st' _ he; cases he
      · show find (putOpt (putOpt (putOpt _ kCoord c) kVq vq) kTuning tuning) kVq = _
        rw [find_putOpt_ne _ _ (by decide), find_putOpt_self]
        rw [find_putOpt_ne _ _ (by decide)]
        rfl
      · intro _
        show find (putOpt (putOpt (putOpt _ kCoord c) kVq vq) kTuning tuning) kTuning = _
        rw [find_putOpt_self]
        rw [find_putOpt_ne _ _ (by decide), find_putOpt_ne _ _ (by decide)]
        rfl
      · rw [hb _ (by decide) (by decide) (by decide)]; rfl
      · rw [hb _ (by decide) (by decide) (by decide)]; rfl
    | sampler st =>
      have hb : ∀ j, j ≠ kVq → j ≠ kTuning →
          find (bareState ⟨none, sig, rng, .sampler st, vq, tuning⟩ r) j =
          if kSupported = j then some (.bool true) else if kSlot = j then some (.int r)
          else if kRank = j then some (.int r) else if kSig = j then some sig
          else if kRng = j then some rng else if kCursor = j then some vMap
          else if kSampler = j then some st else none := by
        intro j h1 h2
        show find (putOpt (putOpt (put (put [(Key.str kSupported, .bool true), (.str kSlot, .int r),
            (.str kRank, .int r), (.str kSig, sig), (.str kRng, rng)] kCursor vMap) kSampler st)
            kVq vq) kTuning tuning) j = _
        rw [find_putOpt_ne _ _ h2, find_putOpt_ne _ _ h1]
        have e1 : put (put [(Key.str kSupported, .bool true), (.str kSlot, .int r),
            (.str kRank, .int r), (.str kSig, sig), (.str kRng, rng)] kCursor vMap) kSampler st =
            [(Key.str kSupported, .bool true), (.str kSlot, .int r),
            (.str kRank, .int r), (.str kSig, sig), (.str kRng, rng), (.str kCursor, vMap),
            (.str kSampler, st)] := rfl
        rw [e1]
        simp only [find, Key.str.injEq]
      constructor
      · rw [hb _ (by decide) (by decide)]; rfl
      · rw [hb _ (by decide) (by decide)]; rfl
      · rw [hb _ (by decide) (by decide)]; rfl
      · intro _; rw [hb _ (by decide) (by decide)]; rfl
      · intro _; rw [hb _ (by decide) (by decide)]; rfl
      · rw [hb _ (by decide) (by decide)]; rfl
      · intro st' a' b' c' _ he; cases he
      · intro st' _ he
        cases he
        rw [hb _ (by decide) (by decide)]; rfl
      · show find (putOpt (putOpt _ kVq vq) kTuning tuning) kVq = _
        rw [find_putOpt_ne _ _ (by decide), find_putOpt_self]
        rfl
      · intro _
        show find (putOpt (putOpt _ kVq vq) kTuning tuning) kTuning = _
        rw [find_putOpt_self]
        rw [find_putOpt_ne _ _ (by decide)]
        rfl
      · rw [hb _ (by decide) (by decide)]; rfl
      · rw [hb _ (by decide) (by decide)]; rfl

/-- what a successful capture computed -/
theorem localState_ok (P : PyOps) (e : RankEnv) (r : Nat) (s : Dict) :
    localState P e r = .ok s ↔ ∃ pr g l, projection P (bareState e r) = .ok pr ∧ digest P pr = .ok g ∧
      digest P (put (bareState e r) kGlobal (.str g)) = .ok l ∧
      s = put (put (bareState e r) kGlobal (.str g)) kLocal (.str l) := by
  unfold localState
  constructor
  · intro h
    split at h
    · cases h
    rename_i pr hpr
    split at h
    · cases h
    rename_i g hg
    split at h
    · cases h
    rename_i l hl
    cases h
    exact ⟨pr, g, l, hpr, hg, hl, rfl⟩
  · rintro ⟨pr, g, l, h1, h2, h3, rfl⟩
    simp only [h1, h2, h3]

theorem local_find (e : RankEnv) (r : Nat) (g l : Str) (k : Str) (h1 : k ≠ kGlobal) (h2 : k ≠ kLocal) :
    find (put (put (bareState e r) kGlobal (.str g)) kLocal (.str l)) k = find (bareState e r) k := by
  rw [find_put_ne _ _ h2, find_put_ne _ _ h1]

/-- fields of a captured state other than the digests -/
theorem localState_find {P : PyOps} {e : RankEnv} {r : Nat} {s : Dict} (h : localState P e r = .ok s)
    {k : Str} (h1 : k ≠ kGlobal) (h2 : k ≠ kLocal) : find s k = find (bareState e r) k := by
  obtain ⟨pr, g, l, -, -, -, rfl⟩ := (localState_ok _ _ _ _).mp h
  exact local_find e r g l k h1 h2

theorem localState_intact {P : PyOps} {e : RankEnv} {r : Nat} {s : Dict}
    (h : localState P e r = .ok s) : Intact P r s := by
  have hf : ∀ {k : Str}, k ≠ kGlobal → k ≠ kLocal → find s k = find (bareState e r) k :=
    fun h1 h2 => localState_find h h1 h2
  obtain ⟨pr, g, l, h1, h2, h3, hs⟩ := (localState_ok _ _ _ _).mp h
  have hb := bare_facts e r
  refine ⟨?_, ?_, ?_, ?_, ?_⟩
  · exact (hf (k := kSlot) (by decide) (by decide)).trans hb.slot
  · have : get s kRank = .int r := by
      unfold get; rw [hf (k := kRank) (by decide) (by decide), hb.rank]; rfl
    show pyEqInt P (get s kRank) r = true
    rw [this]
    simp [pyEqInt]
  · have e1 : find s "supported".toList = some (.bool e.reason.isNone) :=
      (hf (k := kSupported) (by decide) (by decide)).trans hb.supported
    have e2 := (hf (k := kCursor) (by decide) (by decide)).trans hb.cursor
    rw [e1]
    cases hr : e.reason with
    | none =>
      rw [hr] at e2
      refine Or.inl ⟨rfl, ?_⟩
      cases hc : e.cursor with
      | stream => rw [hc] at e2; exact Or.inl e2
      | sampler => rw [hc] at e2; exact Or.inr e2
    | some w =>
      rw [hr] at e2
      exact Or.inr ⟨by simp, Or.inl e2⟩
  · refine ⟨l, by rw [hs]; exact find_put_self _ _ _, ?_⟩
    have : s.filter (fun e => e.1 ≠ .str "local_digest".toList) =
        put (bareState e r) kGlobal (.str g) := by
      rw [hs]
      refine pop_put _ kLocal _ ?_
      rw [find_put_ne _ _ (by decide)]
      exact hb.noLocal
    rw [this]
    exact (digest_ok _ _ _).mp h3
  · refine ⟨g, pr, ?_, ?_, (digest_ok _ _ _).mp h2⟩
    · rw [hs]
      exact (find_put_ne _ _ (by decide : kGlobal ≠ kLocal)).trans (find_put_self _ _ _)
    · rw [hs, projection_put _ _ _ _ kLocal_not_proj, projection_put _ _ _ _ kGlobal_not_proj, h1]

theorem localState_not_old {P : PyOps} {e : RankEnv} {r : Nat} {s : Dict}
    (h : localState P e r = .ok s) : ¬ OldFormat (.dict s) := by
  rintro ⟨d, hd, hk, -⟩
  cases hd
  have h1 := localState_find h (k := kSlot) (by decide) (by decide)
  rw [(bare_facts e r).slot] at h1
  have : Key.str kSlot ∈ s.map Prod.fst := (mem_keys_iff _ _).mpr (by rw [h1]; rfl)
  rw [hk] at this
  revert this
  decide

/-! ### The projection field by field -/

/-- the part of the projection that comes from the quantiser manifest -/
def vqPart (s : Dict) : Except String Dict :=
  match find s kVq with
  | none => .ok []
  | some v => match projVq v with
    | .ok w => .ok [(Key.str kVq, w)]
    | .error e => .error e

theorem projection_ok (P : PyOps) (s pr : Dict) : projection P s = .ok pr ↔
    ∃ vq c, vqPart s = .ok vq ∧ projCursor P s = .ok c ∧
      pr = [(.str kSupported, get s kSupported), (.str kCursor, get s kCursor),
        (.str kSig, get s kSig)] ++ vq ++ [c] := by
  have hu : projection P s = (match vqPart s with
    | .error e => .error e
    | .ok vq => match projCursor P s with
      | .error e => .error e
      | .ok c => .ok ([(.str kSupported, get s kSupported), (.str kCursor, get s kCursor),
          (.str kSig, get s kSig)] ++ vq ++ [c])) := rfl
  rw [hu]
  cases vqPart s with
  | error e => simp
  | ok vq =>
    cases projCursor P s with
    | error e => simp
    | ok c =>
      simp only [Except.ok.injEq]
      constructor
      · intro h; exact ⟨vq, c, rfl, rfl, h.symm⟩
      · rintro ⟨_, _, rfl, rfl, h⟩; exact h.symm

theorem pyval_get {s : Dict} (hs : PyVal (.dict s)) (k : Str) : PyVal (get s k) := by
  unfold get
  cases h : find s k with
  | none => exact .null
  | some v =>
    have := (find_eq_some (pyval_nodup hs) k v).mp h
    cases hs with
    | dict _ hn hv => exact hv _ this

/-- `dict(x)` gives a dictionary: distinct keys -/
def PyOps.Sane (P : PyOps) : Prop := ∀ v d, P.dictOf v = some d → PyVal (.dict d)

theorem pyval_vqPart {s vq : Dict} (hs : PyVal (.dict s)) (h : vqPart s = .ok vq) :
    (∀ e ∈ vq, e.1 = Key.str kVq ∧ PyVal e.2) ∧ (vq.map Prod.fst).Nodup := by
  unfold vqPart at h
  split at h
  · cases h; simp
  · rename_i v hv
    split at h
    · rename_i w hw
      cases h
      refine ⟨?_, by simp⟩
      intro e he
      simp only [List.mem_singleton] at he
      subst he
      refine ⟨rfl, ?_⟩
      unfold projVq at hw
      have hpv : PyVal v := by
        have := pyval_get hs kVq
        unfold get at this
        rw [hv] at this
        exact this
      split at hw
      · cases hw; exact .null
      · rename_i m
        cases hw
        refine .dict _ (by simp only [List.map_cons, List.map_nil]; decide) ?_
        intro kv hkv
        simp only [List.mem_cons, List.not_mem_nil, or_false] at hkv
        rcases hkv with rfl | rfl | rfl <;> exact pyval_get hpv _
      · cases hw
    · cases h

theorem pyval_projSampler {P : PyOps} (hP : P.Sane) {v w : Val} (hv : PyVal v)
    (h : projSampler P v = .ok w) : PyVal w := by
  unfold projSampler at h
  split_ifs at h
  · cases h; exact .dict _ (by simp) (by simp)
  · split at h
    · cases h; exact pyval_pop _ hv
    · split at h
      · rename_i m hm
        cases h; exact pyval_pop _ (hP _ _ hm)
      · cases h

theorem projCursor_ok {P : PyOps} {s : Dict} {c : Key × Val} (h : projCursor P s = .ok c) :
    (get s kCursor = vFile ∧ ((get s kCoord = .null ∧ c = (.str kStream, get s kStream)) ∨
      (get s kCoord ≠ .null ∧ c = (.str kCoord, get s kCoord)))) ∨
    (get s kCursor ≠ vFile ∧ ∃ v, projSampler P (get s kSampler) = .ok v ∧ c = (.str kSampler, v)) := by
  unfold projCursor at h
  split at h
  · rename_i t ht
    by_cases h1 : t = "file_stream_v1".toList
    · rw [if_pos h1] at h
      refine Or.inl ⟨by rw [ht, h1]; rfl, ?_⟩
      split at h
      · rename_i hn; cases h; exact Or.inl ⟨hn, rfl⟩
      · rename_i hn; cases h; exact Or.inr ⟨hn, rfl⟩
    · rw [if_neg h1] at h
      refine Or.inr ⟨by rw [ht]; intro hc; unfold vFile at hc; injection hc with hc; exact h1 hc, ?_⟩
      split at h
      · rename_i v hv; cases h; exact ⟨v, hv, rfl⟩
      · cases h
  · rename_i hns
    refine Or.inr ⟨fun hc => hns _ hc, ?_⟩
    split at h
    · rename_i v hv; cases h; exact ⟨v, hv, rfl⟩
    · cases h

theorem projCursor_key {P : PyOps} {s : Dict} {c : Key × Val} (h : projCursor P s = .ok c) :
    c.1 = .str kStream ∨ c.1 = .str kCoord ∨ c.1 = .str kSampler := by
  rcases projCursor_ok h with ⟨-, ⟨-, rfl⟩ | ⟨-, rfl⟩⟩ | ⟨-, v, -, rfl⟩
  · exact Or.inl rfl
  · exact Or.inr (Or.inl rfl)
  · exact Or.inr (Or.inr rfl)

theorem pyval_projection {P : PyOps} (hP : P.Sane) {s pr : Dict} (hs : PyVal (.dict s))
    (h : projection P s = .ok pr) : PyVal (.dict pr) := by
  obtain ⟨vq, c, h1, h2, rfl⟩ := (projection_ok _ _ _).mp h
  obtain ⟨hv1, hv2⟩ := pyval_vqPart hs h1
  have hc := projCursor_key h2
  refine .dict _ ?_ ?_
  · rw [List.map_append, List.map_append, List.nodup_append, List.nodup_append]
    refine ⟨⟨by simp only [List.map_cons, List.map_nil]; decide, hv2, ?_⟩, by simp, ?_⟩
    · intro a ha b hb hab
      obtain ⟨e, he, rfl⟩ := List.mem_map.mp hb
      rw [(hv1 e he).1] at hab
      subst hab
      simp only [List.map_cons, List.map_nil] at ha
      revert ha; decide
    · intro a ha b hb hab
      simp only [List.map_cons, List.map_nil, List.mem_singleton] at hb
      subst hb
      rw [List.mem_append] at ha
      rcases ha with ha | ha
      · rw [hab] at ha
        simp only [List.map_cons, List.map_nil] at ha
        rcases hc with hc | hc | hc <;> rw [hc] at ha <;> revert ha <;> decide
      · obtain ⟨e, he, rfl⟩ := List.mem_map.mp ha
        rw [(hv1 e he).1] at hab
        rcases hc with hc | hc | hc <;> rw [hc] at hab <;> revert hab <;> decide
  · intro kv hkv
    rw [List.mem_append, List.mem_append] at hkv
    rcases hkv with (hkv | hkv) | hkv
    · simp only [List.mem_cons, List.not_mem_nil, or_false] at hkv
      rcases hkv with rfl | rfl | rfl <;> exact pyval_get hs _
    · exact (hv1 _ hkv).2
    · simp only [List.mem_singleton] at hkv
      subst hkv
      rcases projCursor_ok h2 with ⟨-, ⟨-, rfl⟩ | ⟨-, rfl⟩⟩ | ⟨-, v, hv, rfl⟩
      · exact pyval_get hs _
      · exact pyval_get hs _
      · exact pyval_projSampler hP (pyval_get hs _) hv

theorem find_append (a b : Dict) (k : Str) : find (a ++ b) k = (find a k).or (find b k) := by
  induction a with
  | nil => rfl
  | cons e r ih =>
    obtain ⟨k', v⟩ := e
    rw [List.cons_append, find, find]
    by_cases h : k' = Key.str k
    · rw [if_pos h, if_pos h]; rfl
    · rw [if_neg h, if_neg h, ih]

end Verif.Resume
