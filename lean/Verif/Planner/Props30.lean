import Verif.Planner.StreamInv

/-! # C30: stream commits are contiguous and transactional -/
namespace Verif.Planner
open Verif.Reservoir (Res Snapshot SameButCache)

variable {σ κ ε δ Dg : Type}

/-- The assumptions of this file.  `queue` excludes the finding `C29_queue_limit_differs`; it holds for every planner with
a uniform shape, and when `max_shape_queues` is at least the number of shapes. -/
structure Setup (T : TPlanner σ κ ε δ Dg) (ok : σ → Prop) (rem : σ → List ε) (eqv : σ → σ → Prop) (pos : Dg → Nat × Nat) : Prop where
  records : Records T.P.src ok rem
  valid : T.P.Valid
  resumable : T.resumable = true
  replays : Replays T.P.src ok rem T.sc T.rc eqv
  pos : PosOf T pos
  queue : ∀ n u l, Plain T.P n u l → nextBatch T.P u ≠ .error .queueLimit

variable {T : TPlanner σ κ ε δ Dg} {ok : σ → Prop} {rem : σ → List ε} {eqv : σ → σ → Prop} {pos : Dg → Nat × Nat}

theorem Setup.inv (S : Setup T ok rem eqv pos) {ts : TS σ κ ε Dg} {toks : List (Token κ ε Dg)}
    {prep : List (Prepared κ ε Dg × List (Token κ ε Dg))} {log : List (Batch ε)} {okay : Bool} (h : Hist T ts toks prep log okay) :
    HInv T ok rem eqv pos ts toks prep log okay :=
  hinv S.records S.valid S.resumable S.replays S.pos S.queue h

/-- **C30 (committed prefix).** After every history of issuing, pipeline steps, finalization, prepared and delayed commits
of arbitrary collections of tokens, epoch changes, failures and rollbacks, the committed batches are exactly those the
planner produces without any interruption up to the committed position - none lost, repeated or reordered. -/
theorem C30_committed_prefix (S : Setup T ok rem eqv pos) {ts : TS σ κ ε Dg} {toks : List (Token κ ε Dg)}
    {prep : List (Prepared κ ε Dg × List (Token κ ε Dg))} {log : List (Batch ε)} {okay : Bool}
    (h : Hist T ts toks prep log okay) :
    ∃ n u l s, Plain T.P n u l ∧ l.map core = log.map core ∧ ts.cState = some s ∧ s.epoch = u.epoch ∧
      s.batchIndex = u.batchIndex := by
  obtain ⟨n, u, l, v, h1, h2, _, h4, h5, _⟩ := (S.inv h).committed
  exact ⟨n, u, l, _, h1, h5, h4, by simp only [save]; rw [h2.epoch], by simp only [save]; rw [h2.index]⟩

/-- **C30 (contiguity).** A commit that succeeds consists of consecutive tokens, the first of which is the next batch
after the committed position. -/
theorem C30_commit_contiguous (S : Setup T ok rem eqv pos) {ts ts' : TS σ κ ε Dg} {toks : List (Token κ ε Dg)}
    {prep : List (Prepared κ ε Dg × List (Token κ ε Dg))} {log : List (Batch ε)} {okay : Bool}
    (h : Hist T ts toks prep log okay) {c : Prepared κ ε Dg} {l : List (Token κ ε Dg)} (hc : (c, l) ∈ prep)
    (hcm : commitPrepared T ts c = (ts', false)) :
    ∃ s, ts.cState = some s ∧ l ≠ [] ∧
      ∀ (i : Nat) (t : Token κ ε Dg), l[i]? = some t → (t.epoch : Int) = s.epoch ∧ (t.index : Int) = s.batchIndex + i := by
  have hi := S.inv h
  obtain ⟨n, u, lg, v, h1, h2, _, h4, _, h6⟩ := hi.committed
  have hcand := hi.prep _ hc
  obtain ⟨e, k, hbp, hcont⟩ := hcand.contig
  refine ⟨_, h4, hcand.nonempty, fun i t ht => ?_⟩
  have hd : c.beforeDg = ts.cDg := by
    by_cases hd : c.beforeDg = ts.cDg
    · exact hd
    · unfold commitPrepared at hcm
      rw [if_pos hd] at hcm
      simp at hcm
  have hue : (e, k) = (u.epoch, u.batchIndex) := by rw [← hbp, ← h6]; simp only; rw [hd]
  simp only [Prod.mk.injEq] at hue
  obtain ⟨ht1, ht2⟩ := hcont i t ht
  simp only [save]
  rw [← h2.epoch, ← h2.index]
  omega

/-- **C30 (rejected commits).** In every history a commit that raises leaves the planner as it was (the partial assignment
in `commit_prepared` is unreachable). -/
theorem C30_rejected_commit (S : Setup T ok rem eqv pos) {ts ts' : TS σ κ ε Dg} {toks : List (Token κ ε Dg)}
    {prep : List (Prepared κ ε Dg × List (Token κ ε Dg))} {log : List (Batch ε)} {okay : Bool}
    (h : Hist T ts toks prep log okay) {c : Prepared κ ε Dg} {l : List (Token κ ε Dg)} (hc : (c, l) ∈ prep)
    (hcm : commitPrepared T ts c = (ts', true)) : ts' = ts := by
  have hcand := (S.inv h).prep _ hc
  unfold commitPrepared at hcm
  by_cases hd : c.beforeDg = ts.cDg
  · rw [if_neg (by simpa using hd), if_pos S.resumable] at hcm
    cases hl : l.getLast? with
    | none => rw [List.getLast?_eq_none_iff] at hl; exact absurd hl hcand.nonempty
    | some tl =>
      obtain ⟨_, _, _, _, _, v, _, _, _, _, _, _, _, _, hs⟩ :=
        (hcand.toks tl (List.mem_of_mem_getLast? (by simp only; rw [hl]; rfl))).stream
      have := (hcand.last tl hl).1
      simp only at this
      rw [this, hs] at hcm
      simp at hcm
  · rw [if_pos hd] at hcm
    simp only [Prod.mk.injEq, and_true] at hcm
    exact hcm.symm

/-- Issuing batches until the end of the epoch, at most `n`. -/
def issueRun (T : TPlanner σ κ ε δ Dg) : Nat → TS σ κ ε Dg → Except Err (List (Batch ε) × Bool × TS σ κ ε Dg)
  | 0, ts => .ok ([], false, ts)
  | n + 1, ts =>
    match nextTxn T ts with
    | .error e => .error e
    | .ok (none, ts) => .ok ([], true, ts)
    | .ok (some (b, _), ts) =>
      match issueRun T n ts with
      | .error e => .error e
      | .ok (bs, fin, ts) => .ok (b :: bs, fin, ts)

theorem issueRun_rr (S : Setup T ok rem eqv pos) : ∀ (n : Nat) (u : St σ ε) (ts : TS σ κ ε Dg) (bs : List (Batch ε)) (fin : Bool)
    (u' : St σ ε), Between T.P ok rem u → RR eqv u ts.st → Between T.P ok rem ts.st → runEpoch T.P n u = .ok (bs, fin, u') →
    ∃ ts', issueRun T n ts = .ok (bs, fin, ts')
  | 0, u, ts, bs, fin, u', _, _, _, h => by
    simp only [runEpoch, Except.ok.injEq, Prod.mk.injEq] at h
    obtain ⟨rfl, rfl, _⟩ := h
    exact ⟨ts, rfl⟩
  | n + 1, u, ts, bs, fin, u', hb, hrr, hbt, h => by
    rw [runEpoch] at h
    have hn := nextBatch_rr S.replays.toResumable hrr hb.limit
    cases hu : nextBatch T.P u with
    | error e => rw [hu] at h; simp at h
    | ok q =>
      obtain ⟨ob, u1⟩ := q
      rw [hu] at hn h
      cases ht : nextBatch T.P ts.st with
      | error e => rw [ht] at hn; exact absurd hn id
      | ok q' =>
        obtain ⟨ob', s1⟩ := q'
        rw [ht] at hn
        obtain ⟨h1, h2⟩ := hn
        simp only at h1 h2
        subst h1
        have hbu := nextBatch_between S.records S.valid hb hu
        have hbs := nextBatch_between S.records S.valid hbt ht
        rw [issueRun]
        cases ob with
        | none =>
          simp only [Except.ok.injEq, Prod.mk.injEq] at h
          obtain ⟨rfl, rfl, _⟩ := h
          unfold nextTxn
          rw [ht]
          exact ⟨_, rfl⟩
        | some b =>
          simp only at h
          unfold nextTxn
          rw [ht]
          simp only [stateIf_res S.resumable]
          cases hr : runEpoch T.P n u1 with
          | error e => rw [hr] at h; simp at h
          | ok q =>
            obtain ⟨bs1, fin1, u2⟩ := q
            rw [hr] at h
            simp only [Except.ok.injEq, Prod.mk.injEq] at h
            obtain ⟨rfl, rfl, rfl⟩ := h
            obtain ⟨ts2, hts2⟩ := issueRun_rr S n u1
              { ts with st := snap T.P s1, yState := some (save T.P T.sc s1), yDg := T.tokDg ts.yDg b ts.yBlob } bs1 fin1 u2 hbu
              (RR.trans S.replays.trans h2 (snap_rr S.replays.refl hbs)) (snap_between S.replays.refl S.replays.same hbs) hr
            rw [hts2]
            exact ⟨ts2, rfl⟩

/-- **C30 (rollback).** A rollback succeeds in every history (while the shuffle counter of the committed state is in
range), restores the committed position in every field, and the batches issued from then on are those the uninterrupted
planner produces after the committed ones: exactly the uncommitted batches again. -/
theorem C30_rollback_reissues (S : Setup T ok rem eqv pos) {ts : TS σ κ ε Dg} {toks : List (Token κ ε Dg)}
    {prep : List (Prepared κ ε Dg × List (Token κ ε Dg))} {log : List (Batch ε)} {okay : Bool}
    (h : Hist T ts toks prep log okay) (hk : ∀ s, ts.cState = some s → s.res.rngCounter < 2 ^ 63) :
    ∃ ts', rollback T ts = some ts' ∧ ts'.yState = ts.cState ∧ ts'.yDg = ts.cDg ∧ ts'.yBlob = ts.cBlob ∧
      ts'.cState = ts.cState ∧ ts'.cDg = ts.cDg ∧ ts'.cBlob = ts.cBlob ∧
      ∃ n u l, Plain T.P n u l ∧ l.map core = log.map core ∧
        ∀ m bs fin u', runEpoch T.P m u = .ok (bs, fin, u') → ∃ ts'', issueRun T m ts' = .ok (bs, fin, ts'') := by
  obtain ⟨n, u, l, v, h1, h2, h3, h4, h5, _⟩ := (S.inv h).committed
  have hkv : v.res.rngCounter < 2 ^ 63 := by
    have := hk _ h4
    have h6 : (save T.P T.sc v).res = Reservoir.snapshot (resCfg T.P v.epoch v.cycle) v.res := state_snapshot h3.inv
    rw [h6] at this
    have h7 : (v.res.rngCounter : Int) < 2 ^ 63 := this
    exact_mod_cast h7
  obtain ⟨c', _, _, hr⟩ := restore_save S.replays.toResumable h3 hkv
  obtain ⟨hrr, hbw⟩ := restore_rr S.replays h3 hr
  unfold rollback
  rw [S.resumable, h4]
  simp only [Bool.true_eq_false, if_false, hr]
  refine ⟨_, rfl, rfl, rfl, rfl, rfl, rfl, rfl, n, u, l, h1, h5, fun m bs fin u' hm => ?_⟩
  exact issueRun_rr S m u _ bs fin u' (h1.between S.records S.valid) (RR.trans S.replays.trans h2 hrr) hbw hm

/-! ### Outstanding tokens can be committed -/

/-- The tokens issued since `ts0`, as last returned (with the pipeline state, finalized if terminal). -/
inductive Outstanding (T : TPlanner σ κ ε δ Dg) (ts0 : TS σ κ ε Dg) : TS σ κ ε Dg → List (Token κ ε Dg) → Prop
  | nil : Outstanding T ts0 ts0 []
  | issue {ts l b t ts'} : Outstanding T ts0 ts l → nextTxn T ts = .ok (some (b, t), ts') → Outstanding T ts0 ts' (l ++ [t])
  | done {ts l ts'} : Outstanding T ts0 ts l → nextTxn T ts = .ok (none, ts') → Outstanding T ts0 ts' l
  | pipeline {ts l t b data data' t' ts'} : Outstanding T ts0 ts (l ++ [t]) →
      preparePipeline T ts b t data = some (data', t', ts') → Outstanding T ts0 ts' (l ++ [t'])
  | finalize {ts l t b t' ts'} : Outstanding T ts0 ts (l ++ [t]) → finalizeToken T ts t = some (b, t', ts') →
      Outstanding T ts0 ts' (l ++ [t'])

/-- Committing groups of tokens one after the other. -/
noncomputable def commitAll (T : TPlanner σ κ ε δ Dg) (ts : TS σ κ ε Dg) : List (List (Token κ ε Dg)) → Option (TS σ κ ε Dg)
  | [] => some ts
  | l :: ls =>
    match prepareCommit T ts l with
    | none => none
    | some c => if (commitPrepared T ts c).2 then none else commitAll T (commitPrepared T ts c).1 ls

/-- Tokens linked from one position to another. -/
def Linked (T : TPlanner σ κ ε δ Dg) (e : Nat) : List (Token κ ε Dg) → Nat → Dg → Option (Saved κ ε) → Blob → Dg →
    Option (Saved κ ε) → Blob → Prop
  | [], _, d, s, bl, d', s', bl' => d = d' ∧ s = s' ∧ bl = bl'
  | t :: l, k, d, s, bl, d', s', bl' =>
    (t.epoch = e ∧ t.index = k ∧ t.beforeDg = d ∧ t.beforeState = s ∧ t.beforeBlob = bl ∧ blobOk T t.afterBlob = true ∧
      ∃ a, t.afterState = some a ∧ a.epoch = e ∧ a.batchIndex = k + 1) ∧
    Linked T e l (k + 1) t.afterDg t.afterState t.afterBlob d' s' bl'

theorem Linked.append_iff (T : TPlanner σ κ ε δ Dg) (e : Nat) : ∀ (a b : List (Token κ ε Dg)) (k : Nat) (d : Dg)
    (s : Option (Saved κ ε)) (bl : Blob) (d' : Dg) (s' : Option (Saved κ ε)) (bl' : Blob),
    Linked T e (a ++ b) k d s bl d' s' bl' ↔
      ∃ d1 s1 bl1, Linked T e a k d s bl d1 s1 bl1 ∧ Linked T e b (k + a.length) d1 s1 bl1 d' s' bl'
  | [], b, k, d, s, bl, d', s', bl' => by
    constructor
    · intro h; exact ⟨d, s, bl, ⟨rfl, rfl, rfl⟩, by simpa using h⟩
    · rintro ⟨_, _, _, ⟨rfl, rfl, rfl⟩, h⟩; simpa using h
  | t :: a, b, k, d, s, bl, d', s', bl' => by
    rw [List.cons_append, Linked]
    constructor
    · rintro ⟨h1, h2⟩
      obtain ⟨d1, s1, bl1, h3, h4⟩ := (Linked.append_iff T e a b _ _ _ _ _ _ _).mp h2
      exact ⟨d1, s1, bl1, ⟨h1, h3⟩, by rw [List.length_cons, show k + (a.length + 1) = k + 1 + a.length by omega]; exact h4⟩
    · rintro ⟨d1, s1, bl1, ⟨h1, h3⟩, h4⟩
      refine ⟨h1, (Linked.append_iff T e a b _ _ _ _ _ _ _).mpr ⟨d1, s1, bl1, h3, ?_⟩⟩
      rw [List.length_cons, show k + (a.length + 1) = k + 1 + a.length by omega] at h4
      exact h4

theorem Linked.check (T : TPlanner σ κ ε δ Dg) (e : Nat) : ∀ (l : List (Token κ ε Dg)) (k : Nat) (d : Dg)
    (s : Option (Saved κ ε)) (bl : Blob) (d' : Dg) (s' : Option (Saved κ ε)) (bl' : Blob),
    Linked T e l k d s bl d' s' bl' → checkTokens T e l k d s bl = some (d', bl')
  | [], k, d, s, bl, d', s', bl', h => by
    obtain ⟨rfl, _, rfl⟩ := h
    rfl
  | t :: l, k, d, s, bl, d', s', bl', h => by
    obtain ⟨⟨h1, h2, h3, h4, h5, h6, _⟩, h7⟩ := h
    have ih := Linked.check T e l (k + 1) _ _ _ _ _ _ h7
    rw [checkTokens, if_neg (by simp [h3]), if_neg (by simp [h1, h2]), if_neg (by simp [h5]), if_neg (by simp [h4]),
      if_neg (by simp [h6])]
    push_cast at ih
    exact ih

theorem Linked.last (T : TPlanner σ κ ε δ Dg) (e : Nat) : ∀ (l : List (Token κ ε Dg)) (tl : Token κ ε Dg) (k : Nat) (d : Dg)
    (s : Option (Saved κ ε)) (bl : Blob) (d' : Dg) (s' : Option (Saved κ ε)) (bl' : Blob),
    Linked T e l k d s bl d' s' bl' → l.getLast? = some tl →
    tl.afterState = s' ∧ ∃ a, s' = some a ∧ a.epoch = e ∧ a.batchIndex = k + l.length
  | [], _, _, _, _, _, _, _, _, _, h => by simp at h
  | [t], tl, k, d, s, bl, d', s', bl', h, hl => by
    simp only [List.getLast?_singleton, Option.some.injEq] at hl
    subst hl
    obtain ⟨⟨_, _, _, _, _, _, a, h7, h8, h9⟩, _, h10, _⟩ := h
    exact ⟨h10, a, by rw [← h10]; exact h7, h8, by simpa using h9⟩
  | t :: t2 :: l, tl, k, d, s, bl, d', s', bl', h, hl => by
    rw [List.getLast?_cons_cons] at hl
    obtain ⟨h1, a, h2, h3, h4⟩ := Linked.last T e (t2 :: l) tl (k + 1) _ _ _ _ _ _ h.2 hl
    exact ⟨h1, a, h2, h3, by rw [h4]; simp only [List.length_cons]; push_cast; ring⟩

/-- The last token replaced by one with the same start. -/
theorem Linked.replace_last {T : TPlanner σ κ ε δ Dg} {e : Nat} {l : List (Token κ ε Dg)} {t t' : Token κ ε Dg} {k : Nat} {d : Dg}
    {s : Option (Saved κ ε)} {bl : Blob} {d1 : Dg} {s1 : Option (Saved κ ε)} {bl1 : Blob}
    (h : Linked T e (l ++ [t]) k d s bl d1 s1 bl1) (h1 : t'.epoch = t.epoch ∧ t'.index = t.index ∧ t'.beforeDg = t.beforeDg ∧
      t'.beforeState = t.beforeState ∧ t'.beforeBlob = t.beforeBlob) (hb : blobOk T t'.afterBlob = true)
    (hs : ∃ a, t'.afterState = some a ∧ a.epoch = e ∧ a.batchIndex = k + l.length + 1) :
    Linked T e (l ++ [t']) k d s bl t'.afterDg t'.afterState t'.afterBlob := by
  rw [Linked.append_iff] at h ⊢
  obtain ⟨d2, s2, bl2, h2, ⟨h3, h4, h5, h6, h7, _⟩, _⟩ := h
  obtain ⟨a, ha1, ha2, ha3⟩ := hs
  exact ⟨d2, s2, bl2, h2, ⟨by rw [h1.1]; exact h3, by rw [h1.2.1]; exact h4, by rw [h1.2.2.1]; exact h5, by rw [h1.2.2.2.1]; exact h6,
    by rw [h1.2.2.2.2]; exact h7, hb, a, ha1, ha2, by rw [ha3]; push_cast; rfl⟩, rfl, rfl, rfl⟩

theorem Linked.after_blob {T : TPlanner σ κ ε δ Dg} {e : Nat} {l : List (Token κ ε Dg)} {t : Token κ ε Dg} {k : Nat} {d : Dg}
    {s : Option (Saved κ ε)} {bl : Blob} {d1 : Dg} {s1 : Option (Saved κ ε)} {bl1 : Blob}
    (h : Linked T e (l ++ [t]) k d s bl d1 s1 bl1) : t.afterDg = d1 ∧ t.afterState = s1 ∧ t.afterBlob = bl1 ∧ blobOk T t.afterBlob = true ∧
      ∃ a, t.afterState = some a ∧ a.epoch = e ∧ a.batchIndex = k + l.length + 1 := by
  rw [Linked.append_iff] at h
  obtain ⟨d2, s2, bl2, h2, ⟨_, _, _, _, _, h8, a, h9, h10, h11⟩, h12, h13, h14⟩ := h
  exact ⟨h12, h13, h14, h8, a, h9, h10, by rw [h11]; push_cast; rfl⟩

/-- The live planner and the outstanding tokens. -/
structure OutInv (T : TPlanner σ κ ε δ Dg) (ok : σ → Prop) (rem : σ → List ε) (ts0 ts : TS σ κ ε Dg) (l : List (Token κ ε Dg)) : Prop where
  same : ts.cState = ts0.cState ∧ ts.cDg = ts0.cDg ∧ ts.cBlob = ts0.cBlob
  live : Between T.P ok rem ts.st
  pos : ts.st.epoch = ts0.st.epoch ∧ ts.st.batchIndex = ts0.st.batchIndex + l.length
  blob : blobOk T ts.yBlob = true
  linked : Linked T ts0.st.epoch l ts0.st.batchIndex ts0.yDg ts0.yState ts0.yBlob ts.yDg ts.yState ts.yBlob

theorem outInv (S : Setup T ok rem eqv pos)
    (hcomp : ∀ c, T.composer = some c → ∀ data b bl data' bl', c.prep data b bl = some (data', bl') → c.valid bl' = true)
    {ts0 : TS σ κ ε Dg} (hb0 : Between T.P ok rem ts0.st) (hbl : blobOk T ts0.yBlob = true) {ts : TS σ κ ε Dg}
    {l : List (Token κ ε Dg)} (h : Outstanding T ts0 ts l) : OutInv T ok rem ts0 ts l := by
  induction h with
  | nil => exact ⟨⟨rfl, rfl, rfl⟩, hb0, ⟨rfl, rfl⟩, hbl, rfl, rfl, rfl⟩
  | @issue ts l b t ts' _ hn ih =>
    unfold nextTxn at hn
    cases hnb : nextBatch T.P ts.st with
    | error e => rw [hnb] at hn; simp at hn
    | ok q =>
      obtain ⟨ob, st'⟩ := q
      have hb' := nextBatch_between S.records S.valid ih.live hnb
      rw [hnb] at hn
      cases ob with
      | none => simp at hn
      | some b1 =>
        simp only [stateIf_res S.resumable, Except.ok.injEq, Prod.mk.injEq, Option.some.injEq] at hn
        obtain ⟨⟨rfl, rfl⟩, rfl⟩ := hn
        have huf : ts.st.finished = false := by
          cases hf : ts.st.finished with
          | false => rfl
          | true =>
            unfold nextBatch at hnb
            rw [if_pos hf] at hnb
            simp at hnb
        obtain ⟨he, hi, hbe, hbi⟩ := next_cases S.records S.valid ih.live huf hnb
        have hp := ih.pos
        refine ⟨ih.same, snap_between S.replays.refl S.replays.same hb', ⟨?_, ?_⟩, ih.blob, ?_⟩
        · show st'.epoch = _; omega
        · show st'.batchIndex = _; rw [List.length_append, List.length_singleton]; omega
        · rw [Linked.append_iff]
          refine ⟨_, _, _, ih.linked, ⟨by show b1.epoch = _; omega, by show b1.index = _; omega, rfl, rfl, rfl, ih.blob, _, rfl, ?_, ?_⟩, rfl, rfl, rfl⟩
          · simp only [save]; omega
          · simp only [save]; omega
  | @done ts l ts' _ hn ih =>
    unfold nextTxn at hn
    cases hnb : nextBatch T.P ts.st with
    | error e => rw [hnb] at hn; simp at hn
    | ok q =>
      obtain ⟨ob, st'⟩ := q
      have hb' := nextBatch_between S.records S.valid ih.live hnb
      rw [hnb] at hn
      cases ob with
      | some b1 => simp at hn
      | none =>
        simp only [Except.ok.injEq, Prod.mk.injEq, true_and] at hn
        subst hn
        have hp := ih.pos
        refine ⟨ih.same, hb', ?_, ih.blob, ih.linked⟩
        cases hf : ts.st.finished with
        | true =>
          unfold nextBatch at hnb
          rw [if_pos hf] at hnb
          simp only [Except.ok.injEq, Prod.mk.injEq, true_and] at hnb
          rw [← hnb]
          exact hp
        | false =>
          obtain ⟨he, hi, _⟩ := next_cases S.records S.valid ih.live hf hnb
          exact ⟨by simp only; omega, by simp only; omega⟩
  | @pipeline ts l t b data data' t' ts' _ hn ih =>
    unfold preparePipeline at hn
    by_cases hbt : b = t.batch
    case neg => rw [if_pos hbt] at hn; simp at hn
    rw [if_neg (by simpa using hbt)] at hn
    obtain ⟨q1, q2, q3, q4, q5⟩ := ih.linked.after_blob
    have hp := ih.pos
    cases hc : T.composer with
    | none =>
      rw [hc] at hn
      simp only [Option.some.injEq, Prod.mk.injEq] at hn
      obtain ⟨_, rfl, rfl⟩ := hn
      exact ⟨ih.same, ih.live, hp, ih.blob, ih.linked⟩
    | some c =>
      rw [hc] at hn
      simp only at hn
      by_cases hd : t.afterDg = ts.yDg
      case neg => rw [if_pos hd] at hn; simp at hn
      rw [if_neg (by simpa using hd)] at hn
      cases hpr : c.prep data b t.beforeBlob with
      | none => rw [hpr] at hn; simp at hn
      | some q =>
        obtain ⟨d2, blob⟩ := q
        rw [hpr] at hn
        simp only [Option.some.injEq, Prod.mk.injEq] at hn
        obtain ⟨_, rfl, rfl⟩ := hn
        have hvb : blobOk T blob = true := by
          unfold blobOk; rw [hc]; exact hcomp c hc _ _ _ _ _ hpr
        have hlen : (l ++ [t]).length = (l ++ [({ t with afterDg := T.tokDg t.beforeDg b blob, afterBlob := blob } : Token κ ε Dg)]).length := by
          simp
        have hlk := ih.linked.replace_last (t' := { t with afterDg := T.tokDg t.beforeDg b blob, afterBlob := blob })
          ⟨rfl, rfl, rfl, rfl, rfl⟩ hvb q5
        refine ⟨ih.same, ih.live, ⟨hp.1, by rw [← hlen]; exact hp.2⟩, hvb, ?_⟩
        simp only at hlk ⊢
        rw [← q2]
        exact hlk
  | @finalize ts l t b t' ts' _ hn ih =>
    unfold finalizeToken at hn
    by_cases hf : ts.st.finished = false
    · rw [if_pos hf] at hn; simp at hn
    rw [if_neg hf] at hn
    by_cases hd : t.afterDg = ts.yDg
    case neg => rw [if_pos hd] at hn; simp at hn
    rw [if_neg (by simpa using hd)] at hn
    simp only [stateIf_res S.resumable, Option.some.injEq, Prod.mk.injEq] at hn
    obtain ⟨_, rfl, rfl⟩ := hn
    obtain ⟨q1, q2, q3, q4, q5⟩ := ih.linked.after_blob
    have hp := ih.pos
    have hlen : (l ++ [t]).length = l.length + 1 := by simp
    have hlk := ih.linked.replace_last (t' := ⟨t.epoch, t.index, t.beforeDg, T.tokDg t.beforeDg { t.batch with last := true } t.afterBlob,
        { t.batch with last := true }, t.beforeState, some (save T.P T.sc ts.st), t.beforeBlob, t.afterBlob⟩)
      ⟨rfl, rfl, rfl, rfl, rfl⟩ q4 ⟨_, rfl, by simp only [save]; omega, by simp only [save]; omega⟩
    refine ⟨ih.same, snap_between S.replays.refl S.replays.same ih.live, ⟨hp.1, ?_⟩, ih.blob, ?_⟩
    · show ts.st.batchIndex = _
      rw [hp.2]; simp
    · simp only at hlk ⊢
      rw [← q3]
      exact hlk

theorem commitAll_linked (hres : T.resumable = true) (e : Nat) (d' : Dg) (s' : Option (Saved κ ε)) (bl' : Blob) :
    ∀ (ls : List (List (Token κ ε Dg))) (k : Nat) (ts : TS σ κ ε Dg), (∀ l ∈ ls, l ≠ []) →
      (∃ s, ts.cState = some s ∧ s.epoch = e ∧ s.batchIndex = k) →
      Linked T e ls.flatten k ts.cDg ts.cState ts.cBlob d' s' bl' →
      ∃ ts', commitAll T ts ls = some ts' ∧ ts'.cDg = d' ∧ ts'.cState = s' ∧ ts'.cBlob = bl' ∧ ts'.yDg = ts.yDg ∧
        ts'.yState = ts.yState ∧ ts'.yBlob = ts.yBlob ∧ ts'.st = ts.st
  | [], k, ts, _, _, h => by
    obtain ⟨rfl, rfl, rfl⟩ := h
    exact ⟨ts, rfl, rfl, rfl, rfl, rfl, rfl, rfl, rfl⟩
  | l :: ls, k, ts, hne, hs, h => by
    rw [List.flatten_cons, Linked.append_iff] at h
    obtain ⟨d1, s1, bl1, h1, h2⟩ := h
    have hl := hne l (List.mem_cons_self ..)
    obtain ⟨s, hs1, hs2, hs3⟩ := hs
    have hchk := h1.check
    cases hh : l.head? with
    | none => simp at hh; exact absurd hh hl
    | some t0 =>
      cases hg : l.getLast? with
      | none => rw [List.getLast?_eq_none_iff] at hg; exact absurd hg hl
      | some tl =>
        obtain ⟨hst, a, ha1, ha2, ha3⟩ := Linked.last T e l tl k _ _ _ _ _ _ h1 hg
        have hpc : prepareCommit T ts l = some ⟨ts.cDg, d1, s1, bl1, l.length⟩ := by
          unfold prepareCommit
          rw [hh, hg]
          have hcp : commitPos ts t0 = ((e : Int), (k : Int)) := by unfold commitPos; rw [hs1]; simp only; rw [hs2, hs3]
          simp only [hcp]
          rw [hchk]
          simp only
          rw [hst]
        have hcm : commitPrepared T ts ⟨ts.cDg, d1, s1, bl1, l.length⟩ = ({ ts with cDg := d1, cBlob := bl1, cState := s1 }, false) := by
          unfold commitPrepared
          rw [if_neg (by simp), if_pos hres]
          rw [ha1]
        obtain ⟨ts', r1, r2, r3, r4, r5, r6, r7, r8⟩ := commitAll_linked hres e d' s' bl' ls (k + l.length)
          { ts with cDg := d1, cBlob := bl1, cState := s1 }
          (fun x hx => hne x (List.mem_cons_of_mem _ hx)) ⟨a, ha1, ha2, by rw [ha3]; push_cast; rfl⟩ h2
        refine ⟨ts', ?_, r2, r3, r4, r5, r6, r7, r8⟩
        rw [commitAll, hpc]
        simp only [hcm, Bool.false_eq_true, if_false]
        exact r1

/-- The blobs of a history decode. -/
theorem blob_inv (hcomp : ∀ c, T.composer = some c → ∀ data b bl data' bl', c.prep data b bl = some (data', bl') → c.valid bl' = true)
    (hinit : ∀ c, T.composer = some c → c.valid c.initial = true) {ts : TS σ κ ε Dg} {toks : List (Token κ ε Dg)}
    {prep : List (Prepared κ ε Dg × List (Token κ ε Dg))} {log : List (Batch ε)} {okay : Bool}
    (h : Hist T ts toks prep log okay) :
    blobOk T ts.yBlob = true ∧ blobOk T ts.cBlob = true ∧ ∀ c ∈ prep, blobOk T c.1.afterBlob = true := by
  induction h with
  | init =>
    have : blobOk T (blob0 T) = true := by
      unfold blobOk blob0
      cases hc : T.composer with
      | none => rfl
      | some c => exact hinit c hc
    exact ⟨this, this, by simp⟩
  | @issue ts toks prep log b t ts' _ hn ih =>
    unfold nextTxn at hn
    split at hn
    · simp at hn
    · simp at hn
    · simp only [Except.ok.injEq, Prod.mk.injEq] at hn; rw [← hn.2]; exact ih
  | @done ts toks prep log ts' _ hn ih =>
    unfold nextTxn at hn
    split at hn
    · simp at hn
    · simp only [Except.ok.injEq, Prod.mk.injEq] at hn; rw [← hn.2]; exact ih
    · simp at hn
  | fail st _ _ ih => exact ih
  | @pipeline ts toks prep log b t data data' t' ts' _ ht hn ih =>
    unfold preparePipeline at hn
    by_cases hbt : b = t.batch
    case neg => rw [if_pos hbt] at hn; simp at hn
    rw [if_neg (by simpa using hbt)] at hn
    cases hc : T.composer with
    | none =>
      rw [hc] at hn
      simp only [Option.some.injEq, Prod.mk.injEq] at hn
      rw [← hn.2.2]; exact ih
    | some c =>
      rw [hc] at hn
      simp only at hn
      by_cases hd : t.afterDg = ts.yDg
      case neg => rw [if_pos hd] at hn; simp at hn
      rw [if_neg (by simpa using hd)] at hn
      cases hpr : c.prep data b t.beforeBlob with
      | none => rw [hpr] at hn; simp at hn
      | some q =>
        obtain ⟨d2, blob⟩ := q
        rw [hpr] at hn
        simp only [Option.some.injEq, Prod.mk.injEq] at hn
        rw [← hn.2.2]
        refine ⟨?_, ih.2⟩
        show blobOk T blob = true
        unfold blobOk; rw [hc]; exact hcomp c hc _ _ _ _ _ hpr
  | @finalize ts toks prep log t b t' ts' _ ht hn ih =>
    unfold finalizeToken at hn
    split at hn
    · simp at hn
    split at hn
    · simp at hn
    simp only [Option.some.injEq, Prod.mk.injEq] at hn
    rw [← hn.2.2]; exact ih
  | @prepare ts toks prep log okay l c _ hl hc ih =>
    refine ⟨ih.1, ih.2.1, fun x hx => ?_⟩
    rcases List.mem_cons.mp hx with rfl | hx
    · have key : ∀ (l : List (Token κ ε Dg)) (e idx : Int) (d : Dg) (s : Option (Saved κ ε)) (bl : Blob) (r : Dg × Blob),
          blobOk T bl = true → checkTokens T e l idx d s bl = some r → blobOk T r.2 = true := by
        intro l
        induction l with
        | nil => intro e idx d s bl r hb h; simp only [checkTokens, Option.some.injEq] at h; rw [← h]; exact hb
        | cons t l ihl =>
          intro e idx d s bl r hb h
          rw [checkTokens] at h
          split at h
          · simp at h
          split at h
          · simp at h
          split at h
          · simp at h
          split at h
          · simp at h
          split at h
          · simp at h
          next hbo => exact ihl _ _ _ _ _ _ (by simpa using hbo) h
      unfold prepareCommit at hc
      cases hh : l.head? with
      | none => rw [hh] at hc; simp at hc
      | some t0 =>
        cases hg : l.getLast? with
        | none => rw [hh, hg] at hc; simp at hc
        | some tl =>
          rw [hh, hg] at hc
          simp only at hc
          cases hk : checkTokens T (commitPos ts t0).1 l (commitPos ts t0).2 ts.cDg ts.cState ts.cBlob with
          | none => rw [hk] at hc; simp at hc
          | some r =>
            rw [hk] at hc
            simp only [Option.some.injEq] at hc
            rw [← hc]
            exact key _ _ _ _ _ _ _ ih.2.1 hk
    · exact ih.2.2 x hx
  | @commit ts toks prep log okay c l ts' _ hc hcm ih =>
    have hb := ih.2.2 _ hc
    unfold commitPrepared at hcm
    by_cases hd : c.beforeDg = ts.cDg
    case neg => rw [if_pos hd] at hcm; simp at hcm
    rw [if_neg (by simpa using hd)] at hcm
    by_cases hr : T.resumable = true
    · rw [if_pos hr] at hcm
      cases ha : c.afterState with
      | none => rw [ha] at hcm; simp at hcm
      | some s =>
        rw [ha] at hcm
        simp only [Prod.mk.injEq, and_true] at hcm
        rw [← hcm]
        exact ⟨ih.1, hb, ih.2.2⟩
    · rw [if_neg hr] at hcm
      simp only [Prod.mk.injEq, and_true] at hcm
      rw [← hcm]
      exact ⟨ih.1, hb, ih.2.2⟩
  | @epoch ts toks prep log ts' _ hn ih =>
    unfold beginNextEpoch at hn
    split at hn
    · simp at hn
    split at hn
    · simp at hn
    simp only [Option.some.injEq] at hn
    rw [← hn]
    exact ⟨ih.2.1, ih.2⟩
  | @rollback ts toks prep log okay ts' _ hn ih =>
    unfold rollback at hn
    split at hn
    · simp at hn
    split at hn
    · simp at hn
    split at hn
    · simp at hn
    simp only [Option.some.injEq] at hn
    rw [← hn]
    exact ⟨ih.2.1, ih.2⟩

/-- **C30 (commits succeed).** Start anywhere with nothing outstanding (`y… = c…`, as after construction, a rollback, a
restore or an epoch change), issue any number of batches, run their pipelines, finalize the terminal one.  Committing the
outstanding tokens in order - in any grouping - succeeds and again nothing is outstanding. -/
theorem C30_outstanding_commit (S : Setup T ok rem eqv pos)
    (hcomp : ∀ c, T.composer = some c → ∀ data b bl data' bl', c.prep data b bl = some (data', bl') → c.valid bl' = true)
    (hinit : ∀ c, T.composer = some c → c.valid c.initial = true) {ts0 ts : TS σ κ ε Dg} {toks : List (Token κ ε Dg)}
    {prep : List (Prepared κ ε Dg × List (Token κ ε Dg))} {log : List (Batch ε)} (h : Hist T ts0 toks prep log true)
    (hsync : ts0.yState = ts0.cState ∧ ts0.yDg = ts0.cDg ∧ ts0.yBlob = ts0.cBlob) {l : List (Token κ ε Dg)}
    (ho : Outstanding T ts0 ts l) (ls : List (List (Token κ ε Dg))) (hls : ls.flatten = l) (hne : ∀ g ∈ ls, g ≠ []) :
    ∃ ts', commitAll T ts ls = some ts' ∧ ts'.yState = ts'.cState ∧ ts'.yDg = ts'.cDg ∧ ts'.yBlob = ts'.cBlob ∧
      ts'.st = ts.st := by
  have hi := S.inv h
  obtain ⟨n, u, lg, hp, hrr, hb, hy⟩ := hi.live rfl
  obtain ⟨m, w, lw, v, hpw, hrrw, _, hcs, _, hcd⟩ := hi.committed
  have oi := outInv S hcomp hb (blob_inv hcomp hinit h).1 ho
  subst hls
  have hpeq : (u.epoch, u.batchIndex) = (w.epoch, w.batchIndex) := by rw [← hy, ← hcd, hsync.2.1]
  simp only [Prod.mk.injEq] at hpeq
  have hl := oi.linked
  rw [hsync.1, hsync.2.1, hsync.2.2, ← oi.same.1, ← oi.same.2.1, ← oi.same.2.2] at hl
  obtain ⟨ts', r1, r2, r3, r4, r5, r6, r7, r8⟩ := commitAll_linked S.resumable _ _ _ _ ls ts0.st.batchIndex ts hne
    ⟨_, by rw [oi.same.1]; exact hcs, by
      simp only [save]; rw [← hrrw.epoch, ← hrr.epoch, hpeq.1], by simp only [save]; rw [← hrrw.index, ← hrr.index, hpeq.2]⟩ hl
  exact ⟨ts', r1, by rw [r6, r3], by rw [r5, r2], by rw [r7, r4], r8⟩

/-- **C30 (checkpoints).** Loading a checkpoint of the stream into a fresh planner gives exactly the planner that a
rollback gives. -/
theorem C30_checkpoint_is_rollback (S : Setup T ok rem eqv pos)
    (hcomp : ∀ c, T.composer = some c → ∀ data b bl data' bl', c.prep data b bl = some (data', bl') → c.valid bl' = true)
    (hinit : ∀ c, T.composer = some c → c.valid c.initial = true) {ts : TS σ κ ε Dg} {toks : List (Token κ ε Dg)}
    {prep : List (Prepared κ ε Dg × List (Token κ ε Dg))} {log : List (Batch ε)} {okay : Bool}
    (h : Hist T ts toks prep log okay) :
    ∃ d, stateDict T ts = some d ∧ loadStateDict T d = rollback T ts := by
  obtain ⟨n, u, l, v, _, _, _, hcs, _, _⟩ := (S.inv h).committed
  have hb := (blob_inv hcomp hinit h).2.1
  refine ⟨(save T.P T.sc v, ts.cDg, ts.cBlob), ?_, ?_⟩
  · unfold stateDict
    rw [if_neg (by simp [S.resumable]), hcs]
    rfl
  · unfold loadStateDict rollback
    rw [if_neg (by simp [hb]), if_neg (by simp [S.resumable]), hcs]

/-! ### The assumptions are met -/

/-- States of the uninterrupted stream are states of an epoch's run. -/
theorem Plain.run {P : Planner σ ε} {ok : σ → Prop} {rem : σ → List ε} (L : Records P.src ok rem) (hv : P.Valid) {n : Nat}
    {u : St σ ε} {l : List (Batch ε)} (h : Plain P n u l) :
    ∃ k bs fin, runEpoch P k (startEpoch P u.epoch) = .ok (bs, fin, u) ∧ (u.finished = false → fin = false) := by
  induction h with
  | start => exact ⟨0, [], false, rfl, fun _ => rfl⟩
  | @step n st log st' log' h1 hs ih =>
    obtain ⟨k, bs, fin, hr, hfin⟩ := ih
    unfold plainStep at hs
    cases hf : st.finished with
    | true =>
      rw [if_pos hf] at hs
      simp only [Except.ok.injEq, Prod.mk.injEq] at hs
      rw [← hs.1]
      exact ⟨0, [], false, rfl, fun _ => rfl⟩
    | false =>
      rw [if_neg (by simp [hf])] at hs
      rw [hfin hf] at hr
      have hsp := runEpoch_split P k 1 _ _ _ hr
      cases hn : nextBatch P st with
      | error e => rw [hn] at hs; simp at hs
      | ok q =>
        obtain ⟨ob, s1⟩ := q
        rw [hn] at hs
        obtain ⟨he, hc⟩ := next_cases L hv (h1.between L hv) hf hn
        cases ob with
        | none =>
          simp only [Except.ok.injEq, Prod.mk.injEq] at hs hc
          rw [← hs.1, he]
          refine ⟨k + 1, bs, true, ?_, fun h => by rw [hc.2] at h; simp at h⟩
          rw [hsp, runEpoch, hn]
          simp
        | some b =>
          simp only [Except.ok.injEq, Prod.mk.injEq] at hs
          rw [← hs.1, he]
          refine ⟨k + 1, bs ++ [b], false, ?_, fun _ => rfl⟩
          rw [hsp, runEpoch, hn]
          simp [runEpoch]

/-- `Setup.queue` holds as soon as every epoch's shapes fit into the shape queues. -/
theorem queue_of_fits {P : Planner σ ε} {ok : σ → Prop} {rem : σ → List ε} (L : Records P.src ok rem) (hv : P.Valid)
    (hfit : ∀ e, ∃ S, Fits P rem e S) {n : Nat} {u : St σ ε} {l : List (Batch ε)} (h : Plain P n u l) :
    nextBatch P u ≠ .error .queueLimit := by
  intro hq
  have hf : u.finished = false := by
    cases hf : u.finished with
    | false => rfl
    | true => unfold nextBatch at hq; rw [if_pos hf] at hq; simp at hq
  obtain ⟨k, bs, fin, hr, hfin⟩ := h.run L hv
  rw [hfin hf] at hr
  have hsp := runEpoch_split P k 1 _ _ _ hr
  have h1 : runEpoch P 1 u = .error .queueLimit := by rw [runEpoch, hq]
  rw [h1] at hsp
  have := runEpoch_error L hv (k + 1) [] (startEpoch P u.epoch) .queueLimit (good_start L hv _) (start_conserve P rem _)
    (fun S _ => by intro s hs; simp [startEpoch] at hs) hsp
  rcases this with h | ⟨h, _⟩ | ⟨_, h⟩
  · simp at h
  · simp at h
  · exact h (hfit _)

/-- The three-shape demo with digests that spell out positions and a pipeline that counts batches. -/
def demoT : TPlanner (List Nat) (List Nat) Nat Unit (Nat × Nat) where
  P := demo true false (some 5) fun e => List.range (20 + e)
  sc := id
  rc := some
  resumable := true
  initDg := fun e _ => (e, 0)
  tokDg := fun _ b _ => (b.epoch, b.index + 1)
  composer := some ⟨fun _ _ bl => some ((), List.replicate (bl.length + 1) 1), fun bl => bl.all (· == 1), []⟩

theorem demoT_setup : Setup demoT (fun _ => True) id Eq id where
  records := listSource_records _ _ _
  valid := demo_valid _ _ 5 (by omega) _ (by simp)
  resumable := rfl
  replays := ⟨listSource_resumable _ _ _, fun _ _ _ h h' => h.trans h', fun a b h _ => ⟨trivial, by rw [h]⟩⟩
  pos := ⟨fun _ _ => rfl, fun _ _ _ => rfl⟩
  queue := by
    intro n u l h
    refine queue_of_fits (listSource_records _ _ _) (demo_valid _ _ 5 (by omega) _ (by simp)) ?_ h
    intro e
    refine ⟨[0, 1, 2], fun y x _ => ?_, fun c hc => by simp [demoT, demo] at hc, fun _ => by simp [demoT, demo]⟩
    have : x % 3 < 3 := Nat.mod_lt _ (by omega)
    show x % 3 ∈ [0, 1, 2]
    simp
    omega

/-- A first batch is issued, its token committed in a group of its own. -/
example : ∃ b t ts ts', nextTxn demoT (init demoT) = .ok (some (b, t), ts) ∧ b.rows.length = 4 ∧
    Hist demoT ts [t] [] [] true ∧ commitAll demoT ts [[t]] = some ts' := by
  have h : (match nextTxn demoT (init demoT) with | .ok (some (b, _), _) => b.rows.length == 4 | _ => false) = true := by
    decide +kernel
  cases hn : nextTxn demoT (init demoT) with
  | error e => rw [hn] at h; simp at h
  | ok q =>
    obtain ⟨o, ts⟩ := q
    cases o with
    | none => rw [hn] at h; simp at h
    | some p =>
      obtain ⟨b, t⟩ := p
      rw [hn] at h
      have ho : Outstanding demoT (init demoT) ts [t] := Outstanding.issue .nil hn
      obtain ⟨ts', h1, _⟩ := C30_outstanding_commit demoT_setup
        (by
          intro c hc data b bl data' bl' hp
          simp only [demoT, Option.some.injEq] at hc
          subst hc
          simp only [Option.some.injEq, Prod.mk.injEq] at hp
          rw [← hp.2]
          simp)
        (by intro c hc; simp only [demoT, Option.some.injEq] at hc; rw [← hc]; rfl) .init ⟨rfl, rfl, rfl⟩ ho [[t]] rfl (by simp)
      exact ⟨b, t, ts, ts', rfl, by simpa using h, .issue .init hn, h1⟩

end Verif.Planner
