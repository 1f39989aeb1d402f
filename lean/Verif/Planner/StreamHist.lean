import Verif.Planner.Stream

/-! # The uninterrupted stream and histories of transactions -/
namespace Verif.Planner
open Verif.Reservoir (Res Snapshot SameButCache)

variable {σ κ ε δ Dg : Type}

/-! ### Specification -/

/-- One step of planning without transactions: the next batch, the end of the epoch, or the start of the next one. -/
def plainStep (P : Planner σ ε) (st : St σ ε) (log : List (Batch ε)) : Except Err (St σ ε × List (Batch ε)) :=
  if st.finished then .ok (startEpoch P (st.epoch + 1), log)
  else
    match nextBatch P st with
    | .error e => .error e
    | .ok (none, st') => .ok (st', log)
    | .ok (some b, st') => .ok (st', log ++ [b])

/-- `Plain P n st log`: planning from epoch 0 without interruption reaches `st` after `n` steps, having produced `log`. -/
inductive Plain (P : Planner σ ε) : Nat → St σ ε → List (Batch ε) → Prop
  | start : Plain P 0 (startEpoch P 0) []
  | step {n st log st' log'} : Plain P n st log → plainStep P st log = .ok (st', log') → Plain P (n + 1) st' log'

/-- A batch without its `is_last` flag, which `finalize_terminal_token` may set later. -/
def core (b : Batch ε) : List ε × List Bool × Nat × Nat := (b.rows, b.real, b.epoch, b.index)

/-- Histories of a planner.  `toks` are all tokens returned so far, `prep` all prepared commits with their tokens, `log`
the batches committed so far; `ok = false` after `next_batch` raised, when the planner may be left in any state until it
is rolled back (`SourceDataset.__iter__`, `source_dataset.py:278-295`, always does). -/
inductive Hist (T : TPlanner σ κ ε δ Dg) : TS σ κ ε Dg → List (Token κ ε Dg) → List (Prepared κ ε Dg × List (Token κ ε Dg)) →
    List (Batch ε) → Bool → Prop
  | init : Hist T (init T) [] [] [] true
  | issue {ts toks prep log b t ts'} : Hist T ts toks prep log true → nextTxn T ts = .ok (some (b, t), ts') →
      Hist T ts' (t :: toks) prep log true
  | done {ts toks prep log ts'} : Hist T ts toks prep log true → nextTxn T ts = .ok (none, ts') → Hist T ts' toks prep log true
  | fail {ts toks prep log e} (st : St σ ε) : Hist T ts toks prep log true → nextTxn T ts = .error e →
      Hist T { ts with st := st } toks prep log false
  | pipeline {ts toks prep log b t data data' t' ts'} : Hist T ts toks prep log true → t ∈ toks →
      preparePipeline T ts b t data = some (data', t', ts') → Hist T ts' (t' :: toks) prep log true
  | finalize {ts toks prep log t b t' ts'} : Hist T ts toks prep log true → t ∈ toks →
      finalizeToken T ts t = some (b, t', ts') → Hist T ts' (t' :: toks) prep log true
  | prepare {ts toks prep log ok l c} : Hist T ts toks prep log ok → (∀ t ∈ l, t ∈ toks) → prepareCommit T ts l = some c →
      Hist T ts toks ((c, l) :: prep) log ok
  | commit {ts toks prep log ok c l ts'} : Hist T ts toks prep log ok → (c, l) ∈ prep → commitPrepared T ts c = (ts', false) →
      Hist T ts' toks prep (log ++ l.map (·.batch)) ok
  | epoch {ts toks prep log ts'} : Hist T ts toks prep log true → beginNextEpoch T ts = some ts' → Hist T ts' toks prep log true
  | rollback {ts toks prep log ok ts'} : Hist T ts toks prep log ok → rollback T ts = some ts' → Hist T ts' toks prep log true

/-- Digests of different stream positions differ: `pos` recovers the position from a digest. -/
structure PosOf (T : TPlanner σ κ ε δ Dg) (pos : Dg → Nat × Nat) : Prop where
  init : ∀ e b, pos (T.initDg e b) = (e, 0)
  tok : ∀ d b bl, pos (T.tokDg d b bl) = (b.epoch, b.index + 1)

/-- Further laws of a resumable source: related cursors are usable alike and deliver the same records. -/
structure Replays (S : Source σ ε) (ok : σ → Prop) (rem : σ → List ε) (sc : σ → κ) (rc : κ → Option σ) (eqv : σ → σ → Prop) :
    Prop extends Resumable S ok sc rc eqv where
  trans : ∀ a b c, eqv a b → eqv b c → eqv a c
  same : ∀ a b, eqv a b → ok a → ok b ∧ rem b = rem a

/-! ### The plain stream is a chain -/

section
variable {P : Planner σ ε} {ok : σ → Prop} {rem : σ → List ε}

theorem Plain.between (L : Records P.src ok rem) (hv : P.Valid) {n : Nat} {st : St σ ε} {log : List (Batch ε)}
    (h : Plain P n st log) : Between P ok rem st := by
  induction h with
  | start => exact Or.inl ⟨rfl, good_start L hv 0⟩
  | @step n st log st' log' _ hs ih =>
    unfold plainStep at hs
    split at hs
    · simp only [Except.ok.injEq, Prod.mk.injEq] at hs
      rw [← hs.1]
      exact Or.inl ⟨rfl, good_start L hv _⟩
    · cases hn : nextBatch P st with
      | error e => rw [hn] at hs; simp at hs
      | ok q =>
        obtain ⟨ob, s1⟩ := q
        rw [hn] at hs
        have hb := nextBatch_between L hv ih hn
        cases ob with
        | none => simp only [Except.ok.injEq, Prod.mk.injEq] at hs; rw [← hs.1]; exact hb
        | some b => simp only [Except.ok.injEq, Prod.mk.injEq] at hs; rw [← hs.1]; exact hb

/-- Lexicographic order of stream positions. -/
def Before (a b : St σ ε) : Prop :=
  a.epoch < b.epoch ∨ (a.epoch = b.epoch ∧ (a.batchIndex < b.batchIndex ∨
    (a.batchIndex = b.batchIndex ∧ a.finished = false ∧ b.finished = true)))

theorem Before.trans {a b c : St σ ε} (h : Before a b) (h' : Before b c) : Before a c := by
  unfold Before at *
  rcases h with h | ⟨h1, h2 | ⟨h2, h3, h4⟩⟩ <;> rcases h' with h' | ⟨h1', h2' | ⟨h2', h3', h4'⟩⟩
  · left; omega
  · left; omega
  · left; omega
  · left; omega
  · right; exact ⟨by omega, Or.inl (by omega)⟩
  · right; exact ⟨by omega, Or.inl (by omega)⟩
  · left; omega
  · right; exact ⟨by omega, Or.inl (by omega)⟩
  · rw [h3'] at h4; simp at h4

/-- What one call of `next_batch` does to an unfinished planner. -/
theorem next_cases (L : Records P.src ok rem) (hv : P.Valid) {st : St σ ε} (hb : Between P ok rem st)
    (hf : st.finished = false) {ob : Option (Batch ε)} {st' : St σ ε} (h : nextBatch P st = .ok (ob, st')) :
    st'.epoch = st.epoch ∧ match ob with
      | some b => st'.batchIndex = st.batchIndex + 1 ∧ b.epoch = st.epoch ∧ b.index = st.batchIndex
      | none => st'.batchIndex = st.batchIndex ∧ st'.finished = true := by
  have g : Good P ok rem st := by
    rcases hb with ⟨_, g⟩ | ⟨h, _⟩
    · exact g
    · rw [hf] at h; simp at h
  have hs := nextBatch_spec L hv g
  rw [h] at hs
  cases ob with
  | none =>
    have hs : AfterEnd P rem [] st st' := hs
    exact ⟨hs.ident.1, hs.ident.2.1, hs.finished⟩
  | some b =>
    have hs : AfterBatch P ok rem [] st b st' := hs
    exact ⟨hs.ident.2.2.1, hs.ident.2.2.2, hs.ident.1, hs.ident.2.1⟩

theorem plainStep_before (L : Records P.src ok rem) (hv : P.Valid) {st : St σ ε} (hb : Between P ok rem st)
    {log : List (Batch ε)} {st' : St σ ε} {log' : List (Batch ε)} (h : plainStep P st log = .ok (st', log')) : Before st st' := by
  unfold plainStep at h
  cases hf : st.finished with
  | true =>
    rw [hf] at h
    simp only [if_true, Except.ok.injEq, Prod.mk.injEq] at h
    rw [← h.1]
    left
    show st.epoch < st.epoch + 1
    omega
  | false =>
    rw [hf] at h
    simp only [Bool.false_eq_true, if_false] at h
    cases hn : nextBatch P st with
    | error e => rw [hn] at h; simp at h
    | ok q =>
      obtain ⟨ob, s1⟩ := q
      rw [hn] at h
      obtain ⟨he, hc⟩ := next_cases L hv hb hf hn
      cases ob with
      | none =>
        simp only [Except.ok.injEq, Prod.mk.injEq] at h hc
        rw [← h.1]
        exact Or.inr ⟨he.symm, Or.inr ⟨hc.1.symm, hf, hc.2⟩⟩
      | some b =>
        simp only [Except.ok.injEq, Prod.mk.injEq] at h hc
        rw [← h.1]
        exact Or.inr ⟨he.symm, Or.inl (by omega)⟩

theorem Plain.det {n : Nat} {a b : St σ ε} {la lb : List (Batch ε)} (h : Plain P n a la) (h' : Plain P n b lb) :
    a = b ∧ la = lb := by
  induction n generalizing a b la lb with
  | zero => cases h; cases h'; exact ⟨rfl, rfl⟩
  | succ n ih =>
    cases h with
    | step h1 hs =>
      cases h' with
      | step h1' hs' =>
        obtain ⟨rfl, rfl⟩ := ih h1 h1'
        rw [hs] at hs'
        simp only [Except.ok.injEq, Prod.mk.injEq] at hs'
        exact hs'

theorem Plain.before (L : Records P.src ok rem) (hv : P.Valid) {m n : Nat} {a b : St σ ε} {la lb : List (Batch ε)}
    (h : Plain P m a la) (h' : Plain P n b lb) (hmn : m < n) : Before a b := by
  induction h' with
  | start => omega
  | @step n st log st' log' h1 hs ih =>
    have hst := plainStep_before L hv (h1.between L hv) hs
    by_cases hm : m = n
    · subst hm
      obtain ⟨rfl, rfl⟩ := Plain.det h h1
      exact hst
    · exact (ih (by omega)).trans hst

/-- Two stream states at the same position: equal, or one is the end of the epoch reached from the other. -/
theorem Plain.same_pos (L : Records P.src ok rem) (hv : P.Valid) {m n : Nat} {a b : St σ ε} {la lb : List (Batch ε)}
    (h : Plain P m a la) (h' : Plain P n b lb) (he : a.epoch = b.epoch) (hi : a.batchIndex = b.batchIndex) :
    (m = n ∧ a = b ∧ la = lb) ∨
      (n = m + 1 ∧ a.finished = false ∧ b.finished = true ∧ nextBatch P a = .ok (none, b) ∧ lb = la) ∨
      (m = n + 1 ∧ b.finished = false ∧ a.finished = true ∧ nextBatch P b = .ok (none, a) ∧ la = lb) := by
  have key : ∀ {m n : Nat} {a b : St σ ε} {la lb : List (Batch ε)}, Plain P m a la → Plain P n b lb → a.epoch = b.epoch →
      a.batchIndex = b.batchIndex → m < n →
      n = m + 1 ∧ a.finished = false ∧ b.finished = true ∧ nextBatch P a = .ok (none, b) ∧ lb = la := by
    clear h h' he hi
    intro m n a b la lb h h' he hi hmn
    have hab := h.before L hv h' hmn
    have hfa : a.finished = false ∧ b.finished = true := by
      unfold Before at hab
      rcases hab with hab | ⟨_, hab | ⟨_, h3, h4⟩⟩
      · omega
      · omega
      · exact ⟨h3, h4⟩
    -- the successor of `a`
    have hsucc : ∃ c lc, Plain P (m + 1) c lc := by
      clear he hi hab hfa
      induction h' with
      | start => omega
      | @step n st log st' log' h1 hs ih =>
        by_cases hm : m = n
        · subst hm; exact ⟨_, _, .step h1 hs⟩
        · exact ih (by omega)
    obtain ⟨c, lc, hc⟩ := hsucc
    have hstep : plainStep P a la = .ok (c, lc) := by
      cases hc with
      | step h1 hs =>
        obtain ⟨rfl, rfl⟩ := Plain.det h h1
        exact hs
    have hcb : m + 1 = n ∨ Before c b := by
      by_cases hm : m + 1 = n
      · exact Or.inl hm
      · exact Or.inr (hc.before L hv h' (by omega))
    unfold plainStep at hstep
    rw [hfa.1] at hstep
    simp only [Bool.false_eq_true, if_false] at hstep
    cases hn : nextBatch P a with
    | error e => rw [hn] at hstep; simp at hstep
    | ok q =>
      obtain ⟨ob, s1⟩ := q
      rw [hn] at hstep
      obtain ⟨he1, hc1⟩ := next_cases L hv (h.between L hv) hfa.1 hn
      cases ob with
      | some bt =>
        simp only [Except.ok.injEq, Prod.mk.injEq] at hstep hc1
        obtain ⟨rfl, _⟩ := hstep
        rcases hcb with hcb | hcb
        · subst hcb
          obtain ⟨rfl, _⟩ := Plain.det hc h'
          omega
        · unfold Before at hcb
          omega
      | none =>
        simp only [Except.ok.injEq, Prod.mk.injEq] at hstep hc1
        obtain ⟨rfl, rfl⟩ := hstep
        rcases hcb with hcb | hcb
        · subst hcb
          obtain ⟨rfl, rfl⟩ := Plain.det hc h'
          exact ⟨rfl, hfa.1, hfa.2, rfl, rfl⟩
        · unfold Before at hcb
          rcases hcb with hcb | ⟨_, hcb | ⟨_, h3, _⟩⟩
          · omega
          · omega
          · rw [hc1.2] at h3; simp at h3
  rcases Nat.lt_trichotomy m n with hmn | hmn | hmn
  · exact Or.inr (Or.inl (key h h' he hi hmn))
  · subst hmn
    obtain ⟨rfl, rfl⟩ := Plain.det h h'
    exact Or.inl ⟨rfl, rfl, rfl⟩
  · exact Or.inr (Or.inr (key h' h he.symm hi.symm hmn))

end

/-! ### Replayed states -/

theorem SameButCache.trans {a b c : Res ε} (h : SameButCache a b) (h' : SameButCache b c) : SameButCache a c := Eq.trans h h'

theorem QRel.trans {a b c : List (Nat × List ε)} (h : QRel a b) (h' : QRel b c) : QRel a c :=
  ⟨h.nd, h'.nd', fun s => (h.same s).trans (h'.same s), fun s hs => h'.sub s (h.sub s hs)⟩

theorem RR.trans {eqv : σ → σ → Prop} (ht : ∀ a b c, eqv a b → eqv b c → eqv a c) {a b c : St σ ε} (h : RR eqv a b)
    (h' : RR eqv b c) : RR eqv a c :=
  ⟨h.epoch.trans h'.epoch, h.index.trans h'.index, h.cycle.trans h'.cycle, ht _ _ _ h.cursor h'.cursor,
    SameButCache.trans h.res h'.res, h.ready.trans h'.ready, h.queues.trans h'.queues, h.exhausted.trans h'.exhausted,
    h.finished.trans h'.finished⟩

section
variable {P : Planner σ ε} {ok : σ → Prop} {rem : σ → List ε}

theorem Between.keys {st : St σ ε} (hb : Between P ok rem st) : (st.queues.map (·.1)).Nodup := by
  rcases hb with ⟨_, g⟩ | ⟨_, f⟩
  · exact g.keys
  · exact f.keys

theorem Between.limit {st : St σ ε} (hb : Between P ok rem st) : st.queues.length ≤ P.cfg.maxQueues := by
  rcases hb with ⟨_, g⟩ | ⟨_, f⟩
  · exact g.limit
  · exact f.limit

theorem Between.inv {st : St σ ε} (hb : Between P ok rem st) : Reservoir.Inv (resCfg P st.epoch st.cycle) st.res := by
  rcases hb with ⟨_, g⟩ | ⟨_, f⟩
  · exact g.core.inv
  · exact f.inv

theorem RR.refl {eqv : σ → σ → Prop} (hr : ∀ s, eqv s s) {st : St σ ε} (hk : (st.queues.map (·.1)).Nodup) : RR eqv st st :=
  ⟨rfl, rfl, rfl, hr _, rfl, rfl, QRel.refl hk, rfl, rfl⟩

/-- Changing the reservoir's cached snapshot to the current one. -/
theorem Inv.recache {c : Reservoir.Cfg} {r : Res ε} (hi : Reservoir.Inv c r) (r' : Res ε)
    (h : r' = { r with cache := some (Reservoir.snapshot c r) }) : Reservoir.Inv c r' := by
  subst h
  exact ⟨hi.len, hi.cap, hi.nonneg, hi.res, hi.bytes, hi.count, hi.closed, hi.counter, hi.peak, hi.peakB, Or.inr rfl⟩

theorem Between.replace {eqv : σ → σ → Prop} (hsame : ∀ a b, eqv a b → ok a → ok b ∧ rem b = rem a) {st w : St σ ε}
    (hb : Between P ok rem st) (h : RR eqv st w) (hi : Reservoir.Inv (resCfg P w.epoch w.cycle) w.res)
    (hlen : w.queues.length ≤ P.cfg.maxQueues) (hsub : ∀ p ∈ w.queues, p ∈ st.queues) : Between P ok rem w := by
  rcases hb with ⟨hf, g⟩ | ⟨hf, f⟩
  · refine Or.inl ⟨by rw [← h.finished]; exact hf, ⟨⟨hi, ?_, ?_, ?_, ?_⟩, by rw [← h.finished]; exact hf, h.queues.nd', ?_, ?_, hlen,
      ?_, ?_⟩⟩
    · rw [← h.exhausted, g.core.closed]; exact SameButCache.closed h.res
    · intro he
      rw [(hsame _ _ h.cursor g.core.ok).2]
      exact g.core.done (by rw [h.exhausted]; exact he)
    · exact (hsame _ _ h.cursor g.core.ok).1
    · rw [(hsame _ _ h.cursor g.core.ok).2, ← h.epoch, ← h.cycle, ← SameButCache.offered h.res]
      exact g.core.count
    · exact fun p hp => g.shapes p (hsub p hp)
    · exact fun p hp => g.short p (hsub p hp)
    · intro hu
      have := g.uniform hu
      rw [List.eq_nil_iff_forall_not_mem]
      intro p hp
      have := hsub p hp
      simp_all
    · intro n hn; rw [← h.index]; exact g.budget n hn
  · refine Or.inr ⟨by rw [← h.finished]; exact hf, ⟨hi, ?_, ?_, ?_, ?_, h.queues.nd', hlen, ?_, ?_⟩⟩
    · rw [← SameButCache.closed h.res]; exact f.closed
    · rw [← h.exhausted]; exact f.exhausted
    · rw [← h.ready]; exact f.ready
    · exact fun p hp => f.queues p (hsub p hp)
    · exact (hsame _ _ h.cursor f.cursor).1
    · intro n hn; rw [← h.index]; exact f.budget n hn

theorem snap_eq {st : St σ ε} (hb : Between P ok rem st) :
    snap P st = { st with res := { st.res with cache := some (Reservoir.snapshot (resCfg P st.epoch st.cycle) st.res) } } := by
  unfold snap Reservoir.state
  rcases hb.inv.cache with h | h
  · rw [h]
  · rw [h]
    simp only
    rw [← h]

theorem snap_rr {eqv : σ → σ → Prop} (hr : ∀ s, eqv s s) {st : St σ ε} (hb : Between P ok rem st) : RR eqv st (snap P st) := by
  rw [snap_eq hb]
  exact ⟨rfl, rfl, rfl, hr _, rfl, rfl, QRel.refl hb.keys, rfl, rfl⟩

theorem snap_between {eqv : σ → σ → Prop} (hr : ∀ s, eqv s s) (hsame : ∀ a b, eqv a b → ok a → ok b ∧ rem b = rem a)
    {st : St σ ε} (hb : Between P ok rem st) : Between P ok rem (snap P st) := by
  refine hb.replace hsame (snap_rr hr hb) ?_ ?_ ?_
  · rw [snap_eq hb]
    exact Inv.recache hb.inv _ rfl
  · rw [snap_eq hb]; exact hb.limit
  · rw [snap_eq hb]; exact fun p hp => hp

/-- A restored snapshot of a good state. -/
theorem restore_rr {sc : σ → κ} {rc : κ → Option σ} {eqv : σ → σ → Prop} (R : Replays P.src ok rem sc rc eqv) {v w : St σ ε}
    (hb : Between P ok rem v) (h : restore P rc (save P sc v) = some w) : RR eqv v w ∧ Between P ok rem w := by
  have hk : v.res.rngCounter < 2 ^ 63 := by
    unfold restore at h
    split at h
    · cases hc : rc (save P sc v).cursor with
      | none => rw [hc] at h; simp at h
      | some c =>
        rw [hc] at h
        simp only [Option.bind_eq_bind, Option.bind_some] at h
        cases hr : Reservoir.restore (resCfg P (save P sc v).epoch.toNat (save P sc v).cycle.toNat) (save P sc v).res with
        | none => rw [hr] at h; simp at h
        | some r =>
          unfold Reservoir.restore at hr
          split at hr
          · next hok =>
            have h1 := hok.2.2.2.2.2.2.2.2.2.2.1.2
            have h2 : (save P sc v).res = Reservoir.snapshot (resCfg P v.epoch v.cycle) v.res := state_snapshot hb.inv
            rw [h2] at h1
            have h4 : (v.res.rngCounter : Int) < 2 ^ 63 := h1
            exact_mod_cast h4
          · simp at hr
    · simp at h
  obtain ⟨c', _, h2, h3⟩ := restore_save R.toResumable hb hk
  rw [h3] at h
  simp only [Option.some.injEq] at h
  subst h
  have hrr : RR eqv v ⟨v.epoch, v.batchIndex, v.cycle, c',
        { v.res with cache := some (Reservoir.snapshot (resCfg P v.epoch v.cycle) v.res) }, v.ready,
        (sortShapes v.queues).filter fun p => !p.2.isEmpty, v.exhausted, v.finished⟩ :=
    ⟨rfl, rfl, rfl, h2, rfl, rfl, QRel.saved hb.keys, rfl, rfl⟩
  refine ⟨hrr, hb.replace R.same hrr (Inv.recache hb.inv _ rfl) ?_ ?_⟩
  · exact ((List.length_filter_le _ _).trans (sortShapes_perm _).length_eq.le).trans hb.limit
  · intro p hp
    exact (sortShapes_perm _).subset (List.mem_filter.mp hp).1

/-- `next_batch` of a replayed state follows the plain stream. -/
theorem next_replay {sc : σ → κ} {rc : κ → Option σ} {eqv : σ → σ → Prop} (R : Replays P.src ok rem sc rc eqv) {u v : St σ ε}
    (hu : Between P ok rem u) (h : RR eqv u v) (hq : nextBatch P u ≠ .error .queueLimit) {ob : Option (Batch ε)}
    {v' : St σ ε} (hn : nextBatch P v = .ok (ob, v')) : ∃ u', nextBatch P u = .ok (ob, u') ∧ RR eqv u' v' := by
  have hr := nextBatch_rr R.toResumable h hu.limit
  cases hnu : nextBatch P u with
  | error e =>
    rw [hnu, hn] at hr
    rcases hr with rfl | hr
    · exact absurd hnu hq
    · simp at hr
  | ok q =>
    rw [hnu, hn] at hr
    obtain ⟨h1, h2⟩ := hr
    exact ⟨q.2, by simp only at h1; rw [← h1], h2⟩

end

end Verif.Planner
