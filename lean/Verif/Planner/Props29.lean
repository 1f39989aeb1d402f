import Verif.Planner.Finished
import Verif.Planner.Props

/-! # C29: a planner restored from its snapshot continues the stream -/
namespace Verif.Planner
open Verif.Reservoir (Res Snapshot SameButCache)

variable {σ κ ε : Type}

theorem state_snapshot {c : Reservoir.Cfg} {r : Res ε} (hi : Reservoir.Inv c r) :
    (Reservoir.state c r).2 = Reservoir.snapshot c r := by
  unfold Reservoir.state
  rcases hi.cache with h | h <;> rw [h]

theorem restore_save {P : Planner σ ε} {ok : σ → Prop} {rem : σ → List ε} {sc : σ → κ} {rc : κ → Option σ}
    {eqv : σ → σ → Prop} (S : Resumable P.src ok sc rc eqv) {st : St σ ε} (hb : Between P ok rem st)
    (hk : st.res.rngCounter < 2 ^ 63) :
    ∃ c', rc (sc st.cursor) = some c' ∧ eqv st.cursor c' ∧
      restore P rc (save P sc st) = some ⟨st.epoch, st.batchIndex, st.cycle, c',
        { st.res with cache := some (Reservoir.snapshot (resCfg P st.epoch st.cycle) st.res) }, st.ready,
        (sortShapes st.queues).filter fun p => !p.2.isEmpty, st.exhausted, st.finished⟩ := by
  have hinv : Reservoir.Inv (resCfg P st.epoch st.cycle) st.res := by
    rcases hb with ⟨_, g⟩ | ⟨_, f⟩
    · exact g.core.inv
    · exact f.inv
  have hok : ok st.cursor := by
    rcases hb with ⟨_, g⟩ | ⟨_, f⟩
    · exact g.core.ok
    · exact f.cursor
  have hkeys : (st.queues.map (·.1)).Nodup := by
    rcases hb with ⟨_, g⟩ | ⟨_, f⟩
    · exact g.keys
    · exact f.keys
  have hlim : st.queues.length ≤ P.cfg.maxQueues := by
    rcases hb with ⟨_, g⟩ | ⟨_, f⟩
    · exact g.limit
    · exact f.limit
  have hmem : ∀ p ∈ (sortShapes st.queues).filter fun p => !p.2.isEmpty, p ∈ st.queues ∧ p.2 ≠ [] := by
    intro p hp
    obtain ⟨h1, h2⟩ := List.mem_filter.mp hp
    exact ⟨(sortShapes_perm _).subset h1, by simpa using h2⟩
  have hlen : ((sortShapes st.queues).filter fun p => !p.2.isEmpty).length ≤ st.queues.length :=
    (List.length_filter_le _ _).trans (sortShapes_perm _).length_eq.le
  have hq := QRel.saved hkeys
  have hclosed : st.exhausted = (Reservoir.state (resCfg P st.epoch st.cycle) st.res).2.closed := by
    rw [state_snapshot hinv]
    rcases hb with ⟨_, g⟩ | ⟨_, f⟩
    · exact g.core.closed
    · rw [f.exhausted]; exact f.closed.symm
  have hro : restoreOk P (save P sc st) := by
    refine ⟨rfl, rfl, Int.natCast_nonneg _, ?_, hclosed, ?_, hlen.trans hlim, hq.nd', ?_, ?_, Int.natCast_nonneg _,
      Int.natCast_nonneg _⟩
    · intro n hn
      rcases hb with ⟨_, g⟩ | ⟨hf, f⟩
      · have := g.budget n hn
        constructor
        · simp only [save]; omega
        · simp only [save]; omega
      · have := f.budget n hn
        exact ⟨by simp only [save]; omega, fun _ => hf⟩
    · intro hf
      rcases hb with ⟨h, _⟩ | ⟨_, f⟩
      · have : st.finished = true := hf
        rw [h] at this; simp at this
      · refine ⟨f.exhausted, f.ready, ?_⟩
        rw [List.eq_nil_iff_forall_not_mem]
        intro p hp
        obtain ⟨h1, h2⟩ := hmem p hp
        exact h2 (f.queues p h1)
    · intro p hp
      obtain ⟨h1, h2⟩ := hmem p hp
      refine ⟨h2, ?_⟩
      rcases hb with ⟨_, g⟩ | ⟨_, f⟩
      · exact g.short p h1
      · exact absurd (f.queues p h1) h2
    · intro p hp
      obtain ⟨h1, h2⟩ := hmem p hp
      rcases hb with ⟨_, g⟩ | ⟨_, f⟩
      · exact g.shapes p h1
      · exact absurd (f.queues p h1) h2
  obtain ⟨c', h1, h2⟩ := S.restore st.cursor hok
  refine ⟨c', h1, h2, ?_⟩
  unfold restore
  rw [if_pos hro]
  simp only [save, h1, state_snapshot hinv, Int.toNat_natCast, Reservoir.restore_snapshot hinv hk, Option.bind_eq_bind,
    Option.bind_some]

/-- Runs of related states. -/
theorem run_rr {P : Planner σ ε} {ok : σ → Prop} {rem : σ → List ε} (L : Records P.src ok rem) (hv : P.Valid) {sc : σ → κ}
    {rc : κ → Option σ} {eqv : σ → σ → Prop} (S : Resumable P.src ok sc rc eqv) : ∀ (n : Nat) (a b : St σ ε), RR eqv a b →
      Between P ok rem a →
      match runEpoch P n a with
      | .ok (bs, fin, _) => ∃ b', runEpoch P n b = .ok (bs, fin, b')
      | .error e => e = .queueLimit ∨ runEpoch P n b = .error e
  | 0, a, b, _, _ => ⟨b, rfl⟩
  | n + 1, a, b, h, hb => by
    have hmax : a.queues.length ≤ P.cfg.maxQueues := by
      rcases hb with ⟨_, g⟩ | ⟨_, f⟩
      · exact g.limit
      · exact f.limit
    have hn := nextBatch_rr S h hmax
    rw [runEpoch, runEpoch]
    cases h1 : nextBatch P a with
    | error e =>
      rw [h1] at hn
      rcases hn with hn | hn
      · exact Or.inl hn
      · rw [hn]; exact Or.inr rfl
    | ok q =>
      obtain ⟨ob, a1⟩ := q
      rw [h1] at hn
      cases h2 : nextBatch P b with
      | error e => rw [h2] at hn; exact absurd hn id
      | ok q' =>
        obtain ⟨ob', b1⟩ := q'
        rw [h2] at hn
        obtain ⟨h3, h4⟩ := hn
        simp only at h3 h4
        subst h3
        have hb1 := nextBatch_between L hv hb h1
        cases ob with
        | none => exact ⟨b1, rfl⟩
        | some x =>
          simp only
          have ih := run_rr L hv S n a1 b1 h4 hb1
          cases hr : runEpoch P n a1 with
          | error e =>
            rw [hr] at ih
            simp only at ih ⊢
            rcases ih with ih | ih
            · exact Or.inl ih
            · rw [ih]; exact Or.inr rfl
          | ok q =>
            obtain ⟨bs, fin, a2⟩ := q
            rw [hr] at ih
            obtain ⟨b2, hb2⟩ := ih
            simp only
            rw [hb2]
            exact ⟨b2, rfl⟩

theorem runEpoch_split (P : Planner σ ε) : ∀ (k n : Nat) (st : St σ ε) (bs0 : List (Batch ε)) (st1 : St σ ε),
    runEpoch P k st = .ok (bs0, false, st1) →
    runEpoch P (k + n) st = match runEpoch P n st1 with
      | .ok (bs, fin, st2) => .ok (bs0 ++ bs, fin, st2)
      | .error e => .error e
  | 0, n, st, bs0, st1, h => by
    simp only [runEpoch, Except.ok.injEq, Prod.mk.injEq, true_and] at h
    obtain ⟨rfl, rfl⟩ := h
    rw [Nat.zero_add]
    cases runEpoch P n st with
    | error e => rfl
    | ok q => rfl
  | k + 1, n, st, bs0, st1, h => by
    rw [show k + 1 + n = (k + n) + 1 by omega, runEpoch]
    rw [runEpoch] at h
    cases hn : nextBatch P st with
    | error e => rw [hn] at h; simp at h
    | ok q =>
      obtain ⟨ob, s1⟩ := q
      rw [hn] at h
      cases ob with
      | none => simp at h
      | some b =>
        simp only at h ⊢
        cases hr : runEpoch P k s1 with
        | error e => rw [hr] at h; simp at h
        | ok q =>
          obtain ⟨bs, fin, s2⟩ := q
          rw [hr] at h
          simp only [Except.ok.injEq, Prod.mk.injEq] at h
          obtain ⟨rfl, rfl, rfl⟩ := h
          rw [runEpoch_split P k n s1 bs s2 hr]
          cases runEpoch P n s2 with
          | error e => rfl
          | ok q => rfl

/-- **C29.** Take `k` batches of an epoch, save the planner, and restore the snapshot into a fresh planner: the snapshot is
accepted, and the restored planner produces the remaining batches of the uninterrupted run - all of them, in order, with
equal rows, flags and indices, and the same end.  `eqv` only says that restored source cursors behave like the saved ones
(C18).  Nothing is claimed about an uninterrupted run that raises (see `C29_errors`). -/
theorem C29_resume_exact (P : Planner σ ε) (ok : σ → Prop) (rem : σ → List ε) (L : Records P.src ok rem) (hv : P.Valid)
    (sc : σ → κ) (rc : κ → Option σ) (eqv : σ → σ → Prop) (S : Resumable P.src ok sc rc eqv) (epoch k n : Nat)
    (bs0 : List (Batch ε)) (st : St σ ε) (h0 : runEpoch P k (startEpoch P epoch) = .ok (bs0, false, st))
    (hk : st.res.rngCounter < 2 ^ 63) (bs : List (Batch ε)) (fin : Bool) (st2 : St σ ε)
    (h : runEpoch P (k + n) (startEpoch P epoch) = .ok (bs, fin, st2)) :
    ∃ st' rest, restore P rc (save P sc st) = some st' ∧ (∃ e, runEpoch P n st' = .ok (rest, fin, e)) ∧ bs = bs0 ++ rest := by
  have hb : Between P ok rem st :=
    runEpoch_between L hv k _ _ (Or.inl ⟨rfl, good_start L hv epoch⟩) h0
  obtain ⟨c', _, h2, h3⟩ := restore_save S hb hk
  rw [runEpoch_split P k n _ _ _ h0] at h
  have hkeys : (st.queues.map (·.1)).Nodup := by
    rcases hb with ⟨_, g⟩ | ⟨_, f⟩
    · exact g.keys
    · exact f.keys
  have hrr := run_rr L hv S n st (⟨st.epoch, st.batchIndex, st.cycle, c',
        { st.res with cache := some (Reservoir.snapshot (resCfg P st.epoch st.cycle) st.res) }, st.ready,
        (sortShapes st.queues).filter fun p => !p.2.isEmpty, st.exhausted, st.finished⟩)
    ⟨rfl, rfl, rfl, h2, rfl, rfl, QRel.saved hkeys, rfl, rfl⟩ hb
  cases hr : runEpoch P n st with
  | error e => rw [hr] at h; simp at h
  | ok q =>
    obtain ⟨rest, fin', st3⟩ := q
    rw [hr] at h hrr
    simp only [Except.ok.injEq, Prod.mk.injEq] at h
    obtain ⟨rfl, rfl, rfl⟩ := h
    exact ⟨_, rest, h3, hrr, rfl⟩

/-- **C29 (exceptions).** If the uninterrupted planner raises after `st`, the restored one raises the same exception -
except that the limit on shape queues may be hit by the uninterrupted planner only. -/
theorem C29_errors (P : Planner σ ε) (ok : σ → Prop) (rem : σ → List ε) (L : Records P.src ok rem) (hv : P.Valid)
    (sc : σ → κ) (rc : κ → Option σ) (eqv : σ → σ → Prop) (S : Resumable P.src ok sc rc eqv) (epoch k n : Nat)
    (bs0 : List (Batch ε)) (fin0 : Bool) (st : St σ ε) (h0 : runEpoch P k (startEpoch P epoch) = .ok (bs0, fin0, st))
    (hk : st.res.rngCounter < 2 ^ 63) (e : Err) (h : runEpoch P n st = .error e) :
    ∃ st', restore P rc (save P sc st) = some st' ∧ (e = .queueLimit ∨ runEpoch P n st' = .error e) := by
  have hb : Between P ok rem st :=
    runEpoch_between L hv k _ _ (Or.inl ⟨rfl, good_start L hv epoch⟩) h0
  obtain ⟨c', _, h2, h3⟩ := restore_save S hb hk
  have hkeys : (st.queues.map (·.1)).Nodup := by
    rcases hb with ⟨_, g⟩ | ⟨_, f⟩
    · exact g.keys
    · exact f.keys
  have hrr := run_rr L hv S n st (⟨st.epoch, st.batchIndex, st.cycle, c',
        { st.res with cache := some (Reservoir.snapshot (resCfg P st.epoch st.cycle) st.res) }, st.ready,
        (sortShapes st.queues).filter fun p => !p.2.isEmpty, st.exhausted, st.finished⟩)
    ⟨rfl, rfl, rfl, h2, rfl, rfl, QRel.saved hkeys, rfl, rfl⟩ hb
  rw [h] at hrr
  exact ⟨_, h3, hrr⟩

/-- **C29 (finished epochs).** A snapshot taken at the end of an epoch restores to a finished planner. -/
theorem C29_finished (P : Planner σ ε) (ok : σ → Prop) (rem : σ → List ε) (L : Records P.src ok rem) (hv : P.Valid)
    (sc : σ → κ) (rc : κ → Option σ) (eqv : σ → σ → Prop) (S : Resumable P.src ok sc rc eqv) (epoch k : Nat)
    (bs0 : List (Batch ε)) (st : St σ ε) (h0 : runEpoch P k (startEpoch P epoch) = .ok (bs0, true, st))
    (hk : st.res.rngCounter < 2 ^ 63) :
    ∃ st', restore P rc (save P sc st) = some st' ∧ nextBatch P st' = .ok (none, st') := by
  have hb : Between P ok rem st :=
    runEpoch_between L hv k _ _ (Or.inl ⟨rfl, good_start L hv epoch⟩) h0
  have hfin : st.finished = true := by
    have : ∀ (k : Nat) (s : St σ ε) (bs : List (Batch ε)) (s' : St σ ε), Between P ok rem s →
        runEpoch P k s = .ok (bs, true, s') → s'.finished = true := by
      intro k
      induction k with
      | zero => intro s bs s' _ h; simp [runEpoch] at h
      | succ k ih =>
        intro s bs s' hbs h
        rw [runEpoch] at h
        cases hn : nextBatch P s with
        | error e => rw [hn] at h; simp at h
        | ok q =>
          obtain ⟨ob, s1⟩ := q
          have hb1 := nextBatch_between L hv hbs hn
          cases ob with
          | none =>
            rw [hn] at h
            simp only [Except.ok.injEq, Prod.mk.injEq, true_and] at h
            obtain ⟨_, rfl⟩ := h
            rcases hbs with ⟨_, g⟩ | ⟨hf, f⟩
            · have hspec := nextBatch_spec L hv g
              rw [hn] at hspec
              exact (show AfterEnd P rem [] s s1 from hspec).finished
            · unfold nextBatch at hn
              rw [if_pos hf] at hn
              simp only [Except.ok.injEq, Prod.mk.injEq, true_and] at hn
              rw [← hn]; exact hf
          | some b =>
            rw [hn] at h
            simp only at h
            cases hr : runEpoch P k s1 with
            | error e => rw [hr] at h; simp at h
            | ok q =>
              obtain ⟨bs', fin, s2⟩ := q
              rw [hr] at h
              simp only [Except.ok.injEq, Prod.mk.injEq] at h
              obtain ⟨_, rfl, rfl⟩ := h
              exact ih s1 bs' s2 hb1 hr
    exact this k _ _ _ (Or.inl ⟨rfl, good_start L hv epoch⟩) h0
  obtain ⟨c', _, h2, h3⟩ := restore_save S hb hk
  refine ⟨_, h3, ?_⟩
  unfold nextBatch
  rw [if_pos hfin]

/-! ### The queue limit counts emptied queues -/

/-- Batches of one record, one shape queue allowed. -/
def oneQueue : Planner (List Nat) Nat where
  H := fun _ => 3
  src := listSource (fun _ => [0, 1]) true false
  shape := id
  bytes := fun _ => 1
  cfg := ⟨false, 4, none, 1, none⟩
  train := true
  seed := 7
  batch := 1
  sharded := false
  uniform := none
  manifest := "m"

theorem oneQueue_valid : oneQueue.Valid :=
  ⟨⟨by simp [oneQueue], by intro b hb; simp [oneQueue] at hb, by simp [oneQueue], by intro n hn; simp [oneQueue] at hn⟩,
    by simp [oneQueue], fun hs => by simp [oneQueue] at hs⟩

/-- Cursors of the list source are saved as they are. -/
theorem listSource_resumable {ε : Type} (recs : Nat → List ε) (chunked zero : Bool) :
    Resumable (listSource recs chunked zero) (fun _ => True) (fun s => s) some Eq := by
  refine ⟨fun _ => rfl, fun s _ => ⟨s, rfl, rfl⟩, ?_, ?_, ?_⟩
  · rintro s _ rfl; exact ⟨rfl, rfl⟩
  · rintro f _ k s _ rfl; exact ⟨rfl, rfl⟩
  · rintro s _ rfl; rfl

/-- The state of `oneQueue` after its first batch. -/
def oneQueueSt : St (List Nat) Nat :=
  match runEpoch oneQueue 1 (startEpoch oneQueue 0) with
  | .ok (_, _, st) => st
  | .error _ => startEpoch oneQueue 0

/-- **C29 (finding).** The exception of `C29_errors` does occur: emptied shape queues count towards `max_shape_queues`
until the planner is restored.  Here the uninterrupted planner raises while the planner restored at the same point goes
on. -/
theorem C29_queue_limit_differs :
    (∃ bs, runEpoch oneQueue 1 (startEpoch oneQueue 0) = .ok (bs, false, oneQueueSt)) ∧
      runEpoch oneQueue 1 oneQueueSt = .error .queueLimit ∧
      ∃ st', restore oneQueue some (save oneQueue (fun s => s) oneQueueSt) = some st' ∧
        ∃ bs e, runEpoch oneQueue 1 st' = .ok (bs, false, e) ∧ bs.map (·.rows) = [[1]] := by
  have hrun : ∃ bs, runEpoch oneQueue 1 (startEpoch oneQueue 0) = .ok (bs, false, oneQueueSt) := by
    have h : (match runEpoch oneQueue 1 (startEpoch oneQueue 0) with | .ok (_, f, _) => f == false | .error _ => false) = true := by
      decide +kernel
    unfold oneQueueSt
    cases hr : runEpoch oneQueue 1 (startEpoch oneQueue 0) with
    | error e => rw [hr] at h; simp at h
    | ok q =>
      obtain ⟨bs, f, s⟩ := q
      rw [hr] at h
      simp only [beq_iff_eq] at h
      subst h
      exact ⟨bs, rfl⟩
  refine ⟨hrun, ?_, ?_⟩
  · have h : (match runEpoch oneQueue 1 oneQueueSt with | .ok _ => none | .error e => some e) = some .queueLimit := by
      decide +kernel
    cases hr : runEpoch oneQueue 1 oneQueueSt with
    | error e => rw [hr] at h; simp only [Option.some.injEq] at h; rw [h]
    | ok q => rw [hr] at h; simp at h
  · obtain ⟨bs, hrun⟩ := hrun
    have L : Records oneQueue.src (fun _ => True) id := listSource_records _ _ _
    have hb := runEpoch_between L oneQueue_valid 1 _ _ (Or.inl ⟨rfl, good_start L oneQueue_valid 0⟩) hrun
    have hk : oneQueueSt.res.rngCounter < 2 ^ 63 := by decide +kernel
    obtain ⟨c', hc, heq, h3⟩ := restore_save (listSource_resumable _ _ _ : Resumable oneQueue.src (fun _ => True) _ some Eq) hb hk
    have heq' : oneQueueSt.cursor = c' := heq
    subst heq'
    refine ⟨_, h3, ?_⟩
    have h : (match runEpoch oneQueue 1 ⟨oneQueueSt.epoch, oneQueueSt.batchIndex, oneQueueSt.cycle, oneQueueSt.cursor,
        { oneQueueSt.res with cache := some (Reservoir.snapshot (resCfg oneQueue oneQueueSt.epoch oneQueueSt.cycle) oneQueueSt.res) },
        oneQueueSt.ready, (sortShapes oneQueueSt.queues).filter fun p => !p.2.isEmpty, oneQueueSt.exhausted,
        oneQueueSt.finished⟩ with
      | .ok (bs, f, _) => f == false && bs.map (·.rows) == [[1]] | .error _ => false) = true := by decide +kernel
    cases hr : runEpoch oneQueue 1 ⟨oneQueueSt.epoch, oneQueueSt.batchIndex, oneQueueSt.cycle, oneQueueSt.cursor,
        { oneQueueSt.res with cache := some (Reservoir.snapshot (resCfg oneQueue oneQueueSt.epoch oneQueueSt.cycle) oneQueueSt.res) },
        oneQueueSt.ready, (sortShapes oneQueueSt.queues).filter fun p => !p.2.isEmpty, oneQueueSt.exhausted,
        oneQueueSt.finished⟩ with
    | error e => rw [hr] at h; simp at h
    | ok q =>
      obtain ⟨bs, f, s⟩ := q
      rw [hr] at h
      simp only [Bool.and_eq_true, beq_iff_eq] at h
      obtain ⟨rfl, h⟩ := h
      exact ⟨bs, s, rfl, h⟩

/-- A non-trivial case of the hypotheses: two batches of the three-shape demo, then a snapshot with pending queues. -/
example : (match runEpoch (demo false false none fun _ => List.range 13) 2
    (startEpoch (demo false false none fun _ => List.range 13) 0) with
  | .ok (bs, f, st) => bs.length == 2 && f == false && decide (st.res.rngCounter < 2 ^ 63) && decide (0 < st.queues.length)
  | .error _ => false) = true := by decide +kernel

end Verif.Planner
