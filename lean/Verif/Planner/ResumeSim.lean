import Verif.Planner.Resume

/-! States that behave alike: the resumed planner simulates the uninterrupted one. -/
namespace Verif.Planner
open Verif.Reservoir (Res Snapshot SameButCache)

variable {σ κ ε : Type}

/-- States equal up to the cursor representation, the reservoir's snapshot cache and empty shape queues. -/
structure RR (eqv : σ → σ → Prop) (a b : St σ ε) : Prop where
  epoch : a.epoch = b.epoch
  index : a.batchIndex = b.batchIndex
  cycle : a.cycle = b.cycle
  cursor : eqv a.cursor b.cursor
  res : SameButCache a.res b.res
  ready : a.ready = b.ready
  queues : QRel a.queues b.queues
  exhausted : a.exhausted = b.exhausted
  finished : a.finished = b.finished

theorem SameButCache.offered {a b : Res ε} (h : SameButCache a b) : a.offered = b.offered := by
  unfold SameButCache at h; simp only [Res.mk.injEq] at h; exact h.2.2.2.2.1

theorem SameButCache.closed {a b : Res ε} (h : SameButCache a b) : a.closed = b.closed := by
  unfold SameButCache at h; simp only [Res.mk.injEq] at h; exact h.2.2.2.2.2.2.2.2.1

/-- Results alike: equal exceptions or related states. -/
def EqRes {α : Type} (R : α → α → Prop) : Except Err α → Except Err α → Prop
  | .error e, .error e' => e = e'
  | .ok a, .ok b => R a b
  | _, _ => False

theorem step_same {H : Rng.Digest} {c : Reservoir.Cfg} {a b : Res ε} (h : SameButCache a b) (op : Reservoir.Op ε) :
    (Reservoir.step H c a op = none ∧ Reservoir.step H c b op = none) ∨
    ∃ a' b' o, Reservoir.step H c a op = some (a', o) ∧ Reservoir.step H c b op = some (b', o) ∧ SameButCache a' b' :=
  Reservoir.step_cache_irrelevant H c a b op h

theorem drainInto_rr {P : Planner σ ε} {eqv : σ → σ → Prop} {a b : St σ ε} (h : RR eqv a b) :
    EqRes (RR eqv) (drainInto P a) (drainInto P b) := by
  unfold drainInto
  rw [← h.epoch, ← h.cycle]
  rcases step_same (H := P.H) (c := resCfg P a.epoch a.cycle) h.res .drain with ⟨h1, h2⟩ | ⟨a', b', o, h1, h2, h3⟩
  · simp only [Reservoir.step] at h1 h2
    rw [h1, h2]; exact rfl
  · simp only [Reservoir.step] at h1 h2
    rw [h1, h2]
    exact ⟨rfl, h.index, rfl, h.cursor, h3, by simp [h.ready], h.queues, rfl, h.finished⟩

theorem offerInto_rr {P : Planner σ ε} {eqv : σ → σ → Prop} {a b : St σ ε} (h : RR eqv a b) (items : List ε) :
    EqRes (RR eqv) (offerInto P a items) (offerInto P b items) := by
  unfold offerInto
  rw [← h.epoch, ← h.cycle]
  by_cases hz : (P.src.zeroResident && P.src.many.isSome) = true
  · rw [if_pos hz, if_pos hz]
    rcases step_same (H := P.H) (c := resCfg P a.epoch a.cycle) h.res (.offerZero items) with ⟨h1, h2⟩ | ⟨a', b', o, h1, h2, h3⟩
    · simp only [Reservoir.step] at h1 h2
      rw [h1, h2]; exact rfl
    · simp only [Reservoir.step] at h1 h2
      rw [h1, h2]
      exact ⟨rfl, h.index, rfl, h.cursor, h3, by simp [h.ready], h.queues, h.exhausted, h.finished⟩
  · rw [if_neg hz, if_neg hz]
    rcases step_same (H := P.H) (c := resCfg P a.epoch a.cycle) h.res (.offerMany (items.map fun e => (e, P.bytes e)))
      with ⟨h1, h2⟩ | ⟨a', b', o, h1, h2, h3⟩
    · simp only [Reservoir.step] at h1 h2
      rw [h1, h2]; exact rfl
    · simp only [Reservoir.step] at h1 h2
      rw [h1, h2]
      exact ⟨rfl, h.index, rfl, h.cursor, h3, by simp [h.ready], h.queues, h.exhausted, h.finished⟩

theorem readChunk_rr {P : Planner σ ε} {ok : σ → Prop} {sc : σ → κ} {rc : κ → Option σ} {eqv : σ → σ → Prop}
    (S : Resumable P.src ok sc rc eqv) {s s' : σ} (h : eqv s s') :
    (readChunk P s).1 = (readChunk P s').1 ∧ eqv (readChunk P s).2 (readChunk P s').2 := by
  unfold readChunk
  cases hm : P.src.many with
  | none =>
    obtain ⟨h1, h2⟩ := S.next1 s s' h
    exact ⟨by simp only [h1], h2⟩
  | some f => exact S.many f hm chunkSize s s' h

theorem refill_rr {P : Planner σ ε} {ok : σ → Prop} {sc : σ → κ} {rc : κ → Option σ} {eqv : σ → σ → Prop}
    (S : Resumable P.src ok sc rc eqv) : ∀ (fuel : Nat) (a b : St σ ε), RR eqv a b →
      EqRes (RR eqv) (refill P fuel a) (refill P fuel b)
  | 0, _, _, _ => rfl
  | fuel + 1, a, b, h => by
    rw [refill, refill]
    by_cases hg : a.ready ≠ [] ∨ a.exhausted = true
    · rw [if_pos hg, if_pos (by rw [← h.ready, ← h.exhausted]; exact hg)]; exact h
    have hg' : ¬ (b.ready ≠ [] ∨ b.exhausted = true) := by rw [← h.ready, ← h.exhausted]; exact hg
    rw [if_neg hg, if_neg hg']
    obtain ⟨h1, h2⟩ := readChunk_rr S h.cursor
    have h' : RR eqv { a with cursor := (readChunk P a.cursor).2 } { b with cursor := (readChunk P b.cursor).2 } :=
      ⟨h.epoch, h.index, h.cycle, h2, h.res, h.ready, h.queues, h.exhausted, h.finished⟩
    simp only
    rw [← h1]
    by_cases he : (readChunk P a.cursor).1 = []
    · rw [if_pos he, if_pos he]; exact drainInto_rr h'
    · rw [if_neg he, if_neg he]
      have ho := offerInto_rr (P := P) h' (readChunk P a.cursor).1
      cases h3 : offerInto P { a with cursor := (readChunk P a.cursor).2 } (readChunk P a.cursor).1 with
      | error e =>
        rw [h3] at ho
        cases h4 : offerInto P { b with cursor := (readChunk P b.cursor).2 } (readChunk P a.cursor).1 with
        | error e' => rw [h4] at ho; exact ho
        | ok y => rw [h4] at ho; exact absurd ho id
      | ok x =>
        rw [h3] at ho
        cases h4 : offerInto P { b with cursor := (readChunk P b.cursor).2 } (readChunk P a.cursor).1 with
        | error e' => rw [h4] at ho; exact absurd ho id
        | ok y => rw [h4] at ho; exact refill_rr S fuel x y ho

theorem refillFuel_rr {P : Planner σ ε} {ok : σ → Prop} {sc : σ → κ} {rc : κ → Option σ} {eqv : σ → σ → Prop}
    (S : Resumable P.src ok sc rc eqv) {a b : St σ ε} (h : RR eqv a b) : refillFuel P a = refillFuel P b := by
  unfold refillFuel; rw [S.left _ _ h.cursor]

/-- Related results of `next_batch`: nothing is claimed when the first raised the queue limit error. -/
def NRes (eqv : σ → σ → Prop) : Except Err (Option (Batch ε) × St σ ε) → Except Err (Option (Batch ε) × St σ ε) → Prop
  | .error e, r => e = .queueLimit ∨ r = .error e
  | .ok a, .ok b => a.1 = b.1 ∧ RR eqv a.2 b.2
  | .ok _, .error _ => False

theorem budgetLast_rr {P : Planner σ ε} {eqv : σ → σ → Prop} {a b : St σ ε} (h : RR eqv a b) : budgetLast P a = budgetLast P b := by
  unfold budgetLast; rw [h.index]

theorem makeSome_rr {P : Planner σ ε} {eqv : σ → σ → Prop} {a b : St σ ε} (h : RR eqv a b) (rows : List ε) (real : List Bool)
    (last : Bool) : NRes eqv (makeSome P a rows real last) (makeSome P b rows real last) := by
  unfold makeSome makeBatch finishBudget
  simp only
  rw [← budgetLast_rr (P := P) h, ← h.epoch, ← h.index, ← SameButCache.closed h.res, ← h.cycle]
  by_cases hb : budgetLast P a = true
  · rw [if_pos hb, if_pos hb]
    by_cases hc : a.res.closed = true
    · rw [if_pos hc, if_pos hc]
      exact ⟨rfl, ⟨rfl, rfl, rfl, h.cursor, h.res, rfl, QRel.refl (by simp), rfl, rfl⟩⟩
    · rw [if_neg hc, if_neg hc]
      rcases step_same (H := P.H) (c := resCfg P a.epoch a.cycle) h.res .drain with ⟨h1, h2⟩ | ⟨a', b', o, h1, h2, h3⟩
      · simp only [Reservoir.step] at h1 h2
        rw [h1, h2]; exact Or.inr rfl
      · simp only [Reservoir.step] at h1 h2
        rw [h1, h2]
        exact ⟨rfl, ⟨rfl, rfl, rfl, h.cursor, h3, rfl, QRel.refl (by simp), rfl, rfl⟩⟩
  · rw [if_neg hb, if_neg hb]
    exact ⟨rfl, ⟨rfl, rfl, rfl, h.cursor, h.res, h.ready, h.queues, h.exhausted, h.finished⟩⟩

theorem mayRestart_rr {P : Planner σ ε} {eqv : σ → σ → Prop} {a b : St σ ε} (h : RR eqv a b) : mayRestart P a = mayRestart P b := by
  unfold mayRestart; rw [h.index]

theorem countEmpty_rr {eqv : σ → σ → Prop} {a b : St σ ε} (h : RR eqv a b) (n : Nat) : countEmpty a n = countEmpty b n := by
  unfold countEmpty; rw [SameButCache.offered h.res]

theorem restart_rr {P : Planner σ ε} {ok : σ → Prop} {sc : σ → κ} {rc : κ → Option σ} {eqv : σ → σ → Prop}
    (S : Resumable P.src ok sc rc eqv) {a b : St σ ε} (h : RR eqv a b) :
    EqRes (RR eqv) (restartCycle P a) (restartCycle P b) := by
  unfold restartCycle
  rw [← h.exhausted, ← h.ready, ← h.epoch, ← h.cycle]
  split
  · exact rfl
  · exact ⟨rfl, h.index, rfl, S.refl _, rfl, rfl, h.queues, rfl, h.finished⟩

theorem uniformTail_rr {P : Planner σ ε} {eqv : σ → σ → Prop} {a b : St σ ε} (h : RR eqv a b) (acc : List ε) :
    NRes eqv (uniformTail P acc a) (uniformTail P acc b) := by
  unfold uniformTail
  have h' : RR eqv { a with finished := true } { b with finished := true } :=
    ⟨h.epoch, h.index, h.cycle, h.cursor, h.res, h.ready, h.queues, h.exhausted, rfl⟩
  split
  · exact ⟨rfl, h'⟩
  · exact makeSome_rr h' _ _ _

theorem genericTail_rr {P : Planner σ ε} {eqv : σ → σ → Prop} {a b : St σ ε} (h : RR eqv a b) :
    NRes eqv (genericTail P a) (genericTail P b) := by
  unfold genericTail
  by_cases ht : P.train = true
  · rw [if_pos ht, if_pos ht]
    exact ⟨rfl, ⟨h.epoch, h.index, h.cycle, h.cursor, h.res, h.ready, QRel.refl (by simp), h.exhausted, rfl⟩⟩
  · rw [if_neg ht, if_neg ht, ← h.queues.minShape]
    cases minShape a.queues with
    | none => exact ⟨rfl, ⟨h.epoch, h.index, h.cycle, h.cursor, h.res, h.ready, h.queues, h.exhausted, rfl⟩⟩
    | some s =>
      simp only
      rw [← h.queues.same s, ← (h.queues.filter s).all, ← h.finished]
      apply makeSome_rr
      exact ⟨h.epoch, h.index, h.cycle, h.cursor, h.res, h.ready, h.queues.filter s, h.exhausted, rfl⟩

theorem uniformLoop_rr {P : Planner σ ε} {ok : σ → Prop} {sc : σ → κ} {rc : κ → Option σ} {eqv : σ → σ → Prop}
    (S : Resumable P.src ok sc rc eqv) (code : Nat) : ∀ (fuel : Nat) (acc : List ε) (empty : Nat) (a b : St σ ε), RR eqv a b →
      NRes eqv (uniformLoop P code fuel acc empty a) (uniformLoop P code fuel acc empty b)
  | 0, _, _, _, _, _ => Or.inr rfl
  | fuel + 1, acc, empty, a, b, h => by
    rw [uniformLoop, uniformLoop, ← refillFuel_rr S h]
    by_cases hlt : acc.length < P.batch
    · rw [if_pos hlt, if_pos hlt]
      have hr := refill_rr S (refillFuel P a) a b h
      cases h1 : refill P (refillFuel P a) a with
      | error e =>
        rw [h1] at hr
        cases h2 : refill P (refillFuel P a) b with
        | error e' => rw [h2] at hr; have : e = e' := hr; subst this; exact Or.inr rfl
        | ok y => rw [h2] at hr; exact absurd hr id
      | ok a1 =>
        rw [h1] at hr
        cases h2 : refill P (refillFuel P a) b with
        | error e' => rw [h2] at hr; exact absurd hr id
        | ok b1 =>
          rw [h2] at hr
          have h' : RR eqv a1 b1 := hr
          simp only
          rw [← h'.ready, ← mayRestart_rr (P := P) h', ← countEmpty_rr h']
          by_cases hn : a1.ready = []
          · rw [if_pos hn, if_pos hn]
            by_cases hm : mayRestart P a1 = true
            · rw [if_pos hm, if_pos hm]
              split
              · exact Or.inr rfl
              · have hs := restart_rr S h'
                cases h3 : restartCycle P a1 with
                | error e =>
                  rw [h3] at hs
                  cases h4 : restartCycle P b1 with
                  | error e' => rw [h4] at hs; have : e = e' := hs; subst this; exact Or.inr rfl
                  | ok y => rw [h4] at hs; exact absurd hs id
                | ok a2 =>
                  rw [h3] at hs
                  cases h4 : restartCycle P b1 with
                  | error e' => rw [h4] at hs; exact absurd hs id
                  | ok b2 => rw [h4] at hs; exact uniformLoop_rr S code fuel acc _ a2 b2 hs
            · rw [if_neg hm, if_neg hm]
              exact uniformTail_rr h' acc
          · rw [if_neg hn, if_neg hn]
            split
            · exact Or.inr rfl
            · exact uniformLoop_rr S code fuel _ _ _ _
                ⟨h'.epoch, h'.index, h'.cycle, h'.cursor, h'.res, rfl, h'.queues, h'.exhausted, h'.finished⟩
    · rw [if_neg hlt, if_neg hlt]
      exact makeSome_rr h _ _ _

theorem appendShape_rr {P : Planner σ ε} {q q' : List (Nat × List ε)} (h : QRel q q') (e : ε) (hmax : q.length ≤ P.cfg.maxQueues) :
    appendShape P q e = .error .queueLimit ∨ ∃ l q1 q1', appendShape P q e = .ok (l, q1) ∧ appendShape P q' e = .ok (l, q1') ∧
      QRel q1 q1' ∧ q1.length ≤ P.cfg.maxQueues := by
  have hs := h.same (P.shape e)
  unfold appendShape
  cases hg : qget q (P.shape e) with
  | none =>
    rw [h.sub _ hg]
    simp only
    by_cases hm : P.cfg.maxQueues ≤ q.length
    · rw [if_pos hm]; exact Or.inl rfl
    · have hl := h.length
      rw [if_neg hm, if_neg (by omega)]
      refine Or.inr ⟨_, _, _, rfl, rfl, h.qset _ _, ?_⟩
      rw [qset_none hg]; simp; omega
  | some l =>
    rw [hg] at hs
    simp only [Option.getD_some] at hs
    have hlen : (qset q (P.shape e) (l ++ [e])).length ≤ P.cfg.maxQueues := by
      have := congrArg List.length (qset_keys_some (l' := l ++ [e]) hg)
      simp only [List.length_map] at this
      rw [this]; exact hmax
    right
    cases hg' : qget q' (P.shape e) with
    | some l' =>
      rw [hg'] at hs
      simp only [Option.getD_some] at hs
      subst hs
      exact ⟨_, _, _, rfl, rfl, h.qset _ _, hlen⟩
    | none =>
      rw [hg'] at hs
      simp only [Option.getD_none] at hs
      subst hs
      have := h.length_lt (s := P.shape e) (by rw [hg]; simp) hg'
      simp only
      rw [if_neg (by omega)]
      exact ⟨_, _, _, rfl, rfl, h.qset _ _, hlen⟩

theorem refill_queues {P : Planner σ ε} : ∀ (fuel : Nat) (s s' : St σ ε), refill P fuel s = .ok s' → s'.queues = s.queues
  | 0, _, _, h => by simp [refill] at h
  | fuel + 1, s, s', h => by
    rw [refill] at h
    split at h
    · simp only [Except.ok.injEq] at h; rw [h]
    simp only at h
    split at h
    · unfold drainInto at h
      split at h
      · simp at h
      simp only [Except.ok.injEq] at h
      rw [← h]
    · split at h
      · simp at h
      rename_i s1 ho
      rw [refill_queues fuel s1 s' h]
      unfold offerInto at ho
      split at ho
      · simp at ho
      simp only [Except.ok.injEq] at ho
      rw [← ho]

theorem genericLoop_rr {P : Planner σ ε} {ok : σ → Prop} {sc : σ → κ} {rc : κ → Option σ} {eqv : σ → σ → Prop}
    (S : Resumable P.src ok sc rc eqv) : ∀ (fuel : Nat) (empty : Nat) (a b : St σ ε), RR eqv a b →
      a.queues.length ≤ P.cfg.maxQueues → NRes eqv (genericLoop P fuel empty a) (genericLoop P fuel empty b)
  | 0, _, _, _, _, _ => Or.inr rfl
  | fuel + 1, empty, a, b, h, hmax => by
    rw [genericLoop, genericLoop, ← refillFuel_rr S h]
    have hr := refill_rr S (refillFuel P a) a b h
    cases h1 : refill P (refillFuel P a) a with
    | error e =>
      rw [h1] at hr
      cases h2 : refill P (refillFuel P a) b with
      | error e' => rw [h2] at hr; have : e = e' := hr; subst this; exact Or.inr rfl
      | ok y => rw [h2] at hr; exact absurd hr id
    | ok a1 =>
      rw [h1] at hr
      cases h2 : refill P (refillFuel P a) b with
      | error e' => rw [h2] at hr; exact absurd hr id
      | ok b1 =>
        rw [h2] at hr
        have h' : RR eqv a1 b1 := hr
        have hq1 : a1.queues.length ≤ P.cfg.maxQueues := by rw [refill_queues _ _ _ h1]; exact hmax
        simp only
        rw [← h'.ready, ← mayRestart_rr (P := P) h', ← countEmpty_rr h']
        cases hn : a1.ready with
        | nil =>
          simp only
          by_cases hm : mayRestart P a1 = true
          · rw [if_pos hm, if_pos hm]
            split
            · exact Or.inr rfl
            · have hs := restart_rr S h'
              cases h3 : restartCycle P a1 with
              | error e =>
                rw [h3] at hs
                cases h4 : restartCycle P b1 with
                | error e' => rw [h4] at hs; have : e = e' := hs; subst this; exact Or.inr rfl
                | ok y => rw [h4] at hs; exact absurd hs id
              | ok a2 =>
                rw [h3] at hs
                have hq2 : a2.queues = a1.queues := by
                  unfold restartCycle at h3
                  split at h3
                  · simp at h3
                  · simp only [Except.ok.injEq] at h3; rw [← h3]
                cases h4 : restartCycle P b1 with
                | error e' => rw [h4] at hs; exact absurd hs id
                | ok b2 => rw [h4] at hs; exact genericLoop_rr S fuel _ a2 b2 hs (by rw [hq2]; exact hq1)
          · rw [if_neg hm, if_neg hm]
            exact genericTail_rr h'
        | cons e ready =>
          simp only
          rcases appendShape_rr h'.queues e hq1 with h3 | ⟨l, q1, q1', h3, h4, h5, h6⟩
          · rw [h3]; exact Or.inl rfl
          · rw [h3, h4]
            simp only
            by_cases hl : l.length = P.batch
            · rw [if_pos hl, if_pos hl]
              apply makeSome_rr
              exact ⟨h'.epoch, h'.index, h'.cycle, h'.cursor, h'.res, rfl, h5.qset _ _, h'.exhausted, h'.finished⟩
            · rw [if_neg hl, if_neg hl]
              exact genericLoop_rr S fuel empty _ _
                ⟨h'.epoch, h'.index, h'.cycle, h'.cursor, h'.res, rfl, h5, h'.exhausted, h'.finished⟩ h6

theorem nextBatch_rr {P : Planner σ ε} {ok : σ → Prop} {sc : σ → κ} {rc : κ → Option σ} {eqv : σ → σ → Prop}
    (S : Resumable P.src ok sc rc eqv) {a b : St σ ε} (h : RR eqv a b) (hmax : a.queues.length ≤ P.cfg.maxQueues) :
    NRes eqv (nextBatch P a) (nextBatch P b) := by
  unfold nextBatch
  rw [← h.finished]
  split
  · exact ⟨rfl, h⟩
  · cases P.uniform with
    | none => exact genericLoop_rr S _ _ _ _ h hmax
    | some code => exact uniformLoop_rr S code _ _ _ _ _ h

end Verif.Planner
