import Verif.Planner.ResumeSim

/-! Finished planner states: nothing is pending. -/
namespace Verif.Planner
open Verif.Reservoir (Res Snapshot SameButCache)

variable {σ κ ε : Type}

/-- A finished state. -/
structure FinOk (P : Planner σ ε) (ok : σ → Prop) (st : St σ ε) : Prop where
  inv : Reservoir.Inv (resCfg P st.epoch st.cycle) st.res
  closed : st.res.closed = true
  exhausted : st.exhausted = true
  ready : st.ready = []
  queues : ∀ p ∈ st.queues, p.2 = []
  keys : (st.queues.map (·.1)).Nodup
  limit : st.queues.length ≤ P.cfg.maxQueues
  cursor : ok st.cursor
  budget : ∀ n, P.cfg.steps = some n → st.batchIndex ≤ n

theorem finish_ok {P : Planner σ ε} {ok : σ → Prop} {rem : σ → List ε} {st st' : St σ ε} (hc : Core P ok rem st)
    (hb : ∀ n, P.cfg.steps = some n → st.batchIndex ≤ n) (h : finishBudget P st = .ok st') : FinOk P ok st' := by
  unfold finishBudget at h
  by_cases hcl : st.res.closed = true
  · rw [if_pos hcl] at h
    simp only [Except.ok.injEq] at h
    subst h
    exact ⟨hc.inv, hcl, rfl, rfl, by simp, by simp, by simp, hc.ok, hb⟩
  · rw [if_neg hcl] at h
    cases hd : Reservoir.drain P.H (resCfg P st.epoch st.cycle) st.res with
    | none => rw [hd] at h; simp at h
    | some q =>
      obtain ⟨r, o⟩ := q
      rw [hd] at h
      simp only [Except.ok.injEq] at h
      subst h
      obtain ⟨hi, _, hc'⟩ := Reservoir.drain_spec hc.inv hd
      exact ⟨hi, hc', rfl, rfl, by simp, by simp, by simp, hc.ok, hb⟩

/-- A batch made in the last state of the stream, or earlier. -/
theorem make_fin {P : Planner σ ε} {ok : σ → Prop} {rem : σ → List ε} {st : St σ ε} {rows : List ε} {real : List Bool}
    {last : Bool} {ob : Option (Batch ε)} {st' : St σ ε} (hc : Core P ok rem st)
    (hb : ∀ n, P.cfg.steps = some n → st.batchIndex < n)
    (hfin : st.finished = true → st.exhausted = true ∧ st.ready = [] ∧ (∀ p ∈ st.queues, p.2 = []) ∧
      (st.queues.map (·.1)).Nodup ∧ st.queues.length ≤ P.cfg.maxQueues)
    (h : makeSome P st rows real last = .ok (ob, st')) : st'.finished = true → FinOk P ok st' := by
  intro hf
  unfold makeSome makeBatch at h
  simp only at h
  by_cases hbl : budgetLast P st = true
  · rw [if_pos hbl] at h
    cases hfb : finishBudget P { st with batchIndex := st.batchIndex + 1 } with
    | error e => rw [hfb] at h; simp at h
    | ok s1 =>
      rw [hfb] at h
      simp only [Except.ok.injEq, Prod.mk.injEq] at h
      rw [← h.2]
      have hc' : Core P ok rem { st with batchIndex := st.batchIndex + 1 } := ⟨hc.inv, hc.closed, hc.done, hc.ok, hc.count⟩
      exact finish_ok hc' (fun n hn => hb n hn) hfb
  · rw [if_neg hbl] at h
    simp only [Except.ok.injEq, Prod.mk.injEq] at h
    obtain ⟨_, rfl⟩ := h
    obtain ⟨h1, h2, h3, h4, h5⟩ := hfin hf
    exact ⟨hc.inv, hc.closed ▸ h1, h1, h2, h3, h4, h5, hc.ok, fun n hn => hb n hn⟩

theorem uniformLoop_fin {P : Planner σ ε} {ok : σ → Prop} {rem : σ → List ε} (L : Records P.src ok rem) (hv : P.Valid)
    (code : Nat) : ∀ (fuel : Nat) (acc : List ε) (empty : Nat) (st : St σ ε) (ob : Option (Batch ε)) (st' : St σ ε),
      Core P ok rem st → st.finished = false → st.queues = [] → (∀ n, P.cfg.steps = some n → st.batchIndex < n) →
      uniformLoop P code fuel acc empty st = .ok (ob, st') → st'.finished = true → FinOk P ok st'
  | 0, _, _, _, _, _, _, _, _, _, h, _ => by simp [uniformLoop] at h
  | fuel + 1, acc, empty, st, ob, st', hc, hrun, hq, hb, h, hf => by
    rw [uniformLoop] at h
    by_cases hlt : acc.length < P.batch
    · rw [if_pos hlt] at h
      cases hr : refill P (refillFuel P st) st with
      | error e => rw [hr] at h; simp at h
      | ok s1 =>
        rw [hr] at h
        simp only at h
        have hrf := refill_spec L hv.cfg _ _ _ hc hr
        obtain ⟨f1, f2, f3, f4, f5⟩ := hrf.frame
        have hb1 : ∀ n, P.cfg.steps = some n → s1.batchIndex < n := by rw [← f2]; exact hb
        by_cases hn : s1.ready = []
        · have hex : s1.exhausted = true := by
            rcases hrf.goal with h | h
            · exact absurd hn h
            · exact h
          rw [if_pos hn] at h
          by_cases hm : mayRestart P s1 = true
          · rw [if_pos hm] at h
            split at h
            · simp at h
            cases hre : restartCycle P s1 with
            | error e => rw [hre] at h; simp at h
            | ok s2 =>
              rw [hre] at h
              simp only at h
              obtain ⟨hc2, e1, e2, e3, e4, e5, _⟩ := restart_spec L hv hre
              exact uniformLoop_fin L hv code fuel acc _ s2 ob st' hc2 (by rw [e5, ← f5]; exact hrun)
                (by rw [e4, ← f4]; exact hq) (by rw [e2]; exact hb1) h hf
          · rw [if_neg hm] at h
            unfold uniformTail at h
            split at h
            · simp only [Except.ok.injEq, Prod.mk.injEq] at h
              obtain ⟨_, rfl⟩ := h
              exact ⟨hrf.core.inv, hrf.core.closed ▸ hex, hex, hn, by rw [← f4, hq]; simp, by rw [← f4, hq]; simp,
                by rw [← f4, hq]; simp, hrf.core.ok, fun n hn => (hb1 n hn).le⟩
            · have hc1 : Core P ok rem { s1 with finished := true } :=
                ⟨hrf.core.inv, hrf.core.closed, hrf.core.done, hrf.core.ok, hrf.core.count⟩
              refine make_fin hc1 hb1 (fun _ => ⟨hex, hn, ?_, ?_, ?_⟩) h hf <;> simp only [← f4, hq] <;> simp
        · rw [if_neg hn] at h
          split at h
          · simp at h
          have hc1 : Core P ok rem { s1 with ready := s1.ready.drop (min (P.batch - acc.length) s1.ready.length) } :=
            ⟨hrf.core.inv, hrf.core.closed, hrf.core.done, hrf.core.ok, hrf.core.count⟩
          exact uniformLoop_fin L hv code fuel _ _ _ ob st' hc1 (by simp only [← f5]; exact hrun)
            (by simp only [← f4]; exact hq) hb1 h hf
    · rw [if_neg hlt] at h
      exact make_fin hc hb (fun h' => by rw [hrun] at h'; simp at h') h hf

theorem genericLoop_fin {P : Planner σ ε} {ok : σ → Prop} {rem : σ → List ε} (L : Records P.src ok rem) (hv : P.Valid)
    : ∀ (fuel : Nat) (empty : Nat) (st : St σ ε) (ob : Option (Batch ε)) (st' : St σ ε),
      Core P ok rem st → st.finished = false → (st.queues.map (·.1)).Nodup → st.queues.length ≤ P.cfg.maxQueues →
      (∀ n, P.cfg.steps = some n → st.batchIndex < n) →
      genericLoop P fuel empty st = .ok (ob, st') → st'.finished = true → FinOk P ok st'
  | 0, _, _, _, _, _, _, _, _, _, h, _ => by simp [genericLoop] at h
  | fuel + 1, empty, st, ob, st', hc, hrun, hk, hq, hb, h, hf => by
    rw [genericLoop] at h
    cases hr : refill P (refillFuel P st) st with
    | error e => rw [hr] at h; simp at h
    | ok s1 =>
      rw [hr] at h
      simp only at h
      have hrf := refill_spec L hv.cfg _ _ _ hc hr
      obtain ⟨f1, f2, f3, f4, f5⟩ := hrf.frame
      have hb1 : ∀ n, P.cfg.steps = some n → s1.batchIndex < n := by rw [← f2]; exact hb
      rw [f4] at hk hq
      cases hn : s1.ready with
      | nil =>
        have hex : s1.exhausted = true := by
          rcases hrf.goal with h | h
          · exact absurd hn h
          · exact h
        rw [hn] at h
        simp only at h
        by_cases hm : mayRestart P s1 = true
        · rw [if_pos hm] at h
          split at h
          · simp at h
          cases hre : restartCycle P s1 with
          | error e => rw [hre] at h; simp at h
          | ok s2 =>
            rw [hre] at h
            simp only at h
            obtain ⟨hc2, e1, e2, e3, e4, e5, _⟩ := restart_spec L hv hre
            exact genericLoop_fin L hv fuel _ s2 ob st' hc2 (by rw [e5, ← f5]; exact hrun)
              (by rw [e4]; exact hk) (by rw [e4]; exact hq) (by rw [e2]; exact hb1) h hf
        · rw [if_neg hm] at h
          unfold genericTail at h
          by_cases ht : P.train = true
          · rw [if_pos ht] at h
            simp only [Except.ok.injEq, Prod.mk.injEq] at h
            obtain ⟨_, rfl⟩ := h
            exact ⟨hrf.core.inv, hrf.core.closed ▸ hex, hex, hn, by simp, by simp, by simp, hrf.core.ok, fun n hn => (hb1 n hn).le⟩
          · rw [if_neg ht] at h
            rcases minShape_iff s1.queues with ⟨h1, h2⟩ | ⟨s, h1, _, _⟩
            · rw [h1] at h
              simp only [Except.ok.injEq, Prod.mk.injEq] at h
              obtain ⟨_, rfl⟩ := h
              have hall := (all_empty_iff s1.queues).mpr h2
              simp only [List.all_eq_true, List.isEmpty_iff] at hall
              exact ⟨hrf.core.inv, hrf.core.closed ▸ hex, hex, hn, hall, hk, hq, hrf.core.ok, fun n hn => (hb1 n hn).le⟩
            · rw [h1] at h
              simp only at h
              have hc1 : Core P ok rem { s1 with
                  queues := s1.queues.filter fun p => p.1 != s,
                  finished := s1.finished || (s1.queues.filter fun p => p.1 != s).all fun p => p.2.isEmpty } :=
                ⟨hrf.core.inv, hrf.core.closed, hrf.core.done, hrf.core.ok, hrf.core.count⟩
              refine make_fin hc1 hb1 (fun hfin => ⟨hex, hn, ?_, ?_, ?_⟩) h hf
              · simp only [← f5, hrun, Bool.false_or, List.all_eq_true, List.isEmpty_iff] at hfin
                exact hfin
              · exact hk.sublist (List.Sublist.map _ List.filter_sublist)
              · exact (List.length_filter_le _ _).trans hq
      | cons e ready =>
        rw [hn] at h
        simp only at h
        rcases appendShape_rr (QRel.refl hk) e hq with h3 | ⟨l, q1, q1', h3, _, h5, h6⟩
        · rw [h3] at h; simp at h
        · rw [h3] at h
          simp only at h
          by_cases hl : l.length = P.batch
          · rw [if_pos hl] at h
            have hc1 : Core P ok rem { s1 with ready := ready, queues := qset q1 (P.shape e) [] } :=
              ⟨hrf.core.inv, hrf.core.closed, hrf.core.done, hrf.core.ok, hrf.core.count⟩
            refine make_fin hc1 hb1 (fun hfin => ?_) h hf
            simp only [← f5, hrun] at hfin
            simp at hfin
          · rw [if_neg hl] at h
            have hc1 : Core P ok rem { s1 with ready := ready, queues := q1 } :=
              ⟨hrf.core.inv, hrf.core.closed, hrf.core.done, hrf.core.ok, hrf.core.count⟩
            exact genericLoop_fin L hv fuel empty _ ob st' hc1 (by simp only [← f5]; exact hrun) h5.nd h6 hb1 h hf

theorem nextBatch_fin {P : Planner σ ε} {ok : σ → Prop} {rem : σ → List ε} (L : Records P.src ok rem) (hv : P.Valid)
    {st st' : St σ ε} {ob : Option (Batch ε)} (g : Good P ok rem st) (h : nextBatch P st = .ok (ob, st'))
    (hf : st'.finished = true) : FinOk P ok st' := by
  unfold nextBatch at h
  rw [if_neg (by simp [g.running])] at h
  cases hu : P.uniform with
  | none =>
    rw [hu] at h
    exact genericLoop_fin L hv _ _ _ _ _ g.core g.running g.keys g.limit g.budget h hf
  | some code =>
    rw [hu] at h
    exact uniformLoop_fin L hv code _ _ _ _ _ _ g.core g.running (g.uniform (by simp [hu])) g.budget h hf

/-- Every state between batches. -/
def Between (P : Planner σ ε) (ok : σ → Prop) (rem : σ → List ε) (st : St σ ε) : Prop :=
  (st.finished = false ∧ Good P ok rem st) ∨ (st.finished = true ∧ FinOk P ok st)

theorem nextBatch_between {P : Planner σ ε} {ok : σ → Prop} {rem : σ → List ε} (L : Records P.src ok rem) (hv : P.Valid)
    {st st' : St σ ε} {ob : Option (Batch ε)} (hbt : Between P ok rem st) (h : nextBatch P st = .ok (ob, st')) :
    Between P ok rem st' := by
  rcases hbt with ⟨_, g⟩ | ⟨hf, hfin⟩
  · have hspec := nextBatch_spec L hv g
    rw [h] at hspec
    cases hfc : st'.finished with
    | true => exact Or.inr ⟨hfc, nextBatch_fin L hv g h hfc⟩
    | false =>
      left
      refine ⟨hfc, ?_⟩
      cases ob with
      | none =>
        have ha : AfterEnd P rem [] st st' := hspec
        rw [ha.finished] at hfc; simp at hfc
      | some b =>
        have ha : AfterBatch P ok rem [] st b st' := hspec
        exact ha.good hfc
  · unfold nextBatch at h
    rw [if_pos hf] at h
    simp only [Except.ok.injEq, Prod.mk.injEq] at h
    rw [← h.2]
    exact Or.inr ⟨hf, hfin⟩

theorem runEpoch_between {P : Planner σ ε} {ok : σ → Prop} {rem : σ → List ε} (L : Records P.src ok rem) (hv : P.Valid) :
    ∀ (n : Nat) (st : St σ ε) (r : List (Batch ε) × Bool × St σ ε), Between P ok rem st → runEpoch P n st = .ok r →
      Between P ok rem r.2.2
  | 0, st, r, hb, h => by simp only [runEpoch, Except.ok.injEq] at h; rw [← h]; exact hb
  | n + 1, st, r, hb, h => by
    rw [runEpoch] at h
    cases hn : nextBatch P st with
    | error e => rw [hn] at h; simp at h
    | ok q =>
      obtain ⟨ob, s1⟩ := q
      have hb1 := nextBatch_between L hv hb hn
      rw [hn] at h
      cases ob with
      | none => simp only [Except.ok.injEq] at h; rw [← h]; exact hb1
      | some b =>
        simp only at h
        cases hr : runEpoch P n s1 with
        | error e => rw [hr] at h; simp at h
        | ok q =>
          obtain ⟨bs, fin, s2⟩ := q
          rw [hr] at h
          simp only [Except.ok.injEq] at h
          rw [← h]
          exact runEpoch_between L hv n s1 (bs, fin, s2) hb1 hr

end Verif.Planner
