import Verif.Planner.Errors

/-! Whole epochs. -/
namespace Verif.Planner

variable {σ ε : Type}

theorem runEpoch_finished {P : Planner σ ε} {st : St σ ε} (h : st.finished = true) (n : Nat) :
    runEpoch P n st = .ok ([], decide (0 < n), st) := by
  cases n with
  | zero => rfl
  | succ n =>
    rw [runEpoch]
    unfold nextBatch
    rw [if_pos h]
    simp

/-- What a run from a state achieves. -/
structure RunOk (P : Planner σ ε) (rem : σ → List ε) (n : Nat) (done : List ε) (st : St σ ε)
    (bs : List (Batch ε)) (fin : Bool) (st' : St σ ε) : Prop where
  batches : ∀ b ∈ bs, BatchOk P b ∧ (P.train = true → AllReal b) ∧ b.epoch = st.epoch
  index : ∀ (i : Nat) (b : Batch ε), bs[i]? = some b → b.index = st.batchIndex + i
  budget : ∀ N, P.cfg.steps = some N → st.batchIndex + bs.length ≤ N
  last : ∀ (i : Nat) (b : Batch ε), bs[i]? = some b → b.last = true → i + 1 = bs.length
  sharded : ∀ N, P.sharded = true → P.cfg.steps = some N → (fin = true → st.batchIndex + bs.length = N) ∧
    ∀ (i : Nat) (b : Batch ε), bs[i]? = some b → (b.last = true ↔ b.index + 1 = N)
  cycle : P.sharded = false → st'.cycle = st.cycle
  more : fin = false → bs.length = n
  conserve : ∃ rest, (done ++ bs.flatMap realRows ++ rest).Perm (cycles P rem st.epoch (st'.cycle + 1)) ∧
    (fin = true → P.cfg.steps = none → (P.train = false → rest = []) ∧
      ∀ s, (rest.filter fun e => P.shape e = s).length < P.batch)

theorem BatchOk.real_pos {P : Planner σ ε} {b : Batch ε} (h : BatchOk P b) : 0 < (realRows b).length := by
  obtain ⟨k, h1, h2, h3, _⟩ := h.real
  rw [h.realRows_eq h2 h3, List.length_take, h.size]
  omega

theorem budgetLast_none {P : Planner σ ε} {st : St σ ε} (h : P.cfg.steps = none) : budgetLast P st = false := by
  unfold budgetLast; rw [h]

theorem runEpoch_spec {P : Planner σ ε} {ok : σ → Prop} {rem : σ → List ε} (L : Records P.src ok rem) (hv : P.Valid) :
    ∀ (n : Nat) (done : List ε) (st : St σ ε) (bs : List (Batch ε)) (fin : Bool) (st' : St σ ε), Good P ok rem st →
      (done ++ held rem st).Perm (cycles P rem st.epoch (st.cycle + 1)) →
      runEpoch P n st = .ok (bs, fin, st') → RunOk P rem n done st bs fin st'
  | 0, done, st, bs, fin, st', g, hp, h => by
    simp only [runEpoch, Except.ok.injEq, Prod.mk.injEq] at h
    obtain ⟨rfl, rfl, rfl⟩ := h
    exact ⟨by simp, by simp, fun N hN => Nat.le_of_lt (g.budget N hN), by simp, by simp, fun _ => rfl, fun _ => rfl,
      held rem st, by simpa using hp, by simp⟩
  | n + 1, done, st, bs, fin, st', g, hp, h => by
    rw [runEpoch] at h
    have hn := nextBatch_spec L hv g
    cases hb : nextBatch P st with
    | error e => rw [hb] at h; simp at h
    | ok r =>
      obtain ⟨ob, st1⟩ := r
      rw [hb] at h hn
      cases ob with
      | none =>
        simp only [Except.ok.injEq, Prod.mk.injEq] at h
        obtain ⟨rfl, rfl, rfl⟩ := h
        have ha : AfterEnd P rem [] st st1 := hn
        obtain ⟨dropped, hd1, hd2, hd3⟩ := ha.conserve
        refine ⟨by simp, by simp, fun N hN => Nat.le_of_lt (g.budget N hN), by simp, ?_, fun _ => ha.ident.2.2,
          by simp, dropped, ?_, fun _ _ => ⟨hd1, hd2⟩⟩
        · intro N h1 h2
          have h3 := ha.stop
          unfold mayRestart at h3
          rw [h1, h2] at h3
          have := g.budget N h2
          simp [this] at h3
        · have := hd3 done (by simpa using hp)
          rw [ha.ident.2.2]
          simpa using this
      | some b =>
        simp only at h
        have ha : AfterBatch P ok rem [] st b st1 := hn
        obtain ⟨he, hi, he1, hbi1⟩ := ha.ident
        obtain ⟨dropped, hd1, hd2, hd3⟩ := ha.conserve
        have hp1 := hd3 done (by simpa using hp)
        have hmay : ∀ N, P.sharded = true → P.cfg.steps = some N → mayRestart P st = true := by
          intro N h1 h2
          unfold mayRestart
          rw [h1, h2]
          simpa using g.budget N h2
        have hbl : ∀ N, P.sharded = true → P.cfg.steps = some N → (b.last = true ↔ b.index + 1 = N) := by
          intro N h1 h2
          rw [ha.full (hmay N h1 h2)]
          unfold budgetLast
          rw [h2, hi]
          have := g.budget N h2
          simp only [decide_eq_true_eq]
          omega
        have hcy : P.sharded = false → st1.cycle = st.cycle := by
          intro h1
          apply ha.cycle
          unfold mayRestart; rw [h1]; rfl
        by_cases hf : st1.finished = true
        · rw [runEpoch_finished hf] at h
          simp only [Except.ok.injEq, Prod.mk.injEq] at h
          obtain ⟨rfl, rfl, rfl⟩ := h
          have hlast : b.last = true := ha.last.trans hf
          refine ⟨?_, ?_, ?_, ?_, ?_, hcy, ?_, dropped ++ held rem st1, ?_, ?_⟩
          · intro b' hb'
            simp only [List.mem_singleton] at hb'
            subst hb'
            exact ⟨ha.batch, ha.train, he⟩
          · intro i b' hb'
            cases i with
            | zero => simp only [List.getElem?_cons_zero, Option.some.injEq] at hb'; subst hb'; simpa using hi
            | succ i => simp at hb'
          · intro N hN
            have := g.budget N hN
            simp only [List.length_singleton]; omega
          · intro i b' hb' _
            cases i with
            | zero => simp
            | succ i => simp at hb'
          · intro N h1 h2
            refine ⟨fun _ => ?_, ?_⟩
            · have := (hbl N h1 h2).mp hlast
              simp only [List.length_singleton]; omega
            · intro i b' hb'
              cases i with
              | zero =>
                simp only [List.getElem?_cons_zero, Option.some.injEq] at hb'; subst hb'
                exact hbl N h1 h2
              | succ i => simp at hb'
          · intro hh
            simp only [decide_eq_false_iff_not] at hh
            simp only [List.length_singleton]; omega
          · simp only [List.flatMap_cons, List.flatMap_nil, List.append_nil]
            rw [← List.append_assoc]
            exact hp1
          · intro _ hs
            have h1 := hd1 (budgetLast_none hs)
            have h2 := hd2 hf (budgetLast_none hs)
            rw [h1, h2]
            exact ⟨fun _ => rfl, fun s => by simpa using hv.batch⟩
        · have hf' : st1.finished = false := by simpa using hf
          have g1 := ha.good hf'
          cases hr : runEpoch P n st1 with
          | error e => rw [hr] at h; simp at h
          | ok r =>
            obtain ⟨bs1, fin1, st2⟩ := r
            rw [hr] at h
            simp only [Except.ok.injEq, Prod.mk.injEq] at h
            obtain ⟨rfl, rfl, rfl⟩ := h
            have hbl0 : budgetLast P st = false := by
              cases hbb : budgetLast P st with
              | false => rfl
              | true => rw [ha.last.symm.trans (ha.budget hbb)] at hf'; simp at hf'
            rw [hd1 hbl0, List.append_nil] at hp1
            have ih := runEpoch_spec L hv n (done ++ realRows b) st1 bs1 fin1 st2 g1 (by rw [he1]; exact hp1) hr
            refine ⟨?_, ?_, ?_, ?_, ?_, ?_, ?_, ?_⟩
            · intro b' hb'
              rcases List.mem_cons.mp hb' with rfl | hb'
              · exact ⟨ha.batch, ha.train, he⟩
              · have := ih.batches b' hb'
                rw [he1] at this; exact this
            · intro i b' hb'
              cases i with
              | zero => simp only [List.getElem?_cons_zero, Option.some.injEq] at hb'; subst hb'; simpa using hi
              | succ i =>
                simp only [List.getElem?_cons_succ] at hb'
                have := ih.index i b' hb'
                omega
            · intro N hN
              have := ih.budget N hN
              simp only [List.length_cons]; omega
            · intro i b' hb' hl
              cases i with
              | zero =>
                simp only [List.getElem?_cons_zero, Option.some.injEq] at hb'; subst hb'
                rw [ha.last, hf'] at hl; simp at hl
              | succ i =>
                simp only [List.getElem?_cons_succ] at hb'
                have := ih.last i b' hb' hl
                simp only [List.length_cons]; omega
            · intro N h1 h2
              obtain ⟨hs1, hs2⟩ := ih.sharded N h1 h2
              refine ⟨fun hh => ?_, ?_⟩
              · have := hs1 hh
                simp only [List.length_cons]; omega
              · intro i b' hb'
                cases i with
                | zero =>
                  simp only [List.getElem?_cons_zero, Option.some.injEq] at hb'; subst hb'
                  exact hbl N h1 h2
                | succ i =>
                  simp only [List.getElem?_cons_succ] at hb'
                  exact hs2 i b' hb'
            · intro h1
              exact (ih.cycle h1).trans (hcy h1)
            · intro h1
              simp only [List.length_cons, ih.more h1]
            · obtain ⟨rest, hr1, hr2⟩ := ih.conserve
              rw [he1] at hr1
              refine ⟨rest, ?_, hr2⟩
              simp only [List.flatMap_cons]
              rw [← List.append_assoc]
              exact hr1

theorem runEpoch_error {P : Planner σ ε} {ok : σ → Prop} {rem : σ → List ε} (L : Records P.src ok rem) (hv : P.Valid) :
    ∀ (n : Nat) (done : List ε) (st : St σ ε) (e : Err), Good P ok rem st →
      (done ++ held rem st).Perm (cycles P rem st.epoch (st.cycle + 1)) →
      (∀ S, Fits P rem st.epoch S → KeysIn S st.queues) →
      runEpoch P n st = .error e → ErrOk P rem st.epoch e
  | 0, done, st, e, g, hp, _, h => by simp [runEpoch] at h
  | n + 1, done, st, e, g, hp, hk, h => by
    rw [runEpoch] at h
    have hshape : ∀ S, Fits P rem st.epoch S → ∀ x ∈ held rem st, P.shape x ∈ S := by
      intro S hS x hx
      have := hp.subset (List.mem_append_right _ hx)
      unfold cycles at this
      obtain ⟨y, _, hy⟩ := List.mem_flatMap.mp this
      exact hS.shapes y x hy
    have hsi : ShapeInv P rem [] st := fun S hS => ⟨by simpa using hshape S hS, hk S hS⟩
    have hn := nextBatch_spec L hv g
    cases hb : nextBatch P st with
    | error e' =>
      rw [hb] at h
      simp only [Except.error.injEq] at h
      subst h
      exact nextBatch_error L hv g (fun _ => hsi) hb
    | ok r =>
      obtain ⟨ob, st1⟩ := r
      rw [hb] at h hn
      cases ob with
      | none => simp at h
      | some b =>
        simp only at h
        have ha : AfterBatch P ok rem [] st b st1 := hn
        obtain ⟨he, hi, he1, hbi1⟩ := ha.ident
        obtain ⟨dropped, hd1, hd2, hd3⟩ := ha.conserve
        have hp1 := hd3 done (by simpa using hp)
        by_cases hf : st1.finished = true
        · rw [runEpoch_finished hf] at h; simp at h
        · have hf' : st1.finished = false := by simpa using hf
          have g1 := ha.good hf'
          cases hr : runEpoch P n st1 with
          | ok r => rw [hr] at h; simp at h
          | error e' =>
            rw [hr] at h
            simp only [Except.error.injEq] at h
            subst h
            have hbl0 : budgetLast P st = false := by
              cases hbb : budgetLast P st with
              | false => rfl
              | true => rw [ha.last.symm.trans (ha.budget hbb)] at hf'; simp at hf'
            rw [hd1 hbl0, List.append_nil] at hp1
            rw [← he1]
            refine runEpoch_error L hv n (done ++ realRows b) st1 e' g1 (by rw [he1]; exact hp1) ?_ hr
            intro S hS
            rw [he1] at hS
            exact nextBatch_keys L hv hS g (hshape S hS) (hk S hS) hb g1

theorem start_conserve (P : Planner σ ε) (rem : σ → List ε) (epoch : Nat) :
    ([] ++ held rem (startEpoch P epoch)).Perm (cycles P rem (startEpoch P epoch).epoch ((startEpoch P epoch).cycle + 1)) := by
  simp [startEpoch, held, pool, queued, cycles, Reservoir.Res.init]

theorem runEpoch_start {P : Planner σ ε} {ok : σ → Prop} {rem : σ → List ε} (L : Records P.src ok rem) (hv : P.Valid)
    {n epoch : Nat} {bs : List (Batch ε)} {fin : Bool} {st' : St σ ε}
    (h : runEpoch P n (startEpoch P epoch) = .ok (bs, fin, st')) : RunOk P rem n [] (startEpoch P epoch) bs fin st' :=
  runEpoch_spec L hv n [] _ _ _ _ (good_start L hv epoch) (start_conserve P rem epoch) h

end Verif.Planner
