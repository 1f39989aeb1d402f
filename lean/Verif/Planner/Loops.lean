import Verif.Planner.Queues

/-! Invariants of `next_batch`. -/
namespace Verif.Planner
open Verif.Reservoir (Res)

variable {σ ε : Type}

theorem cyc_range (rows : List ε) (h : rows ≠ []) : ∀ m,
    ((List.range m).filterMap fun j => rows[j % rows.length]?).length = m ∧
    ∀ i, i < m → ((List.range m).filterMap fun j => rows[j % rows.length]?)[i]? = rows[i % rows.length]?
  | 0 => by simp
  | m + 1 => by
    obtain ⟨h1, h2⟩ := cyc_range rows h m
    have hpos := List.length_pos_of_ne_nil h
    have hlt := Nat.mod_lt m hpos
    have hsome : rows[m % rows.length]? = some rows[m % rows.length] := List.getElem?_eq_getElem hlt
    have he : ((List.range (m + 1)).filterMap fun j => rows[j % rows.length]?) =
        ((List.range m).filterMap fun j => rows[j % rows.length]?) ++ [rows[m % rows.length]] := by
      rw [List.range_succ, List.filterMap_append]
      simp [hsome]
    rw [he]
    refine ⟨by simp [h1], ?_⟩
    intro i hi
    by_cases him : i < m
    · rw [List.getElem?_append_left (by omega)]
      exact h2 i him
    · have : i = m := by omega
      subst this
      rw [List.getElem?_append_right (by omega), h1, hsome]
      simp

theorem padTo_length {rows : List ε} (h : rows ≠ []) {n : Nat} (hn : rows.length ≤ n) : (padTo rows n).length = n := by
  unfold padTo
  rw [List.length_append, (cyc_range rows h _).1]
  omega

theorem padTo_take {rows : List ε} {n : Nat} : (padTo rows n).take rows.length = rows := by
  unfold padTo; simp

theorem padTo_get {rows : List ε} (h : rows ≠ []) {n j : Nat} (h1 : rows.length ≤ j) (h2 : j < n) :
    (padTo rows n)[j]? = (padTo rows n)[(j - rows.length) % rows.length]? := by
  have hpos := List.length_pos_of_ne_nil h
  have hlt := Nat.mod_lt (j - rows.length) hpos
  have e1 : (padTo rows n)[j]? = rows[(j - rows.length) % rows.length]? := by
    unfold padTo
    rw [List.getElem?_append_right h1]
    exact (cyc_range rows h _).2 _ (by omega)
  have e2 : (padTo rows n)[(j - rows.length) % rows.length]? = rows[(j - rows.length) % rows.length]? := by
    unfold padTo
    rw [List.getElem?_append_left hlt]
  rw [e1, e2]

theorem padTo_mem {rows : List ε} {n : Nat} {e : ε} (he : e ∈ padTo rows n) : e ∈ rows := by
  unfold padTo at he
  rcases List.mem_append.mp he with h | h
  · exact h
  · obtain ⟨j, _, hj⟩ := List.mem_filterMap.mp h
    exact List.mem_of_getElem? hj

theorem zip_flags (rows : List ε) : ∀ k n, k ≤ n → rows.length = n →
    ((rows.zip (List.replicate k true ++ List.replicate (n - k) false)).filter (·.2)).map (·.1) = rows.take k := by
  induction rows with
  | nil => intro k n _ h; simp at h; subst h; simp
  | cons e rows ih =>
    intro k n hk hn
    cases n with
    | zero => simp at hn
    | succ n =>
      simp only [List.length_cons, Nat.add_right_cancel_iff] at hn
      cases k with
      | zero =>
        have h := ih 0 n (Nat.zero_le _) hn
        simp only [List.replicate_zero, List.nil_append, Nat.sub_zero, List.take_zero] at h ⊢
        rw [List.replicate_succ, List.zip_cons_cons, List.filter_cons_of_neg (by simp)]
        exact h
      | succ k =>
        have h := ih k n (by omega) hn
        rw [List.replicate_succ, List.cons_append, List.zip_cons_cons, List.filter_cons_of_pos (by simp)]
        simp only [List.map_cons, List.take_succ_cons]
        rw [Nat.add_sub_add_right, h]

theorem BatchOk.realRows_eq {P : Planner σ ε} {b : Batch ε} (h : BatchOk P b) {k : Nat}
    (hk : k ≤ P.batch) (hr : b.real = List.replicate k true ++ List.replicate (P.batch - k) false) :
    realRows b = b.rows.take k := by
  unfold realRows
  rw [hr]
  exact zip_flags _ _ _ hk h.size

/-- All records the planner holds or can still read in this cycle. -/
def held (rem : σ → List ε) (st : St σ ε) : List ε := queued st.queues ++ pool rem st

structure Good (P : Planner σ ε) (ok : σ → Prop) (rem : σ → List ε) (st : St σ ε) : Prop where
  core : Core P ok rem st
  running : st.finished = false
  keys : (st.queues.map (·.1)).Nodup
  shapes : ∀ p ∈ st.queues, ∀ e ∈ p.2, P.shape e = p.1
  short : ∀ p ∈ st.queues, p.2.length < P.batch
  limit : st.queues.length ≤ P.cfg.maxQueues
  uniform : P.uniform.isSome = true → st.queues = []
  budget : ∀ n, P.cfg.steps = some n → st.batchIndex < n

theorem good_start {P : Planner σ ε} {ok : σ → Prop} {rem : σ → List ε} (L : Records P.src ok rem) (hv : P.Valid)
    (epoch : Nat) : Good P ok rem (startEpoch P epoch) := by
  refine ⟨⟨Reservoir.Inv.init _ (resCfg_valid hv.cfg _ _), rfl, by simp [startEpoch], L.start _ _, ?_⟩, rfl, by simp [startEpoch],
    by simp [startEpoch], by simp [startEpoch], by simp [startEpoch], fun _ => rfl, fun n hn => hv.cfg.2.2.2 n hn⟩
  simp [startEpoch, Res.init]

/-- A produced batch and the state after it; `acc` are records already taken out. -/
structure AfterBatch (P : Planner σ ε) (ok : σ → Prop) (rem : σ → List ε) (acc : List ε) (st : St σ ε) (b : Batch ε)
    (st' : St σ ε) : Prop where
  ident : b.epoch = st.epoch ∧ b.index = st.batchIndex ∧ st'.epoch = st.epoch ∧ st'.batchIndex = st.batchIndex + 1
  batch : BatchOk P b
  train : P.train = true → AllReal b
  last : b.last = st'.finished
  budget : budgetLast P st = true → b.last = true
  full : mayRestart P st = true → b.last = budgetLast P st
  good : st'.finished = false → Good P ok rem st'
  cycle : mayRestart P st = false → st'.cycle = st.cycle
  conserve : ∃ dropped, (budgetLast P st = false → dropped = []) ∧ (st'.finished = true → budgetLast P st = false →
      held rem st' = []) ∧ ∀ done,
    (done ++ acc ++ held rem st).Perm (cycles P rem st.epoch (st.cycle + 1)) →
    (done ++ realRows b ++ dropped ++ held rem st').Perm (cycles P rem st.epoch (st'.cycle + 1))

/-- The end of the epoch. -/
structure AfterEnd (P : Planner σ ε) (rem : σ → List ε) (acc : List ε) (st st' : St σ ε) : Prop where
  ident : st'.epoch = st.epoch ∧ st'.batchIndex = st.batchIndex ∧ st'.cycle = st.cycle
  finished : st'.finished = true
  stop : mayRestart P st = false
  conserve : ∃ dropped, (P.train = false → dropped = []) ∧
    (∀ s, (dropped.filter fun e => P.shape e = s).length < P.batch) ∧ ∀ done,
    (done ++ acc ++ held rem st).Perm (cycles P rem st.epoch (st.cycle + 1)) →
    (done ++ dropped).Perm (cycles P rem st.epoch (st.cycle + 1))

theorem makeSome_spec {P : Planner σ ε} {ok : σ → Prop} {rem : σ → List ε} {st st' : St σ ε} {rows : List ε}
    {real : List Bool} {last : Bool} {ob : Option (Batch ε)} (hc : Core P ok rem st)
    (h : makeSome P st rows real last = .ok (ob, st')) :
    ob = some ⟨rows, real, st.epoch, st.batchIndex, last || budgetLast P st⟩ ∧ st'.epoch = st.epoch ∧
      st'.cycle = st.cycle ∧ st'.batchIndex = st.batchIndex + 1 ∧
      ((budgetLast P st = false ∧ st' = { st with batchIndex := st.batchIndex + 1 }) ∨
       (budgetLast P st = true ∧ st'.finished = true ∧ ∃ dropped, (dropped ++ held rem st').Perm (held rem st))) := by
  unfold makeSome makeBatch at h
  simp only at h
  by_cases hb : budgetLast P st = true
  · rw [if_pos hb] at h
    unfold finishBudget at h
    simp only at h
    by_cases hcl : st.res.closed = true
    · rw [if_pos hcl] at h
      simp only [Except.ok.injEq, Prod.mk.injEq] at h
      obtain ⟨rfl, rfl⟩ := h
      refine ⟨rfl, rfl, rfl, rfl, Or.inr ⟨hb, rfl, queued st.queues ++ st.ready, ?_⟩⟩
      have := hc.inv.closed hcl
      simp [held, pool, queued, this]
    · rw [if_neg hcl] at h
      cases hd : Reservoir.drain P.H (resCfg P st.epoch st.cycle) st.res with
      | none => rw [hd] at h; simp at h
      | some q =>
        obtain ⟨res, out⟩ := q
        rw [hd] at h
        simp only [Except.ok.injEq, Prod.mk.injEq] at h
        obtain ⟨rfl, rfl⟩ := h
        obtain ⟨hi', hm, hcl'⟩ := Reservoir.drain_spec hc.inv hd
        have hp := moves_slots hm hc.inv hi'
        have hs := hi'.closed hcl'
        refine ⟨rfl, rfl, rfl, rfl, Or.inr ⟨hb, rfl, queued st.queues ++ st.ready ++ out, ?_⟩⟩
        simp only [hs, List.append_nil, List.map_nil] at hp
        simp only [held, pool, queued, hs, List.flatMap_nil, List.nil_append, List.append_assoc]
        exact (((hp.append_right _).append_left _).append_left _)
  · rw [if_neg hb] at h
    simp only [Except.ok.injEq, Prod.mk.injEq] at h
    obtain ⟨rfl, rfl⟩ := h
    exact ⟨rfl, rfl, rfl, rfl, Or.inl ⟨by simpa using hb, rfl⟩⟩

theorem makeSome_error {P : Planner σ ε} {st : St σ ε} {rows : List ε} {real : List Bool} {last : Bool} {e : Err}
    (h : makeSome P st rows real last = .error e) : e = .reservoir := by
  unfold makeSome makeBatch finishBudget at h
  simp only at h
  by_cases hb : budgetLast P st = true
  · rw [if_pos hb] at h
    by_cases hcl : st.res.closed = true
    · rw [if_pos hcl] at h; simp at h
    · rw [if_neg hcl] at h
      cases hd : Reservoir.drain P.H (resCfg P st.epoch st.cycle) st.res with
      | none => rw [hd] at h; simp at h; exact h.symm
      | some q => rw [hd] at h; simp at h
  · rw [if_neg hb] at h; simp at h

theorem cycles_succ (P : Planner σ ε) (rem : σ → List ε) (e n : Nat) :
    cycles P rem e (n + 1) = cycles P rem e n ++ rem (P.src.start e n) := by
  unfold cycles; rw [List.range_succ]; simp

/-- After a fruitless refill nothing is left of the cycle. -/
theorem Refilled.pool_nil {P : Planner σ ε} {ok : σ → Prop} {rem : σ → List ε} {st st' : St σ ε}
    (h : Refilled P ok rem st st') (hr : st'.ready = []) :
    Planner.pool rem st' = [] ∧ Planner.pool rem st = [] ∧ st'.exhausted = true := by
  have hex : st'.exhausted = true := by
    rcases h.goal with h' | h'
    · exact absurd hr h'
    · exact h'
  have h1 : Planner.pool rem st' = [] := by
    unfold Planner.pool
    rw [hr, h.core.done hex, h.core.inv.closed (h.core.closed ▸ hex)]
    rfl
  exact ⟨h1, List.Perm.eq_nil (h1 ▸ h.pool).symm, hex⟩

theorem restart_spec {P : Planner σ ε} {ok : σ → Prop} {rem : σ → List ε} (L : Records P.src ok rem) (hv : P.Valid)
    {st st' : St σ ε} (h : restartCycle P st = .ok st') :
    Core P ok rem st' ∧ st'.epoch = st.epoch ∧ st'.batchIndex = st.batchIndex ∧ st'.cycle = st.cycle + 1 ∧
      st'.queues = st.queues ∧ st'.finished = st.finished ∧
      pool rem st' = rem (P.src.start st.epoch (st.cycle + 1)) := by
  unfold restartCycle at h
  split at h
  · simp at h
  rename_i hg
  push Not at hg
  simp only [Except.ok.injEq] at h
  subst h
  refine ⟨⟨Reservoir.Inv.init _ (resCfg_valid hv.cfg _ _), rfl, by simp, L.start _ _, ?_⟩, rfl, rfl, rfl, rfl, rfl, ?_⟩
  · simp [Res.init]
  · simp [pool, hg.2.2, Res.init]

theorem restart_ok {P : Planner σ ε} {st : St σ ε} (h1 : mayRestart P st = true) (h2 : st.exhausted = true)
    (h3 : st.ready = []) : ∃ st', restartCycle P st = .ok st' := by
  unfold restartCycle
  have : P.sharded = true := by
    unfold mayRestart at h1
    simp only [Bool.and_eq_true] at h1
    exact h1.1
  rw [if_neg (by simp [this, h2, h3])]
  exact ⟨_, rfl⟩

theorem mayRestart_congr {P : Planner σ ε} {a b : St σ ε} (h : a.batchIndex = b.batchIndex) :
    mayRestart P a = mayRestart P b := by unfold mayRestart; rw [h]

theorem budgetLast_congr {P : Planner σ ε} {a b : St σ ε} (h : a.batchIndex = b.batchIndex) :
    budgetLast P a = budgetLast P b := by unfold budgetLast; rw [h]

/-- A state differing from a good one only in its cycle and reservoir/source part is good. -/
theorem Good.of_core {P : Planner σ ε} {ok : σ → Prop} {rem : σ → List ε} {st st' : St σ ε} (g : Good P ok rem st)
    (hc : Core P ok rem st') (hb : st'.batchIndex = st.batchIndex) (hq : st'.queues = st.queues)
    (hf : st'.finished = st.finished) : Good P ok rem st' :=
  ⟨hc, hf ▸ g.running, hq ▸ g.keys, hq ▸ g.shapes, hq ▸ g.short, hq ▸ g.limit, fun h => hq ▸ g.uniform h,
    fun n hn => hb ▸ g.budget n hn⟩

/-- Outcomes transfer along steps that only move records from the source towards the output. -/
theorem AfterBatch.mono {P : Planner σ ε} {ok : σ → Prop} {rem : σ → List ε} {acc acc' : List ε} {st st1 st' : St σ ε}
    {b : Batch ε} (h : AfterBatch P ok rem acc' st1 b st') (he : st1.epoch = st.epoch)
    (hb : st1.batchIndex = st.batchIndex) (hcy : mayRestart P st = false → st1.cycle = st.cycle)
    (hp : ∀ done, (done ++ acc ++ held rem st).Perm (cycles P rem st.epoch (st.cycle + 1)) →
      (done ++ acc' ++ held rem st1).Perm (cycles P rem st.epoch (st1.cycle + 1))) :
    AfterBatch P ok rem acc st b st' := by
  obtain ⟨hid, hba, htr, hl, hbu, hfu, hg, hcy', dropped, hd1, hd2, hd3⟩ := h
  rw [budgetLast_congr hb] at hbu hfu hd1 hd2
  rw [mayRestart_congr hb] at hfu hcy'
  rw [he, hb] at hid
  rw [he] at hd3
  exact ⟨hid, hba, htr, hl, hbu, hfu, hg, fun h => (hcy' h).trans (hcy h), dropped, hd1, hd2, fun done hh => hd3 done (hp done hh)⟩

theorem AfterEnd.mono {P : Planner σ ε} {rem : σ → List ε} {acc acc' : List ε} {st st1 st' : St σ ε}
    (h : AfterEnd P rem acc' st1 st') (he : st1.epoch = st.epoch)
    (hb : st1.batchIndex = st.batchIndex) (hcy : mayRestart P st = false → st1.cycle = st.cycle)
    (hp : ∀ done, (done ++ acc ++ held rem st).Perm (cycles P rem st.epoch (st.cycle + 1)) →
      (done ++ acc' ++ held rem st1).Perm (cycles P rem st.epoch (st1.cycle + 1))) :
    AfterEnd P rem acc st st' := by
  obtain ⟨hid, hf, hs, dropped, hd1, hd2, hd3⟩ := h
  rw [mayRestart_congr hb] at hs
  have hc := hcy hs
  rw [he, hb, hc] at hid
  rw [he, hc] at hd3
  rw [hc] at hp
  exact ⟨hid, hf, hs, dropped, hd1, hd2, fun done hh => hd3 done (hp done hh)⟩

theorem emit_spec {P : Planner σ ε} {ok : σ → Prop} {rem : σ → List ε} {st st' : St σ ε} {real : List ε}
    {last : Bool} {ob : Option (Batch ε)} (hc : Core P ok rem st) (hne : real ≠ []) (hlen : real.length ≤ P.batch)
    (hsh : ∃ s, ∀ e ∈ real, P.shape e = s)
    (hfull : real.length = P.batch ∨ (P.train = false ∧ mayRestart P st = false)) (hf : st.finished = last)
    (hl1 : last = true → held rem st = [] ∧ mayRestart P st = false) (hl2 : last = false → Good P ok rem st)
    (h : makeSome P st (padTo real P.batch) (realFlags real.length P.batch) last = .ok (ob, st')) :
    ∃ b, ob = some b ∧ AfterBatch P ok rem real st b st' := by
  obtain ⟨rfl, he, hcy, hbi, hcase⟩ := makeSome_spec hc h
  refine ⟨_, rfl, ?_⟩
  have hbok : BatchOk P (⟨padTo real P.batch, realFlags real.length P.batch, st.epoch, st.batchIndex,
      last || budgetLast P st⟩ : Batch ε) := by
    refine ⟨padTo_length hne hlen, ?_, real.length, List.length_pos_of_ne_nil hne, hlen, rfl, ?_⟩
    · obtain ⟨s, hs⟩ := hsh
      exact ⟨s, fun e he => hs e (padTo_mem he)⟩
    · intro j h1 h2
      exact padTo_get hne h1 h2
  have hrr : realRows (⟨padTo real P.batch, realFlags real.length P.batch, st.epoch, st.batchIndex,
      last || budgetLast P st⟩ : Batch ε) = real := by
    rw [hbok.realRows_eq hlen rfl]
    exact padTo_take
  refine ⟨⟨rfl, rfl, he, hbi⟩, hbok, ?_, ?_, ?_, ?_, ?_, fun _ => hcy, ?_⟩
  · intro htr f hfm
    rcases hfull with h1 | ⟨h1, _⟩
    · simp only [realFlags, h1, Nat.sub_self, List.replicate_zero, List.append_nil] at hfm
      exact (List.mem_replicate.mp hfm).2
    · rw [htr] at h1; simp at h1
  · rcases hcase with ⟨h1, h2⟩ | ⟨h1, h2, _⟩
    · rw [h2]; simp [h1, hf]
    · rw [h2]; simp [h1]
  · intro hb; simp [hb]
  · intro hm
    cases last with
    | false => simp
    | true => rw [(hl1 rfl).2] at hm; simp at hm
  · intro hfin
    rcases hcase with ⟨h1, h2⟩ | ⟨h1, h2, _⟩
    · subst h2
      simp only at hfin
      have g := hl2 (hf ▸ hfin)
      refine ⟨⟨hc.inv, hc.closed, hc.done, hc.ok, hc.count⟩, hfin, g.keys, g.shapes, g.short, g.limit, g.uniform, ?_⟩
      intro n hn
      unfold budgetLast at h1
      rw [hn] at h1
      simp only [decide_eq_false_iff_not] at h1
      simp only
      omega
    · rw [h2] at hfin; simp at hfin
  · rw [hrr]
    rcases hcase with ⟨h1, h2⟩ | ⟨h1, h2, dropped, hd⟩
    · subst h2
      refine ⟨[], fun _ => rfl, ?_, ?_⟩
      · intro hfin _
        simp only at hfin
        exact (hl1 (hf ▸ hfin)).1
      · intro done hp
        rw [List.append_nil]
        exact hp
    · refine ⟨dropped, fun hh => (by rw [h1] at hh; simp at hh), fun _ hh => (by rw [h1] at hh; simp at hh), ?_⟩
      intro done hp
      rw [List.append_assoc _ dropped, hcy]
      exact (hd.append_left _).trans hp

theorem realFlags_full (n : Nat) : realFlags n n = List.replicate n true := by simp [realFlags]

theorem padTo_full (rows : List ε) : padTo rows rows.length = rows := by simp [padTo]

/-- Specification of one `next_batch` call from inside the loop. -/
def NextOk (P : Planner σ ε) (ok : σ → Prop) (rem : σ → List ε) (acc : List ε) (st : St σ ε) :
    Except Err (Option (Batch ε) × St σ ε) → Prop
  | .error _ => True
  | .ok (some b, st') => AfterBatch P ok rem acc st b st'
  | .ok (none, st') => AfterEnd P rem acc st st'

theorem NextOk.of_emit {P : Planner σ ε} {ok : σ → Prop} {rem : σ → List ε} {acc : List ε} {st : St σ ε}
    {r : Except Err (Option (Batch ε) × St σ ε)}
    (h : ∀ ob st', r = .ok (ob, st') → ∃ b, ob = some b ∧ AfterBatch P ok rem acc st b st') : NextOk P ok rem acc st r := by
  match r with
  | .error _ => trivial
  | .ok (ob, st') =>
    obtain ⟨b, rfl, hb⟩ := h ob st' rfl
    exact hb

theorem NextOk.mono {P : Planner σ ε} {ok : σ → Prop} {rem : σ → List ε} {acc acc' : List ε} {st st1 : St σ ε}
    {r : Except Err (Option (Batch ε) × St σ ε)} (h : NextOk P ok rem acc' st1 r) (he : st1.epoch = st.epoch)
    (hb : st1.batchIndex = st.batchIndex) (hcy : mayRestart P st = false → st1.cycle = st.cycle)
    (hp : ∀ done, (done ++ acc ++ held rem st).Perm (cycles P rem st.epoch (st.cycle + 1)) →
      (done ++ acc' ++ held rem st1).Perm (cycles P rem st.epoch (st1.cycle + 1))) : NextOk P ok rem acc st r := by
  match r, h with
  | .error _, _ => trivial
  | .ok (some b, st'), h => exact AfterBatch.mono h he hb hcy hp
  | .ok (none, st'), h => exact AfterEnd.mono h he hb hcy hp

theorem held_perm {P : Planner σ ε} {ok : σ → Prop} {rem : σ → List ε} {st st' : St σ ε}
    (h : Refilled P ok rem st st') : (held rem st').Perm (held rem st) := by
  unfold held
  rw [← h.frame.2.2.2.1]
  exact h.pool.append_left _

theorem restart_conserve {P : Planner σ ε} {ok : σ → Prop} {rem : σ → List ε} {acc : List ε}
    {st st1 st2 : St σ ε} (hR : Refilled P ok rem st st1) (hr : st1.ready = [])
    (h2 : st2.epoch = st1.epoch ∧ st2.batchIndex = st1.batchIndex ∧ st2.cycle = st1.cycle + 1 ∧
      st2.queues = st1.queues ∧ st2.finished = st1.finished ∧
      pool rem st2 = rem (P.src.start st1.epoch (st1.cycle + 1))) (done : List ε)
    (hp : (done ++ acc ++ held rem st).Perm (cycles P rem st.epoch (st.cycle + 1))) :
    (done ++ acc ++ held rem st2).Perm (cycles P rem st.epoch (st2.cycle + 1)) := by
  obtain ⟨_, hp0, _⟩ := hR.pool_nil hr
  rw [h2.2.2.1, cycles_succ, ← hR.frame.2.2.1]
  unfold held at hp ⊢
  rw [h2.2.2.2.2.2, h2.2.2.2.1, ← hR.frame.2.2.2.1, ← hR.frame.1, ← hR.frame.2.2.1, ← List.append_assoc]
  refine List.Perm.append_right _ ?_
  rw [hp0, List.append_nil] at hp
  exact hp

theorem uniformTail_spec {P : Planner σ ε} {ok : σ → Prop} {rem : σ → List ε} {code : Nat}
    (hu : P.uniform = some code) {acc : List ε} {st : St σ ε} (g : Good P ok rem st)
    (hacc : ∀ e ∈ acc, P.shape e = code) (hlen : acc.length < P.batch) (hm : mayRestart P st = false)
    (hpool : pool rem st = []) : NextOk P ok rem acc st (uniformTail P acc st) := by
  have hq : st.queues = [] := g.uniform (by simp [hu])
  have hheld : held rem st = [] := by simp [held, hq, queued, hpool]
  unfold uniformTail
  by_cases hc : P.train = true ∨ acc = []
  · rw [if_pos hc]
    refine ⟨⟨rfl, rfl, rfl⟩, rfl, hm, acc, ?_, ?_, ?_⟩
    · intro ht
      rcases hc with hc | hc
      · rw [ht] at hc; simp at hc
      · exact hc
    · intro s
      have := List.length_filter_le (fun e => decide (P.shape e = s)) acc
      omega
    · intro done hp
      simpa [hheld] using hp
  · rw [if_neg hc]
    push Not at hc
    apply NextOk.of_emit
    intro ob st' h
    have hcore : Core P ok rem { st with finished := true } :=
      ⟨g.core.inv, g.core.closed, g.core.done, g.core.ok, g.core.count⟩
    obtain ⟨b, hb, ha⟩ := emit_spec (ok := ok) (rem := rem) (st := { st with finished := true }) hcore hc.2
      (Nat.le_of_lt hlen) ⟨code, hacc⟩ (Or.inr ⟨by simpa using hc.1, hm⟩) rfl (fun _ => ⟨hheld, hm⟩)
      (fun h => by simp at h) h
    exact ⟨b, hb, ha.mono rfl rfl (fun _ => rfl) (fun done hp => hp)⟩

theorem uniformLoop_spec {P : Planner σ ε} {ok : σ → Prop} {rem : σ → List ε} (L : Records P.src ok rem)
    (hv : P.Valid) {code : Nat} (hu : P.uniform = some code) : ∀ (fuel : Nat) (acc : List ε) (empty : Nat)
    (st : St σ ε), Good P ok rem st → (∀ e ∈ acc, P.shape e = code) → acc.length ≤ P.batch →
      NextOk P ok rem acc st (uniformLoop P code fuel acc empty st)
  | 0, _, _, _, _, _, _ => trivial
  | fuel + 1, acc, empty, st, g, hacc, hlen => by
    rw [uniformLoop]
    by_cases hlt : acc.length < P.batch
    · rw [if_pos hlt]
      cases hr : refill P (refillFuel P st) st with
      | error e => trivial
      | ok st1 =>
        have hR := refill_spec L hv.cfg _ _ _ g.core hr
        have g1 : Good P ok rem st1 := g.of_core hR.core hR.frame.2.1.symm hR.frame.2.2.2.1.symm hR.frame.2.2.2.2.symm
        simp only
        by_cases hrd : st1.ready = []
        · rw [if_pos hrd]
          by_cases hm : mayRestart P st1 = true
          · rw [if_pos hm]
            by_cases he : 16 < countEmpty st1 empty
            · rw [if_pos he]; trivial
            rw [if_neg he]
            cases h2 : restartCycle P st1 with
            | error e => trivial
            | ok st2 =>
              obtain ⟨hc2, hrest⟩ := restart_spec L hv h2
              have g2 : Good P ok rem st2 := g1.of_core hc2 hrest.2.1 hrest.2.2.2.1 hrest.2.2.2.2.1
              refine (uniformLoop_spec L hv hu fuel acc _ st2 g2 hacc hlen).mono
                (hrest.1.trans hR.frame.1.symm) (hrest.2.1.trans hR.frame.2.1.symm) ?_
                (fun done hp => restart_conserve hR hrd hrest done hp)
              intro hmm
              rw [mayRestart_congr hR.frame.2.1, hm] at hmm
              simp at hmm
          · rw [if_neg hm]
            refine (uniformTail_spec hu g1 hacc hlt (by simpa using hm) (hR.pool_nil hrd).1).mono
              hR.frame.1.symm hR.frame.2.1.symm (fun _ => hR.frame.2.2.1.symm) ?_
            intro done hp
            rw [← hR.frame.2.2.1]
            exact ((held_perm hR).append_left _).trans hp
        · rw [if_neg hrd]
          by_cases hs : ((st1.ready.take (min (P.batch - acc.length) st1.ready.length)).any fun e => P.shape e != code) = true
          · rw [if_pos hs]; trivial
          rw [if_neg hs]
          have g2 : Good P ok rem { st1 with ready := st1.ready.drop (min (P.batch - acc.length) st1.ready.length) } :=
            g1.of_core ⟨g1.core.inv, g1.core.closed, g1.core.done, g1.core.ok, g1.core.count⟩ rfl rfl rfl
          refine (uniformLoop_spec L hv hu fuel _ empty _ g2 ?_ ?_).mono hR.frame.1.symm hR.frame.2.1.symm
            (fun _ => hR.frame.2.2.1.symm) ?_
          · intro e he
            rcases List.mem_append.mp he with he | he
            · exact hacc e he
            · simp only [Bool.not_eq_true, List.any_eq_false, bne_iff_ne, ne_eq, Decidable.not_not] at hs
              exact hs e he
          · rw [List.length_append, List.length_take]; omega
          · intro done hp
            simp only
            rw [← hR.frame.2.2.1]
            refine List.Perm.trans ?_ (((held_perm hR).append_left _).trans hp)
            have hq : st1.queues = [] := g1.uniform (by simp [hu])
            unfold held pool
            simp only [hq, queued, List.flatMap_nil, List.nil_append]
            simp only [List.append_assoc]
            rw [← List.append_assoc (List.take _ _), List.take_append_drop]
    · rw [if_neg hlt]
      have hl : acc.length = P.batch := by omega
      apply NextOk.of_emit
      intro ob st' h
      rw [← realFlags_full, ← hl] at h
      have h' : makeSome P st (padTo acc P.batch) (realFlags acc.length P.batch) false = .ok (ob, st') := by
        rw [← hl, padTo_full]; exact h
      have hpos := hv.batch
      exact emit_spec g.core (fun h => by rw [h] at hl; simp at hl; omega) hlen ⟨code, hacc⟩ (Or.inl hl) g.running
        (fun h => by simp at h) (fun _ => g) h'

theorem genericTail_spec {P : Planner σ ε} {ok : σ → Prop} {rem : σ → List ε} (hv : P.Valid) (hu : P.uniform = none)
    {st : St σ ε} (g : Good P ok rem st) (hm : mayRestart P st = false)
    (hpool : pool rem st = []) : NextOk P ok rem [] st (genericTail P st) := by
  have hheld : held rem st = queued st.queues := by simp [held, hpool]
  unfold genericTail
  by_cases ht : P.train = true
  · rw [if_pos ht]
    refine ⟨⟨rfl, rfl, rfl⟩, rfl, hm, queued st.queues, ?_, ?_, ?_⟩
    · intro h; rw [h] at ht; simp at ht
    · exact queued_filter_length _ g.keys g.shapes hv.batch g.short
    · intro done hp
      simpa [hheld] using hp
  rw [if_neg ht]
  cases hs : minShape st.queues with
  | none =>
    refine ⟨⟨rfl, rfl, rfl⟩, rfl, hm, [], fun _ => rfl, fun s => by simpa using hv.batch, ?_⟩
    intro done hp
    simpa [hheld, minShape_none hs] using hp
  | some s =>
    obtain ⟨l, hne, hg, hmin⟩ := minShape_some g.keys hs
    simp only [hg, Option.getD_some]
    apply NextOk.of_emit
    intro ob st' h
    have hlmem := qget_mem hg
    have hfq := filter_queued g.keys hg
    have hlast : ((st.queues.filter fun p => p.1 != s).all fun p => p.2.isEmpty) = true →
        queued (st.queues.filter fun p => p.1 != s) = [] := by
      intro h
      simp only [List.all_eq_true, List.isEmpty_iff] at h
      simp only [queued, List.flatMap_eq_nil_iff]
      exact h
    have hsub : ∀ p ∈ st.queues.filter (fun p => p.1 != s), p ∈ st.queues := fun p hp => List.mem_of_mem_filter hp
    have gq : (st.finished || ((st.queues.filter fun p => p.1 != s).all fun p => p.2.isEmpty)) = false →
        Good P ok rem ⟨st.epoch, st.batchIndex, st.cycle, st.cursor, st.res, st.ready,
          st.queues.filter fun p => p.1 != s, st.exhausted,
          st.finished || ((st.queues.filter fun p => p.1 != s).all fun p => p.2.isEmpty)⟩ := by
      intro h
      refine ⟨⟨g.core.inv, g.core.closed, g.core.done, g.core.ok, g.core.count⟩, h,
        ((List.filter_sublist (l := st.queues)).map _).nodup g.keys,
        fun p hp => g.shapes p (hsub p hp), fun p hp => g.short p (hsub p hp),
        Nat.le_trans (List.length_filter_le _ _) g.limit, ?_, g.budget⟩
      simp [hu]
    obtain ⟨b, hb, ha⟩ := emit_spec (ok := ok) (rem := rem) (real := l)
      (last := ((st.queues.filter fun p => p.1 != s).all fun p => p.2.isEmpty))
      (st := ⟨st.epoch, st.batchIndex, st.cycle, st.cursor, st.res, st.ready, st.queues.filter fun p => p.1 != s,
        st.exhausted, st.finished || ((st.queues.filter fun p => p.1 != s).all fun p => p.2.isEmpty)⟩)
      ⟨g.core.inv, g.core.closed, g.core.done, g.core.ok, g.core.count⟩ hne
      (Nat.le_of_lt (g.short _ hlmem)) ⟨s, g.shapes _ hlmem⟩ (Or.inr ⟨by simpa using ht, hm⟩)
      (by simp only [g.running, Bool.false_or])
      (fun h => ⟨by
        have h1 := hlast h
        unfold held
        simp only [h1, List.nil_append]
        exact hpool, hm⟩)
      (fun h => gq (by rw [g.running, h]; rfl)) (by exact h)
    refine ⟨b, hb, ha.mono rfl rfl (fun _ => rfl) ?_⟩
    intro done hp
    refine List.Perm.trans ?_ hp
    rw [List.append_nil, List.append_assoc]
    refine List.Perm.append_left _ ?_
    unfold held
    simp only
    rw [← List.append_assoc]
    exact hfq.append_right _

theorem genericLoop_spec {P : Planner σ ε} {ok : σ → Prop} {rem : σ → List ε} (L : Records P.src ok rem)
    (hv : P.Valid) (hu : P.uniform = none) : ∀ (fuel : Nat) (empty : Nat)
    (st : St σ ε), Good P ok rem st → NextOk P ok rem [] st (genericLoop P fuel empty st)
  | 0, _, _, _ => trivial
  | fuel + 1, empty, st, g => by
    rw [genericLoop]
    cases hr : refill P (refillFuel P st) st with
    | error e => trivial
    | ok st1 =>
      have hR := refill_spec L hv.cfg _ _ _ g.core hr
      have g1 : Good P ok rem st1 := g.of_core hR.core hR.frame.2.1.symm hR.frame.2.2.2.1.symm hR.frame.2.2.2.2.symm
      simp only
      have hpback : ∀ (acc : List ε) (st2 : St σ ε), st2.cycle = st1.cycle →
          (acc ++ held rem st2).Perm (held rem st1) → ∀ done,
          (done ++ [] ++ held rem st).Perm (cycles P rem st.epoch (st.cycle + 1)) →
          (done ++ acc ++ held rem st2).Perm (cycles P rem st.epoch (st2.cycle + 1)) := by
        intro acc st2 hcy hpp done hp
        rw [hcy, ← hR.frame.2.2.1, List.append_assoc]
        rw [List.append_nil] at hp
        exact ((hpp.trans (held_perm hR)).append_left _).trans hp
      cases hrd : st1.ready with
      | nil =>
        simp only
        by_cases hm : mayRestart P st1 = true
        · rw [if_pos hm]
          by_cases he : 16 < countEmpty st1 empty
          · rw [if_pos he]; trivial
          rw [if_neg he]
          cases h2 : restartCycle P st1 with
          | error e => trivial
          | ok st2 =>
            obtain ⟨hc2, hrest⟩ := restart_spec L hv h2
            have g2 : Good P ok rem st2 := g1.of_core hc2 hrest.2.1 hrest.2.2.2.1 hrest.2.2.2.2.1
            refine (genericLoop_spec L hv hu fuel _ st2 g2).mono
              (hrest.1.trans hR.frame.1.symm) (hrest.2.1.trans hR.frame.2.1.symm) ?_
              (fun done hp => restart_conserve hR hrd hrest done hp)
            intro hmm
            rw [mayRestart_congr hR.frame.2.1, hm] at hmm
            simp at hmm
        · rw [if_neg hm]
          refine (genericTail_spec hv hu g1 (by simpa using hm) (hR.pool_nil hrd).1).mono
            hR.frame.1.symm hR.frame.2.1.symm (fun _ => hR.frame.2.2.1.symm)
            (hpback [] st1 rfl (List.Perm.refl _))
      | cons e ready =>
        simp only
        cases ha : appendShape P st1.queues e with
        | error err => trivial
        | ok lq =>
          obtain ⟨l, q⟩ := lq
          have hA := appendShape_spec g1.keys ha
          obtain ⟨l0, rfl, hl0⟩ := hA.queue
          have hl0len : l0.length < P.batch := by
            rcases hl0 with rfl | h
            · simpa using hv.batch
            · exact g1.short _ h
          have hl0sh : ∀ x ∈ l0 ++ [e], P.shape x = P.shape e := by
            intro x hx
            rcases List.mem_append.mp hx with hx | hx
            · rcases hl0 with rfl | h
              · simp at hx
              · exact g1.shapes _ h x hx
            · simp only [List.mem_singleton] at hx; rw [hx]
          have hun : P.uniform.isSome = true → (qset q (P.shape e) []) = [] := by simp [hu]
          simp only
          by_cases hfull : (l0 ++ [e]).length = P.batch
          · rw [if_pos hfull]
            apply NextOk.of_emit
            intro ob st' h
            have h' : makeSome P ⟨st1.epoch, st1.batchIndex, st1.cycle, st1.cursor, st1.res, ready,
                qset q (P.shape e) [], st1.exhausted, st1.finished⟩ (padTo (l0 ++ [e]) P.batch)
                (realFlags (l0 ++ [e]).length P.batch) false = .ok (ob, st') := by
              rw [← hfull, padTo_full, realFlags_full, hfull]; exact h
            have hkeys := qset_keys_some (l' := ([] : List ε)) hA.get
            have hcore : Core P ok rem ⟨st1.epoch, st1.batchIndex, st1.cycle, st1.cursor, st1.res, ready,
                qset q (P.shape e) [], st1.exhausted, st1.finished⟩ :=
              ⟨g1.core.inv, g1.core.closed, g1.core.done, g1.core.ok, g1.core.count⟩
            have g2 : Good P ok rem ⟨st1.epoch, st1.batchIndex, st1.cycle, st1.cursor, st1.res, ready,
                qset q (P.shape e) [], st1.exhausted, st1.finished⟩ := by
              refine ⟨hcore, g1.running, ?_, ?_, ?_, ?_, by simp [hu], g1.budget⟩
              · simp only [hkeys]; exact hA.nodup
              · intro p hp x hx
                have hnd : ((qset q (P.shape e) []).map (·.1)).Nodup := by rw [hkeys]; exact hA.nodup
                rcases qset_mem hp with rfl | hp'
                · simp at hx
                · rcases hA.mem p hp' with rfl | hp''
                  · exact hl0sh x hx
                  · exact g1.shapes p hp'' x hx
              · intro p hp
                rcases qset_mem hp with rfl | hp'
                · simpa using hv.batch
                · rcases hA.mem p hp' with rfl | hp''
                  · -- the full queue was replaced
                    have hnd : ((qset q (P.shape e) []).map (·.1)).Nodup := by rw [hkeys]; exact hA.nodup
                    have h1 := qget_of_mem hnd hp
                    simp only [qset_get, Option.some.injEq] at h1
                    simp at h1
                  · exact g1.short p hp''
              · have := congrArg List.length hkeys
                simp only [List.length_map] at this
                simp only [this]
                exact hA.limit g1.limit
            obtain ⟨b, hb, hab⟩ := emit_spec hcore (by simp) (Nat.le_of_eq hfull) ⟨_, hl0sh⟩ (Or.inl hfull) g1.running
              (fun h => by simp at h) (fun _ => g2) h'
            refine ⟨b, hb, hab.mono hR.frame.1.symm hR.frame.2.1.symm (fun _ => hR.frame.2.2.1.symm)
              (hpback (l0 ++ [e]) ⟨st1.epoch, st1.batchIndex, st1.cycle, st1.cursor, st1.res, ready,
                qset q (P.shape e) [], st1.exhausted, st1.finished⟩ rfl ?_)⟩
            unfold held pool
            simp only
            have h1 := qset_queued (l' := ([] : List ε)) hA.get
            rw [List.nil_append] at h1
            have h2 := h1.trans hA.perm
            rw [← List.append_assoc, hrd]
            simp only [List.cons_append]
            have h3 := h2.append_right (ready ++ st1.res.slots ++ rem st1.cursor)
            refine h3.trans ?_
            rw [List.append_assoc]
            exact List.Perm.refl _
          · rw [if_neg hfull]
            have hcore : Core P ok rem ⟨st1.epoch, st1.batchIndex, st1.cycle, st1.cursor, st1.res, ready,
                q, st1.exhausted, st1.finished⟩ :=
              ⟨g1.core.inv, g1.core.closed, g1.core.done, g1.core.ok, g1.core.count⟩
            have g2 : Good P ok rem ⟨st1.epoch, st1.batchIndex, st1.cycle, st1.cursor, st1.res, ready,
                q, st1.exhausted, st1.finished⟩ := by
              refine ⟨hcore, g1.running, hA.nodup, ?_, ?_, hA.limit g1.limit, by simp [hu], g1.budget⟩
              · intro p hp x hx
                rcases hA.mem p hp with rfl | hp''
                · exact hl0sh x hx
                · exact g1.shapes p hp'' x hx
              · intro p hp
                rcases hA.mem p hp with rfl | hp''
                · simp only [List.length_append, List.length_singleton] at hfull ⊢
                  omega
                · exact g1.short p hp''
            refine (genericLoop_spec L hv hu fuel empty _ g2).mono hR.frame.1.symm hR.frame.2.1.symm
              (fun _ => hR.frame.2.2.1.symm) (hpback [] ⟨st1.epoch, st1.batchIndex, st1.cycle, st1.cursor, st1.res, ready,
                q, st1.exhausted, st1.finished⟩ rfl ?_)
            unfold held pool
            simp only [List.nil_append]
            have h3 := hA.perm.append_right (ready ++ st1.res.slots ++ rem st1.cursor)
            refine h3.trans ?_
            rw [List.append_assoc, hrd]
            exact List.Perm.refl _

theorem nextBatch_spec {P : Planner σ ε} {ok : σ → Prop} {rem : σ → List ε} (L : Records P.src ok rem)
    (hv : P.Valid) {st : St σ ε} (g : Good P ok rem st) : NextOk P ok rem [] st (nextBatch P st) := by
  unfold nextBatch
  rw [if_neg (by simp [g.running])]
  cases hu : P.uniform with
  | none => exact genericLoop_spec L hv hu _ _ _ g
  | some code => exact uniformLoop_spec L hv hu _ _ _ _ g (by simp) (Nat.zero_le _)

end Verif.Planner
