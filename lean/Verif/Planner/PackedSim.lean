import Verif.Planner.Packed
import Verif.Reservoir.MapLemmas

/-! The packed path is simulated by the uniform object path. -/
namespace Verif.Planner
open Verif.Reservoir (Res Native Ready packedOffer packedDrain rngBase offerZero)

variable {σ ε : Type}

/-- Packed and object states with the same content; `f` is the id of a record. -/
structure PRel (f : ε → UInt64) (p : PSt σ) (s : St σ ε) : Prop where
  epoch : p.epoch = s.epoch
  index : p.batchIndex = s.batchIndex
  cursor : p.cursor = s.cursor
  cycle : s.cycle = 0
  queues : s.queues = []
  res : Reservoir.Rel p.res (s.res.map f)
  inv : p.ready.Inv
  content : p.ready.content = s.ready.map f
  exhausted : p.exhausted = s.exhausted
  finished : p.finished = s.finished

/-- The draw counter of the object reservoir is below the limit of the native one. -/
def Small (s : St σ ε) : Prop := s.res.rngCounter < 2 ^ 63

/-- Whenever the packed call returns, the object call returns a related result, and vice versa when the resulting
counter is small. -/
def Sim {A B : Type} (R : A → B → Prop) (small : B → Prop) (p : Except Err A) (u : Except Err B) : Prop :=
  (∀ a, p = .ok a → ∃ b, u = .ok b ∧ R a b) ∧ (∀ b, u = .ok b → small b → ∃ a, p = .ok a ∧ R a b)

/-- What the packed path needs. -/
structure PackedOk (P : Planner σ ε) (f : ε → UInt64) (packed : Nat → σ → List UInt64 × σ) (rem : σ → List ε) : Prop where
  zero : P.src.zeroResident = true
  reads : ∃ many, P.src.many = some many ∧ ∀ k s, packed k s = ((many k s).1.map f, (many k s).2)
  cap : P.cfg.shuffle = true → P.cfg.bufferSize < 2 ^ 64
  total : ∀ e, (rem (P.src.start e 0)).length < 2 ^ 64
  plain : P.sharded = false

theorem offer_sim {P : Planner σ ε} {f : ε → UInt64} (hv : P.cfg.Valid) (hz : P.src.zeroResident = true)
    (hm : P.src.many.isSome = true) (hcap : P.cfg.shuffle = true → P.cfg.bufferSize < 2 ^ 64) {s : St σ ε} {n : Native}
    (hi : Reservoir.Inv (resCfg P s.epoch s.cycle) s.res) (hcy : s.cycle = 0) (hr : Reservoir.Rel n (s.res.map f))
    {items : List ε} (hne : items ≠ []) :
    (∀ n' o, packedOffer P.H (pCfg P s.epoch) n (items.map f) = some (n', o) →
      ∃ r' o', offerInto P s items = .ok { s with res := r', ready := s.ready ++ o' } ∧ Reservoir.Rel n' (r'.map f) ∧
        o = o'.map f) ∧
    (∀ s', offerInto P s items = .ok s' → Small s' → ∃ n' o r' o', packedOffer P.H (pCfg P s.epoch) n (items.map f) = some (n', o) ∧
      s' = { s with res := r', ready := s.ready ++ o' } ∧ Reservoir.Rel n' (r'.map f) ∧ o = o'.map f) := by
  have hp : packedOffer P.H (pCfg P s.epoch) n (items.map f) = packedOffer P.H (resCfg P s.epoch s.cycle) n (items.map f) := by
    have : rngBase P.H (pCfg P s.epoch) = rngBase P.H (resCfg P s.epoch s.cycle) := by
      rw [hcy]; rfl
    unfold packedOffer
    rw [this]; rfl
  rw [hp]
  have ho : offerInto P s items = match offerZero P.H (resCfg P s.epoch s.cycle) s.res items with
      | none => .error .reservoir
      | some (res, out) => .ok { s with res := res, ready := s.ready ++ out } := by
    unfold offerInto
    rw [if_pos (by simp [hz, hm])]
    cases offerZero P.H (resCfg P s.epoch s.cycle) s.res items <;> rfl
  have hu : (resCfg P s.epoch s.cycle).capacity < 2 ^ 64 := by
    show (if P.cfg.shuffle then P.cfg.bufferSize else 1) < 2 ^ 64
    split
    · exact hcap (by assumption)
    · exact Nat.one_lt_two_pow (by decide)
  cases hb : rngBase P.H (resCfg P s.epoch s.cycle) with
  | none =>
    constructor
    · intro n' o h; simp [packedOffer, hb] at h
    · intro s' h
      rw [ho] at h
      have : offerZero P.H (resCfg P s.epoch s.cycle) s.res items = none := by
        unfold offerZero
        rw [hb, if_neg hne]
        split <;> rfl
      rw [this] at h
      simp at h
  | some base =>
    have hsim := Reservoir.packedOffer_sim (resCfg_valid hv s.epoch s.cycle) hu (hi.map f) hr base hb (items.map f)
    rw [Reservoir.offerZero_map] at hsim
    constructor
    · intro n' o h
      obtain ⟨r', h1, h2⟩ := hsim.1 n' o h
      simp only [Option.map_eq_some_iff, Prod.mk.injEq] at h1
      obtain ⟨⟨r1, o1⟩, h3, rfl, rfl⟩ := h1
      refine ⟨r1, o1, ?_, h2, rfl⟩
      rw [ho, h3]
    · intro s' h hs
      rw [ho] at h
      cases hz : offerZero P.H (resCfg P s.epoch s.cycle) s.res items with
      | none => rw [hz] at h; simp at h
      | some q =>
        obtain ⟨r1, o1⟩ := q
        rw [hz] at h
        simp only [Except.ok.injEq] at h
        subst h
        obtain ⟨n', h1, h2⟩ := hsim.2 (r1.map f) (o1.map f) (by rw [hz]; rfl) hs
        exact ⟨n', _, r1, o1, h1, rfl, h2, rfl⟩

theorem pdrain_sim {P : Planner σ ε} {f : ε → UInt64} {s : St σ ε} {n : Native}
    (hcy : s.cycle = 0) (hr : Reservoir.Rel n (s.res.map f)) (ho : s.res.offered < 2 ^ 64) :
    (∀ n' o, packedDrain P.H (pCfg P s.epoch) n = some (n', o) →
      ∃ r' o', Reservoir.drain P.H (resCfg P s.epoch s.cycle) s.res = some (r', o') ∧ Reservoir.Rel n' (r'.map f) ∧
        o = o'.map f) ∧
    (∀ r' o', Reservoir.drain P.H (resCfg P s.epoch s.cycle) s.res = some (r', o') →
      ∃ n', packedDrain P.H (pCfg P s.epoch) n = some (n', o'.map f) ∧ Reservoir.Rel n' (r'.map f)) := by
  have hp : packedDrain P.H (pCfg P s.epoch) n = packedDrain P.H (resCfg P s.epoch s.cycle) n := by
    rw [hcy]; rfl
  rw [hp]
  have hsim := Reservoir.packedDrain_sim (H := P.H) (c := resCfg P s.epoch s.cycle) hr ho
  rw [Reservoir.drain_map] at hsim
  constructor
  · intro n' o h
    obtain ⟨r', h1, h2⟩ := hsim.1 n' o h
    simp only [Option.map_eq_some_iff, Prod.mk.injEq] at h1
    obtain ⟨⟨r1, o1⟩, h3, rfl, rfl⟩ := h1
    exact ⟨r1, o1, h3, h2, rfl⟩
  · intro r' o' h
    exact hsim.2 (r'.map f) (o'.map f) (by rw [h]; rfl)

theorem drain_counter {H : Rng.Digest} {c : Reservoir.Cfg} {r r' : Res ε} {o : List ε}
    (h : Reservoir.drain H c r = some (r', o)) : r'.rngCounter = r.rngCounter := by
  unfold Reservoir.drain at h
  split at h
  · simp only [Option.some.injEq, Prod.mk.injEq] at h; rw [h.1]
  · simp only [Option.bind_eq_bind, Option.bind_eq_some_iff, Option.some.injEq, Prod.mk.injEq] at h
    obtain ⟨_, _, _, _, rfl, _⟩ := h
    rfl

theorem offerInto_counter {P : Planner σ ε} (hv : P.cfg.Valid) {s s' : St σ ε} {items : List ε}
    (hi : Reservoir.Inv (resCfg P s.epoch s.cycle) s.res) (h : offerInto P s items = .ok s') :
    s.res.rngCounter ≤ s'.res.rngCounter := by
  unfold offerInto at h
  split at h
  · simp at h
  rename_i res out hh
  simp only [Except.ok.injEq] at h
  subst h
  by_cases hb : (P.src.zeroResident && P.src.many.isSome) = true
  · rw [if_pos hb] at hh
    exact Reservoir.step_counter (resCfg_valid hv _ _) (op := .offerZero items) hi hh
  · rw [if_neg hb] at hh
    exact Reservoir.step_counter (resCfg_valid hv _ _) (op := .offerMany _) hi hh

theorem refill_counter {P : Planner σ ε} {ok : σ → Prop} {rem : σ → List ε} (L : Records P.src ok rem)
    (hv : P.cfg.Valid) : ∀ (fuel : Nat) (s s' : St σ ε), Core P ok rem s → refill P fuel s = .ok s' →
      s.res.rngCounter ≤ s'.res.rngCounter
  | 0, _, _, _, h => by simp [refill] at h
  | fuel + 1, s, s', hc, h => by
    rw [refill] at h
    split at h
    · simp only [Except.ok.injEq] at h; rw [h]
    rename_i hg
    push Not at hg
    simp only at h
    split at h
    · unfold drainInto at h
      split at h
      · simp at h
      rename_i hd
      simp only [Except.ok.injEq] at h
      subst h
      exact (drain_counter hd).ge
    · rename_i hne
      split at h
      · simp at h
      rename_i s1 ho
      have h1 := offerInto_counter (s := { s with cursor := (readChunk P s.cursor).2 }) hv hc.inv ho
      obtain ⟨hok, happ, hnil⟩ := readChunk_spec (P := P) L s.cursor hc.ok
      obtain ⟨⟨f1, f2, f3, f4, f5⟩, hcu, hex, hinv, hcl, hcl', _, hoff⟩ :=
        offerInto_spec (st := { s with cursor := (readChunk P s.cursor).2 }) hv hne hc.inv ho
      have hexh : s.exhausted = false := by simpa using hg.2
      have hc1 : Core P ok rem s1 := by
        refine ⟨?_, ?_, ?_, ?_, ?_⟩
        · rw [← f1, ← f3]; exact hinv
        · rw [hex, hcl']; exact hexh
        · rw [hex]; intro h; rw [hexh] at h; simp at h
        · rw [hcu]; exact hok
        · rw [← f1, ← f3, hcu, hoff]
          have := hc.count
          simp only at this ⊢
          rw [this, ← happ]; simp; omega
      exact h1.trans (refill_counter L hv fuel s1 s' hc1 h)

theorem core_offer {P : Planner σ ε} {ok : σ → Prop} {rem : σ → List ε} (L : Records P.src ok rem)
    (hv : P.cfg.Valid) {s s1 : St σ ε} (hc : Core P ok rem s) (hexh : s.exhausted = false)
    (hne : (readChunk P s.cursor).1 ≠ [])
    (ho : offerInto P { s with cursor := (readChunk P s.cursor).2 } (readChunk P s.cursor).1 = .ok s1) : Core P ok rem s1 := by
  obtain ⟨hok, happ, hnil⟩ := readChunk_spec (P := P) L s.cursor hc.ok
  obtain ⟨⟨f1, f2, f3, f4, f5⟩, hcu, hex, hinv, hcl, hcl', _, hoff⟩ :=
    offerInto_spec (st := { s with cursor := (readChunk P s.cursor).2 }) hv hne hc.inv ho
  refine ⟨?_, ?_, ?_, ?_, ?_⟩
  · rw [← f1, ← f3]; exact hinv
  · rw [hex, hcl']; exact hexh
  · rw [hex]; intro h; rw [hexh] at h; simp at h
  · rw [hcu]; exact hok
  · rw [← f1, ← f3, hcu, hoff]
    have := hc.count
    simp only at this ⊢
    rw [this, ← happ]; simp; omega

theorem size_zero_iff {f : ε → UInt64} {p : PSt σ} {s : St σ ε} (h : PRel f p s) : p.ready.size = 0 ↔ s.ready = [] := by
  rw [h.inv.size, h.content]; simp

theorem refill_sim {P : Planner σ ε} {ok : σ → Prop} {rem : σ → List ε} (L : Records P.src ok rem)
    (hv : P.cfg.Valid) {f : ε → UInt64} {packed : Nat → σ → List UInt64 × σ} (hp : PackedOk P f packed rem) :
    ∀ (fuel : Nat) (p : PSt σ) (s : St σ ε), Core P ok rem s → PRel f p s →
      Sim (PRel f) Small (pRefill P packed fuel p) (refill P fuel s)
  | 0, _, _, _, _ => ⟨fun _ h => by simp [pRefill] at h, fun _ h => by simp [refill] at h⟩
  | fuel + 1, p, s, hc, hr => by
    obtain ⟨many, hm, hpk⟩ := hp.reads
    have hread : packed chunkSize p.cursor = ((readChunk P s.cursor).1.map f, (readChunk P s.cursor).2) := by
      rw [hpk, hr.cursor]
      simp only [readChunk, hm]
    rw [pRefill, refill]
    by_cases hg : s.ready ≠ [] ∨ s.exhausted = true
    · rw [if_pos hg, if_pos (by rw [hr.exhausted, ne_eq, size_zero_iff hr]; exact hg)]
      constructor
      · intro a h; simp only [Except.ok.injEq] at h; subst h; exact ⟨s, rfl, hr⟩
      · intro b h _; simp only [Except.ok.injEq] at h; subst h; exact ⟨p, rfl, hr⟩
    rw [if_neg hg, if_neg (by rw [hr.exhausted, ne_eq, size_zero_iff hr]; exact hg), hread]
    push Not at hg
    have hexh : s.exhausted = false := by simpa using hg.2
    simp only
    by_cases he : (readChunk P s.cursor).1 = []
    · rw [if_pos he, if_pos (by rw [he]; rfl)]
      have hoff : s.res.offered < 2 ^ 64 := by
        have h1 := hc.count
        have h2 := hp.total s.epoch
        rw [hr.cycle] at h1
        omega
      have hsim := pdrain_sim (P := P) (f := f) (s := s) hr.cycle hr.res hoff
      rw [hr.epoch]
      unfold drainInto
      simp only
      constructor
      · intro a h
        cases hd : packedDrain P.H (pCfg P s.epoch) p.res with
        | none => rw [hd] at h; simp at h
        | some q =>
          obtain ⟨n', o⟩ := q
          rw [hd] at h
          simp only [Except.ok.injEq] at h
          obtain ⟨r', o', h1, h2, rfl⟩ := hsim.1 n' o hd
          obtain ⟨e1, e2⟩ := Reservoir.extend_spec p.ready hr.inv (o'.map f)
          refine ⟨_, by rw [h1], ?_⟩
          subst h
          exact ⟨rfl, hr.index, rfl, hr.cycle, hr.queues, h2, e1, by rw [e2, hr.content]; simp, rfl, hr.finished⟩
      · intro b h _
        cases hd : Reservoir.drain P.H (resCfg P s.epoch s.cycle) s.res with
        | none => rw [hd] at h; simp at h
        | some q =>
          obtain ⟨r', o'⟩ := q
          rw [hd] at h
          simp only [Except.ok.injEq] at h
          obtain ⟨n', h1, h2⟩ := hsim.2 r' o' hd
          obtain ⟨e1, e2⟩ := Reservoir.extend_spec p.ready hr.inv (o'.map f)
          refine ⟨_, by rw [h1], ?_⟩
          subst h
          exact ⟨rfl, hr.index, rfl, hr.cycle, hr.queues, h2, e1, by rw [e2, hr.content]; simp, rfl, hr.finished⟩
    · rw [if_neg he, if_neg (by simpa using he), hr.epoch]
      have hsim := offer_sim (f := f) (s := { s with cursor := (readChunk P s.cursor).2 }) (n := p.res) hv hp.zero
        (by rw [hm]; rfl) hp.cap hc.inv hr.cycle hr.res he
      constructor
      · intro a h
        cases hd : packedOffer P.H (pCfg P s.epoch) p.res ((readChunk P s.cursor).1.map f) with
        | none => rw [hd] at h; simp at h
        | some q =>
          obtain ⟨n', o⟩ := q
          rw [hd] at h
          obtain ⟨r', o', h1, h2, rfl⟩ := hsim.1 n' o hd
          obtain ⟨e1, e2⟩ := Reservoir.extend_spec p.ready hr.inv (o'.map f)
          rw [h1]
          refine (refill_sim L hv hp fuel _ _ (core_offer L hv hc hexh he h1) ?_).1 a h
          exact ⟨rfl, hr.index, rfl, hr.cycle, hr.queues, h2, e1, by rw [e2, hr.content]; simp, hr.exhausted, hr.finished⟩
      · intro b h hs
        cases ho : offerInto P { s with cursor := (readChunk P s.cursor).2 } (readChunk P s.cursor).1 with
        | error e => rw [ho] at h; simp at h
        | ok s1 =>
          rw [ho] at h
          have hc1 := core_offer L hv hc hexh he ho
          have hs1 : Small s1 := lt_of_le_of_lt (refill_counter L hv fuel s1 b hc1 h) hs
          obtain ⟨n', o, r', o', h1, rfl, h2, rfl⟩ := hsim.2 s1 ho hs1
          obtain ⟨e1, e2⟩ := Reservoir.extend_spec p.ready hr.inv (o'.map f)
          simp only at h1
          rw [h1]
          refine (refill_sim L hv hp fuel _ _ hc1 ?_).2 b h hs
          exact ⟨rfl, hr.index, rfl, hr.cycle, hr.queues, h2, e1, by rw [e2, hr.content]; simp, hr.exhausted, hr.finished⟩

/-- A batch with its rows replaced by their ids. -/
def Batch.ids (f : ε → UInt64) (b : Batch ε) : Batch UInt64 := ⟨b.rows.map f, b.real, b.epoch, b.index, b.last⟩

/-- Related results of `next_batch`. -/
def PRes (f : ε → UInt64) (a : Option (Batch UInt64) × PSt σ) (b : Option (Batch ε) × St σ ε) : Prop :=
  a.1 = b.1.map (Batch.ids f) ∧ PRel f a.2 b.2

theorem make_sim {P : Planner σ ε} {f : ε → UInt64} {p : PSt σ} {s : St σ ε} (hr : PRel f p s) (ho : s.res.offered < 2 ^ 64)
    (ids : List UInt64) (rows : List ε) (hids : ids = rows.map f) (real : List Bool) (last : Bool) :
    Sim (PRes f) (fun b => Small b.2) (pMake P p ids real last) (makeSome P s rows real last) := by
  subst hids
  have hb : pBudgetLast P p = budgetLast P s := by
    unfold pBudgetLast budgetLast; rw [hr.index]; cases P.cfg.steps <;> rfl
  unfold pMake makeSome makeBatch
  simp only [hb]
  by_cases h : budgetLast P s = true
  · rw [if_pos h, if_pos h]
    unfold pFinish finishBudget
    simp only
    have hcl : p.res.closed = s.res.closed := hr.res.closed
    by_cases hc : s.res.closed = true
    · rw [if_pos hc, if_pos (hcl.trans hc)]
      have hR : PRel f { p with batchIndex := p.batchIndex + 1, ready := Ready.init, exhausted := true, finished := true }
          { s with batchIndex := s.batchIndex + 1, ready := [], queues := [], exhausted := true, finished := true } :=
        ⟨hr.epoch, by simp [hr.index], hr.cursor, hr.cycle, rfl, hr.res, Reservoir.Ready.Inv.init, rfl, rfl, rfl⟩
      constructor
      · intro a ha; simp only [Except.ok.injEq] at ha; subst ha
        exact ⟨_, rfl, by simp [Batch.ids, hr.epoch, hr.index], hR⟩
      · intro b hb' _; simp only [Except.ok.injEq] at hb'; subst hb'
        exact ⟨_, rfl, by simp [Batch.ids, hr.epoch, hr.index], hR⟩
    · rw [if_neg hc, if_neg (by rw [hcl]; exact hc)]
      have hsim := pdrain_sim (P := P) (f := f) (s := s) hr.cycle hr.res ho
      rw [hr.epoch]
      constructor
      · intro a ha
        cases hd : packedDrain P.H (pCfg P s.epoch) p.res with
        | none => rw [hd] at ha; simp at ha
        | some q =>
          obtain ⟨n', o⟩ := q
          rw [hd] at ha
          simp only [Except.ok.injEq] at ha
          obtain ⟨r', o', h1, h2, rfl⟩ := hsim.1 n' o hd
          rw [h1]
          subst ha
          exact ⟨_, rfl, by simp [Batch.ids, hr.index], ⟨rfl, by simp [hr.index], hr.cursor, hr.cycle, rfl, h2,
            Reservoir.Ready.Inv.init, rfl, rfl, rfl⟩⟩
      · intro b hb' _
        cases hd : Reservoir.drain P.H (resCfg P s.epoch s.cycle) s.res with
        | none => rw [hd] at hb'; simp at hb'
        | some q =>
          obtain ⟨r', o'⟩ := q
          rw [hd] at hb'
          simp only [Except.ok.injEq] at hb'
          obtain ⟨n', h1, h2⟩ := hsim.2 r' o' hd
          rw [h1]
          subst hb'
          exact ⟨_, rfl, by simp [Batch.ids, hr.index], ⟨rfl, by simp [hr.index], hr.cursor, hr.cycle, rfl, h2,
            Reservoir.Ready.Inv.init, rfl, rfl, rfl⟩⟩
  · rw [if_neg h, if_neg h]
    have hR : PRel f { p with batchIndex := p.batchIndex + 1 } { s with batchIndex := s.batchIndex + 1 } :=
        ⟨hr.epoch, by simp [hr.index], hr.cursor, hr.cycle, hr.queues, hr.res, hr.inv, hr.content, hr.exhausted, hr.finished⟩
    constructor
    · intro a ha; simp only [Except.ok.injEq] at ha; subst ha
      exact ⟨_, rfl, by simp [Batch.ids, hr.epoch, hr.index], hR⟩
    · intro b hb' _; simp only [Except.ok.injEq] at hb'; subst hb'
      exact ⟨_, rfl, by simp [Batch.ids, hr.epoch, hr.index], hR⟩

/-- Cyclic padding by `np.resize` is the padding of the object path. -/
theorem npResize_map (f : ε → UInt64) (rows : List ε) (n : Nat) (h0 : rows ≠ []) (hn : rows.length ≤ n) :
    npResize (rows.map f) n = (padTo rows n).map f := by
  have hl : 0 < rows.length := List.length_pos_iff.mpr h0
  have key : ∀ m : Nat, (List.range m).filterMap (fun j => (rows.map f)[j % (rows.map f).length]?) =
      (List.range m).map fun j => f (rows[j % rows.length]'(Nat.mod_lt _ hl)) := by
    intro m
    refine Eq.trans ?_ (congrFun (List.filterMap_eq_map (f := fun j => f (rows[j % rows.length]'(Nat.mod_lt _ hl)))) _)
    congr 1
    funext j
    have : j % rows.length < rows.length := Nat.mod_lt _ hl
    simp [this]
  have key2 : ∀ m : Nat, (List.range m).filterMap (fun j => rows[j % rows.length]?) =
      (List.range m).map fun j => rows[j % rows.length]'(Nat.mod_lt _ hl) := by
    intro m
    refine Eq.trans ?_ (congrFun (List.filterMap_eq_map (f := fun j => (rows[j % rows.length]'(Nat.mod_lt _ hl)))) _)
    congr 1
    funext j
    have : j % rows.length < rows.length := Nat.mod_lt _ hl
    simp [this]
  unfold npResize padTo
  rw [key, key2]
  apply List.ext_getElem
  · simp; omega
  · intro i h1 h2
    simp only [List.getElem_map, List.getElem_range]
    rw [List.getElem_append]
    split
    · rename_i h; simp [Nat.mod_eq_of_lt h]
    · rename_i h
      simp only [List.getElem_map, List.getElem_range]
      congr 2
      exact Nat.mod_eq_sub_mod (by omega)

theorem makeSome_counter {P : Planner σ ε} {s : St σ ε} {rows : List ε} {real : List Bool} {last : Bool}
    {r : Option (Batch ε) × St σ ε} (h : makeSome P s rows real last = .ok r) : r.2.res.rngCounter = s.res.rngCounter := by
  unfold makeSome makeBatch finishBudget at h
  simp only at h
  by_cases hb : budgetLast P s = true
  · rw [if_pos hb] at h
    by_cases hc : s.res.closed = true
    · rw [if_pos hc] at h
      simp only [Except.ok.injEq] at h
      rw [← h]
    · rw [if_neg hc] at h
      cases hd : Reservoir.drain P.H (resCfg P s.epoch s.cycle) s.res with
      | none => rw [hd] at h; simp at h
      | some q =>
        obtain ⟨r', o⟩ := q
        rw [hd] at h
        simp only [Except.ok.injEq] at h
        rw [← h]
        exact drain_counter hd
  · rw [if_neg hb] at h
    simp only [Except.ok.injEq] at h
    rw [← h]

theorem core_ready {P : Planner σ ε} {ok : σ → Prop} {rem : σ → List ε} {s : St σ ε} (hc : Core P ok rem s) (l : List ε) :
    Core P ok rem { s with ready := l } := ⟨hc.inv, hc.closed, hc.done, hc.ok, hc.count⟩

theorem mayRestart_plain {P : Planner σ ε} (h : P.sharded = false) (s : St σ ε) : mayRestart P s = false := by
  unfold mayRestart; rw [h]; rfl

theorem uniformLoop_counter {P : Planner σ ε} {ok : σ → Prop} {rem : σ → List ε} (L : Records P.src ok rem)
    (hv : P.cfg.Valid) (hpl : P.sharded = false) (code : Nat) :
    ∀ (fuel : Nat) (acc : List ε) (empty : Nat) (s : St σ ε) (r : Option (Batch ε) × St σ ε), Core P ok rem s →
      uniformLoop P code fuel acc empty s = .ok r → s.res.rngCounter ≤ r.2.res.rngCounter
  | 0, _, _, _, _, _, h => by simp [uniformLoop] at h
  | fuel + 1, acc, empty, s, r, hc, h => by
    rw [uniformLoop] at h
    by_cases hlt : acc.length < P.batch
    · rw [if_pos hlt] at h
      cases hr : refill P (refillFuel P s) s with
      | error e => rw [hr] at h; simp at h
      | ok s1 =>
        rw [hr] at h
        simp only at h
        have h1 := refill_counter L hv _ _ _ hc hr
        have hc1 := (refill_spec L hv _ _ _ hc hr).core
        by_cases hn : s1.ready = []
        · rw [if_pos hn, if_neg (by simp [mayRestart_plain hpl])] at h
          unfold uniformTail at h
          split at h
          · simp only [Except.ok.injEq] at h
            rw [← h]; exact h1
          · rw [makeSome_counter h]; exact h1
        · rw [if_neg hn] at h
          split at h
          · simp at h
          · exact h1.trans (uniformLoop_counter L hv hpl code fuel _ _
              { s1 with ready := s1.ready.drop (min (P.batch - acc.length) s1.ready.length) } r (core_ready hc1 _) h)
    · rw [if_neg hlt] at h
      exact (makeSome_counter h).ge

theorem loop_sim {P : Planner σ ε} {ok : σ → Prop} {rem : σ → List ε} (L : Records P.src ok rem)
    (hv : P.cfg.Valid) {f : ε → UInt64} {packed : Nat → σ → List UInt64 × σ} (hp : PackedOk P f packed rem) (code : Nat) :
    ∀ (fuel : Nat) (acc : List ε) (empty : Nat) (p : PSt σ) (s : St σ ε), Core P ok rem s → PRel f p s →
      (∀ x ∈ pool rem s, P.shape x = code) → acc.length ≤ P.batch →
      Sim (PRes f) (fun b => Small b.2) (pLoop P packed fuel (acc.map f) p) (uniformLoop P code fuel acc empty s)
  | 0, _, _, _, _, _, _, _, _ => ⟨fun _ h => by simp [pLoop] at h, fun _ h => by simp [uniformLoop] at h⟩
  | fuel + 1, acc, empty, p, s, hc, hr, hpool, hacc => by
    have hoff : ∀ s1 : St σ ε, Core P ok rem s1 → s1.cycle = 0 → s1.res.offered < 2 ^ 64 := by
      intro s1 hc1 hcy
      have h1 := hc1.count
      have h2 := hp.total s1.epoch
      rw [hcy] at h1
      omega
    rw [pLoop, uniformLoop, List.length_map]
    by_cases hlt : acc.length < P.batch
    · rw [if_pos hlt, if_pos hlt]
      have hsim := refill_sim L hv hp (refillFuel P s) p s hc hr
      have hfu : P.src.left p.cursor + 2 = refillFuel P s := by rw [hr.cursor]; rfl
      rw [hfu]
      -- the part after a refill
      have after : ∀ (p1 : PSt σ) (s1 : St σ ε), refill P (refillFuel P s) s = .ok s1 → PRel f p1 s1 →
          Sim (PRes f) (fun b => Small b.2)
            (if p1.ready.size = 0 then
              if P.train = true then .ok (none, { p1 with finished := true })
              else if List.map f acc = [] then .ok (none, { p1 with finished := true })
              else pMake P { p1 with finished := true } (npResize (List.map f acc) P.batch)
                (List.replicate acc.length true ++ List.replicate (P.batch - acc.length) false) true
            else
              match p1.ready.pop (min (P.batch - acc.length) p1.ready.size) with
              | none => .error .reservoir
              | some (ready, part) => pLoop P packed fuel (List.map f acc ++ part) { p1 with ready := ready })
            (if s1.ready = [] then
              if mayRestart P s1 = true then
                if 16 < countEmpty s1 empty then .error .emptyCycles
                else
                  match restartCycle P s1 with
                  | .error e => .error e
                  | .ok st' => uniformLoop P code fuel acc (countEmpty s1 empty) st'
              else uniformTail P acc s1
            else
              if (s1.ready.take (min (P.batch - acc.length) s1.ready.length)).any (fun e => P.shape e != code) then .error .shape
              else uniformLoop P code fuel (acc ++ s1.ready.take (min (P.batch - acc.length) s1.ready.length)) empty
                { s1 with ready := s1.ready.drop (min (P.batch - acc.length) s1.ready.length) }) := by
        intro p1 s1 hs1 hr1
        have hrf := refill_spec L hv _ _ _ hc hs1
        by_cases hn : s1.ready = []
        · rw [if_pos hn, if_pos ((size_zero_iff hr1).mpr hn), if_neg (show ¬ mayRestart P s1 = true by simp [mayRestart_plain hp.plain])]
          unfold uniformTail
          have hR : PRel f { p1 with finished := true } { s1 with finished := true } :=
            ⟨hr1.epoch, hr1.index, hr1.cursor, hr1.cycle, hr1.queues, hr1.res, hr1.inv, hr1.content, hr1.exhausted, rfl⟩
          have hend : Sim (PRes f) (fun b => Small b.2)
              (.ok (none, { p1 with finished := true }) : Except Err (Option (Batch UInt64) × PSt σ))
              (.ok (none, { s1 with finished := true }) : Except Err (Option (Batch ε) × St σ ε)) := by
            constructor
            · intro a ha; simp only [Except.ok.injEq] at ha; subst ha; exact ⟨_, rfl, rfl, hR⟩
            · intro b hb _; simp only [Except.ok.injEq] at hb; subst hb; exact ⟨_, rfl, rfl, hR⟩
          by_cases ht : P.train = true
          · rw [if_pos ht, if_pos (Or.inl ht)]; exact hend
          · rw [if_neg ht]
            by_cases ha : acc = []
            · rw [if_pos (by rw [ha]; rfl), if_pos (Or.inr ha)]; exact hend
            · rw [if_neg (by simpa using ha), if_neg (by simp [ha, ht])]
              exact make_sim hR (hoff s1 hrf.core hr1.cycle) _ _ (npResize_map f acc P.batch ha hacc) _ _
        · have hsz : ¬ p1.ready.size = 0 := fun h => hn ((size_zero_iff hr1).mp h)
          rw [if_neg hn, if_neg hsz]
          have hlen : p1.ready.size = s1.ready.length := by rw [hr1.inv.size, hr1.content]; simp
          rw [hlen]
          have hpop := Reservoir.pop_spec p1.ready hr1.inv (min (P.batch - acc.length) s1.ready.length)
          rw [if_pos (by rw [hr1.content]; simp)] at hpop
          obtain ⟨b', h1, h2, h3⟩ := hpop
          rw [h1]
          simp only
          have hsh : ¬ (s1.ready.take (min (P.batch - acc.length) s1.ready.length)).any (fun e => P.shape e != code) = true := by
            simp only [List.any_eq_true, bne_iff_ne, ne_eq, not_exists, not_and, not_not]
            intro x hx
            apply hpool
            apply hrf.pool.subset
            unfold pool
            have := List.mem_of_mem_take hx
            simp [this]
          rw [if_neg hsh]
          have hR : PRel f { p1 with ready := b' }
              { s1 with ready := s1.ready.drop (min (P.batch - acc.length) s1.ready.length) } :=
            ⟨hr1.epoch, hr1.index, hr1.cursor, hr1.cycle, hr1.queues, hr1.res, h2, by rw [h3, hr1.content]; simp,
              hr1.exhausted, hr1.finished⟩
          have hm : List.map f acc ++ p1.ready.content.take (min (P.batch - acc.length) s1.ready.length) =
              (acc ++ s1.ready.take (min (P.batch - acc.length) s1.ready.length)).map f := by
            rw [hr1.content]; simp
          rw [hm]
          refine loop_sim L hv hp code fuel _ empty _ _ (core_ready hrf.core _) hR ?_ ?_
          · intro x hx
            apply hpool
            apply hrf.pool.subset
            unfold pool at hx ⊢
            simp only [List.mem_append] at hx ⊢
            rcases hx with (hx | hx) | hx
            · exact Or.inl (Or.inl (List.mem_of_mem_drop hx))
            · exact Or.inl (Or.inr hx)
            · exact Or.inr hx
          · simp; omega
      constructor
      · intro a ha
        cases hpr : pRefill P packed (refillFuel P s) p with
        | error e => rw [hpr] at ha; simp at ha
        | ok p1 =>
          rw [hpr] at ha
          obtain ⟨s1, hs1, hr1⟩ := hsim.1 p1 hpr
          rw [hs1]
          exact (after p1 s1 hs1 hr1).1 a ha
      · intro b hb hsm
        cases hsr : refill P (refillFuel P s) s with
        | error e => rw [hsr] at hb; simp at hb
        | ok s1 =>
          have hb0 : uniformLoop P code (fuel + 1) acc empty s = .ok b := by
            rw [uniformLoop, if_pos hlt]; exact hb
          rw [hsr] at hb
          have hs1 : Small s1 := by
            have hc1 := (refill_spec L hv _ _ _ hc hsr).core
            simp only at hb
            refine lt_of_le_of_lt ?_ hsm
            by_cases hn : s1.ready = []
            · rw [if_pos hn, if_neg (show ¬ mayRestart P s1 = true by simp [mayRestart_plain hp.plain])] at hb
              unfold uniformTail at hb
              split at hb
              · simp only [Except.ok.injEq] at hb
                rw [← hb]
              · rw [makeSome_counter hb]
            · rw [if_neg hn] at hb
              split at hb
              · simp at hb
              · exact (uniformLoop_counter L hv hp.plain code fuel _ _
                  { s1 with ready := s1.ready.drop (min (P.batch - acc.length) s1.ready.length) } b (core_ready hc1 _) hb)
          obtain ⟨p1, hp1, hr1⟩ := hsim.2 s1 hsr hs1
          rw [hp1]
          exact (after p1 s1 hsr hr1).2 b hb hsm
    · rw [if_neg hlt, if_neg hlt]
      exact make_sim hr (hoff s hc hr.cycle) _ _ rfl _ _

end Verif.Planner
