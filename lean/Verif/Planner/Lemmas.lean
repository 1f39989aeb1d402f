import Verif.Planner.Spec
import Verif.Reservoir.Lemmas

/-! Invariants of the planner loops. -/
namespace Verif.Planner
open Verif.Rng (Val Digest)
open Verif.Reservoir (Res)

variable {σ ε : Type}

theorem readChunk_spec {P : Planner σ ε} {ok : σ → Prop} {rem : σ → List ε} (L : Records P.src ok rem) (s : σ)
    (hs : ok s) : ok (readChunk P s).2 ∧ (readChunk P s).1 ++ rem (readChunk P s).2 = rem s ∧
      ((readChunk P s).1 = [] → rem s = []) := by
  unfold readChunk
  cases hm : P.src.many with
  | none =>
    obtain ⟨h1, h2, h3⟩ := L.next1 s hs
    refine ⟨h1, ?_, ?_⟩
    · simp only [h2, h3]
      cases rem s <;> rfl
    · simp only [h2]
      cases rem s <;> simp
  | some f =>
    obtain ⟨h1, h2, _, h4⟩ := L.many f hm chunkSize s (by decide) hs
    exact ⟨h1, h2, h4⟩

theorem resCfg_valid {P : Planner σ ε} (hv : P.cfg.Valid) (e y : Nat) : (resCfg P e y).Valid := by
  obtain ⟨h1, h2, _⟩ := hv
  refine ⟨?_, h2⟩
  unfold resCfg
  simp only
  split <;> omega

/-- Records outside the shape queues. -/
def pool (rem : σ → List ε) (st : St σ ε) : List ε := st.ready ++ st.res.slots ++ rem st.cursor

/-- Records in the shape queues. -/
def queued (q : List (Nat × List ε)) : List ε := q.flatMap (·.2)

theorem moves_slots {c : Reservoir.Cfg} {r r' : Res ε} {inp : List (ε × Int)} {out : List ε}
    (h : Reservoir.Moves r r' inp out) (hi : Reservoir.Inv c r) (hi' : Reservoir.Inv c r') :
    (out ++ r'.slots).Perm (r.slots ++ inp.map Prod.fst) := by
  obtain ⟨⟨ps, rfl, hp⟩, _⟩ := h
  have := hp.map Prod.fst
  simp only [List.map_append, Reservoir.pairs] at this
  rwa [List.map_fst_zip (by rw [hi'.len]), List.map_fst_zip (by rw [hi.len])] at this

/-- The reservoir/source part of the planner invariant. -/
structure Core (P : Planner σ ε) (ok : σ → Prop) (rem : σ → List ε) (st : St σ ε) : Prop where
  inv : Reservoir.Inv (resCfg P st.epoch st.cycle) st.res
  closed : st.exhausted = st.res.closed
  done : st.exhausted = true → rem st.cursor = []
  ok : ok st.cursor
  count : (rem (P.src.start st.epoch st.cycle)).length = st.res.offered + (rem st.cursor).length

/-- Fields a refill leaves alone. -/
def SameFrame (a b : St σ ε) : Prop :=
  a.epoch = b.epoch ∧ a.batchIndex = b.batchIndex ∧ a.cycle = b.cycle ∧ a.queues = b.queues ∧ a.finished = b.finished

theorem offer_closed {H : Digest} {c : Reservoir.Cfg} {r r' : Res ε} {x : ε} {z : Int} {out : List ε}
    (h : Reservoir.offer H c r x z = some (r', out)) : r.closed = false ∧ r'.closed = false := by
  unfold Reservoir.offer at h
  split at h
  · exact absurd h (by simp)
  rename_i hcl
  split at h
  · exact absurd h (by simp)
  simp only [Option.bind_eq_bind, Option.bind_eq_some_iff] at h
  obtain ⟨base, _, ⟨r1, o1⟩, hw, h⟩ := h
  simp only [Option.some.injEq, Prod.mk.injEq] at h
  obtain ⟨rfl, rfl⟩ := h
  have := (Reservoir.evictWhile_closed _ _ _ _ _ _ _ hw).1
  simp only [Reservoir.updatePeaks, Reservoir.admit]
  simp only [this]
  simpa using hcl

theorem offerEach_closed {H : Digest} {c : Reservoir.Cfg} : ∀ (items : List (ε × Int)) (r r' : Res ε) (out : List ε),
    Reservoir.offerEach H c items r = some (r', out) → r.closed = false → r'.closed = false
  | [], r, r', out, h, hc => by
    simp only [Reservoir.offerEach, Option.some.injEq, Prod.mk.injEq] at h
    rw [← h.1]; exact hc
  | (x, z) :: rest, r, r', out, h, hc => by
    simp only [Reservoir.offerEach, Option.bind_eq_bind, Option.bind_eq_some_iff] at h
    obtain ⟨⟨r1, o1⟩, h1, ⟨r2, o2⟩, h2, h3⟩ := h
    simp only [Option.some.injEq, Prod.mk.injEq] at h3
    rw [← h3.1]
    exact offerEach_closed rest r1 r2 o2 h2 (offer_closed h1).2

/-- The sizes the planner passes to the reservoir. -/
def sized (P : Planner σ ε) (items : List ε) : List (ε × Int) :=
  items.map fun e => (e, if P.src.zeroResident && P.src.many.isSome then 0 else P.bytes e)

theorem sized_fst (P : Planner σ ε) (items : List ε) : (sized P items).map Prod.fst = items := by
  simp [sized, Function.comp_def]

theorem offerInto_each {P : Planner σ ε} (hv : P.cfg.Valid) {st : St σ ε} {items : List ε}
    (hi : Reservoir.Inv (resCfg P st.epoch st.cycle) st.res) (hcl : st.res.closed = false)
    (hb : (Reservoir.rngBase P.H (resCfg P st.epoch st.cycle)).isSome) :
    (if P.src.zeroResident && P.src.many.isSome then
        Reservoir.offerZero P.H (resCfg P st.epoch st.cycle) st.res items
      else Reservoir.offerMany P.H (resCfg P st.epoch st.cycle) st.res (items.map fun e => (e, P.bytes e))) =
      Reservoir.offerEach P.H (resCfg P st.epoch st.cycle) (sized P items) st.res := by
  unfold sized
  by_cases hz : (P.src.zeroResident && P.src.many.isSome) = true
  · rw [if_pos hz, Reservoir.offerZero_eq _ _ (resCfg_valid hv _ _) _ _ hb hi hcl]
    simp only [hz, if_true]
  · rw [if_neg hz, Reservoir.offerMany_eq _ _ _ _ hb hcl]
    simp only [hz]
    rfl

theorem offerZero_base {H : Digest} {c : Reservoir.Cfg} {r : Res ε} {items : List ε} {q : Res ε × List ε}
    (hne : items ≠ []) (h : Reservoir.offerZero H c r items = some q) :
    r.closed = false ∧ (Reservoir.rngBase H c).isSome := by
  unfold Reservoir.offerZero at h
  split at h
  · exact absurd h (by simp)
  rename_i hcl
  cases hb : Reservoir.rngBase H c with
  | none => simp [hb] at h
  | some b => exact ⟨by simpa using hcl, rfl⟩

theorem offerInto_spec {P : Planner σ ε} (hv : P.cfg.Valid) {st st' : St σ ε} {items : List ε} (hne : items ≠ [])
    (hi : Reservoir.Inv (resCfg P st.epoch st.cycle) st.res) (h : offerInto P st items = .ok st') :
    SameFrame st st' ∧ st'.cursor = st.cursor ∧ st'.exhausted = st.exhausted ∧
      Reservoir.Inv (resCfg P st.epoch st.cycle) st'.res ∧ st.res.closed = false ∧ st'.res.closed = false ∧
      (st'.ready ++ st'.res.slots).Perm (st.ready ++ st.res.slots ++ items) ∧
      st'.res.offered = st.res.offered + items.length := by
  unfold offerInto at h
  split at h
  · exact absurd h (by simp)
  rename_i res out ho
  simp only [Except.ok.injEq] at h
  subst h
  have hc := resCfg_valid hv st.epoch st.cycle
  have hb : st.res.closed = false ∧ (Reservoir.rngBase P.H (resCfg P st.epoch st.cycle)).isSome := by
    by_cases hz : (P.src.zeroResident && P.src.many.isSome) = true
    · rw [if_pos hz] at ho; exact offerZero_base hne ho
    · rw [if_neg hz] at ho; exact Reservoir.offerMany_base ho
  rw [offerInto_each hv hi hb.1 hb.2] at ho
  obtain ⟨hi', hm⟩ := Reservoir.offerEach_spec hc _ _ _ _ hi ho
  have hcl := offerEach_closed _ _ _ _ ho hb.1
  have hp := moves_slots hm hi hi'
  rw [sized_fst] at hp
  refine ⟨⟨rfl, rfl, rfl, rfl, rfl⟩, rfl, rfl, hi', hb.1, hcl, ?_, ?_⟩
  · rw [List.append_assoc, List.append_assoc]
    exact hp.append_left _
  · have := hm.2
    simpa [sized] using this

theorem drainInto_spec {P : Planner σ ε} {st st' : St σ ε}
    (hi : Reservoir.Inv (resCfg P st.epoch st.cycle) st.res) (h : drainInto P st = .ok st') :
    SameFrame st st' ∧ st'.cursor = st.cursor ∧ st'.exhausted = true ∧
      Reservoir.Inv (resCfg P st.epoch st.cycle) st'.res ∧ st'.res.closed = true ∧
      (st'.ready ++ st'.res.slots).Perm (st.ready ++ st.res.slots) ∧ st'.res.offered = st.res.offered := by
  unfold drainInto at h
  split at h
  · exact absurd h (by simp)
  rename_i res out ho
  simp only [Except.ok.injEq] at h
  subst h
  obtain ⟨hi', hm, hcl⟩ := Reservoir.drain_spec hi ho
  have hp := moves_slots hm hi hi'
  refine ⟨⟨rfl, rfl, rfl, rfl, rfl⟩, rfl, rfl, hi', hcl, ?_, ?_⟩
  · rw [List.append_assoc]
    simpa using hp.append_left st.ready
  · simpa using hm.2

theorem SameFrame.trans {a b c : St σ ε} (h : SameFrame a b) (h' : SameFrame b c) : SameFrame a c :=
  ⟨h.1.trans h'.1, h.2.1.trans h'.2.1, h.2.2.1.trans h'.2.2.1, h.2.2.2.1.trans h'.2.2.2.1, h.2.2.2.2.trans h'.2.2.2.2⟩

/-- What a refill achieves. -/
structure Refilled (P : Planner σ ε) (ok : σ → Prop) (rem : σ → List ε) (st st' : St σ ε) : Prop where
  core : Core P ok rem st'
  frame : SameFrame st st'
  pool : (pool rem st').Perm (pool rem st)
  goal : st'.ready ≠ [] ∨ st'.exhausted = true

theorem refill_spec {P : Planner σ ε} {ok : σ → Prop} {rem : σ → List ε} (L : Records P.src ok rem)
    (hv : P.cfg.Valid) : ∀ (fuel : Nat) (st st' : St σ ε), Core P ok rem st → refill P fuel st = .ok st' →
      Refilled P ok rem st st'
  | 0, _, _, _, h => by simp [refill] at h
  | fuel + 1, st, st', hc, h => by
    rw [refill] at h
    split at h
    · rename_i hg
      simp only [Except.ok.injEq] at h
      subst h
      exact ⟨hc, ⟨rfl, rfl, rfl, rfl, rfl⟩, List.Perm.refl _, hg⟩
    rename_i hg
    push Not at hg
    obtain ⟨hr0, hex⟩ := hg
    obtain ⟨hok, happ, hnil⟩ := readChunk_spec (P := P) L st.cursor hc.ok
    simp only at h
    by_cases he : (readChunk P st.cursor).1 = []
    · rw [if_pos he] at h
      obtain ⟨hf, hcur, hex', hi', hcl', hp, hof⟩ := drainInto_spec (st := { st with cursor := (readChunk P st.cursor).2 })
        hc.inv h
      have hrem : rem (readChunk P st.cursor).2 = [] := by
        have := hnil he
        rw [this, he] at happ
        simpa using happ
      refine ⟨⟨?_, ?_, ?_, ?_, ?_⟩, ?_, ?_, Or.inr hex'⟩
      · rw [← hf.1, ← hf.2.2.1]; exact hi'
      · rw [hex', hcl']
      · intro _; rw [hcur]; exact hrem
      · rw [hcur]; exact hok
      · rw [← hf.1, ← hf.2.2.1, hof, hcur, hrem]
        have := hc.count
        rw [hnil he] at this
        exact this
      · exact ⟨hf.1, hf.2.1, hf.2.2.1, hf.2.2.2.1, hf.2.2.2.2⟩
      · unfold Planner.pool
        rw [hcur, hrem, hnil he, List.append_nil, List.append_nil]
        exact hp
    · rw [if_neg he] at h
      split at h
      · exact absurd h (by simp)
      rename_i st1 ho
      obtain ⟨hf, hcur, hex1, hi1, hcl0, hcl1, hp, hof⟩ :=
        offerInto_spec hv (st := { st with cursor := (readChunk P st.cursor).2 }) he hc.inv ho
      have hcore : Core P ok rem st1 := by
        refine ⟨?_, ?_, ?_, ?_, ?_⟩
        · rw [← hf.1, ← hf.2.2.1]; exact hi1
        · rw [hex1, hcl1]; exact hc.closed.trans hcl0
        · intro hh; rw [hex1] at hh; exact absurd hh hex
        · rw [hcur]; exact hok
        · rw [← hf.1, ← hf.2.2.1, hof, hcur]
          have := hc.count
          rw [← happ, List.length_append] at this
          simp only at this ⊢
          omega
      have ih := refill_spec L hv fuel st1 st' hcore h
      have hf' : SameFrame st st1 := ⟨hf.1, hf.2.1, hf.2.2.1, hf.2.2.2.1, hf.2.2.2.2⟩
      refine ⟨ih.core, hf'.trans ih.frame, ih.pool.trans ?_, ih.goal⟩
      unfold Planner.pool
      rw [hcur, ← happ, ← List.append_assoc]
      exact hp.append_right _

theorem refill_fuel {P : Planner σ ε} {ok : σ → Prop} {rem : σ → List ε} (L : Records P.src ok rem)
    (hv : P.cfg.Valid) : ∀ (fuel : Nat) (st : St σ ε), Core P ok rem st → (rem st.cursor).length + 2 ≤ fuel →
      refill P fuel st ≠ .error .fuel
  | 0, _, _, h => by omega
  | fuel + 1, st, hc, hf => by
    rw [refill]
    split
    · simp
    rename_i hg
    push Not at hg
    obtain ⟨hok, happ, hnil⟩ := readChunk_spec (P := P) L st.cursor hc.ok
    simp only
    by_cases he : (readChunk P st.cursor).1 = []
    · rw [if_pos he]
      unfold drainInto
      split <;> simp
    · rw [if_neg he]
      split
      · rename_i e ho
        unfold offerInto at ho
        split at ho
        · simp only [Except.error.injEq] at ho
          rw [← ho]; simp
        · exact absurd ho (by simp)
      rename_i st1 ho
      obtain ⟨hf1, hcur, hex1, hi1, hcl0, hcl1, hp, hof⟩ :=
        offerInto_spec hv (st := { st with cursor := (readChunk P st.cursor).2 }) he hc.inv ho
      have hlen : (rem (readChunk P st.cursor).2).length < (rem st.cursor).length := by
        rw [← happ, List.length_append]
        have := List.length_pos_of_ne_nil he
        omega
      have hcore : Core P ok rem st1 := by
        refine ⟨?_, ?_, ?_, ?_, ?_⟩
        · rw [← hf1.1, ← hf1.2.2.1]; exact hi1
        · rw [hex1, hcl1]; exact hc.closed.trans hcl0
        · intro hh; rw [hex1] at hh; exact absurd hh hg.2
        · rw [hcur]; exact hok
        · rw [← hf1.1, ← hf1.2.2.1, hof, hcur]
          have := hc.count
          rw [← happ, List.length_append] at this
          simp only at this ⊢
          omega
      apply refill_fuel L hv fuel st1 hcore
      rw [hcur]
      simp only
      omega

end Verif.Planner
