import Verif.Planner.Runs

/-! Simulation between the uniform and the generic path. -/
namespace Verif.Planner
open Verif.Reservoir (Res)

variable {σ ε : Type}

/-- The same planner without the uniform fast path. -/
def generic (P : Planner σ ε) : Planner σ ε := { P with uniform := none }

/-- Replace the shape queues. -/
def setQ (q : List (Nat × List ε)) (st : St σ ε) : St σ ε := { st with queues := q }

/-- Apply a state change to a result. -/
def mapOk {α β γ : Type} (f : β → γ) : Except α β → Except α γ
  | .error e => .error e
  | .ok b => .ok (f b)

theorem drainInto_setQ (P : Planner σ ε) (q : List (Nat × List ε)) (st : St σ ε) :
    drainInto (generic P) (setQ q st) = mapOk (setQ q) (drainInto P st) := by
  have : Reservoir.drain (generic P).H (resCfg (generic P) (setQ q st).epoch (setQ q st).cycle) (setQ q st).res =
      Reservoir.drain P.H (resCfg P st.epoch st.cycle) st.res := rfl
  unfold drainInto
  rw [this]
  cases Reservoir.drain P.H (resCfg P st.epoch st.cycle) st.res with
  | none => rfl
  | some r => rfl

theorem offerInto_setQ (P : Planner σ ε) (q : List (Nat × List ε)) (st : St σ ε) (items : List ε) :
    offerInto (generic P) (setQ q st) items = mapOk (setQ q) (offerInto P st items) := by
  unfold offerInto
  have : (if ((generic P).src.zeroResident && (generic P).src.many.isSome) = true then
      Reservoir.offerZero (generic P).H (resCfg (generic P) (setQ q st).epoch (setQ q st).cycle) (setQ q st).res items
    else Reservoir.offerMany (generic P).H (resCfg (generic P) (setQ q st).epoch (setQ q st).cycle) (setQ q st).res
      (items.map fun e => (e, (generic P).bytes e))) =
    (if (P.src.zeroResident && P.src.many.isSome) = true then
      Reservoir.offerZero P.H (resCfg P st.epoch st.cycle) st.res items
    else Reservoir.offerMany P.H (resCfg P st.epoch st.cycle) st.res (items.map fun e => (e, P.bytes e))) := rfl
  rw [this]
  generalize (if (P.src.zeroResident && P.src.many.isSome) = true then _ else _) = r
  cases r with
  | none => rfl
  | some r => rfl

theorem refill_setQ (P : Planner σ ε) (q : List (Nat × List ε)) : ∀ (fuel : Nat) (st : St σ ε),
    refill (generic P) fuel (setQ q st) = mapOk (setQ q) (refill P fuel st)
  | 0, st => rfl
  | fuel + 1, st => by
    rw [refill, refill]
    have h1 : (setQ q st).ready = st.ready := rfl
    have h2 : (setQ q st).exhausted = st.exhausted := rfl
    have h3 : readChunk (generic P) (setQ q st).cursor = readChunk P st.cursor := rfl
    rw [h1, h2, h3]
    split
    · rfl
    simp only
    have h4 := drainInto_setQ P q { st with cursor := (readChunk P st.cursor).2 }
    have h5 := offerInto_setQ P q { st with cursor := (readChunk P st.cursor).2 } (readChunk P st.cursor).1
    simp only [setQ] at h4 h5
    simp only [setQ]
    rw [h4, h5]
    split
    · rfl
    cases offerInto P { st with cursor := (readChunk P st.cursor).2 } (readChunk P st.cursor).1 with
    | error e => rfl
    | ok st1 => exact refill_setQ P q fuel st1

theorem refillFuel_setQ (P : Planner σ ε) (q : List (Nat × List ε)) (st : St σ ε) :
    refillFuel (generic P) (setQ q st) = refillFuel P st := rfl

theorem restart_setQ (P : Planner σ ε) (q : List (Nat × List ε)) (st : St σ ε) :
    restartCycle (generic P) (setQ q st) = mapOk (setQ q) (restartCycle P st) := by
  unfold restartCycle
  have h1 : (setQ q st).ready = st.ready := rfl
  have h2 : (setQ q st).exhausted = st.exhausted := rfl
  have h3 : (generic P).sharded = P.sharded := rfl
  rw [h1, h2, h3]
  split <;> rfl

/-- States agreeing up to empty shape queues. -/
def SameUpQ (code : Nat) (a b : St σ ε) : Prop := ∃ q, (q = [] ∨ q = [(code, [])]) ∧ b = setQ q a

/-- Results agreeing up to empty shape queues. -/
def SameRes (code : Nat) : Except Err (Option (Batch ε) × St σ ε) → Except Err (Option (Batch ε) × St σ ε) → Prop
  | .error e, .error e' => e = e'
  | .ok (b, st), .ok (b', st') => b = b' ∧ SameUpQ code st st'
  | _, _ => False

theorem makeSome_setQ (P : Planner σ ε) (code : Nat) {q : List (Nat × List ε)} (hq : q = [] ∨ q = [(code, [])])
    (st : St σ ε) (hs : st.queues = []) (rows : List ε) (real : List Bool) (last : Bool) :
    SameRes code (makeSome P st rows real last) (makeSome (generic P) (setQ q st) rows real last) := by
  unfold makeSome makeBatch finishBudget
  have h1 : budgetLast (generic P) (setQ q st) = budgetLast P st := rfl
  have h2 : (setQ q st).res = st.res := rfl
  simp only [h1, h2]
  have hself : ∀ x : St σ ε, x.queues = [] → SameUpQ code x x := by
    intro x hx
    refine ⟨[], Or.inl rfl, ?_⟩
    obtain ⟨a, b, c, d, e, f, g, h, i⟩ := x
    simp only at hx
    subst hx
    rfl
  by_cases hb : budgetLast P st = true
  · rw [if_pos hb, if_pos hb]
    by_cases hc : st.res.closed = true
    · rw [if_pos hc, if_pos hc]
      exact ⟨rfl, hself _ rfl⟩
    · rw [if_neg hc, if_neg hc]
      have h3 : Reservoir.drain (generic P).H (resCfg (generic P) (setQ q st).epoch (setQ q st).cycle) st.res =
          Reservoir.drain P.H (resCfg P st.epoch st.cycle) st.res := rfl
      rw [h3]
      cases Reservoir.drain P.H (resCfg P st.epoch st.cycle) st.res with
      | none => exact rfl
      | some r => exact ⟨rfl, hself _ rfl⟩
  · rw [if_neg hb, if_neg hb]
    exact ⟨rfl, q, hq, rfl⟩

/-- The body of the generic loop after refilling. -/
def genericAfter (P : Planner σ ε) (fuel empty : Nat) (st : St σ ε) : Except Err (Option (Batch ε) × St σ ε) :=
  match st.ready with
  | [] =>
    if mayRestart P st then
      if 16 < countEmpty st empty then .error .emptyCycles
      else
        match restartCycle P st with
        | .error e => .error e
        | .ok st' => genericLoop P fuel (countEmpty st empty) st'
    else genericTail P st
  | e :: ready =>
    match appendShape P st.queues e with
    | .error err => .error err
    | .ok (queue, queues) =>
      if queue.length = P.batch then
        makeSome P { st with ready := ready, queues := qset queues (P.shape e) [] } queue
          (List.replicate P.batch true) false
      else genericLoop P fuel empty { st with ready := ready, queues := queues }

theorem genericLoop_succ (P : Planner σ ε) (fuel empty : Nat) (st : St σ ε) :
    genericLoop P (fuel + 1) empty st = match refill P (refillFuel P st) st with
      | .error e => .error e
      | .ok st => genericAfter P fuel empty st := by
  rw [genericLoop]; rfl

theorem genericLoop_setQ (P : Planner σ ε) (fuel empty : Nat) (q : List (Nat × List ε)) (st : St σ ε) :
    genericLoop (generic P) (fuel + 1) empty (setQ q st) = match refill P (refillFuel P st) st with
      | .error e => .error e
      | .ok st => genericAfter (generic P) fuel empty (setQ q st) := by
  rw [genericLoop_succ, refillFuel_setQ, refill_setQ]
  cases refill P (refillFuel P st) st <;> rfl

/-- More fuel does not change a finished computation. -/
theorem genericLoop_mono (P : Planner σ ε) : ∀ (fuel empty : Nat) (st : St σ ε),
    genericLoop P fuel empty st ≠ .error .fuel → genericLoop P (fuel + 1) empty st = genericLoop P fuel empty st
  | 0, _, _, h => absurd rfl h
  | fuel + 1, empty, st, h => by
    rw [genericLoop] at h
    rw [genericLoop, genericLoop]
    cases hr : refill P (refillFuel P st) st with
    | error e => rfl
    | ok st1 =>
      rw [hr] at h
      simp only at h ⊢
      cases hrd : st1.ready with
      | nil =>
        rw [hrd] at h
        simp only at h ⊢
        by_cases hm : mayRestart P st1 = true
        · rw [if_pos hm] at h
          rw [if_pos hm, if_pos hm]
          by_cases he : 16 < countEmpty st1 empty
          · rw [if_pos he, if_pos he]
          · rw [if_neg he] at h
            rw [if_neg he, if_neg he]
            cases h2 : restartCycle P st1 with
            | error e => rfl
            | ok st2 =>
              rw [h2] at h
              simp only at h ⊢
              exact genericLoop_mono P fuel _ _ h
        · rw [if_neg hm, if_neg hm]
      | cons x ready =>
        rw [hrd] at h
        simp only at h ⊢
        cases ha : appendShape P st1.queues x with
        | error e => rfl
        | ok lq =>
          obtain ⟨l, q⟩ := lq
          rw [ha] at h
          simp only at h ⊢
          by_cases hl : l.length = P.batch
          · rw [if_pos hl, if_pos hl]
          · rw [if_neg hl] at h
            rw [if_neg hl, if_neg hl]
            exact genericLoop_mono P fuel _ _ h

theorem genericLoop_mono_add (P : Planner σ ε) (empty : Nat) (st : St σ ε) {f : Nat}
    (h : genericLoop P f empty st ≠ .error .fuel) : ∀ k, genericLoop P (f + k) empty st = genericLoop P f empty st
  | 0 => rfl
  | k + 1 => by
    have ih := genericLoop_mono_add P empty st h k
    rw [← Nat.add_assoc, genericLoop_mono P (f + k) empty st (by rw [ih]; exact h), ih]

theorem genericLoop_agree (P : Planner σ ε) (empty : Nat) (st : St σ ε) {f f' : Nat}
    (h : genericLoop P f empty st ≠ .error .fuel) (h' : genericLoop P f' empty st ≠ .error .fuel) :
    genericLoop P f empty st = genericLoop P f' empty st := by
  rcases Nat.le_total f f' with hle | hle
  · obtain ⟨k, rfl⟩ := Nat.exists_eq_add_of_le hle
    exact (genericLoop_mono_add P empty st h k).symm
  · obtain ⟨k, rfl⟩ := Nat.exists_eq_add_of_le hle
    exact genericLoop_mono_add P empty st h' k

/-- The shape queue that holds the collected records. -/
def QueueOf (code : Nat) (acc : List ε) (q : List (Nat × List ε)) : Prop := (acc = [] ∧ q = []) ∨ q = [(code, acc)]

theorem appendShape_one {P : Planner σ ε} (hmax : 0 < P.cfg.maxQueues) {code : Nat} {acc : List ε}
    {q : List (Nat × List ε)} (hq : QueueOf code acc q) {e : ε} (he : P.shape e = code) :
    appendShape P q e = .ok (acc ++ [e], [(code, acc ++ [e])]) := by
  rcases hq with ⟨rfl, rfl⟩ | rfl
  · unfold appendShape
    rw [qget_nil]
    simp only [List.length_nil]
    rw [if_neg (by omega), he]
    rfl
  · unfold appendShape
    rw [qget_cons, if_pos (by simp [he])]
    simp [he, qset]

/-- Taking `k ≥ 1` ready records one at a time. -/
theorem generic_take {P : Planner σ ε} (hmax : 0 < P.cfg.maxQueues) {code : Nat} (empty fuel : Nat) (rest : List ε) :
    ∀ (xs : List ε) (acc : List ε) (q : List (Nat × List ε)) (st : St σ ε), QueueOf code acc q →
      (∀ x ∈ xs, P.shape x = code) → st.ready = xs ++ rest → xs ≠ [] → acc.length + xs.length ≤ P.batch →
      genericLoop (generic P) (fuel + xs.length) empty (setQ q st) =
        if acc.length + xs.length = P.batch then
          makeSome (generic P) (setQ [(code, [])] { st with ready := rest }) (acc ++ xs) (List.replicate P.batch true) false
        else genericLoop (generic P) fuel empty (setQ [(code, acc ++ xs)] { st with ready := rest })
  | [], _, _, _, _, _, _, h, _ => absurd rfl h
  | x :: xs, acc, q, st, hq, hx, hr, _, hlen => by
    have hx0 : P.shape x = code := hx x List.mem_cons_self
    have hne : st.ready ≠ [] := by rw [hr]; simp
    have hrf : refill P (refillFuel P st) st = .ok st := by
      unfold refillFuel
      rw [refill, if_pos (Or.inl hne)]
    have hrd : (setQ q st).ready = x :: (xs ++ rest) := hr
    have ha : appendShape (generic P) (setQ q st).queues x = _ := appendShape_one (P := generic P) hmax hq hx0
    have hsx : (generic P).shape x = code := hx0
    have hbx : (generic P).batch = P.batch := rfl
    have hstep : genericLoop (generic P) (fuel + (x :: xs).length) empty (setQ q st) =
        if acc.length + 1 = P.batch then
          makeSome (generic P) (setQ [(code, [])] { st with ready := xs ++ rest }) (acc ++ [x])
            (List.replicate P.batch true) false
        else genericLoop (generic P) (fuel + xs.length) empty (setQ [(code, acc ++ [x])] { st with ready := xs ++ rest }) := by
      rw [List.length_cons, ← Nat.add_assoc, genericLoop_setQ, hrf]
      simp only
      unfold genericAfter
      simp only [hrd, ha, hsx, hbx, List.length_append, List.length_singleton]
      by_cases h : acc.length + 1 = P.batch
      · rw [if_pos h, if_pos h]
        simp [qset, setQ]
      · rw [if_neg h, if_neg h]
        rfl
    rw [hstep]
    cases xs with
    | nil =>
      by_cases h : acc.length + 1 = P.batch
      · rw [if_pos h, if_pos (by simpa using h)]
        rfl
      · rw [if_neg h, if_neg (by simpa using h)]
        rfl
    | cons y ys =>
      simp only [List.length_cons] at hlen
      rw [if_neg (by omega)]
      have ih := generic_take hmax empty fuel rest (y :: ys) (acc ++ [x]) [(code, acc ++ [x])]
        { st with ready := (y :: ys) ++ rest } (Or.inr rfl) (fun z hz => hx z (List.mem_cons_of_mem _ hz)) rfl
        (by simp) (by simp only [List.length_append, List.length_cons, List.length_nil]; omega)
      rw [ih]
      by_cases h : acc.length + (x :: y :: ys).length = P.batch
      · rw [if_pos h, if_pos (by simp only [List.length_append, List.length_cons, List.length_nil] at h ⊢; omega)]
        simp
      · rw [if_neg h, if_neg (by simp only [List.length_append, List.length_cons, List.length_nil] at h ⊢; omega)]
        simp

/-- One call of the uniform path is one call of the generic path. -/
theorem uniform_generic {P : Planner σ ε} {ok : σ → Prop} {rem : σ → List ε} (L : Records P.src ok rem) (hv : P.Valid)
    {code : Nat} (hall : ∀ e y, ∀ x ∈ rem (P.src.start e y), P.shape x = code) :
    ∀ (fuel : Nat) (acc : List ε) (empty : Nat) (st : St σ ε) (q : List (Nat × List ε)), Core P ok rem st →
      st.queues = [] → (∀ x ∈ pool rem st, P.shape x = code) → QueueOf code acc q → acc.length < P.batch →
      uniformLoop P code fuel acc empty st ≠ .error .fuel →
      ∃ fuel', SameRes code (uniformLoop P code fuel acc empty st) (genericLoop (generic P) fuel' empty (setQ q st))
  | 0, _, _, _, _, _, _, _, _, _, h => absurd rfl h
  | fuel + 1, acc, empty, st, q, hc, hq0, hpool, hq, hlt, hne => by
    have hgen := fun fuel' => genericLoop_setQ P fuel' empty q st
    rw [uniformLoop, if_pos hlt] at hne
    rw [uniformLoop, if_pos hlt]
    cases hr : refill P (refillFuel P st) st with
    | error e =>
      refine ⟨1, ?_⟩
      rw [hgen, hr]
      exact rfl
    | ok st1 =>
      rw [hr] at hne hgen
      have hR := refill_spec L hv.cfg _ _ _ hc hr
      have hq1 : st1.queues = [] := by rw [← hR.frame.2.2.2.1]; exact hq0
      have hpool1 : ∀ x ∈ pool rem st1, P.shape x = code := fun x hx => hpool x (hR.pool.subset hx)
      simp only at hne ⊢
      by_cases hrd : st1.ready = []
      · rw [if_pos hrd] at hne
        rw [if_pos hrd]
        have hrd' : (setQ q st1).ready = [] := hrd
        simp only [genericAfter, hrd'] at hgen
        by_cases hm : mayRestart P st1 = true
        · rw [if_pos hm] at hne
          rw [if_pos hm]
          have hm' : mayRestart (generic P) (setQ q st1) = true := hm
          simp only [if_pos hm'] at hgen
          by_cases he : 16 < countEmpty st1 empty
          · rw [if_pos he]
            refine ⟨1, ?_⟩
            rw [hgen, if_pos (show 16 < countEmpty (setQ q st1) empty from he)]
            exact rfl
          · rw [if_neg he] at hne
            rw [if_neg he]
            have he' : ¬ 16 < countEmpty (setQ q st1) empty := he
            simp only [if_neg he', restart_setQ] at hgen
            cases h2 : restartCycle P st1 with
            | error e =>
              refine ⟨1, ?_⟩
              rw [hgen, h2]
              exact rfl
            | ok st2 =>
              rw [h2] at hne hgen
              simp only [mapOk] at hne hgen ⊢
              obtain ⟨hc2, hrest⟩ := restart_spec L hv h2
              obtain ⟨f', hf'⟩ := uniform_generic L hv hall fuel acc (countEmpty st1 empty) st2 q hc2
                (hrest.2.2.2.1.trans hq1) (by rw [hrest.2.2.2.2.2]; exact hall _ _) hq hlt hne
              exact ⟨f' + 1, by rw [hgen]; exact hf'⟩
        · rw [if_neg hm]
          have hm' : ¬ mayRestart (generic P) (setQ q st1) = true := hm
          refine ⟨1, ?_⟩
          rw [hgen, if_neg hm']
          unfold uniformTail genericTail
          have ht' : (generic P).train = P.train := rfl
          have hqq : (setQ q st1).queues = q := rfl
          rw [ht', hqq]
          by_cases ht : P.train = true
          · rw [if_pos (Or.inl ht), if_pos ht]
            refine ⟨rfl, [], Or.inl rfl, ?_⟩
            rfl
          rw [if_neg ht]
          by_cases ha : acc = []
          · rw [if_pos (Or.inr ha)]
            subst ha
            rcases hq with ⟨_, rfl⟩ | rfl
            · exact ⟨rfl, [], Or.inl rfl, rfl⟩
            · exact ⟨rfl, [(code, [])], Or.inr rfl, rfl⟩
          · rw [if_neg (by rintro (h | h); exact ht h; exact ha h)]
            have hq' : q = [(code, acc)] := by
              rcases hq with ⟨h, _⟩ | h
              · exact absurd h ha
              · exact h
            subst hq'
            have hmin : minShape [(code, acc)] = some code := by simp [minShape, ha]
            rw [hmin]
            have hg : qget [(code, acc)] code = some acc := by rw [qget_cons]; simp
            have hfil : ([(code, acc)].filter fun p => p.1 != code) = [] := by simp
            simp only [hg, hfil, Option.getD_some, List.all_nil, Bool.or_true]
            have := makeSome_setQ P code (q := []) (Or.inl rfl) { st1 with finished := true } hq1
              (padTo acc P.batch) (realFlags acc.length P.batch) true
            exact this
      · rw [if_neg hrd] at hne
        rw [if_neg hrd]
        have hready : ∀ x ∈ st1.ready, P.shape x = code := fun x hx =>
          hpool1 x (List.mem_append_left _ (List.mem_append_left _ hx))
        have hany : ¬ ((st1.ready.take (min (P.batch - acc.length) st1.ready.length)).any
            fun e => P.shape e != code) = true := by
          simp only [List.any_eq_true, bne_iff_ne, ne_eq, not_exists, not_and, Decidable.not_not]
          intro x hx
          exact hready x (List.mem_of_mem_take hx)
        rw [if_neg hany] at hne
        rw [if_neg hany]
        have hpos := List.length_pos_of_ne_nil hrd
        have hxs : st1.ready.take (min (P.batch - acc.length) st1.ready.length) ≠ [] := by
          intro h
          have := congrArg List.length h
          simp only [List.length_take, List.length_nil] at this
          omega
        have hlenx : (st1.ready.take (min (P.batch - acc.length) st1.ready.length)).length =
            min (P.batch - acc.length) st1.ready.length := by
          rw [List.length_take]; omega
        have htake := fun f => generic_take (P := P) hv.cfg.2.2.1 (code := code) empty f
          (st1.ready.drop (min (P.batch - acc.length) st1.ready.length))
          (st1.ready.take (min (P.batch - acc.length) st1.ready.length)) acc q st1 hq
          (fun x hx => hready x (List.mem_of_mem_take hx)) (List.take_append_drop _ _).symm hxs
          (by rw [hlenx]; omega)
        -- a refilled state behaves like the original one
        have hsame : ∀ f, genericLoop (generic P) (f + 1) empty (setQ q st) =
            genericLoop (generic P) (f + 1) empty (setQ q st1) := by
          intro f
          rw [hgen, genericLoop_setQ]
          have hrf : refill P (refillFuel P st1) st1 = .ok st1 := by
            unfold refillFuel
            rw [refill, if_pos (Or.inl hrd)]
          rw [hrf]
        have hsame' : ∀ f, genericLoop (generic P)
            (f + (st1.ready.take (min (P.batch - acc.length) st1.ready.length)).length) empty (setQ q st) =
            genericLoop (generic P)
            (f + (st1.ready.take (min (P.batch - acc.length) st1.ready.length)).length) empty (setQ q st1) := by
          intro f
          obtain ⟨m, hm⟩ := Nat.exists_eq_succ_of_ne_zero
            (Nat.pos_iff_ne_zero.mp (List.length_pos_of_ne_nil hxs))
          rw [hm]
          exact hsame (f + m)
        by_cases hfull : acc.length + (st1.ready.take (min (P.batch - acc.length) st1.ready.length)).length = P.batch
        · refine ⟨0 + (st1.ready.take (min (P.batch - acc.length) st1.ready.length)).length, ?_⟩
          rw [hsame', htake, if_pos hfull]
          cases fuel with
          | zero => exact absurd rfl hne
          | succ f =>
            rw [uniformLoop, if_neg (by rw [List.length_append]; omega)]
            exact makeSome_setQ P code (Or.inr rfl)
              { st1 with ready := st1.ready.drop (min (P.batch - acc.length) st1.ready.length) } hq1 _ _ _
        · have hpool2 : ∀ x ∈ pool rem { st1 with ready := st1.ready.drop (min (P.batch - acc.length) st1.ready.length) },
              P.shape x = code := by
            intro x hx
            apply hpool1 x
            simp only [pool, List.mem_append] at hx ⊢
            rcases hx with (hx | hx) | hx
            · exact Or.inl (Or.inl (List.mem_of_mem_drop hx))
            · exact Or.inl (Or.inr hx)
            · exact Or.inr hx
          obtain ⟨f', hf'⟩ := uniform_generic L hv hall fuel
            (acc ++ st1.ready.take (min (P.batch - acc.length) st1.ready.length)) empty
            { st1 with ready := st1.ready.drop (min (P.batch - acc.length) st1.ready.length) }
            [(code, acc ++ st1.ready.take (min (P.batch - acc.length) st1.ready.length))]
            ⟨hR.core.inv, hR.core.closed, hR.core.done, hR.core.ok, hR.core.count⟩ hq1 hpool2 (Or.inr rfl)
            (by rw [List.length_append]; omega) hne
          refine ⟨f' + (st1.ready.take (min (P.batch - acc.length) st1.ready.length)).length, ?_⟩
          rw [hsame', htake, if_neg hfull]
          exact hf'

/-- `next_batch` of the two planners. -/
theorem next_generic {P : Planner σ ε} {ok : σ → Prop} {rem : σ → List ε} (L : Records P.src ok rem) (hv : P.Valid)
    {code : Nat} (hu : P.uniform = some code) (hall : ∀ e y, ∀ x ∈ rem (P.src.start e y), P.shape x = code)
    {st st' : St σ ε} (g : Good P ok rem st) (g' : Good (generic P) ok rem st') (hs : SameUpQ code st st')
    (hpool : ∀ x ∈ pool rem st, P.shape x = code) :
    SameRes code (nextBatch P st) (nextBatch (generic P) st') := by
  have hv' : (generic P).Valid := ⟨hv.cfg, hv.batch, hv.shard⟩
  have hq0 : st.queues = [] := g.uniform (by simp [hu])
  have L' : Records (generic P).src ok rem := L
  have hn := nextBatch_no_fuel L hv g
  have hn' := nextBatch_no_fuel L' hv' g'
  obtain ⟨q, hq, rfl⟩ := hs
  have hf' : (setQ q st).finished = false := g'.running
  unfold nextBatch at hn hn' ⊢
  rw [if_neg (by simp [g.running]), hu] at hn
  rw [if_neg (by simp [hf'])] at hn'
  rw [if_neg (by simp [g.running]), if_neg (by simp [hf']), hu]
  simp only [generic] at hn' ⊢
  change uniformLoop P code (uniformFuel P) [] 0 st ≠ _ at hn
  change genericLoop (generic P) (genericFuel (generic P)) 0 (setQ q st) ≠ _ at hn'
  change SameRes code (uniformLoop P code (uniformFuel P) [] 0 st)
    (genericLoop (generic P) (genericFuel (generic P)) 0 (setQ q st))
  obtain ⟨f', hf⟩ := uniform_generic L hv hall (uniformFuel P) [] 0 st q g.core hq0 hpool
    (hq.elim (fun h => Or.inl ⟨rfl, h⟩) Or.inr) hv.batch hn
  have hne : genericLoop (generic P) f' 0 (setQ q st) ≠ .error .fuel := by
    intro h
    rw [h] at hf
    cases hu2 : uniformLoop P code (uniformFuel P) [] 0 st with
    | error e =>
      rw [hu2] at hf hn
      have : e = .fuel := hf
      rw [this] at hn
      exact hn rfl
    | ok r => rw [hu2] at hf; exact hf
  rw [genericLoop_agree (generic P) 0 _ hn' hne]
  exact hf

/-- Whole runs. -/
theorem run_generic {P : Planner σ ε} {ok : σ → Prop} {rem : σ → List ε} (L : Records P.src ok rem) (hv : P.Valid)
    {code : Nat} (hu : P.uniform = some code) (hall : ∀ e y, ∀ x ∈ rem (P.src.start e y), P.shape x = code) :
    ∀ (n : Nat) (done : List ε) (st st' : St σ ε), Good P ok rem st → Good (generic P) ok rem st' → SameUpQ code st st' →
      (done ++ held rem st).Perm (cycles P rem st.epoch (st.cycle + 1)) →
      mapOk (fun r => (r.1, r.2.1)) (runEpoch P n st) = mapOk (fun r => (r.1, r.2.1)) (runEpoch (generic P) n st')
  | 0, _, _, _, _, _, _, _ => rfl
  | n + 1, done, st, st', g, g', hs, hp => by
    have hv' : (generic P).Valid := ⟨hv.cfg, hv.batch, hv.shard⟩
    have hpool : ∀ x ∈ pool rem st, P.shape x = code := by
      intro x hx
      have := hp.subset (List.mem_append_right _ (List.mem_append_right (queued st.queues) hx))
      unfold cycles at this
      obtain ⟨y, _, hy⟩ := List.mem_flatMap.mp this
      exact hall _ y x hy
    have hsr := next_generic L hv hu hall g g' hs hpool
    have hn := nextBatch_spec L hv g
    have hn' := nextBatch_spec (P := generic P) L hv' g'
    rw [runEpoch, runEpoch]
    cases hb : nextBatch P st with
    | error e =>
      rw [hb] at hsr
      cases hb' : nextBatch (generic P) st' with
      | error e' => rw [hb'] at hsr; have : e = e' := hsr; rw [this]
      | ok r => rw [hb'] at hsr; exact absurd hsr id
    | ok r =>
      obtain ⟨ob, st1⟩ := r
      rw [hb] at hsr hn
      cases hb' : nextBatch (generic P) st' with
      | error e' => rw [hb'] at hsr; exact absurd hsr id
      | ok r' =>
        obtain ⟨ob', st1'⟩ := r'
        rw [hb'] at hsr hn'
        obtain ⟨rfl, hs1⟩ := hsr
        cases ob with
        | none => rfl
        | some b =>
          have ha : AfterBatch P ok rem [] st b st1 := hn
          have ha' : AfterBatch (generic P) ok rem [] st' b st1' := hn'
          simp only
          have hfin : st1'.finished = st1.finished := by
            obtain ⟨q, _, rfl⟩ := hs1; rfl
          by_cases hf : st1.finished = true
          · rw [runEpoch_finished hf, runEpoch_finished (hfin.trans hf)]
            rfl
          · have hf' : st1.finished = false := by simpa using hf
            obtain ⟨dropped, hd1, hd2, hd3⟩ := ha.conserve
            have hp1 := hd3 done (by simpa using hp)
            have hbl0 : budgetLast P st = false := by
              cases hbb : budgetLast P st with
              | false => rfl
              | true => rw [ha.last.symm.trans (ha.budget hbb)] at hf'; simp at hf'
            rw [hd1 hbl0, List.append_nil] at hp1
            have ih := run_generic L hv hu hall n (done ++ realRows b) st1 st1' (ha.good hf')
              (ha'.good (hfin.trans hf')) hs1 (by rw [ha.ident.2.2.1]; exact hp1)
            cases hr : runEpoch P n st1 with
            | error e =>
              rw [hr] at ih
              cases hr' : runEpoch (generic P) n st1' with
              | error e' => rw [hr'] at ih; exact ih
              | ok r => rw [hr'] at ih; simp [mapOk] at ih
            | ok r =>
              rw [hr] at ih
              cases hr' : runEpoch (generic P) n st1' with
              | error e' => rw [hr'] at ih; simp [mapOk] at ih
              | ok r' =>
                rw [hr'] at ih
                simp only [mapOk, Except.ok.injEq, Prod.mk.injEq] at ih ⊢
                exact ⟨by rw [ih.1], ih.2⟩

end Verif.Planner
