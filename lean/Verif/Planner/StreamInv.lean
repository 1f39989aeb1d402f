import Verif.Planner.StreamHist

/-! # Invariant of transaction histories -/
namespace Verif.Planner
open Verif.Reservoir (Res Snapshot SameButCache)

variable {σ κ ε δ Dg : Type}

section
variable (T : TPlanner σ κ ε δ Dg) (ok : σ → Prop) (rem : σ → List ε) (eqv : σ → σ → Prop) (pos : Dg → Nat × Nat)

/-- The state after a token: that of the plain stream after the batch, or at the end of the epoch if that comes next. -/
def AfterTok (u' v : St σ ε) : Prop :=
  RR eqv u' v ∨ ∃ u'', u'.finished = false ∧ nextBatch T.P u' = .ok (none, u'') ∧ RR eqv u'' v

/-- A token that belongs to the plain stream. -/
structure TokOk (t : Token κ ε Dg) : Prop where
  stream : ∃ n u l b u' v, Plain T.P n u l ∧ u.finished = false ∧ nextBatch T.P u = .ok (some b, u') ∧
    t.epoch = u.epoch ∧ t.index = u.batchIndex ∧ core t.batch = core b ∧ AfterTok T eqv u' v ∧
    Between T.P ok rem v ∧ t.afterState = some (save T.P T.sc v)
  before : pos t.beforeDg = (t.epoch, t.index)
  after : pos t.afterDg = (t.epoch, t.index + 1)

/-- A prepared commit of a contiguous run of tokens. -/
structure CandOk (c : Prepared κ ε Dg) (l : List (Token κ ε Dg)) : Prop where
  nonempty : l ≠ []
  toks : ∀ t ∈ l, TokOk T ok rem eqv pos t
  contig : ∃ e k, pos c.beforeDg = (e, k) ∧ ∀ i t, l[i]? = some t → t.epoch = e ∧ t.index = k + i
  last : ∀ t, l.getLast? = some t → c.afterState = t.afterState ∧ c.afterDg = t.afterDg

/-- The invariant. -/
structure HInv (ts : TS σ κ ε Dg) (toks : List (Token κ ε Dg)) (prep : List (Prepared κ ε Dg × List (Token κ ε Dg)))
    (log : List (Batch ε)) (okay : Bool) : Prop where
  toks : ∀ t ∈ toks, TokOk T ok rem eqv pos t
  prep : ∀ c ∈ prep, CandOk T ok rem eqv pos c.1 c.2
  live : okay = true → ∃ n u l, Plain T.P n u l ∧ RR eqv u ts.st ∧ Between T.P ok rem ts.st ∧
    pos ts.yDg = (u.epoch, u.batchIndex)
  committed : ∃ n u l v, Plain T.P n u l ∧ RR eqv u v ∧ Between T.P ok rem v ∧ ts.cState = some (save T.P T.sc v) ∧
    l.map core = log.map core ∧ pos ts.cDg = (u.epoch, u.batchIndex)

end

variable {T : TPlanner σ κ ε δ Dg} {ok : σ → Prop} {rem : σ → List ε} {eqv : σ → σ → Prop} {pos : Dg → Nat × Nat}

theorem stateIf_res (hres : T.resumable = true) (st : St σ ε) :
    stateIf T st = (snap T.P st, some (save T.P T.sc st)) := by unfold stateIf; rw [if_pos hres]

/-- The live state is finished at the position after a token: then the token's after state can be advanced to it. -/
theorem afterTok_of_live (L : Records T.P.src ok rem) (hv : T.P.Valid) {n m : Nat} {u u' w v : St σ ε} {l lw : List (Batch ε)}
    {b : Batch ε} (hp : Plain T.P n u l) (hf : u.finished = false) (hn : nextBatch T.P u = .ok (some b, u'))
    (hw : Plain T.P m w lw) (he : w.epoch = u.epoch) (hi : w.batchIndex = u.batchIndex + 1) (hwf : w.finished = true)
    (hrr : RR eqv w v) : AfterTok T eqv u' v := by
  have hu' : Plain T.P (n + 1) u' (l ++ [b]) := by
    refine .step hp ?_
    unfold plainStep
    rw [hf, hn]
    rfl
  obtain ⟨he1, hi1, _⟩ := next_cases L hv (hp.between L hv) hf hn
  rcases hu'.same_pos L hv hw (by omega) (by omega) with ⟨_, rfl, _⟩ | ⟨_, h2, _, h4, _⟩ | ⟨_, h2, _⟩
  · exact Or.inl hrr
  · exact Or.inr ⟨w, h2, h4, hrr⟩
  · rw [hwf] at h2; simp at h2

/-- Committing contiguous tokens advances along the plain stream. -/
theorem commit_tokens (L : Records T.P.src ok rem) (hv : T.P.Valid) :
    ∀ (l : List (Token κ ε Dg)) (tl : Token κ ε Dg) (e k n : Nat) (u : St σ ε) (lg : List (Batch ε)),
      l.getLast? = some tl → (∀ t ∈ l, TokOk T ok rem eqv pos t) →
      (∀ i t, l[i]? = some t → t.epoch = e ∧ t.index = k + i) → Plain T.P n u lg → u.epoch = e → u.batchIndex = k →
      ∃ n' u' lg' v, Plain T.P n' u' lg' ∧ RR eqv u' v ∧ Between T.P ok rem v ∧ tl.afterState = some (save T.P T.sc v) ∧
        lg'.map core = lg.map core ++ l.map (fun t => core t.batch) ∧ u'.epoch = tl.epoch ∧ u'.batchIndex = tl.index + 1
  | [], _, _, _, _, _, _, h, _, _, _, _, _ => by simp at h
  | t :: l, tl, e, k, n, u, lg, hlast, htok, hcont, hp, he, hk => by
    obtain ⟨hte, hti⟩ := hcont 0 t rfl
    obtain ⟨n1, u1, l1, b, u1', v, hp1, hf1, hn1, h1, h2, h3, h4, h5, h6⟩ := (htok t (List.mem_cons_self ..)).stream
    have hsame : n1 = n ∧ u1 = u ∧ l1 = lg := by
      rcases hp1.same_pos L hv hp (by omega) (by omega) with h | ⟨_, _, _, h, _⟩ | ⟨_, _, h, _⟩
      · exact h
      · rw [hn1] at h; simp at h
      · rw [hf1] at h; simp at h
    obtain ⟨rfl, rfl, rfl⟩ := hsame
    obtain ⟨he1, hi1, _⟩ := next_cases L hv (hp1.between L hv) hf1 hn1
    have hp1' : Plain T.P (n1 + 1) u1' (l1 ++ [b]) := by
      refine .step hp1 ?_
      unfold plainStep
      rw [hf1, hn1]
      rfl
    -- the state reached after this token
    obtain ⟨n2, u2, hp2, hrr2, he2, hi2⟩ : ∃ n2 u2, Plain T.P n2 u2 (l1 ++ [b]) ∧ RR eqv u2 v ∧ u2.epoch = u1.epoch ∧
        u2.batchIndex = u1.batchIndex + 1 := by
      rcases h4 with h4 | ⟨u2, hf2, hn2, hrr⟩
      · exact ⟨_, _, hp1', h4, he1, hi1⟩
      · obtain ⟨he2, hi2, _⟩ := next_cases L hv (hp1'.between L hv) hf2 hn2
        refine ⟨n1 + 2, u2, .step hp1' ?_, hrr, by omega, by omega⟩
        unfold plainStep
        rw [hf2, hn2]
        rfl
    cases l with
    | nil =>
      simp only [List.getLast?_singleton, Option.some.injEq] at hlast
      subst hlast
      refine ⟨n2, u2, _, v, hp2, hrr2, h5, h6, ?_, by omega, by omega⟩
      simp [h3]
    | cons t2 l2 =>
      rw [List.getLast?_cons_cons] at hlast
      obtain ⟨n', u', lg', v', r1, r2, r3, r4, r5, r6, r7⟩ := commit_tokens L hv (t2 :: l2) tl e (k + 1) n2 u2 (l1 ++ [b]) hlast
        (fun t ht => htok t (List.mem_cons_of_mem _ ht))
        (fun i t ht => by
          have := hcont (i + 1) t (by simpa using ht)
          omega) hp2 (by omega) (by omega)
      refine ⟨n', u', lg', v', r1, r2, r3, r4, ?_, r6, r7⟩
      rw [r5]
      simp [h3]

theorem checkTokens_contig (T : TPlanner σ κ ε δ Dg) (epoch : Int) :
    ∀ (l : List (Token κ ε Dg)) (idx : Int) (d : Dg) (s : Option (Saved κ ε)) (blob : Blob) (r : Dg × Blob),
      checkTokens T epoch l idx d s blob = some r →
      (∀ (i : Nat) (t : Token κ ε Dg), l[i]? = some t → (t.epoch : Int) = epoch ∧ (t.index : Int) = idx + i) ∧
      (∀ t, l.head? = some t → t.beforeDg = d) ∧ (∀ t, l.getLast? = some t → t.afterDg = r.1)
  | [], idx, d, s, blob, r, h => by simp
  | t :: l, idx, d, s, blob, r, h => by
    rw [checkTokens] at h
    split at h
    · simp at h
    next h1 =>
    split at h
    · simp at h
    next h2 =>
    split at h
    · simp at h
    split at h
    · simp at h
    split at h
    · simp at h
    obtain ⟨ih1, ih2, ih3⟩ := checkTokens_contig T epoch l _ _ _ _ r h
    simp only [ne_eq, not_not, Prod.mk.injEq] at h1 h2
    refine ⟨?_, ?_, ?_⟩
    · intro i t' ht'
      cases i with
      | zero =>
        simp only [List.getElem?_cons_zero, Option.some.injEq] at ht'
        subst ht'
        exact ⟨h2.1, by simpa using h2.2⟩
      | succ i =>
        have := ih1 i t' (by simpa using ht')
        refine ⟨this.1, ?_⟩
        rw [this.2]
        push_cast
        ring
    · intro t' ht'
      simp only [List.head?_cons, Option.some.injEq] at ht'
      subst ht'
      exact h1
    · intro t' ht'
      cases l with
      | nil =>
        simp only [List.getLast?_singleton, Option.some.injEq] at ht'
        subst ht'
        simp only [checkTokens, Option.some.injEq] at h
        rw [← h]
      | cons t2 l2 =>
        rw [List.getLast?_cons_cons] at ht'
        exact ih3 t' ht'

/-- A successful `prepare_commit` names a contiguous run of tokens. -/
theorem prepareCommit_cand {ts : TS σ κ ε Dg} {l : List (Token κ ε Dg)} {c : Prepared κ ε Dg}
    (htok : ∀ t ∈ l, TokOk T ok rem eqv pos t) (h : prepareCommit T ts l = some c) : CandOk T ok rem eqv pos c l := by
  unfold prepareCommit at h
  cases hh : l.head? with
  | none => rw [hh] at h; simp at h
  | some t0 =>
    cases hl : l.getLast? with
    | none => rw [hh, hl] at h; simp at h
    | some tl =>
      rw [hh, hl] at h
      simp only at h
      generalize hpos : commitPos ts t0 = p at h
      cases hc : checkTokens T p.1 l p.2 ts.cDg ts.cState ts.cBlob with
      | none => rw [hc] at h; simp at h
      | some r =>
        rw [hc] at h
        simp only [Option.some.injEq] at h
        obtain ⟨h1, h2, h3⟩ := checkTokens_contig T _ _ _ _ _ _ _ hc
        have ht0 : t0 ∈ l := List.mem_of_mem_head? (by rw [hh]; rfl)
        have hne : l ≠ [] := by rintro rfl; simp at hh
        have h0 : l[0]? = some t0 := by rw [← List.head?_eq_getElem?]; exact hh
        refine ⟨hne, htok, ⟨t0.epoch, t0.index, ?_, ?_⟩, ?_⟩
        · rw [← h]
          simp only
          rw [← h2 t0 hh]
          exact (htok t0 ht0).before
        · intro i t ht
          have a := h1 i t ht
          have b := h1 0 t0 h0
          omega
        · intro t ht
          rw [hl] at ht
          simp only [Option.some.injEq] at ht
          subst ht
          rw [← h]
          exact ⟨rfl, (h3 _ hl).symm⟩

/-- The invariant holds in every history. -/
theorem hinv (L : Records T.P.src ok rem) (hv : T.P.Valid) (hres : T.resumable = true)
    (R : Replays T.P.src ok rem T.sc T.rc eqv) (hpos : PosOf T pos)
    (hq : ∀ n u l, Plain T.P n u l → nextBatch T.P u ≠ .error .queueLimit)
    {ts : TS σ κ ε Dg} {toks : List (Token κ ε Dg)} {prep : List (Prepared κ ε Dg × List (Token κ ε Dg))} {log : List (Batch ε)}
    {okay : Bool} (h : Hist T ts toks prep log okay) : HInv T ok rem eqv pos ts toks prep log okay := by
  have hstart : ∀ e, Between T.P ok rem (startEpoch T.P e) := fun e => Or.inl ⟨rfl, good_start L hv e⟩
  induction h with
  | init =>
    have hb := hstart 0
    have hs := snap_rr (eqv := eqv) R.refl hb
    refine ⟨by simp, by simp, fun _ => ⟨0, _, _, .start, ?_, ?_, ?_⟩, 0, _, _, startEpoch T.P 0, .start, RR.refl R.refl hb.keys, hb, ?_, rfl, ?_⟩
    · simp only [init, stateIf_res hres]; exact hs
    · simp only [init, stateIf_res hres]; exact snap_between R.refl R.same hb
    · simp only [init]; rw [hpos.init]; rfl
    · simp only [init, stateIf_res hres]
    · simp only [init]; rw [hpos.init]; rfl
  | @issue ts toks prep log b t ts' _ hn ih =>
    obtain ⟨n, u, l, hp, hrr, hb, hy⟩ := ih.live rfl
    unfold nextTxn at hn
    cases hnb : nextBatch T.P ts.st with
    | error e => rw [hnb] at hn; simp at hn
    | ok q =>
      obtain ⟨ob, st'⟩ := q
      obtain ⟨u', hu', hrr'⟩ := next_replay R (hp.between L hv) hrr (hq n u l hp) hnb
      have hb' := nextBatch_between L hv hb hnb
      rw [hnb] at hn
      cases ob with
      | none => simp at hn
      | some b1 =>
        simp only [stateIf_res hres, Except.ok.injEq, Prod.mk.injEq, Option.some.injEq] at hn
        obtain ⟨⟨rfl, rfl⟩, rfl⟩ := hn
        have huf : u.finished = false := by
          cases hf : u.finished with
          | false => rfl
          | true =>
            unfold nextBatch at hu'
            rw [if_pos hf] at hu'
            simp at hu'
        obtain ⟨he, hi, hbe, hbi⟩ := next_cases L hv (hp.between L hv) huf hu'
        have hp' : Plain T.P (n + 1) u' (l ++ [b1]) := by
          refine .step hp ?_
          unfold plainStep
          rw [huf, hu']
          rfl
        refine ⟨?_, ih.prep, fun _ => ⟨n + 1, u', _, hp', RR.trans R.trans hrr' (snap_rr R.refl hb'), snap_between R.refl R.same hb', ?_⟩,
          ih.committed⟩
        · intro t ht
          rcases List.mem_cons.mp ht with rfl | ht
          · refine ⟨⟨n, u, l, b1, u', st', hp, huf, hu', hbe, hbi, rfl, Or.inl hrr', hb', rfl⟩, ?_, ?_⟩
            · simp only; rw [hy, hbe, hbi]
            · simp only; rw [hpos.tok]
          · exact ih.toks t ht
        · simp only; rw [hpos.tok, he, hi, hbe, hbi]
  | @done ts toks prep log ts' _ hn ih =>
    obtain ⟨n, u, l, hp, hrr, hb, hy⟩ := ih.live rfl
    unfold nextTxn at hn
    cases hnb : nextBatch T.P ts.st with
    | error e => rw [hnb] at hn; simp at hn
    | ok q =>
      obtain ⟨ob, st'⟩ := q
      obtain ⟨u', hu', hrr'⟩ := next_replay R (hp.between L hv) hrr (hq n u l hp) hnb
      have hb' := nextBatch_between L hv hb hnb
      rw [hnb] at hn
      cases ob with
      | some b1 => simp at hn
      | none =>
        simp only [Except.ok.injEq, Prod.mk.injEq, true_and] at hn
        subst hn
        refine ⟨ih.toks, ih.prep, fun _ => ?_, ih.committed⟩
        cases hf : u.finished with
        | true =>
          have : u' = u := by
            unfold nextBatch at hu'
            rw [if_pos hf] at hu'
            simp only [Except.ok.injEq, Prod.mk.injEq, true_and] at hu'
            exact hu'.symm
          subst this
          exact ⟨n, u', l, hp, hrr', hb', hy⟩
        | false =>
          obtain ⟨he, hi, _⟩ := next_cases L hv (hp.between L hv) hf hu'
          refine ⟨n + 1, u', l, .step hp ?_, hrr', hb', ?_⟩
          · unfold plainStep; rw [hf, hu']; rfl
          · simp only; rw [hy, he, hi]
  | fail st _ _ ih => exact ⟨ih.toks, ih.prep, by simp, ih.committed⟩
  | @pipeline ts toks prep log b t data data' t' ts' _ ht hn ih =>
    have htok := ih.toks t ht
    unfold preparePipeline at hn
    split at hn
    · simp at hn
    next hbt =>
    cases hc : T.composer with
    | none =>
      rw [hc] at hn
      simp only [Option.some.injEq, Prod.mk.injEq] at hn
      obtain ⟨_, rfl, rfl⟩ := hn
      exact ⟨fun x hx => by
        rcases List.mem_cons.mp hx with rfl | hx
        · exact htok
        · exact ih.toks x hx, ih.prep, ih.live, ih.committed⟩
    | some c =>
      rw [hc] at hn
      simp only at hn
      split at hn
      · simp at hn
      next hd =>
      cases hpr : c.prep data b t.beforeBlob with
      | none => rw [hpr] at hn; simp at hn
      | some q =>
        obtain ⟨d2, blob⟩ := q
        rw [hpr] at hn
        simp only [Option.some.injEq, Prod.mk.injEq] at hn
        obtain ⟨_, rfl, rfl⟩ := hn
        simp only [ne_eq, not_not] at hbt hd
        subst hbt
        have hcore : t.batch.epoch = t.epoch ∧ t.batch.index = t.index := by
          obtain ⟨n, u, l, b, u', v, hp, huf, hn, h1, h2, h3, _⟩ := htok.stream
          obtain ⟨_, _, hbe, hbi⟩ := next_cases L hv (hp.between L hv) huf hn
          unfold core at h3
          simp only [Prod.mk.injEq] at h3
          omega
        have hpd : pos (T.tokDg t.beforeDg t.batch blob) = (t.epoch, t.index + 1) := by
          rw [hpos.tok, hcore.1, hcore.2]
        refine ⟨fun x hx => ?_, ih.prep, fun _ => ?_, ih.committed⟩
        · rcases List.mem_cons.mp hx with rfl | hx
          · exact ⟨htok.stream, htok.before, hpd⟩
          · exact ih.toks x hx
        · obtain ⟨n, u, l, hp, hrr, hb, hy⟩ := ih.live rfl
          refine ⟨n, u, l, hp, hrr, hb, ?_⟩
          simp only
          rw [hpd, ← hy, ← hd, htok.after]
  | @finalize ts toks prep log t b t' ts' _ ht hn ih =>
    have htok := ih.toks t ht
    obtain ⟨n, u, l, hp, hrr, hb, hy⟩ := ih.live rfl
    unfold finalizeToken at hn
    split at hn
    · simp at hn
    next hfin =>
    split at hn
    · simp at hn
    next hd =>
    simp only [ne_eq, not_not] at hd
    simp only [stateIf_res hres, Option.some.injEq, Prod.mk.injEq] at hn
    obtain ⟨_, rfl, rfl⟩ := hn
    obtain ⟨n1, u1, l1, b1, u1', v, hp1, hf1, hn1, h1, h2, h3, _⟩ := htok.stream
    obtain ⟨_, _, hbe, hbi⟩ := next_cases L hv (hp1.between L hv) hf1 hn1
    have hyt : (u.epoch, u.batchIndex) = (t.epoch, t.index + 1) := by rw [← hy, ← hd, htok.after]
    simp only [Prod.mk.injEq] at hyt
    have hcore : t.batch.epoch = t.epoch ∧ t.batch.index = t.index := by
      unfold core at h3
      simp only [Prod.mk.injEq] at h3
      omega
    have hpd : pos (T.tokDg t.beforeDg { t.batch with last := true } t.afterBlob) = (t.epoch, t.index + 1) := by
      rw [hpos.tok]
      simp only
      rw [hcore.1, hcore.2]
    refine ⟨fun x hx => ?_, ih.prep, fun _ => ⟨n, u, l, hp, RR.trans R.trans hrr (snap_rr R.refl hb),
      snap_between R.refl R.same hb, ?_⟩, ih.committed⟩
    · rcases List.mem_cons.mp hx with rfl | hx
      · refine ⟨⟨n1, u1, l1, b1, u1', ts.st, hp1, hf1, hn1, h1, h2, h3, ?_, hb, rfl⟩, htok.before, hpd⟩
        refine afterTok_of_live L hv hp1 hf1 hn1 hp (by omega) (by omega) ?_ hrr
        rw [hrr.finished]
        simpa using hfin
      · exact ih.toks x hx
    · simp only
      rw [hpd, hyt.1, hyt.2]
  | @prepare ts toks prep log okay l c _ hl hc ih =>
    refine ⟨ih.toks, fun x hx => ?_, ih.live, ih.committed⟩
    rcases List.mem_cons.mp hx with rfl | hx
    · exact prepareCommit_cand (fun t ht => ih.toks t (hl t ht)) hc
    · exact ih.prep x hx
  | @commit ts toks prep log okay c l ts' _ hc hcm ih =>
    have hcand := ih.prep _ hc
    obtain ⟨n, u, lg, v, hp, hrr, hb, hcs, hlog, hcd⟩ := ih.committed
    unfold commitPrepared at hcm
    by_cases hd : c.beforeDg = ts.cDg
    case neg => rw [if_pos hd] at hcm; simp at hcm
    rw [if_neg (by simpa using hd), if_pos hres] at hcm
    obtain ⟨e, k, hbp, hcont⟩ := hcand.contig
    cases hl : l.getLast? with
    | none => rw [List.getLast?_eq_none_iff] at hl; exact absurd hl hcand.nonempty
    | some tl =>
      obtain ⟨hst, hdg⟩ := hcand.last tl hl
      simp only at hst hdg
      have hue : (e, k) = (u.epoch, u.batchIndex) := by rw [← hbp, ← hcd]; simp only; rw [hd]
      simp only [Prod.mk.injEq] at hue
      obtain ⟨n', u', lg', v', r1, r2, r3, r4, r5, r6, r7⟩ := commit_tokens L hv l tl e k n u lg hl hcand.toks hcont hp hue.1.symm hue.2.symm
      rw [hst, r4] at hcm
      simp only [Prod.mk.injEq, and_true] at hcm
      subst hcm
      refine ⟨ih.toks, ih.prep, ih.live, n', u', lg', v', r1, r2, r3, rfl, ?_, ?_⟩
      · rw [r5, hlog]
        simp
      · simp only
        rw [hdg, (hcand.toks tl (List.mem_of_mem_getLast? (by rw [hl]; rfl))).after, r6, r7]
  | @epoch ts toks prep log ts' _ hn ih =>
    obtain ⟨n, u, l, hp, hrr, hb, hy⟩ := ih.live rfl
    obtain ⟨m, w, lw, v, hpw, _, _, _, hlog, hcd⟩ := ih.committed
    unfold beginNextEpoch at hn
    split at hn
    · simp at hn
    next hfin =>
    split at hn
    · simp at hn
    next hd =>
    simp only [ne_eq, not_not] at hd
    simp only [stateIf_res hres, Option.some.injEq] at hn
    subst hn
    have huf : u.finished = true := by rw [hrr.finished]; simpa using hfin
    have hpeq : (u.epoch, u.batchIndex) = (w.epoch, w.batchIndex) := by rw [← hy, ← hcd, hd]
    simp only [Prod.mk.injEq] at hpeq
    have hl : l = lw := by
      rcases hp.same_pos L hv hpw hpeq.1 hpeq.2 with ⟨_, _, h⟩ | ⟨_, h, _⟩ | ⟨_, _, _, _, h⟩
      · exact h
      · rw [huf] at h; simp at h
      · exact h
    have hpn : Plain T.P (n + 1) (startEpoch T.P (ts.st.epoch + 1)) l := by
      refine .step hp ?_
      unfold plainStep
      rw [if_pos huf, hrr.epoch]
    have hbn := hstart (ts.st.epoch + 1)
    refine ⟨ih.toks, ih.prep, fun _ => ⟨n + 1, _, l, hpn, snap_rr R.refl hbn, snap_between R.refl R.same hbn, ?_⟩,
      n + 1, _, l, _, hpn, RR.refl R.refl hbn.keys, hbn, rfl, by rw [hl, hlog], ?_⟩
    · simp only; rw [hpos.init]; rfl
    · simp only; rw [hpos.init]; rfl
  | @rollback ts toks prep log okay ts' _ hn ih =>
    obtain ⟨m, w, lw, v, hpw, hrr, hb, hcs, hlog, hcd⟩ := ih.committed
    unfold rollback at hn
    rw [hres, hcs] at hn
    simp only [Bool.true_eq_false, if_false] at hn
    cases hr : restore T.P T.rc (save T.P T.sc v) with
    | none => rw [hr] at hn; simp at hn
    | some st =>
      rw [hr] at hn
      simp only [Option.some.injEq] at hn
      subst hn
      obtain ⟨h1, h2⟩ := restore_rr R hb hr
      exact ⟨ih.toks, ih.prep, fun _ => ⟨m, w, lw, hpw, RR.trans R.trans hrr h1, h2, hcd⟩,
        m, w, lw, v, hpw, hrr, hb, rfl, hlog, hcd⟩

end Verif.Planner
