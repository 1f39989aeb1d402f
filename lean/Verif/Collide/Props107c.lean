import Verif.Collide.Props107b

namespace Verif.Collide

open Verif.Canon Verif.Resume

/-! ### Specification -/

/-- The values a process would save contain nothing that differs from itself. -/
structure CalmEnv (L : Lib) (e : RankEnv) : Prop where
  text : ∀ s, L.py.eqVal (.str s) (.str s) = true
  number : ∀ n, L.py.eqVal (.int n) (.int n) = true
  truth : ∀ b, L.py.eqVal (.bool b) (.bool b) = true
  signature : Calm L e.signature
  rng : Calm L e.rng
  tuning : ∀ v, e.tuning = some v → Calm L v
  stream : ∀ st a b c, e.cursor = .stream st a b c → Calm L st ∧ ∀ v, c = some v → Calm L v
  sampler : ∀ st, e.cursor = .sampler st → Calm L st

/-- A present value other than `None`. -/
def noNone : Option Val → Option Val
  | some .null => none
  | v => v

/-- Both absent, or both there and in agreement. -/
def SameOption (L : Lib) : Option Val → Option Val → Prop
  | none, none => True
  | some v, some w => SameValue L v w
  | _, _ => False

/-- Two data cursors agree. -/
def SameCursor (L : Lib) : Cursor → Cursor → Prop
  | .stream st a b c, .stream st' a' b' c' => SameValue L st st' ∧
      SameValue L (.seq false [.int a, .int b]) (.seq false [.int a', .int b']) ∧
      SameOption L (noNone c) (noNone c')
  | .sampler st, .sampler st' => SameValue L st st'
  | _, _ => False

/-- Whether this save includes the training state. -/
def StateDue (force : Bool) (interval : Option Nat) (iteration : Nat) : Prop :=
  force = true ∨ interval = none ∨ ∃ n, interval = some n ∧ n ∣ iteration

/-! ### Proofs -/

theorem mem_put (d : Dict) (k : Str) (v : Val) (e : Key × Val) (h : e ∈ put d k v) :
    e ∈ d ∨ e.2 = v ∧ e.1 = .str k := by
  induction d with
  | nil =>
    simp only [put, List.mem_singleton] at h
    subst h; exact .inr ⟨rfl, rfl⟩
  | cons x r ih =>
    obtain ⟨k', v'⟩ := x
    simp only [put] at h
    by_cases hk : k' = Key.str k
    · rw [if_pos hk] at h
      rcases List.mem_cons.mp h with h | h
      · subst h; exact .inr ⟨rfl, hk⟩
      · exact .inl (List.mem_cons_of_mem _ h)
    · rw [if_neg hk] at h
      rcases List.mem_cons.mp h with h | h
      · subst h; exact .inl (List.mem_cons_self ..)
      · rcases ih h with h | h
        · exact .inl (List.mem_cons_of_mem _ h)
        · exact .inr h

theorem mem_putOpt (d : Dict) (k : Str) (v : Option Val) (e : Key × Val) (h : e ∈ putOpt d k v) :
    e ∈ d ∨ v = some e.2 ∧ e.1 = .str k := by
  unfold putOpt at h
  split at h
  · exact .inl h
  · exact .inl h
  · rename_i w _
    rcases mem_put _ _ _ _ h with h | h
    · exact .inl h
    · exact .inr ⟨by rw [h.1], h.2⟩

theorem calm_child (L : Lib) (v : Val) (h0 : Alike L v v) (h : ∀ n w, child v n = some w → Calm L w) :
    Calm L v := by
  intro path x hx
  cases path with
  | nil => simp only [descend, Option.some.injEq] at hx; subst hx; exact h0
  | cons n r =>
    simp only [descend] at hx
    cases hc : child v n with
    | none => rw [hc] at hx; cases hx
    | some w => rw [hc] at hx; exact h n w hc r x hx

theorem calm_dict (L : Lib) (d : Dict) (h : ∀ e ∈ d, Calm L e.2) : Calm L (.dict d) := by
  refine calm_child L _ (by simp only [Alike]) fun n w hw => ?_
  simp only [child, Option.map_eq_some_iff] at hw
  obtain ⟨e, he, rfl⟩ := hw
  exact h e (List.mem_of_getElem? he)

theorem calm_list (L : Lib) (p : Bool) (xs : List Val) (h : ∀ e ∈ xs, Calm L e) : Calm L (.seq p xs) :=
  calm_child L _ ⟨rfl, rfl⟩ fun n w hw => h w (List.mem_of_getElem? (by simpa only [child] using hw))

theorem calm_scalar (L : Lib) (v : Val) (hs : IsScalar v) (h : L.py.eqVal v v = true) : Calm L v := by
  refine calm_child L _ ?_ fun n w hw => ?_
  · cases v <;> first | exact ⟨hs, hs, h⟩ | exact hs.elim
  · cases v <;> first | (simp only [child] at hw; cases hw) | exact hs.elim

theorem calm_bare {L : Lib} {e : RankEnv} (h : CalmEnv L e) (r : Nat) (x : Key × Val)
    (hx : x ∈ bareState { e with vqRuntime := none } r) : Calm L x.2 := by
  have hstr : ∀ s, Calm L (.str s) := fun s => calm_scalar L _ trivial (h.text s)
  have hint : ∀ s, Calm L (.int s) := fun s => calm_scalar L _ trivial (h.number s)
  have hbool : ∀ s, Calm L (.bool s) := fun s => calm_scalar L _ trivial (h.truth s)
  unfold bareState at hx
  simp only at hx
  split at hx
  · rcases mem_putOpt _ _ _ _ hx with hx | ⟨hx, -⟩
    · simp only [List.mem_cons, List.not_mem_nil, or_false] at hx
      rcases hx with rfl | rfl | rfl | rfl
      · exact hbool _
      · exact hstr _
      · exact hint _
      · exact hint _
    · cases hx
  · rcases mem_putOpt _ _ _ _ hx with hx | ⟨hx, -⟩
    · rcases mem_putOpt _ _ _ _ hx with hx | ⟨hx, -⟩
      · have base : x ∈ [(Key.str kSupported, Val.bool true), (Key.str kSlot, .int r),
            (Key.str kRank, .int r), (Key.str kSig, e.signature), (Key.str kRng, e.rng)] →
            Calm L x.2 := by
          intro hx
          simp only [List.mem_cons, List.not_mem_nil, or_false] at hx
          rcases hx with rfl | rfl | rfl | rfl | rfl
          · exact hbool _
          · exact hint _
          · exact hint _
          · exact h.signature
          · exact h.rng
        split at hx
        · rename_i st a b c hc
          obtain ⟨h1, h2⟩ := h.stream st a b c hc
          rcases mem_putOpt _ _ _ _ hx with hx | ⟨hx, -⟩
          · rcases mem_put _ _ _ _ hx with hx | ⟨hx, -⟩
            · rcases mem_put _ _ _ _ hx with hx | ⟨hx, -⟩
              · rcases mem_put _ _ _ _ hx with hx | ⟨hx, -⟩
                · exact base hx
                · rw [hx]; exact hstr _
              · rw [hx]; exact h1
            · rw [hx]
              refine calm_list L _ _ fun y hy => ?_
              simp only [List.mem_cons, List.not_mem_nil, or_false] at hy
              rcases hy with rfl | rfl <;> exact hint _
          · exact h2 _ hx
        · rename_i st hc
          rcases mem_put _ _ _ _ hx with hx | ⟨hx, -⟩
          · rcases mem_put _ _ _ _ hx with hx | ⟨hx, -⟩
            · exact base hx
            · rw [hx]; exact hstr _
          · rw [hx]; exact h.sampler st hc
      · cases hx
    · exact h.tuning _ hx

theorem pop_putOpt (d : Dict) (k j : Str) (v : Option Val) (h : j ≠ k) :
    pop (putOpt d j v) k = putOpt (pop d k) j v := by
  have hp : ∀ (d : Dict) w, pop (put d j w) k = put (pop d k) j w := by
    intro d w
    induction d with
    | nil =>
      have : Key.str j ≠ Key.str k := by intro hc; cases hc; exact h rfl
      simp [put, pop, this]
    | cons x r ih =>
      obtain ⟨k', v'⟩ := x
      unfold pop at ih ⊢
      simp only [put]
      have hjk : Key.str j ≠ Key.str k := by intro hc; cases hc; exact h rfl
      by_cases h1 : k' = Key.str j
      · subst h1
        rw [if_pos rfl, List.filter_cons_of_pos (by simpa using hjk),
          List.filter_cons_of_pos (by simpa using hjk)]
        simp [put]
      · rw [if_neg h1]
        by_cases h2 : k' = Key.str k
        · subst h2
          rw [List.filter_cons_of_neg (by simp), List.filter_cons_of_neg (by simp)]
          exact ih
        · rw [List.filter_cons_of_pos (by simpa using h2), List.filter_cons_of_pos (by simpa using h2)]
          simp only [put]
          rw [if_neg h1, ih]
  unfold putOpt
  split
  · rfl
  · rfl
  · exact hp d _

/-- without a quantiser manifest the state only lacks that entry -/
theorem bare_without (e : RankEnv) (r : Nat) :
    bareState { e with vqRuntime := none } r = pop (bareState e r) kVq := by
  have hv : ∀ d : Dict, find d kVq = none → ∀ v, pop (putOpt d kVq v) kVq = d := by
    intro d hd v
    unfold putOpt
    split
    · exact pop_of_find_none _ _ hd
    · exact pop_of_find_none _ _ hd
    · exact pop_put _ _ _ hd
  obtain ⟨reason, sig, rng, cursor, vq, tuning⟩ := e
  cases reason with
  | some why =>
    unfold bareState
    simp only
    rw [hv _ rfl]
    rfl
  | none =>
    unfold bareState
    simp only
    rw [pop_putOpt _ _ _ _ (by decide), hv]
    · rfl
    · cases cursor with
      | stream st a b c =>
        simp only
        rw [find_putOpt_ne _ _ (by decide)]
        rfl
      | sampler st => rfl

theorem without_put (d : Dict) (k : Str) (v : Val) (h : k = kVq ∨ k = kGlobal ∨ k = kLocal) :
    withoutRuntime (put d k v) = withoutRuntime d := by
  have hk : ¬ (Key.str k ≠ Key.str kVq ∧ Key.str k ≠ Key.str kGlobal ∧ Key.str k ≠ Key.str kLocal) := by
    rintro ⟨h1, h2, h3⟩
    rcases h with rfl | rfl | rfl
    · exact h1 rfl
    · exact h2 rfl
    · exact h3 rfl
  have hd : ∀ v : Val, ¬ decide ((Key.str k, v).1 ≠ Key.str kVq ∧ (Key.str k, v).1 ≠ Key.str kGlobal ∧
      (Key.str k, v).1 ≠ Key.str kLocal) = true := fun v => by rw [decide_eq_true_iff]; exact hk
  induction d with
  | nil => exact List.filter_cons_of_neg (hd v)
  | cons x r ih =>
    obtain ⟨k', v'⟩ := x
    simp only [put]
    by_cases h1 : k' = Key.str k
    · subst h1
      rw [if_pos rfl]
      have drop : ∀ w : Val, withoutRuntime ((Key.str k, w) :: r) = withoutRuntime r := by
        intro w
        unfold withoutRuntime
        exact List.filter_cons_of_neg (by rw [decide_eq_true_iff]; exact hk)
      rw [drop, drop]
    · rw [if_neg h1]
      unfold withoutRuntime at ih ⊢
      rw [List.filter_cons, List.filter_cons, ih]

theorem without_pop (d : Dict) : withoutRuntime (pop d kVq) = withoutRuntime d := by
  rw [← comparable_eq, ← comparable_eq]
  unfold comparable
  congr 2
  unfold pop
  rw [List.filter_filter]
  refine List.filter_congr fun e _ => ?_
  simp

theorem without_local {P : PyOps} {e : RankEnv} {r : Nat} {s : Dict} (h : localState P e r = .ok s) :
    withoutRuntime s = withoutRuntime (bareState { e with vqRuntime := none } r) := by
  obtain ⟨pr, g, l, -, -, -, rfl⟩ := (localState_ok _ _ _ _).mp h
  rw [without_put _ _ _ (.inr (.inr rfl)), without_put _ _ _ (.inr (.inl rfl)), bare_without, without_pop]

theorem find_without (d : Dict) (k : Str) (h1 : k ≠ kVq) (h2 : k ≠ kGlobal) (h3 : k ≠ kLocal) :
    find (withoutRuntime d) k = find d k := by
  rw [← comparable_eq]
  unfold comparable
  rw [find_pop_ne _ h3, find_pop_ne _ h2, find_pop_ne _ h1]

theorem encodable_sub {a b : Dict} (h : ∀ e ∈ a, e ∈ b ∨ ∃ s t, e = (.str s, .str t) ∧
    s ≠ "$bytes".toList ∧ s ≠ "$f64".toList ∧ s ≠ "$tensor".toList) (hb : Encodable (.dict b)) :
    Encodable (.dict a) := by
  cases hb with
  | dict _ hk hv =>
    refine .dict _ (fun kv hkv => ?_) (fun kv hkv => ?_)
    · rcases h kv hkv with h | ⟨s, t, rfl, h⟩
      · exact hk kv h
      · exact ⟨s, rfl, h⟩
    · rcases h kv hkv with h | ⟨s, t, rfl, h⟩
      · exact hv kv h
      · exact .str t

theorem digest_exists (P : PyOps) (d : Dict) : (∃ t, digest P d = .ok t) ↔ Encodable (.dict d) := by
  rw [← C07_accepts P.lib]
  constructor
  · rintro ⟨t, h⟩
    obtain ⟨b, hb, -⟩ := (digest_ok _ _ _).mp h
    exact ⟨b, hb⟩
  · rintro ⟨b, hb⟩
    exact ⟨_, (digest_ok P d _).mpr ⟨b, hb, rfl⟩⟩

theorem projCursor_congr (P : PyOps) (a b : Dict) (h : ∀ k, k ≠ kVq → find a k = find b k) :
    projCursor P a = projCursor P b := by
  have hg : ∀ k, k ≠ kVq → Resume.get a k = Resume.get b k := fun k hk => by
    unfold Resume.get; rw [h k hk]
  unfold projCursor
  rw [hg kCursor (by decide), hg kCoord (by decide), hg kStream (by decide), hg kSampler (by decide)]

/-- leaving the quantiser manifest out does not make a capture fail -/
theorem capture_without {P : PyOps} {e : RankEnv} {r : Nat} {s : Dict} (h : localState P e r = .ok s) :
    ∃ s', localState P { e with vqRuntime := none } r = .ok s' := by
  obtain ⟨pr, g, l, h1, h2, h3, -⟩ := (localState_ok _ _ _ _).mp h
  obtain ⟨vq, c, e1, e2, e3⟩ := (projection_ok _ _ _).mp h1
  have hb := bare_without e r
  obtain ⟨b', hb'⟩ : ∃ b', b' = bareState { e with vqRuntime := none } r := ⟨_, rfl⟩
  have hf : ∀ k, k ≠ kVq → find b' k = find (bareState e r) k := by
    intro k hk; rw [hb', hb, find_pop_ne _ hk]
  have hn : find b' kVq = none := by rw [hb', hb, find_pop_self]
  have hg : ∀ k, k ≠ kVq → Resume.get b' k = Resume.get (bareState e r) k := fun k hk => by
    unfold Resume.get; rw [hf k hk]
  have hpr : projection P b' = .ok ([(.str kSupported, Resume.get b' kSupported),
      (.str kCursor, Resume.get b' kCursor), (.str kSig, Resume.get b' kSig)] ++ [] ++ [c]) := by
    refine (projection_ok _ _ _).mpr ⟨[], c, by unfold vqPart; rw [hn], ?_, rfl⟩
    rw [projCursor_congr P b' (bareState e r) hf, e2]
  have henc1 := (digest_exists P pr).mp ⟨g, h2⟩
  obtain ⟨g', hg'⟩ := (digest_exists P _).mpr (encodable_sub (b := pr) (a :=
      [(.str kSupported, Resume.get b' kSupported),
      (.str kCursor, Resume.get b' kCursor), (.str kSig, Resume.get b' kSig)] ++ [] ++ [c]) (by
    intro x hx
    left
    rw [hg _ (by decide), hg _ (by decide), hg _ (by decide)] at hx
    rw [e3]
    simp only [List.append_nil, List.mem_append, List.mem_cons, List.not_mem_nil, or_false] at hx ⊢
    tauto) henc1)
  have henc2 := (digest_exists P _).mp ⟨l, h3⟩
  obtain ⟨l', hl'⟩ := (digest_exists P (put b' kGlobal (.str g'))).mpr (encodable_sub
      (b := put (bareState e r) kGlobal (.str g)) (by
    intro x hx
    rcases mem_put _ _ _ _ hx with hx | ⟨h4, h5⟩
    · left
      rw [hb', hb] at hx
      have hx' : x ∈ bareState e r := (List.mem_filter.mp hx).1
      have hng := (bare_facts e r).noGlobal
      have : ∀ d : Dict, find d kGlobal = none → put d kGlobal (.str g) = d ++ [(.str kGlobal, .str g)] := by
        intro d
        induction d with
        | nil => intro _; rfl
        | cons y s ih =>
          obtain ⟨k', v'⟩ := y
          intro hd
          simp only [find] at hd
          by_cases hk : k' = Key.str kGlobal
          · rw [if_pos hk] at hd; cases hd
          · rw [if_neg hk] at hd
            simp only [put]
            rw [if_neg hk, ih hd]; rfl
      rw [this _ hng]
      exact List.mem_append_left _ hx'
    · right
      exact ⟨kGlobal, g', Prod.ext h5 h4, by decide, by decide, by decide⟩) henc2)
  exact ⟨_, (localState_ok _ _ _ _).mpr ⟨_, g', l', hb' ▸ hpr, hg', hb' ▸ hl', rfl⟩⟩

/-- the states of a saved file pass their own validation -/
theorem saved_valid {P : PyOps} {t : Trainer} {envs : List RankEnv} (hne : envs ≠ []) {f : Val}
    (hsave : saveState P t envs = .ok f) : ∃ states : List Dict, states.length = envs.length ∧
      (∀ (r : Nat) (e : RankEnv), envs[r]? = some e →
        ∃ s, states[r]? = some s ∧ localState P e r = .ok s) ∧
      f = buildState t envs.length (states.map .dict) ∧
      validate P envs.length (states.map Val.dict) = .ok (states.map Val.dict, false) := by
  obtain ⟨states, hlen, hst, hgl, rfl⟩ := (C84_save_iff P t envs hne f).mp hsave
  refine ⟨states, hlen, hst, rfl, ?_⟩
  have hint : ∀ (r : Nat) (s : Dict), states[r]? = some s → ∃ e, localState P e r = .ok s := by
    intro k s' hk
    have hr : k < envs.length := by
      rw [← hlen]; exact (List.getElem?_eq_some_iff.mp hk).1
    obtain ⟨s'', hs'', hl''⟩ := hst k envs[k] (List.getElem?_eq_getElem hr)
    rw [hk] at hs''; cases hs''
    exact ⟨_, hl''⟩
  have hpos : 0 < envs.length := List.length_pos_of_ne_nil hne
  obtain ⟨s, hs, hl⟩ := hst 0 envs[0] (List.getElem?_eq_getElem hpos)
  refine (C84_accept_iff _ _ _ _).mpr ⟨⟨.dict s, List.mem_map.mpr
    ⟨s, List.mem_iff_getElem?.mpr ⟨0, hs⟩, rfl⟩, localState_not_old hl⟩, states, rfl, hlen,
    List.Perm.refl _, ?_, hgl⟩
  intro k d hk
  obtain ⟨e', he'⟩ := hint k d hk
  exact localState_intact he'

/-! ### The theorems -/

/-- Saving again what was just saved keeps the files: the check accepts the file every process's
unchanged state was saved to, with model files holding the current models. -/
theorem C107_resave (L : Lib) (t : Trainer) (envs : List RankEnv) (f : Val)
    (hsave : saveState L.py t envs = .ok f) (p : Process) (e : RankEnv) (hp : p.trainer = t)
    (hworld : p.world = envs.length) (he : envs[p.index]? = some e)
    (hpe : { p.env with vqRuntime := none } = { e with vqRuntime := none }) (hcalm : CalmEnv L e)
    (hopt : L.py.eqVal t.optimizerConfig t.optimizerConfig = true)
    (hsched : L.py.eqVal t.schedulerConfig t.schedulerConfig = true)
    (ho : Calm L (.dict t.optimizers)) (hs : Calm L (.dict t.schedulers)) (hsc : Calm L (t.scaler.getD .null))
    (hmodels : ∀ name s, (name, s) ∈ p.models → Calm L s ∧ p.modelFile name = some ⟨s, some t.iteration⟩)
    (hvq : ∀ k e', envs[k]? = some e' → ∃ m, e'.vqRuntime = some (.dict m) ∧
      p.manifestValid t.iteration k (.dict m) = true ∧ L.py.eqVal (Resume.get m "schema".toList) p.schema = true)
    (hside : ∀ m, e.vqRuntime = some m → p.sidecarMatches t.iteration m = true) :
    committedMatches L p f = .ok () := by
  have hne : envs ≠ [] := by rintro rfl; cases he
  obtain ⟨states, hlen, hst, rfl, hval⟩ := saved_valid hne hsave
  obtain ⟨s, hs1, hl⟩ := hst p.index e he
  obtain ⟨cur, hcur⟩ := capture_without hl
  have hvqf : ∀ k e' s', envs[k]? = some e' → localState L.py e' k = .ok s' → ∃ m, e'.vqRuntime = some (.dict m) ∧
      find s' kVq = some (.dict m) ∧ p.manifestValid t.iteration k (.dict m) = true ∧
      L.py.eqVal (Resume.get m kSchema) p.schema = true := by
    intro k e' s' hk hs'
    obtain ⟨m, m1, m2, m3⟩ := hvq k e' hk
    refine ⟨m, m1, ?_, m2, m3⟩
    rw [localState_find hs' (by decide) (by decide), (bare_facts e' k).vq, m1]
  refine (C107_accept_iff L p _).mpr ⟨_, [(.str kVersion, .int 2), (.str kWorld, .int envs.length),
      (.str kRanks, .seq false (states.map .dict))],
    [(.str kIter, .int t.iteration), (.str kEpoch, .int t.epoch), (.str kRows, .int t.rows)],
    states.map .dict, states.map .dict, s, cur, 2, rfl, ?_⟩
  subst hp
  exact
    { format := rfl
      counters := ⟨.inl rfl, rfl, rfl, rfl⟩
      resume := rfl
      versionOk := .inr ⟨rfl, rfl, rfl⟩
      world := by
        rw [hworld]
        exact beq_self_eq_true (envs.length : Int)
      statesOk := ⟨rfl, by rw [List.length_map, hlen, hworld]⟩
      ranksOk := ⟨false, by rw [hworld]; exact hval⟩
      optimizerConfig := hopt
      schedulerConfig := hsched
      optimizers := same_self ho
      schedulers := same_self hs
      scaler := same_self hsc
      loc := ⟨by rw [List.getElem?_map, hs1]; rfl, by rw [hpe]; exact hcur, by
        rw [without_local hl, without_local hcur]
        refine same_self (calm_dict L _ fun x hx => calm_bare hcalm p.index x (List.mem_filter.mp hx).1)⟩
      models := fun name s hm => ⟨_, (hmodels name s hm).2, rfl, same_self (hmodels name s hm).1⟩
      runtime := fun _ => ⟨fun k v hk => by
        rw [List.getElem?_map] at hk
        cases hsk : states[k]? with
        | none => rw [hsk] at hk; cases hk
        | some d =>
          rw [hsk] at hk
          simp only [Option.map_some, Option.some.injEq] at hk
          have hr : k < envs.length := by
            rw [← hlen]; exact (List.getElem?_eq_some_iff.mp hsk).1
          obtain ⟨s'', hs'', hl''⟩ := hst k envs[k] (List.getElem?_eq_getElem hr)
          rw [hsk] at hs''; cases hs''
          obtain ⟨m, -, m2, m3, m4⟩ := hvqf k envs[k] d (List.getElem?_eq_getElem hr) hl''
          exact ⟨d, m, hk.symm, m2, m3, m4⟩, by
        obtain ⟨m, m1, m2, -, -⟩ := hvqf p.index e s he hl
        have : Resume.get s "vq_runtime".toList = .dict m := by
          unfold Resume.get
          rw [show find s "vq_runtime".toList = some (.dict m) from m2]; rfl
        rw [this]
        exact hside _ m1⟩
      runtime1 := fun h => by cases h }

/-- A file saved by any run is kept only when that run's counters, optimizers, schedulers, gradient
scaler, data position and random generators agree with the current ones. -/
theorem C107_changed (L : Lib) (t : Trainer) (envs : List RankEnv) (f : Val) (hne : envs ≠ [])
    (hsave : saveState L.py t envs = .ok f) (p : Process) (h : committedMatches L p f = .ok ()) :
    t.iteration = p.trainer.iteration ∧ t.epoch = p.trainer.epoch ∧ t.rows = p.trainer.rows ∧
    envs.length = p.world ∧
    L.py.eqVal t.optimizerConfig p.trainer.optimizerConfig = true ∧
    L.py.eqVal t.schedulerConfig p.trainer.schedulerConfig = true ∧
    SameValue L (.dict t.optimizers) (.dict p.trainer.optimizers) ∧
    SameValue L (.dict t.schedulers) (.dict p.trainer.schedulers) ∧
    SameValue L (t.scaler.getD .null) (p.trainer.scaler.getD .null) ∧
    (∀ name state, (name, state) ∈ p.models → ∃ f, p.modelFile name = some f ∧
      f.iteration = some p.trainer.iteration ∧ SameValue L f.state state) ∧
    ∃ e, envs[p.index]? = some e ∧
      SameValue L (.bool e.reason.isNone) (.bool p.env.reason.isNone) ∧
      (e.reason = none → p.env.reason = none → SameValue L e.signature p.env.signature ∧
        SameValue L e.rng p.env.rng ∧
        SameCursor L e.cursor p.env.cursor ∧ SameOption L (noNone e.tuning) (noNone p.env.tuning)) := by
  obtain ⟨states, hlen, hst, rfl, hval⟩ := saved_valid hne hsave
  obtain ⟨st, r, md, sts, ranks, saved, current, version, e1, H⟩ := (C107_accept_iff L p _).mp h
  simp only [buildState, Val.dict.injEq] at e1
  subst e1
  have hr := H.resume
  have hmd := H.counters.1
  have hr : [(Key.str kVersion, Val.int 2), (.str kWorld, .int envs.length),
      (.str kRanks, .seq false (states.map .dict))] = r := by
    have : some (Val.dict [(Key.str kVersion, Val.int 2), (.str kWorld, .int envs.length),
      (.str kRanks, .seq false (states.map .dict))]) = some (.dict r) := hr
    simpa only [Option.some.injEq, Val.dict.injEq] using this
  have hmd : [(Key.str kIter, Val.int t.iteration), (.str kEpoch, .int t.epoch), (.str kRows, .int t.rows)]
      = md := by
    rcases hmd with h | ⟨h, -⟩
    · have : some (Val.dict [(Key.str kIter, Val.int t.iteration), (.str kEpoch, .int t.epoch),
        (.str kRows, .int t.rows)]) = some (.dict md) := h
      simpa only [Option.some.injEq, Val.dict.injEq] using this
    · have : some (Val.dict [(Key.str kIter, Val.int t.iteration), (.str kEpoch, .int t.epoch),
        (.str kRows, .int t.rows)]) = none := h
      cases this
  subst hr hmd
  have hsts : states.map Val.dict = sts := by
    have : some (Val.seq false (states.map Val.dict)) = some (.seq false sts) := H.statesOk.1
    simpa only [Option.some.injEq, Val.seq.injEq, true_and] using this
  subst hsts
  have hw : envs.length = p.world := by
    have := H.statesOk.2
    rw [List.length_map] at this
    omega
  obtain ⟨old, hv⟩ := H.ranksOk
  rw [← hw, hval] at hv
  simp only [Except.ok.injEq, Prod.mk.injEq] at hv
  obtain ⟨hv, -⟩ := hv
  subst hv
  obtain ⟨l1, l2, l3⟩ := H.loc
  rw [List.getElem?_map] at l1
  obtain ⟨e, he, hl⟩ : ∃ e, envs[p.index]? = some e ∧ localState L.py e p.index = .ok saved := by
    cases hsk : states[p.index]? with
    | none => rw [hsk] at l1; cases l1
    | some d =>
      rw [hsk] at l1
      simp only [Option.map_some, Option.some.injEq, Val.dict.injEq] at l1
      subst l1
      have hr : p.index < envs.length := by
        rw [← hlen]; exact (List.getElem?_eq_some_iff.mp hsk).1
      obtain ⟨s'', hs'', hl''⟩ := hst p.index envs[p.index] (List.getElem?_eq_getElem hr)
      rw [hsk] at hs''; cases hs''
      exact ⟨_, List.getElem?_eq_getElem hr, hl''⟩
  have hfield : ∀ k, k ≠ kVq → k ≠ kGlobal → k ≠ kLocal →
      (find (bareState e p.index) k = none ∧ find (bareState { p.env with vqRuntime := none } p.index) k = none) ∨
      ∃ v w, find (bareState e p.index) k = some v ∧
        find (bareState { p.env with vqRuntime := none } p.index) k = some w ∧ SameValue L v w := by
    intro k h1 h2 h3
    have := (C107_fields L _ _ l3).2 k
    rw [find_without _ _ h1 h2 h3, find_without _ _ h1 h2 h3, localState_find hl h2 h3,
      localState_find l2 h2 h3] at this
    exact this
  have ba := bare_facts e p.index
  have bb := bare_facts { p.env with vqRuntime := none } p.index
  have some2 : ∀ k v w, k ≠ kVq → k ≠ kGlobal → k ≠ kLocal → find (bareState e p.index) k = some v →
      find (bareState { p.env with vqRuntime := none } p.index) k = some w → SameValue L v w := by
    intro k v w h1 h2 h3 h4 h5
    rcases hfield k h1 h2 h3 with h | ⟨v', w', e1, e2, e3⟩
    · rw [h4] at h; cases h.1
    · rw [h4] at e1; rw [h5] at e2; cases e1; cases e2; exact e3
  have opt2 : ∀ k a b, k ≠ kVq → k ≠ kGlobal → k ≠ kLocal → find (bareState e p.index) k = a →
      find (bareState { p.env with vqRuntime := none } p.index) k = b → SameOption L a b := by
    intro k a b h1 h2 h3 h4 h5
    rcases hfield k h1 h2 h3 with h | ⟨v', w', e1, e2, e3⟩
    · rw [h4, h5] at h; rw [h.1, h.2]; trivial
    · rw [h4] at e1; rw [h5] at e2; rw [e1, e2]; exact e3
  have hnn : ∀ c : Option Val, (match c with | some .null => none | w => w) = noNone c := by
    intro c; unfold noNone; rfl
  have c1 := H.counters.2.1
  have c2 := H.counters.2.2.1
  have c3 := H.counters.2.2.2
  have i1 : some t.iteration = some p.trainer.iteration := c1
  have i2 : some t.epoch = some p.trainer.epoch := c2
  have i3 : some t.rows = some p.trainer.rows := c3
  refine ⟨Option.some.inj i1, Option.some.inj i2, Option.some.inj i3, hw, H.optimizerConfig,
    H.schedulerConfig, H.optimizers, H.schedulers, H.scaler, H.models, e, he,
    some2 kSupported _ _ (by decide) (by decide) (by decide) ba.supported bb.supported, ?_⟩
  intro hr1 hr2
  refine ⟨some2 kSig _ _ (by decide) (by decide) (by decide) (ba.sig hr1) (bb.sig hr2),
    some2 kRng _ _ (by decide) (by decide) (by decide) (ba.rng hr1) (bb.rng hr2), ?_, ?_⟩
  · have hcur := opt2 kCursor _ _ (by decide) (by decide) (by decide) ba.cursor bb.cursor
    cases hc1 : e.cursor with
    | stream st a b c =>
      obtain ⟨s1, s2, s3⟩ := ba.stream st a b c hr1 hc1
      cases hc2 : p.env.cursor with
      | stream st' a' b' c' =>
        obtain ⟨t1, t2, t3⟩ := bb.stream st' a' b' c' hr2 hc2
        exact ⟨some2 kStream _ _ (by decide) (by decide) (by decide) s1 t1,
          some2 kSlice _ _ (by decide) (by decide) (by decide) s2 t2, by
            rw [← hnn, ← hnn]
            exact opt2 kCoord _ _ (by decide) (by decide) (by decide) s3 t3⟩
      | sampler st' =>
        have t1 := bb.sampler st' hr2 hc2
        rcases hfield kStream (by decide) (by decide) (by decide) with h | ⟨v, w, -, h, -⟩
        · rw [s1] at h; cases h.1
        · exact absurd h (by
            unfold bareState
            simp only [hr2, hc2]
            rw [find_putOpt_ne _ _ (by decide), find_putOpt_ne _ _ (by decide), find_put_ne _ _ (by decide),
              find_put_ne _ _ (by decide)]
            simp only [find]
            rw [if_neg (by decide), if_neg (by decide), if_neg (by decide), if_neg (by decide),
              if_neg (by decide)]
            intro hc; cases hc)
    | sampler st =>
      have s1 := ba.sampler st hr1 hc1
      cases hc2 : p.env.cursor with
      | stream st' a' b' c' =>
        obtain ⟨t1, t2, t3⟩ := bb.stream st' a' b' c' hr2 hc2
        rcases hfield kStream (by decide) (by decide) (by decide) with h | ⟨v, w, h, -, -⟩
        · rw [t1] at h; cases h.2
        · exact absurd h (by
            unfold bareState
            simp only [hr1, hc1]
            rw [find_putOpt_ne _ _ (by decide), find_putOpt_ne _ _ (by decide), find_put_ne _ _ (by decide),
              find_put_ne _ _ (by decide)]
            simp only [find]
            rw [if_neg (by decide), if_neg (by decide), if_neg (by decide), if_neg (by decide),
              if_neg (by decide)]
            intro hc; cases hc)
      | sampler st' =>
        exact some2 kSampler _ _ (by decide) (by decide) (by decide) s1 (bb.sampler st' hr2 hc2)
  · rw [← hnn, ← hnn]
    exact opt2 kTuning _ _ (by decide) (by decide) (by decide) (ba.tuning hr1) (bb.tuning hr2)

/-- Optimizer state with something that differs from itself, such as a NaN tensor, makes saving the very
same state again a collision. -/
theorem C107_nan (L : Lib) (t : Trainer) (envs : List RankEnv) (f : Val) (hne : envs ≠ [])
    (hsave : saveState L.py t envs = .ok f) (p : Process) (hp : p.trainer = t)
    (hnan : ¬ Calm L (.dict t.optimizers)) : committedMatches L p f ≠ .ok () := by
  intro h
  have := (C107_changed L t envs f hne hsave p h).2.2.2.2.2.2.1
  rw [hp] at this
  exact hnan ((C107_values_self L _).mp ((C107_values_iff L _ _).mpr this))

/-- A file with continuation states of the oldest format is never accepted. -/
theorem C107_old_format (L : Lib) (p : Process) (st r : Dict) (states : List Val)
    (hr : find st "resume".toList = some (.dict r)) (hs : find r "ranks".toList = some (.seq false states))
    (hold : ∀ v ∈ states, OldFormat v) : committedMatches L p (.dict st) ≠ .ok () := by
  intro h
  obtain ⟨st', r', md, sts, ranks, saved, current, version, e1, H⟩ := (C107_accept_iff L p _).mp h
  cases e1
  have hr' := H.resume
  rw [hr] at hr'
  cases hr'
  have hs' := H.statesOk.1
  rw [hs] at hs'
  cases hs'
  obtain ⟨old, hv⟩ := H.ranksOk
  have : validate L.py p.world states = .ok (states, true) := (C84_old_format _ _ _ _).mpr ⟨hold, rfl⟩
  rw [this] at hv
  cases hv
  obtain ⟨l1, l2, l3⟩ := H.loc
  obtain ⟨d, hd, hk, -⟩ := hold _ (List.mem_of_getElem? l1)
  cases hd
  have hnone : find saved kSlot = none := by
    have := mem_keys_iff saved kSlot
    rw [hk] at this
    cases hf : find saved kSlot with
    | none => rfl
    | some v =>
      rw [hf] at this
      have h5 := this.mpr rfl
      exact absurd h5 (by decide)
  have hslot := (bare_facts { p.env with vqRuntime := none } p.index).slot
  rw [← localState_find l2 (by decide) (by decide)] at hslot
  rcases (C107_fields L _ _ l3).2 kSlot with h | ⟨v, w, h, -, -⟩
  · have h2 := h.2
    rw [find_without _ _ (by decide) (by decide) (by decide), hslot] at h2; cases h2
  · rw [find_without _ _ (by decide) (by decide) (by decide), hnone] at h; cases h

theorem due_iff (force : Bool) (interval : Option Nat) (iteration : Nat) :
    savesState force interval iteration = true ↔ StateDue force interval iteration := by
  unfold savesState StateDue
  cases force <;> cases interval <;> simp [Nat.dvd_iff_mod_eq_zero]

/-- When a save with training state finds the state file of its iteration, the files are kept if every
process accepts them and every process raises if one does not; otherwise the save writes, with the
training state exactly when it is due. -/
theorem C107_decision (force : Bool) (interval : Option Nat) (iteration : Nat) (exists_ : Bool)
    (results : List (Except String Unit)) :
    (decision force interval iteration exists_ results = .keep ↔
      StateDue force interval iteration ∧ exists_ = true ∧ ∀ r ∈ results, r = .ok ()) ∧
    (decision force interval iteration exists_ results = .collision ↔
      StateDue force interval iteration ∧ exists_ = true ∧ ∃ r ∈ results, r ≠ .ok ()) ∧
    (∀ b, decision force interval iteration exists_ results = .write b ↔
      ¬ (StateDue force interval iteration ∧ exists_ = true) ∧
        (b = true ↔ StateDue force interval iteration)) := by
  simp only [← due_iff]
  have hany : results.any failed = true ↔
      ∃ r ∈ results, r ≠ .ok () := by
    rw [List.any_eq_true]
    refine exists_congr fun r => and_congr_right fun _ => ?_
    cases r <;> simp [failed]
  unfold decision
  cases savesState force interval iteration <;> cases exists_
  · simp
  · simp
  · simp
  · by_cases h : ∃ r ∈ results, r ≠ .ok ()
    · have h' : ¬ ∀ r ∈ results, r = .ok () := by
        obtain ⟨r, hr, hn⟩ := h
        exact fun h => hn (h r hr)
      simp only [Bool.and_self, if_true]
      rw [if_pos (hany.mpr h)]
      simp [h, h']
    · have h' : ∀ r ∈ results, r = .ok () := by
        intro r hr
        by_contra hn
        exact h ⟨r, hr, hn⟩
      simp only [Bool.and_self, if_true]
      rw [if_neg (fun hc => h (hany.mp hc))]
      simp only [h, and_false, and_self, not_true, false_and, true_and, reduceCtorEq, iff_false, true_iff, implies_true, not_false_iff]
      exact ⟨h', trivial⟩

end Verif.Collide
