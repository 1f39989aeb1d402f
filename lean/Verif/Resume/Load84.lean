import Verif.Resume.Capture

/-!
C84, second part: agreement between the processes, tampering, saving and loading the state file, and
the random generators.
-/

namespace Verif.Resume

open Verif.Canon

/-! ### Specification -/

/-- What two continuation states of the same checkpoint have in common (up to list/tuple and entry
order): everything that does not depend on the process. -/
structure Agree (d d' : Dict) : Prop where
  supported : norm (get d "supported".toList) = norm (get d' "supported".toList)
  cursor : norm (get d "cursor_kind".toList) = norm (get d' "cursor_kind".toList)
  signature : norm (get d "data_stream_signature".toList) = norm (get d' "data_stream_signature".toList)
  vq : (find d "vq_runtime".toList).isSome = (find d' "vq_runtime".toList).isSome
  vqFields : ∀ m m', find d "vq_runtime".toList = some (.dict m) →
    find d' "vq_runtime".toList = some (.dict m') →
    ∀ k ∈ ["version".toList, "schema".toList, "autocast_mode".toList], norm (get m k) = norm (get m' k)
  coordination : get d "cursor_kind".toList = .str "file_stream_v1".toList →
    norm (get d "stream_coordination".toList) = norm (get d' "stream_coordination".toList)
  stream : get d "cursor_kind".toList = .str "file_stream_v1".toList →
    get d "stream_coordination".toList = .null →
    norm (get d "stream".toList) = norm (get d' "stream".toList)
  sampler : get d "cursor_kind".toList ≠ .str "file_stream_v1".toList → ∀ m m',
    PyVal (.dict m) → PyVal (.dict m') →
    get d "sampler".toList = .dict m → get d' "sampler".toList = .dict m' →
    ∀ k, k ≠ "rank".toList → Same (find m k) (find m' k)

/-! ### Proofs -/

theorem norm_eq_str {v : Val} {t : Str} (h : norm v = .str t) : v = .str t := by
  cases v <;> rw [norm] at h <;> first | exact h | cases h

theorem norm_eq_null {v : Val} (h : norm v = .null) : v = .null := by
  cases v <;> rw [norm] at h <;> first | rfl | cases h

theorem fingerprint_norm {P : PyOps} {a b : Dict} {t : Str} (ha : PyVal (.dict a)) (hb : PyVal (.dict b))
    (h1 : Fingerprint P a t) (h2 : Fingerprint P b t) :
    Collision P ∨ norm (.dict a) = norm (.dict b) := by
  obtain ⟨x, hx, hxt⟩ := h1
  obtain ⟨y, hy, hyt⟩ := h2
  by_cases hxy : x = y
  · subst hxy
    exact Or.inr (((C07_injective P.lib _ _ hb ha x hy).mp hx).1)
  · exact Or.inl ⟨x, y, hxy, hxt.trans hyt.symm⟩

theorem projSampler_dict (P : PyOps) (m : Dict) : projSampler P (.dict m) = .ok (.dict (pop m kRank)) := by
  unfold projSampler truthy
  cases m with
  | nil => rfl
  | cons e r => rfl

theorem find_three (a b c : Val) (k : Str) :
    find [(.str kSupported, a), (.str kCursor, b), (.str kSig, c)] k =
      if kSupported = k then some a else if kCursor = k then some b else if kSig = k then some c
      else none := by
  simp only [find, Key.str.injEq]

theorem find_single (k' : Str) (v : Val) (k : Str) :
    find [(.str k', v)] k = if k' = k then some v else none := by
  simp only [find, Key.str.injEq]

theorem vqPart_cases {s vq : Dict} (h : vqPart s = .ok vq) :
    (find s kVq = none ∧ vq = []) ∨ ∃ v w, find s kVq = some v ∧ projVq v = .ok w ∧
      vq = [(.str kVq, w)] := by
  unfold vqPart at h
  split at h
  · rename_i hn; cases h; exact Or.inl ⟨hn, rfl⟩
  · rename_i v hv
    split at h
    · rename_i w hw; cases h; exact Or.inr ⟨v, w, hv, hw, rfl⟩
    · cases h

theorem agree_of_norm {P : PyOps} {d d' pr pr' : Dict} (h : projection P d = .ok pr)
    (h' : projection P d' = .ok pr') (hp : (pr.map Prod.fst).Nodup) (hp' : (pr'.map Prod.fst).Nodup)
    (he : norm (.dict pr) = norm (.dict pr')) : Agree d d' := by
  have hfield := fields_of_norm hp hp' he
  obtain ⟨vq, c, h1, h2, rfl⟩ := (projection_ok _ _ _).mp h
  obtain ⟨vq', c', h1', h2', rfl⟩ := (projection_ok _ _ _).mp h'
  -- one field of the projection
  have three : ∀ k, k ≠ kVq → k ≠ kStream → k ≠ kCoord → k ≠ kSampler → ∀ (s vq : Dict) (c : Key × Val),
      vqPart s = .ok vq → projCursor P s = .ok c →
      find ([(.str kSupported, get s kSupported), (.str kCursor, get s kCursor),
        (.str kSig, get s kSig)] ++ vq ++ [c]) k =
      if kSupported = k then some (get s kSupported) else if kCursor = k then some (get s kCursor)
      else if kSig = k then some (get s kSig) else none := by
    intro k k1 k2 k3 k4 s vq c hv hc
    rw [find_append, find_append, find_three]
    have a1 : find vq k = none := by
      rcases vqPart_cases hv with ⟨-, rfl⟩ | ⟨v, w, -, -, rfl⟩
      · rfl
      · rw [find_single, if_neg (fun e => k1 e.symm)]
    have a2 : find [c] k = none := by
      obtain ⟨ck, cv⟩ := c
      rcases projCursor_key hc with h | h | h <;> simp only at h <;> subst h
      · rw [find_single, if_neg (fun e => k2 e.symm)]
      · rw [find_single, if_neg (fun e => k3 e.symm)]
      · rw [find_single, if_neg (fun e => k4 e.symm)]
    rw [a1, a2, Option.or_none, Option.or_none]
  have cur : ∀ k, k = kStream ∨ k = kCoord ∨ k = kSampler → ∀ (s vq : Dict) (c : Key × Val),
      vqPart s = .ok vq →
      find ([(.str kSupported, get s kSupported), (.str kCursor, get s kCursor),
        (.str kSig, get s kSig)] ++ vq ++ [c]) k = find [c] k := by
    intro k hk s vq c hv
    rw [find_append, find_append, find_three]
    have a1 : find vq k = none := by
      rcases vqPart_cases hv with ⟨-, rfl⟩ | ⟨v, w, -, -, rfl⟩
      · rfl
      · rw [find_single, if_neg]
        rcases hk with rfl | rfl | rfl <;> decide
    rw [a1]
    rcases hk with rfl | rfl | rfl <;>
      rw [if_neg (by decide), if_neg (by decide), if_neg (by decide)] <;> rfl
  have vqf : ∀ (s vq : Dict) (c : Key × Val), vqPart s = .ok vq → projCursor P s = .ok c →
      find ([(.str kSupported, get s kSupported), (.str kCursor, get s kCursor),
        (.str kSig, get s kSig)] ++ vq ++ [c]) kVq = find vq kVq := by
    intro s vq c hv hc
    rw [find_append, find_append, find_three]
    have a2 : find [c] kVq = none := by
      obtain ⟨ck, cv⟩ := c
      rcases projCursor_key hc with h | h | h <;> simp only at h <;> subst h <;>
        rw [find_single, if_neg (by decide)]
    rw [a2, if_neg (by decide), if_neg (by decide), if_neg (by decide), Option.or_none]
    rfl
  have fsup : norm (get d kSupported) = norm (get d' kSupported) := by
    have := hfield kSupported
    rw [three _ (by decide) (by decide) (by decide) (by decide) _ _ _ h1 h2,
      three _ (by decide) (by decide) (by decide) (by decide) _ _ _ h1' h2', if_pos rfl, if_pos rfl] at this
    simpa using this
  have fcur : norm (get d kCursor) = norm (get d' kCursor) := by
    have := hfield kCursor
    rw [three _ (by decide) (by decide) (by decide) (by decide) _ _ _ h1 h2,
      three _ (by decide) (by decide) (by decide) (by decide) _ _ _ h1' h2',
      if_neg (by decide), if_pos rfl, if_neg (by decide), if_pos rfl] at this
    simpa using this
  have fsig : norm (get d kSig) = norm (get d' kSig) := by
    have := hfield kSig
    rw [three _ (by decide) (by decide) (by decide) (by decide) _ _ _ h1 h2,
      three _ (by decide) (by decide) (by decide) (by decide) _ _ _ h1' h2',
      if_neg (by decide), if_neg (by decide), if_pos rfl, if_neg (by decide), if_neg (by decide),
      if_pos rfl] at this
    simpa using this
  have fvq : (find vq kVq).map norm = (find vq' kVq).map norm := by
    have := hfield kVq
    rwa [vqf _ _ _ h1 h2, vqf _ _ _ h1' h2'] at this
  have fcu : ∀ k, k = kStream ∨ k = kCoord ∨ k = kSampler →
      (find [c] k).map norm = (find [c'] k).map norm := by
    intro k hk
    have := hfield k
    rwa [cur k hk _ _ _ h1, cur k hk _ _ _ h1'] at this
  -- the cursor kinds agree exactly
  have kindiff : get d kCursor = vFile ↔ get d' kCursor = vFile := by
    constructor
    · intro hh; rw [hh] at fcur; exact norm_eq_str fcur.symm
    · intro hh; rw [hh] at fcur; exact norm_eq_str fcur
  have fileCase : get d kCursor = vFile → norm (get d kCoord) = norm (get d' kCoord) ∧
      (get d kCoord = .null → norm (get d kStream) = norm (get d' kStream)) := by
    intro hfile
    have hfile' := kindiff.mp hfile
    rcases projCursor_ok h2 with ⟨-, hc⟩ | ⟨hno, -⟩
    swap; · exact absurd hfile hno
    rcases projCursor_ok h2' with ⟨-, hc'⟩ | ⟨hno, -⟩
    swap; · exact absurd hfile' hno
    rcases hc with ⟨hn, rfl⟩ | ⟨hn, rfl⟩ <;> rcases hc' with ⟨hn', rfl⟩ | ⟨hn', rfl⟩
    · have := fcu kStream (Or.inl rfl)
      rw [find_single, find_single, if_pos rfl, if_pos rfl] at this
      refine ⟨by rw [hn, hn'], fun _ => by simpa using this⟩
    · have := fcu kStream (Or.inl rfl)
      rw [find_single, find_single, if_pos rfl, if_neg (by decide)] at this
      cases this
    · have := fcu kStream (Or.inl rfl)
      rw [find_single, find_single, if_pos rfl, if_neg (by decide)] at this
      cases this
    · have := fcu kCoord (Or.inr (Or.inl rfl))
      rw [find_single, find_single, if_pos rfl, if_pos rfl] at this
      refine ⟨by simpa using this, fun hh => absurd hh hn⟩
  refine ⟨fsup, fcur, fsig, ?_, ?_, fun h => (fileCase h).1, fun h => (fileCase h).2, ?_⟩
  · show (find d kVq).isSome = (find d' kVq).isSome
    rcases vqPart_cases h1 with ⟨e1, rfl⟩ | ⟨v, w, e1, -, rfl⟩ <;>
      rcases vqPart_cases h1' with ⟨e1', rfl⟩ | ⟨v', w', e1', -, rfl⟩
    · rw [e1, e1']
    · rw [find_single, if_pos rfl] at fvq; cases fvq
    · rw [find_single, if_pos rfl] at fvq; cases fvq
    · rw [e1, e1']; rfl
  · intro m m' hm hm' k hk
    have hm0 : find d kVq = some (.dict m) := hm
    have hm0' : find d' kVq = some (.dict m') := hm'
    rcases vqPart_cases h1 with ⟨e1, rfl⟩ | ⟨v, w, e1, hw, rfl⟩
    · rw [hm0] at e1; cases e1
    rcases vqPart_cases h1' with ⟨e1', rfl⟩ | ⟨v', w', e1', hw', rfl⟩
    · rw [hm0'] at e1'; cases e1'
    rw [hm0] at e1; cases e1
    rw [hm0'] at e1'; cases e1'
    unfold projVq at hw hw'
    simp only [Except.ok.injEq] at hw hw'
    subst hw hw'
    rw [find_single, find_single, if_pos rfl, if_pos rfl] at fvq
    simp only [Option.map_some, Option.some.injEq] at fvq
    have hnd : ∀ x : Dict, (List.map Prod.fst [(Key.str kVersion, get x kVersion),
        (Key.str kSchema, get x kSchema), (Key.str kAutocast, get x kAutocast)]).Nodup := by
      intro x; simp only [List.map_cons, List.map_nil]; decide
    have hfk := fields_of_norm (hnd m) (hnd m') fvq k
    have hfx : ∀ x : Dict, find [(Key.str kVersion, get x kVersion),
        (Key.str kSchema, get x kSchema), (Key.str kAutocast, get x kAutocast)] k = some (get x k) := by
      intro x
      simp only [List.mem_cons, List.not_mem_nil, or_false] at hk
      rcases hk with rfl | rfl | rfl
      · rfl
      · rfl
      · rfl
    rw [hfx, hfx] at hfk
    simpa using hfk
  · intro hno m m' hpm hpm' hm hm' k hk
    have hno' : get d' kCursor ≠ vFile := fun hh => hno (kindiff.mpr hh)
    rcases projCursor_ok h2 with ⟨hf, -⟩ | ⟨-, v, hv, rfl⟩
    · exact absurd hf hno
    rcases projCursor_ok h2' with ⟨hf, -⟩ | ⟨-, v', hv', rfl⟩
    · exact absurd hf hno'
    have hm0 : get d kSampler = .dict m := hm
    have hm0' : get d' kSampler = .dict m' := hm'
    rw [hm0, projSampler_dict] at hv
    rw [hm0', projSampler_dict] at hv'
    cases hv; cases hv'
    have := fcu kSampler (Or.inr (Or.inr rfl))
    rw [find_single, find_single, if_pos rfl, if_pos rfl] at this
    simp only [Option.map_some, Option.some.injEq] at this
    have := fields_of_norm (pyval_nodup (pyval_pop kRank hpm)) (pyval_nodup (pyval_pop kRank hpm')) this k
    have hk' : k ≠ kRank := hk
    rwa [find_pop_ne _ hk', find_pop_ne _ hk'] at this

/-- The states of an accepted list describe the same run: apart from a SHA-256 collision, any two of
them agree on everything that does not depend on the process. -/
theorem C84_agree (P : PyOps) (hP : P.Sane) (n : Nat) (states out : List Val)
    (h : validate P n states = .ok (out, false)) (d d' : Dict) (hd : Val.dict d ∈ out)
    (hd' : Val.dict d' ∈ out) (hv : PyVal (.dict d)) (hv' : PyVal (.dict d')) :
    Collision P ∨ Agree d d' := by
  obtain ⟨-, ds, rfl, -, -, hint, hglob⟩ := (C84_accept_iff P n states out).mp h
  have hmem : ∀ x : Dict, Val.dict x ∈ ds.map Val.dict → x ∈ ds := by
    intro x hx
    obtain ⟨y, hy, he⟩ := List.mem_map.mp hx
    injection he with he
    exact he ▸ hy
  obtain ⟨r, hr⟩ := List.mem_iff_getElem?.mp (hmem d hd)
  obtain ⟨r', hr'⟩ := List.mem_iff_getElem?.mp (hmem d' hd')
  obtain ⟨g, pr, e1, e2, e3⟩ := (hint r d hr).glob
  obtain ⟨g', pr', e1', e2', e3'⟩ := (hint r' d' hr').glob
  have hgg := hglob d (hmem d hd) d' (hmem d' hd')
  rw [e1, e1'] at hgg
  have : g = g' := by simpa using hgg
  subst this
  have hp := pyval_projection hP hv e2
  have hp' := pyval_projection hP hv' e2'
  rcases fingerprint_norm hp hp' e3 e3' with hc | hn
  · exact Or.inl hc
  · exact Or.inr (agree_of_norm e2 e2' (pyval_nodup hp) (pyval_nodup hp') hn)

/-- Tampering: two intact states with the same local digest are the same in every field, up to
list/tuple and entry order — or a SHA-256 collision is at hand. -/
theorem C84_tamper (P : PyOps) (r r' : Nat) (d d' : Dict) (h : Intact P r d) (h' : Intact P r' d')
    (hv : PyVal (.dict d)) (hv' : PyVal (.dict d'))
    (hl : find d "local_digest".toList = find d' "local_digest".toList) :
    Collision P ∨ (∀ k, Same (find d k) (find d' k)) ∧ r = r' := by
  obtain ⟨l, e1, e2⟩ := h.loc
  obtain ⟨l', e1', e2'⟩ := h'.loc
  have : l = l' := by
    have := e1.symm.trans (hl.trans e1')
    simpa using this
  subst this
  rcases fingerprint_norm (pyval_pop kLocal hv) (pyval_pop kLocal hv') e2 e2' with hc | hn
  · exact Or.inl hc
  right
  have hsame : ∀ k, Same (find d k) (find d' k) := by
    intro k
    by_cases hk : k = kLocal
    · subst hk
      unfold Same
      exact congrArg _ hl
    · have := fields_of_norm (pyval_nodup (pyval_pop kLocal hv)) (pyval_nodup (pyval_pop kLocal hv')) hn k
      rwa [find_pop_ne _ hk, find_pop_ne _ hk] at this
  refine ⟨hsame, ?_⟩
  have := hsame "slot".toList
  unfold Same at this
  rw [h.slot, h'.slot] at this
  simp only [Option.map_some, norm, Option.some.injEq, Val.int.injEq] at this
  exact_mod_cast this

/-! ### Saving -/

theorem gather_ok (P : PyOps) (envs : List RankEnv) : ∀ (i : Nat) (ss : List Dict),
    saveState.gather P envs i = .ok ss ↔ ss.length = envs.length ∧
      ∀ (r : Nat) (e : RankEnv), envs[r]? = some e → ∃ s, ss[r]? = some s ∧ localState P e (i + r) = .ok s := by
  induction envs with
  | nil =>
    intro i ss
    rw [saveState.gather]
    simp only [Except.ok.injEq, List.length_nil]
    constructor
    · rintro rfl; exact ⟨rfl, by simp⟩
    · rintro ⟨h, -⟩; exact (List.length_eq_zero_iff.mp h).symm
  | cons e r ih =>
    intro i ss
    rw [saveState.gather]
    constructor
    · intro h
      split at h
      · rename_i s ss' h1 h2
        cases h
        obtain ⟨h3, h4⟩ := (ih _ _).mp h2
        refine ⟨by simp [h3], ?_⟩
        intro k e' hk
        cases k with
        | zero => simp only [List.getElem?_cons_zero, Option.some.injEq] at hk; subst hk; exact ⟨s, rfl, h1⟩
        | succ k =>
          rw [List.getElem?_cons_succ] at hk ⊢
          obtain ⟨s', hs', hl⟩ := h4 k e' hk
          exact ⟨s', hs', by rw [show i + (k + 1) = i + 1 + k by omega]; exact hl⟩
      · cases h
    · rintro ⟨h1, h2⟩
      cases ss with
      | nil => cases h1
      | cons s ss =>
        obtain ⟨s', hs', hl⟩ := h2 0 e rfl
        simp only [List.getElem?_cons_zero, Option.some.injEq] at hs'
        subst hs'
        have hrest : saveState.gather P r (i + 1) = .ok ss := by
          rw [ih]
          refine ⟨by simpa using h1, ?_⟩
          intro k e' hk
          obtain ⟨s', hs', hl'⟩ := h2 (k + 1) e' (by rw [List.getElem?_cons_succ]; exact hk)
          rw [List.getElem?_cons_succ] at hs'
          exact ⟨s', hs', by rw [show i + 1 + k = i + (k + 1) by omega]; exact hl'⟩
        rw [Nat.add_zero] at hl
        rw [hl, hrest]

/-- Saving succeeds exactly when every process could capture its state and the shared parts have the
same digest; the file then holds the captured states in process order. -/
theorem C84_save_iff (P : PyOps) (t : Trainer) (envs : List RankEnv) (hne : envs ≠ []) (f : Val) :
    saveState P t envs = .ok f ↔ ∃ states : List Dict,
      states.length = envs.length ∧
      (∀ (r : Nat) (e : RankEnv), envs[r]? = some e →
        ∃ s, states[r]? = some s ∧ localState P e r = .ok s) ∧
      (∀ s ∈ states, ∀ s' ∈ states, find s "global_digest".toList = find s' "global_digest".toList) ∧
      f = buildState t envs.length (states.map .dict) := by
  have key : ∀ states : List Dict, saveState.gather P envs 0 = .ok states → ∀ out b,
      validate P envs.length (states.map Val.dict) = .ok (out, b) ↔
        (envs = [] ∧ out = [] ∧ b = true) ∨ (envs ≠ [] ∧ b = false ∧ out = states.map .dict ∧
        (∀ s ∈ states, ∀ s' ∈ states, find s "global_digest".toList = find s' "global_digest".toList)) := by
    intro states hg out b
    obtain ⟨hlen, hst⟩ := (gather_ok P envs 0 states).mp hg
    have hst' : ∀ (r : Nat) (s : Dict), states[r]? = some s → ∃ e, localState P e r = .ok s := by
      intro r s hs
      have hr : r < envs.length := by
        rw [← hlen]
        exact (List.getElem?_eq_some_iff.mp hs).1
      obtain ⟨s', hs', hl⟩ := hst r envs[r] (List.getElem?_eq_getElem hr)
      rw [hs] at hs'
      cases hs'
      rw [Nat.zero_add] at hl
      exact ⟨_, hl⟩
    have hint : ∀ (r : Nat) (s : Dict), states[r]? = some s → Intact P r s := by
      intro r s hs
      obtain ⟨e, he⟩ := hst' r s hs
      exact localState_intact he
    cases b with
    | true =>
      rw [C84_old_format]
      constructor
      · rintro ⟨ho, rfl⟩
        cases henv : envs with
        | nil =>
          rw [henv] at hlen
          have : states = [] := List.length_eq_zero_iff.mp hlen
          subst this
          exact Or.inl ⟨rfl, rfl, rfl⟩
        | cons e r =>
          exfalso
          rw [henv] at hlen
          cases hs : states with
          | nil => rw [hs] at hlen; cases hlen
          | cons s ss =>
            obtain ⟨e', he'⟩ := hst' 0 s (by rw [hs]; rfl)
            exact localState_not_old he' (ho _ (by rw [hs]; simp))
      · rintro (⟨h1, rfl, -⟩ | ⟨-, h, -⟩)
        · rw [h1] at hlen
          have : states = [] := List.length_eq_zero_iff.mp hlen
          subst this
          exact ⟨by simp, rfl⟩
        · cases h
    | false =>
      rw [C84_accept_iff]
      constructor
      · rintro ⟨⟨v, hv, -⟩, ds, rfl, hdl, hperm, hdi, hdg⟩
        right
        have hds : ds = states := by
          have hinj : Function.Injective Val.dict := fun a b h => by injection h
          have hp : states.Perm ds := (List.map_perm_map_iff hinj).mp hperm
          apply List.ext_getElem?
          intro r
          by_cases hr : r < envs.length
          · obtain ⟨d, hd⟩ : ∃ d, ds[r]? = some d := ⟨ds[r]'(by omega), List.getElem?_eq_getElem _⟩
            rw [hd]
            have hdm : d ∈ states := hp.mem_iff.mpr (List.mem_iff_getElem?.mpr ⟨r, hd⟩)
            obtain ⟨r', hr'⟩ := List.mem_iff_getElem?.mp hdm
            have := intact_slot_unique (hdi r d hd) (hint r' d hr')
            rw [this, hr']
          · rw [List.getElem?_eq_none (by omega), List.getElem?_eq_none (by omega)]
        subst hds
        refine ⟨?_, rfl, rfl, hdg⟩
        rintro he
        rw [he] at hlen
        have : ds = [] := List.length_eq_zero_iff.mp hlen
        rw [this] at hv
        cases hv
      · rintro (⟨-, -, h⟩ | ⟨hne, -, rfl, hg⟩)
        · cases h
        · refine ⟨?_, states, rfl, hlen, List.Perm.refl _, hint, hg⟩
          cases hs : states with
          | nil => rw [hs] at hlen; exact absurd (List.length_eq_zero_iff.mp hlen.symm) hne
          | cons s ss =>
            obtain ⟨e', he'⟩ := hst' 0 s (by rw [hs]; rfl)
            exact ⟨.dict s, by simp, localState_not_old he'⟩
  unfold saveState
  constructor
  · intro h
    split at h
    · cases h
    rename_i states hg
    split at h
    · cases h
    rename_i ordered b hv
    obtain ⟨hlen, hst⟩ := (gather_ok P envs 0 states).mp hg
    rcases (key states hg ordered b).mp hv with ⟨he, -, -⟩ | ⟨-, rfl, rfl, hgl⟩
    · exact absurd he hne
    · cases h
      refine ⟨states, hlen, ?_, hgl, rfl⟩
      intro r e he
      obtain ⟨s, hs, hl⟩ := hst r e he
      rw [Nat.zero_add] at hl
      exact ⟨s, hs, hl⟩
  · rintro ⟨states, hlen, hst, hgl, rfl⟩
    have hg : saveState.gather P envs 0 = .ok states := by
      rw [gather_ok]
      refine ⟨hlen, ?_⟩
      intro r e he
      rw [Nat.zero_add]
      exact hst r e he
    simp only [hg, (key states hg (states.map .dict) false).mpr (Or.inr ⟨hne, rfl, rfl, hgl⟩)]

/-! ### Loading -/

/-- Everything a successful load of an arbitrary file has checked. -/
structure LoadedFrom (P : PyOps) (L : Loader) (iteration : Int) (state : Val) (out : Loaded) : Prop where
  /-- the file is a version-2 training state of the same number of processes, same optimizers and same
  schedulers -/
  shape : ∃ st res isTuple ranks ordered legacy, state = .dict st ∧
    pyEqInt P (get st "format_version".toList) 2 = true ∧
    P.eqVal (get st "optimizer_config".toList) L.optimizerConfig = true ∧
    P.eqVal (get st "scheduler_config".toList) L.schedulerConfig = true ∧
    get st "resume".toList = .dict res ∧
    pyEqInt P (get res "world_size".toList) L.world = true ∧
    get res "ranks".toList = .seq isTuple ranks ∧ ranks.length = L.world ∧
    validate P L.world ranks = .ok (ordered, legacy) ∧
    ordered[L.index]? = some (.dict out.pending) ∧
    L.signatureMatches (get out.pending "data_stream_signature".toList) legacy = true
  supported : truthy P (get out.pending "supported".toList) = true
  counters : out.iteration = iteration
  models : L.modelsLoad iteration = true
  names : sameNames out.optimizers L.optimizerNames = true
  version : out.version = 1 ∨ (out.version = 2 ∧ ∃ m, get out.pending "vq_runtime".toList = .dict m)

theorem loadRest_ok {P : PyOps} {L : Loader} {it : Int} {st md rank : Dict} {v : Int} {out : Loaded}
    (h : loadRest P L it st md rank v = .ok out) :
    L.modelsLoad it = true ∧ (v = 1 ∨ ∃ m, get rank kVq = .dict m) ∧
      find st kOpts = some (.dict out.optimizers) ∧ sameNames out.optimizers L.optimizerNames = true ∧
      metaInt P md kIter 0 = some out.iteration ∧ metaInt P md kEpoch 0 = some out.epoch ∧
      metaInt P md kRows 0 = some out.rows ∧ find st kScheds = some out.schedulers ∧
      out.pending = rank ∧ out.version = v := by
  unfold loadRest at h
  by_cases h1 : L.modelsLoad it = false
  · rw [if_pos h1] at h; cases h
  rw [if_neg h1] at h
  by_cases h2 : (if v = 1 then L.v1Compatible it
      else isDict (get rank kVq)) = false
  · rw [if_pos h2] at h; cases h
  rw [if_neg h2] at h
  split at h
  · rename_i opts ho
    by_cases h3 : sameNames opts L.optimizerNames = false
    · rw [if_pos h3] at h; cases h
    rw [if_neg h3] at h
    by_cases h4 : opts.all (fun e => L.optimizerLoads (keyText e.1) e.2) = false
    · rw [if_pos h4] at h; cases h
    rw [if_neg h4] at h
    split at h
    · rename_i sc i e r hs hi he hr
      cases h
      refine ⟨by simpa using h1, ?_, ho, by simpa using h3, hi, he, hr, hs, rfl, rfl⟩
      by_cases hv : v = 1
      · exact Or.inl hv
      · rw [if_neg hv] at h2
        right
        cases hg : get rank kVq with
        | dict m => exact ⟨m, rfl⟩
        | _ => rw [hg] at h2; exact absurd rfl h2
    · cases h
  · cases h

/-- A file that loads has passed every check, whatever was in it. -/
theorem C84_load_sound (P : PyOps) (L : Loader) (iteration : Int) (hit : 0 ≤ iteration) (state : Val)
    (out : Loaded) (h : loadState P L iteration state = .ok out) : LoadedFrom P L iteration state out := by
  unfold loadState at h
  split at h
  swap; · cases h
  rename_i st
  by_cases h1 : pyEqInt P (get st kFormat) 2 = false
  · rw [if_pos h1] at h; cases h
  rw [if_neg h1] at h
  by_cases h2 : P.eqVal (get st kOptCfg) L.optimizerConfig = false
  · rw [if_pos h2] at h; cases h
  rw [if_neg h2] at h
  by_cases h3 : P.eqVal (get st kSchedCfg) L.schedulerConfig = false
  · rw [if_pos h3] at h; cases h
  rw [if_neg h3] at h
  split at h
  swap; · cases h
  rename_i res hres
  split at h
  · cases h
  rename_i ver hver
  unfold loadResume at h
  by_cases h4 : pyEqInt P (get res kWorld) L.world = false
  · rw [if_pos h4] at h; cases h
  rw [if_neg h4] at h
  split at h
  swap; · cases h
  rename_i tup ranks hranks
  by_cases h5 : ranks.length ≠ L.world
  · rw [if_pos h5] at h; cases h
  rw [if_neg h5] at h
  rw [ne_eq, not_not] at h5
  split at h
  · cases h
  rename_i ordered legacy hval
  unfold loadSelected at h
  split at h
  swap; · cases h
  rename_i rank hrank
  by_cases h6 : truthy P (get rank kSupported) = false
  · rw [if_pos h6] at h; cases h
  rw [if_neg h6] at h
  by_cases h7 : L.signatureMatches (get rank kSig) legacy = false
  · rw [if_pos h7] at h; cases h
  rw [if_neg h7] at h
  have hv2 : ver = 1 ∨ ver = 2 := by
    unfold versionOf at hver
    split_ifs at hver
    · cases hver; exact Or.inl rfl
    · cases hver; exact Or.inr rfl
  split at h
  · by_cases h8 : (-1 : Int) ≠ iteration
    · rw [if_pos h8] at h; cases h
    · exact absurd (by omega : (-1 : Int) ≠ iteration) h8
  · rename_i md hmd
    split at h
    · cases h
    rename_i i hi
    by_cases h8 : i ≠ iteration
    · rw [if_pos h8] at h; cases h
    rw [if_neg h8] at h
    rw [ne_eq, not_not] at h8
    subst h8
    obtain ⟨a1, a2, a3, a4, a5, a6, a7, a8, a9, a10⟩ := loadRest_ok h
    refine ⟨⟨st, res, tup, ranks, ordered, legacy, rfl, eq_true_of_ne_false h1, eq_true_of_ne_false h2,
      eq_true_of_ne_false h3, hres, eq_true_of_ne_false h4, hranks, h5, hval, by rw [a9]; exact hrank,
      by rw [a9]; exact eq_true_of_ne_false h7⟩, by rw [a9]; exact eq_true_of_ne_false h6, ?_, a1, a4, ?_⟩
    · unfold metaInt at hi a5
      cases hf : find md kIter with
      | none => rw [hf] at hi; simp only [Option.some.injEq] at hi; omega
      | some v => rw [hf] at hi a5; simp only at hi a5; rw [hi] at a5; cases a5; rfl
    · rw [a9, a10]
      rcases hv2 with hv | hv
      · exact Or.inl hv
      · rcases a2 with a2 | a2
        · omega
        · exact Or.inr ⟨hv, a2⟩
  · cases h

/-- A process never resumes from another process's state: unless the file is of the oldest format, the
state it takes is the intact state of its own slot. -/
theorem C84_own_state (P : PyOps) (L : Loader) (iteration : Int) (hit : 0 ≤ iteration) (state : Val)
    (out : Loaded) (h : loadState P L iteration state = .ok out)
    (hn : ¬ OldFormat (.dict out.pending)) : Intact P L.index out.pending := by
  obtain ⟨st, res, tup, ranks, ordered, legacy, -, -, -, -, -, -, -, -, hval, hord, -⟩ :=
    (C84_load_sound P L iteration hit state out h).shape
  cases legacy with
  | true =>
    obtain ⟨ho, rfl⟩ := (C84_old_format _ _ _ _).mp hval
    exact absurd (ho _ (List.mem_iff_getElem?.mpr ⟨_, hord⟩)) hn
  | false =>
    obtain ⟨-, ds, rfl, -, -, hint, -⟩ := (C84_accept_iff _ _ _ _).mp hval
    apply hint
    rw [List.getElem?_map] at hord
    cases hd : ds[L.index]? with
    | none => rw [hd] at hord; cases hord
    | some d =>
      rw [hd] at hord
      simp only [Option.map_some, Option.some.injEq, Val.dict.injEq] at hord
      rw [hord]

/-- Whatever happened to the file in between: if a process resumes from a state that carries the local
digest of a state `s` captured on process `r`, then it is process `r` and every field is the captured
one (up to list/tuple and entry order), or a SHA-256 collision is at hand. -/
theorem C84_resumes_captured (P : PyOps) (L : Loader) (iteration : Int) (hit : 0 ≤ iteration)
    (state : Val) (out : Loaded) (h : loadState P L iteration state = .ok out) (e : RankEnv) (r : Nat)
    (s : Dict) (hs : localState P e r = .ok s) (hv : PyVal (.dict out.pending)) (hv' : PyVal (.dict s))
    (hl : find out.pending "local_digest".toList = find s "local_digest".toList) :
    Collision P ∨ (L.index = r ∧ ∀ k, Same (find out.pending k) (find s k)) := by
  have hi := localState_intact hs
  have hn : ¬ OldFormat (.dict out.pending) := by
    rintro ⟨d, hd, hk, -⟩
    cases hd
    obtain ⟨l, hl', -⟩ := hi.loc
    rw [hl'] at hl
    have : Key.str "local_digest".toList ∈ out.pending.map Prod.fst :=
      (mem_keys_iff _ _).mpr (by rw [hl]; rfl)
    rw [hk] at this
    revert this
    decide
  rcases C84_tamper P _ _ _ _ (C84_own_state P L iteration hit state out h hn) hi hv hv' hl with hc | ⟨h1, h2⟩
  · exact Or.inl hc
  · exact Or.inr ⟨h2, h1⟩

/-- Round trip: the file saved by a run loads in a run of the same shape, and each process then holds
exactly the state it captured, with the saved counters, optimizers and schedulers. -/
theorem C84_roundtrip (P : PyOps) (t : Trainer) (envs : List RankEnv) (f : Val)
    (hsave : saveState P t envs = .ok f) (r : Nat) (e : RankEnv) (he : envs[r]? = some e)
    (hsup : e.reason = none) (vq : Dict) (hvq : e.vqRuntime = some (.dict vq))
    (L : Loader) (hw : L.world = envs.length) (hi : L.index = r)
    (ho : P.eqVal t.optimizerConfig L.optimizerConfig = true)
    (hc : P.eqVal t.schedulerConfig L.schedulerConfig = true)
    (hsig : L.signatureMatches e.signature false = true)
    (hm : L.modelsLoad t.iteration = true)
    (hnames : sameNames t.optimizers L.optimizerNames = true)
    (hol : ∀ x ∈ t.optimizers, L.optimizerLoads (keyText x.1) x.2 = true) :
    ∃ s, localState P e r = .ok s ∧
      loadState P L t.iteration f = .ok
        { iteration := t.iteration, epoch := t.epoch, rows := t.rows,
          schedulers := .dict t.schedulers, optimizers := t.optimizers, pending := s, version := 2 } ∧
      find s "rng".toList = some e.rng ∧
      (∀ st, e.cursor = .sampler st → find s "sampler".toList = some st) ∧
      (∀ st a b c, e.cursor = .stream st a b c → find s "stream".toList = some st ∧
        find s "slice".toList = some (.seq false [.int a, .int b])) ∧
      find s "vq_runtime".toList = some (.dict vq) := by
  have hne : envs ≠ [] := by rintro rfl; cases he
  obtain ⟨states, hlen, hst, hgl, rfl⟩ := (C84_save_iff P t envs hne f).mp hsave
  obtain ⟨s, hs, hl⟩ := hst r e he
  have hval : validate P envs.length (states.map Val.dict) = .ok (states.map Val.dict, false) := by
    have hint : ∀ (r : Nat) (s : Dict), states[r]? = some s → ∃ e, localState P e r = .ok s := by
      intro k s' hk
      have hr : k < envs.length := by
        rw [← hlen]; exact (List.getElem?_eq_some_iff.mp hk).1
      obtain ⟨s'', hs'', hl''⟩ := hst k envs[k] (List.getElem?_eq_getElem hr)
      rw [hk] at hs''; cases hs''
      exact ⟨_, hl''⟩
    refine (C84_accept_iff _ _ _ _).mpr ⟨⟨.dict s, List.mem_map.mpr
      ⟨s, List.mem_iff_getElem?.mpr ⟨r, hs⟩, rfl⟩, localState_not_old hl⟩, states, rfl, hlen,
      List.Perm.refl _, ?_, hgl⟩
    intro k d hk
    obtain ⟨e', he'⟩ := hint k d hk
    exact localState_intact he'
  have hb := bare_facts e r
  have fs : ∀ k, k ≠ kGlobal → k ≠ kLocal → find s k = find (bareState e r) k :=
    fun k h1 h2 => localState_find hl h1 h2
  have f1 : get s kSupported = .bool true := by
    unfold get; rw [fs _ (by decide) (by decide), hb.supported, hsup]; rfl
  have f2 : get s kSig = e.signature := by
    unfold get; rw [fs _ (by decide) (by decide), hb.sig hsup]; rfl
  have f3 : find s kVq = some (.dict vq) := by
    rw [fs _ (by decide) (by decide), hb.vq, hvq]
  have f3' : get s kVq = .dict vq := by unfold get; rw [f3]; rfl
  refine ⟨s, hl, ?_, ?_, ?_, ?_, f3⟩
  · unfold loadState buildState
    have g : ∀ (a b c d e f g h : Val) (k : Str), get [(.str kFormat, a), (.str kOpts, b), (.str kScheds, c),
        (.str kOptCfg, d), (.str kSchedCfg, e), (.str kResume, f), (.str kScaler, g), (.str kMeta, h)] k =
        if kFormat = k then a else if kOpts = k then b else if kScheds = k then c
        else if kOptCfg = k then d else if kSchedCfg = k then e else if kResume = k then f
        else if kScaler = k then g else if kMeta = k then h else .null := by
      intro a b c d e f g h k
      unfold get
      simp only [find, Key.str.injEq]
      split_ifs <;> rfl
    have fd : ∀ (a b c d e f g h : Val) (k : Str), find [(.str kFormat, a), (.str kOpts, b), (.str kScheds, c),
        (.str kOptCfg, d), (.str kSchedCfg, e), (.str kResume, f), (.str kScaler, g), (.str kMeta, h)] k =
        if kFormat = k then some a else if kOpts = k then some b else if kScheds = k then some c
        else if kOptCfg = k then some d else if kSchedCfg = k then some e else if kResume = k then some f
        else if kScaler = k then some g else if kMeta = k then some h else none := by
      intro a b c d e f g h k
      simp only [find, Key.str.injEq]
    generalize hst' : ([(Key.str kFormat, Val.int 2), (.str kOpts, .dict t.optimizers),
      (.str kScheds, .dict t.schedulers), (.str kOptCfg, t.optimizerConfig),
      (.str kSchedCfg, t.schedulerConfig),
      (.str kResume, .dict [(.str kVersion, .int 2), (.str kWorld, .int envs.length),
        (.str kRanks, .seq false (states.map Val.dict))]),
      (.str kScaler, t.scaler.getD .null),
      (.str kMeta, .dict [(.str kIter, .int t.iteration), (.str kEpoch, .int t.epoch),
        (.str kRows, .int t.rows)])] : Dict) = st
    have s1 : get st kFormat = .int 2 := by rw [← hst', g]; rfl
    have s2 : get st kOptCfg = t.optimizerConfig := by rw [← hst', g]; rfl
    have s3 : get st kSchedCfg = t.schedulerConfig := by rw [← hst', g]; rfl
    have s4 : get st kResume = .dict [(.str kVersion, .int 2), (.str kWorld, .int envs.length),
        (.str kRanks, .seq false (states.map Val.dict))] := by rw [← hst', g]; rfl
    have s5 : find st kMeta = some (.dict [(.str kIter, .int t.iteration), (.str kEpoch, .int t.epoch),
        (.str kRows, .int t.rows)]) := by rw [← hst', fd]; rfl
    have s6 : find st kOpts = some (.dict t.optimizers) := by rw [← hst', fd]; rfl
    have s7 : find st kScheds = some (.dict t.schedulers) := by rw [← hst', fd]; rfl
    generalize hr : ([(Key.str kVersion, Val.int 2), (.str kWorld, .int envs.length),
        (.str kRanks, .seq false (states.map Val.dict))] : Dict) = res at s4
    have r1 : versionOf P res = some 2 := by rw [← hr]; rfl
    have r2 : get res kWorld = .int envs.length := by rw [← hr]; rfl
    have r3 : get res kRanks = .seq false (states.map Val.dict) := by rw [← hr]; rfl
    generalize hmd : ([(Key.str kIter, Val.int t.iteration), (.str kEpoch, .int t.epoch),
        (.str kRows, .int t.rows)] : Dict) = md at s5
    have m1 : ∀ dflt, metaInt P md kIter dflt = some t.iteration := by intro dflt; rw [← hmd]; rfl
    have m2 : metaInt P md kEpoch 0 = some t.epoch := by rw [← hmd]; rfl
    have m3 : metaInt P md kRows 0 = some t.rows := by rw [← hmd]; rfl
    have hsel : (states.map Val.dict)[L.index]? = some (.dict s) := by
      rw [List.getElem?_map, hi, hs]; rfl
    have hol' : t.optimizers.all (fun e => L.optimizerLoads (keyText e.1) e.2) = true :=
      List.all_eq_true.mpr hol
    simp only [s1, s2, s3, s4, pyEqInt, beq_self_eq_true, ho, hc, r1, Bool.true_eq_false, if_false]
    unfold loadResume
    simp only [r2, r3, pyEqInt, hw, beq_self_eq_true, Bool.true_eq_false, if_false, List.length_map, hlen,
      ne_eq, not_true, hval]
    unfold loadSelected
    have ht : truthy P (.bool true) = true := rfl
    simp only [hsel, f1, f2, ht, hsig, s5, m1, Bool.true_eq_false, if_false, ne_eq, not_true]
    unfold loadRest
    have hv21 : ¬ ((2 : Int) = 1) := by decide
    have hid : isDict (.dict vq) = true := rfl
    simp only [hm, hv21, f3', hid, s6, hnames, hol', s7, m1, m2, m3, Bool.true_eq_false, if_false]
  · exact (fs kRng (by decide) (by decide)).trans (hb.rng hsup)
  · intro st hcur
    exact (fs kSampler (by decide) (by decide)).trans (hb.sampler st hsup hcur)
  · intro st a b c hcur
    obtain ⟨x1, x2, -⟩ := hb.stream st a b c hsup hcur
    exact ⟨(fs kStream (by decide) (by decide)).trans x1, (fs kSlice (by decide) (by decide)).trans x2⟩

/-! ### Random generators -/

theorem bytes_words : ∀ ws : List (BitVec 32), bytesToWords (wordsToBytes ws) = some ws
  | [] => rfl
  | w :: r => by
    rw [wordsToBytes, bytesToWords, bytes_words r]
    have hw := w.isLt
    simp only [Option.map_some, Option.some.injEq, List.cons.injEq, and_true]
    apply BitVec.eq_of_toNat_eq
    rw [BitVec.toNat_ofNat]
    simp only [UInt8.toNat_ofNat']
    omega

/-- The generators after a restore are the generators at the capture: the Python, numpy and CPU streams
always, the CUDA stream in a CUDA run (a CPU run leaves it alone); a CUDA capture is refused in a CPU
run. -/
theorem C84_rng (g now : Rng) (cuda : Bool) (hc : cuda = true → g.torchCuda.isSome = true) :
    restoreRng now cuda (captureRng g cuda) =
      .ok { g with torchCuda := if cuda then g.torchCuda else now.torchCuda } ∧
    (g.torchCuda.isSome = true → ∃ e, restoreRng now false (captureRng g true) = .error e) := by
  have key : ∀ (c c' : Bool), restoreRng now c' (captureRng g c) =
      (match (if c then (match g.torchCuda with | some b => Val.bytes b | none => .bytes []) else .null) with
        | .null => .ok { g with torchCuda := now.torchCuda }
        | .bytes b => if c' then .ok { g with torchCuda := some b }
                      else .error "Cannot restore CUDA RNG state in a CPU training run."
        | _ => .error "TypeError") := by
    intro c c'
    unfold restoreRng captureRng
    have e1 : ∀ v : Val, find [(Key.str kPython, g.python),
      (.str kNumpy, .dict [(.str kBitGen, .str g.bitGenerator), (.str kWords, .bytes (wordsToBytes g.words)),
        (.str kPos, .int g.position), (.str kGauss, .int g.hasGauss),
        (.str kCached, .float g.cachedGaussian)]),
      (.str kTorchCpu, .bytes g.torchCpu), (.str kTorchCuda, v)] kPython = some g.python := fun _ => rfl
    have e2 : ∀ v : Val, find [(Key.str kPython, g.python),
      (.str kNumpy, .dict [(.str kBitGen, .str g.bitGenerator), (.str kWords, .bytes (wordsToBytes g.words)),
        (.str kPos, .int g.position), (.str kGauss, .int g.hasGauss),
        (.str kCached, .float g.cachedGaussian)]),
      (.str kTorchCpu, .bytes g.torchCpu), (.str kTorchCuda, v)] kNumpy =
        some (.dict [(.str kBitGen, .str g.bitGenerator), (.str kWords, .bytes (wordsToBytes g.words)),
        (.str kPos, .int g.position), (.str kGauss, .int g.hasGauss),
        (.str kCached, .float g.cachedGaussian)]) := fun _ => rfl
    have e3 : ∀ v : Val, find [(Key.str kPython, g.python),
      (.str kNumpy, .dict [(.str kBitGen, .str g.bitGenerator), (.str kWords, .bytes (wordsToBytes g.words)),
        (.str kPos, .int g.position), (.str kGauss, .int g.hasGauss),
        (.str kCached, .float g.cachedGaussian)]),
      (.str kTorchCpu, .bytes g.torchCpu), (.str kTorchCuda, v)] kTorchCpu = some (.bytes g.torchCpu) :=
      fun _ => rfl
    have e4 : ∀ v : Val, get [(Key.str kPython, g.python),
      (.str kNumpy, .dict [(.str kBitGen, .str g.bitGenerator), (.str kWords, .bytes (wordsToBytes g.words)),
        (.str kPos, .int g.position), (.str kGauss, .int g.hasGauss),
        (.str kCached, .float g.cachedGaussian)]),
      (.str kTorchCpu, .bytes g.torchCpu), (.str kTorchCuda, v)] kTorchCuda = v := fun _ => rfl
    have n : ∀ k, find [(.str kBitGen, .str g.bitGenerator), (.str kWords, .bytes (wordsToBytes g.words)),
        (.str kPos, .int g.position), (.str kGauss, .int g.hasGauss),
        (.str kCached, .float g.cachedGaussian)] k =
        if kBitGen = k then some (.str g.bitGenerator) else if kWords = k then
          some (.bytes (wordsToBytes g.words)) else if kPos = k then some (.int g.position)
        else if kGauss = k then some (.int g.hasGauss) else if kCached = k then
          some (.float g.cachedGaussian) else none := by
      intro k; simp only [find, Key.str.injEq]
    have n1 := n kBitGen
    have n2 := n kWords
    have n3 := n kPos
    have n4 := n kGauss
    have n5 := n kCached
    rw [if_pos rfl] at n1
    rw [if_neg (by decide), if_pos rfl] at n2
    rw [if_neg (by decide), if_neg (by decide), if_pos rfl] at n3
    rw [if_neg (by decide), if_neg (by decide), if_neg (by decide), if_pos rfl] at n4
    rw [if_neg (by decide), if_neg (by decide), if_neg (by decide), if_neg (by decide), if_pos rfl] at n5
    simp only [e1, e2, e3, e4, n1, n2, n3, n4, n5, bytes_words]
    cases c with
    | false => rfl
    | true => cases g.torchCuda <;> rfl
  constructor
  · rw [key]
    cases cuda with
    | false => rfl
    | true =>
      cases hg : g.torchCuda with
      | none => rw [hg] at hc; exact absurd (hc rfl) (by simp)
      | some b => simp
  · intro hs
    rw [key]
    cases hg : g.torchCuda with
    | none => rw [hg] at hs; cases hs
    | some b => exact ⟨_, rfl⟩

end Verif.Resume
