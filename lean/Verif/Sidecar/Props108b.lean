import Verif.Sidecar.Props108

/-!
# C108, continued: what a run wrote itself is accepted
-/
namespace Verif.Sidecar
open Verif.Ckpt (Name toInt fmt7)

variable {V : Type}

/-! ### Specification -/

/-- The models of a process have different names, and the modules of a model different paths. -/
structure Named (p : Proc V) : Prop where
  models : (p.models.map Prod.fst).Nodup
  paths : ∀ m ∈ p.models, (m.2.map Prod.fst).Nodup

/-- The parameters of every quantiser have one of the four floating-point types. -/
def FloatParams (p : Proc V) : Prop := ∀ m path i, At p m path i → (p.store i).desc.paramDtype ∈ floats

/-! ### Auxiliary -/

theorem named_one (p : Proc V) (h : Named p) : OneModulePerPath p := by
  rintro m path i j ⟨l, hl, hi, _⟩ ⟨l', hl', hj, _⟩
  have := List.inj_on_of_nodup_map h.models hl hl' rfl
  simp only [Prod.mk.injEq, true_and] at this
  subst this
  have := List.inj_on_of_nodup_map (h.paths _ hl) hi hj rfl
  simp only [Prod.mk.injEq, true_and] at this
  exact this

theorem sites_nodup (p : Proc V) (h : Named p) : ((sites p).map fun s => (s.1, s.2.1)).Nodup := by
  obtain ⟨hm, hp⟩ := h
  unfold sites
  generalize p.models = ms at hm hp
  induction ms with
  | nil => exact List.nodup_nil
  | cons m ms ih =>
    rw [List.map_cons, List.nodup_cons] at hm
    rw [List.flatMap_cons, List.map_append, List.nodup_append]
    refine ⟨?_, ih hm.2 fun m' hm' => hp m' (List.mem_cons_of_mem _ hm'), ?_⟩
    · rw [List.map_map]
      have h1 : ((m.2.filter fun s => p.isVq s.2).map Prod.fst).Nodup :=
        List.Nodup.sublist (List.Sublist.map _ List.filter_sublist) (hp m (List.mem_cons_self ..))
      have h2 : (m.2.filter fun s => p.isVq s.2).map ((fun s : String × String × Nat => (s.1, s.2.1)) ∘ fun s : String × Nat => (m.1, s.1, s.2)) =
          ((m.2.filter fun s => p.isVq s.2).map Prod.fst).map fun q => (m.1, q) := by
        rw [List.map_map]; rfl
      rw [h2]
      exact h1.map fun a b hab => by simpa using hab
    · intro a ha b hb hab
      obtain ⟨s, hs, rfl⟩ := List.mem_map.mp ha
      obtain ⟨t, ht, rfl⟩ := List.mem_map.mp hs
      obtain ⟨s', hs', rfl⟩ := List.mem_map.mp hb
      obtain ⟨m', hm', ht'⟩ := List.mem_flatMap.mp hs'
      obtain ⟨t', _, rfl⟩ := List.mem_map.mp ht'
      simp only [Prod.mk.injEq] at hab
      exact hm.1 (List.mem_map.mpr ⟨m', hm', hab.1.symm⟩)

theorem push_names {β : Type} (s : List (String × List β)) (k : String) (v : β) (h : (s.map Prod.fst).Nodup) :
    ((pushKey s k v).map Prod.fst).Nodup := by
  unfold pushKey
  by_cases ha : (s.any fun e => decide (e.1 = k)) = true
  · rw [if_pos ha, List.map_map]
    have : (Prod.fst ∘ fun e : String × List β => if e.1 = k then (e.1, e.2 ++ [v]) else e) = Prod.fst := by
      funext e
      show Prod.fst (if e.1 = k then _ else e) = _
      by_cases h : e.1 = k
      · rw [if_pos h]
      · rw [if_neg h]
    rw [this]
    exact h
  · rw [if_neg ha, List.map_append, List.nodup_append]
    refine ⟨h, by simp, ?_⟩
    intro a ha' b hb hab
    simp only [List.map_cons, List.map_nil, List.mem_singleton] at hb
    obtain ⟨e, he, rfl⟩ := List.mem_map.mp ha'
    exact ha (List.any_eq_true.mpr ⟨e, he, decide_eq_true (hab.trans hb)⟩)

theorem push_paths (s : Schema) (k : String) (v : ModSchema) (h : ∀ m ∈ s, (m.2.map ModSchema.path).Nodup)
    (hf : ∀ l, (k, l) ∈ s → ∀ x ∈ l, x.path ≠ v.path) : ∀ m ∈ pushKey s k v, (m.2.map ModSchema.path).Nodup := by
  intro m hm
  unfold pushKey at hm
  by_cases ha : (s.any fun e => decide (e.1 = k)) = true
  · rw [if_pos ha] at hm
    obtain ⟨e, he, rfl⟩ := List.mem_map.mp hm
    by_cases hk : e.1 = k
    · rw [if_pos hk]
      show ((e.2 ++ [v]).map ModSchema.path).Nodup
      rw [List.map_append, List.nodup_append]
      refine ⟨h e he, by simp, ?_⟩
      intro a ha' b hb hab
      simp only [List.map_cons, List.map_nil, List.mem_singleton] at hb
      obtain ⟨x, hx, rfl⟩ := List.mem_map.mp ha'
      have hmem : (k, e.2) ∈ s := by rw [← hk]; exact he
      exact hf e.2 hmem x hx (hab.trans hb)
    · rw [if_neg hk]; exact h e he
  · rw [if_neg ha] at hm
    rcases List.mem_append.mp hm with hm | hm
    · exact h m hm
    · rw [List.mem_singleton] at hm
      subst hm
      simp

theorem schema_fold (store : Nat → Vq V) (d : List Entry) (s : Schema) (hnd : (d.map key).Nodup) (h1 : (s.map Prod.fst).Nodup)
    (h2 : ∀ m ∈ s, (m.2.map ModSchema.path).Nodup) (h3 : ∀ e ∈ d, ∀ l, (e.model, l) ∈ s → ∀ x ∈ l, x.path ≠ e.path) :
    ((d.foldl (fun s e => pushKey s e.model ⟨e.path, e.aliases, (store e.id).desc, (store e.id).inited⟩) s).map Prod.fst).Nodup ∧
    ∀ m ∈ d.foldl (fun s e => pushKey s e.model ⟨e.path, e.aliases, (store e.id).desc, (store e.id).inited⟩) s,
      (m.2.map ModSchema.path).Nodup := by
  induction d generalizing s with
  | nil => exact ⟨h1, h2⟩
  | cons e d ih =>
    rw [List.map_cons, List.nodup_cons] at hnd
    rw [List.foldl_cons]
    refine ih _ hnd.2 (push_names s _ _ h1) (push_paths s _ _ h2 (h3 e (List.mem_cons_self ..))) ?_
    intro e' he' l hl x hx hp
    rcases (pushKey_mem s e.model _ e'.model x).mp ⟨l, hl, hx⟩ with ⟨l', hl', hx'⟩ | ⟨hm, rfl⟩
    · exact h3 e' (List.mem_cons_of_mem _ he') l' hl' x hx' hp
    · refine hnd.1 (List.mem_map.mpr ⟨e', he', ?_⟩)
      show (e'.model, e'.path) = (e.model, e.path)
      rw [hm, ← hp]

theorem schema_ok (p : Proc V) (d : List Entry) (hd : discover p = .ok d) (hn : Named p) (hf : FloatParams p) : SchemaOk (schemaOf p.store d) := by
  have hi := discover_inv p d hd
  have hkn := key_nodup p d hi (uniq_sites p (named_one p hn))
  have hne : ∀ m path i, At p m path i → m ≠ "" := by
    rintro m path i ⟨l, hl, _, _⟩ rfl
    unfold discover at hd
    by_cases hany : (p.models.any fun m => decide (m.1 = "")) = true
    · rw [if_pos hany] at hd; simp at hd
    · exact hany (List.any_eq_true.mpr ⟨_, hl, decide_eq_true rfl⟩)
  obtain ⟨h1, h2⟩ := schema_fold p.store d [] hkn List.nodup_nil (by simp) (by simp)
  have hof : ∀ m ∈ schemaOf p.store d, ∀ x ∈ m.2, ∃ e ∈ d, m.1 = e.model ∧ x = schemaEntry p.store e := fun m hm x hx =>
    (schema_mem p.store d m.1 x).mp ⟨m.2, hm, hx⟩
  have hnonempty : ∀ m ∈ schemaOf p.store d, m.2 ≠ [] := by
    unfold schemaOf
    have : ∀ (d : List Entry) (s : Schema), (∀ m ∈ s, m.2 ≠ []) →
        ∀ m ∈ d.foldl (fun s e => pushKey s e.model ⟨e.path, e.aliases, (p.store e.id).desc, (p.store e.id).inited⟩) s, m.2 ≠ [] := by
      intro d
      induction d with
      | nil => intro s h; exact h
      | cons e d ih =>
        intro s h
        rw [List.foldl_cons]
        refine ih _ ?_
        intro m hm
        unfold pushKey at hm
        by_cases ha : (s.any fun x => decide (x.1 = e.model)) = true
        · rw [if_pos ha] at hm
          obtain ⟨x, hx, rfl⟩ := List.mem_map.mp hm
          by_cases hk : x.1 = e.model
          · rw [if_pos hk]; simp
          · rw [if_neg hk]; exact h x hx
        · rw [if_neg ha] at hm
          rcases List.mem_append.mp hm with hm | hm
          · exact h m hm
          · rw [List.mem_singleton] at hm
            subst hm
            simp
    exact this d [] (by simp)
  refine ⟨h1, ?_, h2, ?_⟩
  · intro m hm
    obtain ⟨x, hx⟩ := List.exists_mem_of_ne_nil _ (hnonempty m hm)
    obtain ⟨e, he, hme, _⟩ := hof m hm x hx
    rw [hme]
    exact hne _ _ _ ((sites_iff p _ _ _).mp (key_site p d hi e he))
  · intro m hm x hx
    obtain ⟨e, he, hme, rfl⟩ := hof m hm x hx
    have hal : ∀ q ∈ e.aliases, At p q.1 q.2 e.id := fun q hq => ((C101_discovery p d hd).2.2 e he).1 q.1 q.2 |>.mp hq
    refine ⟨?_, ?_, ?_, ?_⟩
    · rw [hme]; exact hi.head e he
    · show e.aliases.Nodup
      rw [hi.aliases e he]
      exact List.Nodup.sublist (List.Sublist.map _ List.filter_sublist) (sites_nodup p hn)
    · intro q hq
      exact hne _ _ _ (hal q hq)
    · exact hf _ _ _ ((sites_iff p _ _ _).mp (key_site p d hi e he))

theorem stat_same (descs : List ((String × String) × ModSchema)) (mode : String) (a b : VAcc) (s : Stat)
    (h : checkStat descs mode a s = .ok b) : retainedStat descs mode a s = .ok b := by
  unfold checkStat at h
  unfold retainedStat
  by_cases h1 : (a.seen.any fun e => decide (e.1 = (s.model, s.path))) = true
  · rw [if_pos h1] at h; simp at h
  rw [if_neg h1] at h
  cases hf : findKey descs (s.model, s.path) with
  | none => rw [hf] at h; simp at h
  | some d =>
    rw [hf] at h
    simp only [] at h ⊢
    rw [if_neg h1]
    cases he : expectedDtype d.desc s.count mode with
    | error e => rw [he] at h; simp at h
    | ok want =>
      rw [he] at h
      simp only [] at h ⊢
      cases hb : dtypeBytes s.dtype with
      | none => rw [hb] at h; simp at h
      | some w =>
        rw [hb] at h
        simp only [] at h ⊢
        by_cases h2 : d.desc.target < s.count ∨ s.rawBytes ≠ s.count * d.desc.dimFeature * w ∨ (d.inited = true ∧ s.count ≠ 0) ∨ s.dtype ≠ want
        · rw [if_pos h2] at h; simp at h
        · rw [if_neg h2] at h ⊢; exact h

theorem stat_loop (descs : List ((String × String) × ModSchema)) (mode : String) (l : List Stat) (a b : VAcc)
    (h : loop (checkStat descs mode) a l = .ok b) : loop (retainedStat descs mode) a l = .ok b := by
  induction l generalizing a with
  | nil => exact h
  | cons s l ih =>
    unfold loop at h ⊢
    cases hs : checkStat descs mode a s with
    | error e => rw [hs] at h; simp at h
    | ok c =>
      rw [hs] at h
      rw [stat_same descs mode a c s hs]
      exact ih c h

theorem retained_of (x : Ext V) (p : Proc V) (dir : Dir) (m : Manifest) (iteration rank : Nat) (d : List Entry) (hd : discover p = .ok d)
    (hn : Named p) (hf : FloatParams p) (hschema : m.schema = schemaOf p.store d) (hid : identityOk m iteration rank = true) (a : VAcc)
    (hl : loop (checkStat (descByKey (schemaOf p.store d)) m.autocast) ⟨[], 0, 0, false⟩ m.modules = .ok a)
    (hb : boundsOk m (descByKey (schemaOf p.store d)) a = true) (b : Bytes) (h1 : dir m.basename = some b) (h2 : b.length = m.size)
    (h3 : x.sha b = m.sha) : retained x dir m iteration rank = .ok m.basename := by
  unfold retained
  rw [if_neg (by rw [hid]; simp), hschema, (schemaModel_loop (schemaOf p.store d) [] [] (by simp) _).mpr ⟨schema_ok p d hd hn hf, by simp, rfl⟩]
  simp only [List.nil_append]
  rw [stat_loop _ _ _ _ _ hl]
  simp only []
  rw [if_neg (by rw [hb]; simp), h1]
  simp only []
  rw [if_neg (fun h => h h2), if_neg (fun h => h h3)]

theorem mode_nonempty (p : Proc V) (mode : String) (h : autocastMode p = .ok mode) : mode ≠ "" := by
  unfold autocastMode at h
  by_cases hc : p.precision.getD "no" = ""
  · rw [if_pos hc] at h; simp at h
  · rw [if_neg hc] at h
    simp only [Except.ok.injEq] at h
    rw [← h]; exact hc

/-! ### Theorems -/

/-- **C108 (own sidecars).** The manifest of a sidecar that was written is accepted as long as the file stays what it was, whatever was
pending and however modules are shared, if the quantisers' parameters have one of the four floating-point types. -/
theorem C108_own (x : Ext V) (hsha : ∀ b, hexOk 64 (x.sha b) = true) (p : Proc V) (hn : Named p) (hf : FloatParams p) (dir dir' later : Dir)
    (iteration : Nat) (generation : Name) (pid : Nat) (nonce : Name) (mids : List Bytes) (fault : Fault) (m : Manifest)
    (hw : writeSidecar x p dir iteration generation pid nonce mids fault = (.ok m, dir')) (hfile : later m.basename = dir' m.basename) :
    retained x later m iteration p.rank = .ok m.basename := by
  obtain ⟨d, mode, hd, hmode, hg, hbase, b, hb, _, hbound, hm⟩ := write_ok x p dir dir' iteration generation pid nonce mids fault m hw
  have hi := discover_inv p d hd
  have hu := uniq_sites p (named_one p hn)
  have hkn := key_nodup p d hi hu
  have hki : ∀ e ∈ d, ∀ e' ∈ d, key e = key e' → e = e' := fun e he e' he' => key_inj p d hi hu e e' he he'
  have htok : Hex32 generation := C100_token_checked _ _ _ _ hbase
  have hname : m.basename = sidecarName iteration generation p.rank := by
    unfold runtimeBasename at hbase
    by_cases hc : groupsAre (matchSidecar (sidecarName iteration generation p.rank)) iteration generation p.rank = false
    · rw [if_pos hc] at hbase; simp at hbase
    · rw [if_neg hc] at hbase; simp only [Except.ok.injEq] at hbase; exact hbase.symm
  have e1 : m.version = 1 := by rw [hm]
  have e2 : m.autocast = mode := by rw [hm]
  have e3 : m.generation = generation := by rw [hm]
  have e4 : m.iteration = iteration := by rw [hm]
  have e5 : m.rank = p.rank := by rw [hm]
  have e6 : m.sha = x.sha b := by rw [hm]
  have e7 : m.schema = schemaOf p.store d := by rw [hm]
  have e8 : m.modules = d.map (statOf p.store) := by rw [hm]
  have e9 : m.hasPartial = anyPart p.store d false := by rw [hm]
  have e10 : m.rawBytes = rawSum p.store d 0 := by rw [hm]
  have e11 : m.maximumBytes = maxSum p.store d 0 + allowance (maxSum p.store d 0) := by rw [hm]
  have e12 : m.size = b.length := by rw [hm]
  refine retained_of x p later m iteration p.rank d hd hn hf e7 ?_ _
    (by rw [e8, e2]; exact check_loop x.finite p.store mode d hki d (fun _ h => h) hg hkn _ (by simp)) ?_ b (hfile.trans hb) e12.symm e6.symm
  · refine (identity_iff m iteration p.rank).mpr ⟨e1, ?_, ⟨e4, e5, fmt7 iteration, str p.rank, ?_, Verif.Ckpt.toInt_fmt7 iteration, toInt_str p.rank⟩, ?_⟩
    · rw [e2]; exact mode_nonempty p mode hmode
    · rw [e3]
      refine (C100_grammar _ _ _ _).mp ?_
      rw [hname]
      exact match_name iteration generation p.rank htok
    · rw [e6]; exact hsha b
  · unfold boundsOk
    rw [not_or] at hbound
    simp only [Bool.and_eq_true, decide_eq_true_eq, List.nil_append]
    refine ⟨⟨⟨⟨⟨?_, e9⟩, e10⟩, e11⟩, ?_⟩, ?_⟩
    · rw [List.all_eq_true]
      rintro ⟨k, s⟩ hks
      obtain ⟨e, he, hk, _⟩ := (desc_mem p.store d k s).mp hks
      exact List.any_eq_true.mpr ⟨(key e, statOf p.store e), List.mem_map.mpr ⟨e, he, rfl⟩, decide_eq_true hk.symm⟩
    · rw [e12]; exact not_lt.mp hbound.1
    · rw [e12]; exact not_lt.mp hbound.2

/-- **C108 (what can be restored can be retained).** A manifest from which a process restores its quantisers is accepted for the
iteration and rank of that process. -/
theorem C108_restorable (x : Ext V) (q : Proc V) (hn : Named q) (hf : FloatParams q) (dir : Dir) (m : Manifest) (store' : Nat → Vq V)
    (h : restoreSidecar x q dir m = .ok store') : retained x dir m q.iteration q.rank = .ok m.basename := by
  unfold restoreSidecar at h
  cases hv : validate q m with
  | error e => rw [hv] at h; simp at h
  | ok r =>
    obtain ⟨d, stats, expectedMax⟩ := r
    rw [hv] at h
    simp only [] at h
    by_cases h1 : (matchSidecar m.basename).isNone = true
    · rw [if_pos h1] at h; simp at h
    rw [if_neg h1] at h
    cases hb : dir m.basename with
    | none => rw [hb] at h; simp at h
    | some b =>
      rw [hb] at h
      simp only [] at h
      by_cases h2 : b.length ≠ m.size ∨ m.maximumBytes ≠ expectedMax ∨ expectedMax < b.length ∨ m.rawBytes + allowance m.rawBytes < b.length
      · rw [if_pos h2] at h; simp at h
      rw [if_neg h2] at h
      by_cases h3 : x.sha b ≠ m.sha
      · rw [if_pos h3] at h; simp at h
      rw [not_or, not_or, not_or] at h2
      obtain ⟨g1, g2, g3, g4⟩ := h2
      unfold validate at hv
      by_cases v1 : m.version ≠ 1
      · rw [if_pos v1] at hv; simp at hv
      rw [if_neg v1] at hv
      cases hmode : autocastMode q with
      | error e => rw [hmode] at hv; simp at hv
      | ok mode =>
        rw [hmode] at hv
        simp only [] at hv
        by_cases v2 : m.autocast ≠ mode
        · rw [if_pos v2] at hv; simp at hv
        rw [if_neg v2] at hv
        by_cases v3 : groupsAre (matchSidecar m.basename) q.iteration m.generation q.rank = false ∨ m.iteration ≠ q.iteration ∨ m.rank ≠ q.rank ∨
            hexOk 32 m.generation = false ∨ hexOk 64 m.sha = false
        · rw [if_pos v3] at hv; simp at hv
        rw [if_neg v3] at hv
        rw [not_or, not_or, not_or, not_or] at v3
        obtain ⟨i1, i2, i3, i4, i5⟩ := v3
        cases hd : discover q with
        | error e => rw [hd] at hv; simp at hv
        | ok d' =>
          rw [hd] at hv
          simp only [] at hv
          by_cases v4 : schemaOf q.store d' ≠ m.schema
          · rw [if_pos v4] at hv; simp at hv
          rw [if_neg v4] at hv
          cases hl : loop (checkStat (descByKey (schemaOf q.store d')) mode) ⟨[], 0, 0, false⟩ m.modules with
          | error e => rw [hl] at hv; simp at hv
          | ok a =>
            rw [hl] at hv
            simp only [] at hv
            by_cases v5 : ((descByKey (schemaOf q.store d')).all fun e => a.seen.any fun k => decide (k.1 = e.1)) = false
            · rw [if_pos v5] at hv; simp at hv
            rw [if_neg v5] at hv
            by_cases v6 : m.hasPartial ≠ a.partly ∨ m.rawBytes ≠ a.raw ∨ m.maximumBytes ≠ a.maxRaw + allowance a.maxRaw
            · rw [if_pos v6] at hv; simp at hv
            rw [not_or, not_or] at v6
            obtain ⟨j1, j2, j3⟩ := v6
            have hmx := not_not.mp j3
            have hsz := not_not.mp g1
            refine retained_of x q dir m q.iteration q.rank d' hd hn hf (not_not.mp v4).symm ?_ a (by rw [not_not.mp v2]; exact hl) ?_ b hb hsz (not_not.mp h3)
            · unfold identityOk
              simp only [Bool.and_eq_true, decide_eq_true_eq]
              refine ⟨⟨⟨⟨⟨⟨not_not.mp v1, Bool.eq_true_of_not_eq_false i1⟩, not_not.mp i2⟩, not_not.mp i3⟩, ?_⟩, Bool.eq_true_of_not_eq_false i4⟩,
                Bool.eq_true_of_not_eq_false i5⟩
              rw [not_not.mp v2]
              exact mode_nonempty q mode hmode
            · unfold boundsOk
              simp only [Bool.and_eq_true, decide_eq_true_eq]
              refine ⟨⟨⟨⟨⟨Bool.eq_true_of_not_eq_false v5, not_not.mp j1⟩, not_not.mp j2⟩, hmx⟩, ?_⟩, ?_⟩
              · rw [← hmx, not_not.mp g2, ← hsz]; exact not_lt.mp g3
              · rw [← not_not.mp j2, ← hsz]; exact not_lt.mp g4

/-- **C108 (which types).** A run with a quantiser whose parameters have another type writes sidecars that are never accepted. -/
theorem C108_float_needed (x : Ext V) (p : Proc V) (dir dir' later : Dir) (iteration i r : Nat) (generation : Name) (pid : Nat) (nonce : Name)
    (mids : List Bytes) (fault : Fault) (m : Manifest) (n : Name)
    (hw : writeSidecar x p dir iteration generation pid nonce mids fault = (.ok m, dir')) (h : retained x later m i r = .ok n) : FloatParams p := by
  obtain ⟨d, mode, hd, _, _, _, b, _, _, _, hm⟩ := write_ok x p dir dir' iteration generation pid nonce mids fault m hw
  obtain ⟨_, _, ⟨xs, hc⟩, _⟩ := (C108_accept_iff x later m i r n).mp h
  have e7 : m.schema = schemaOf p.store d := by rw [hm]
  intro mn path j hat
  obtain ⟨e, he, rfl⟩ := ((C101_discovery p d hd).2.1 j).mp ⟨mn, path, hat⟩
  obtain ⟨l, hl, hx⟩ := (schema_mem p.store d e.model (schemaEntry p.store e)).mpr ⟨e, he, rfl, rfl⟩
  rw [← e7] at hl
  exact (hc.schema.mods _ hl _ hx).dtype

end Verif.Sidecar
