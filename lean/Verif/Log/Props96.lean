/-
C96: what the training log says.
-/
import Verif.Log.Lemmas

namespace Verif.Log

/-! ### Specification -/

/-- The iterations have the shape the trainer gives them: `accum` micro-steps, one pair of dictionaries (no name twice) for
every process, one gradient norm for every process, and no metric is called `grad_norm`. -/
structure Shape (cfg : Cfg) (x : Iter) : Prop where
  micros : x.micros.length = cfg.accum
  procs : ∀ m ∈ x.micros, m.length = cfg.procs
  norms : x.norms.length = cfg.procs
  names : ∀ m ∈ x.micros, ∀ d ∈ m, (d.1.map Prod.fst).Nodup ∧ (d.2.map Prod.fst).Nodup ∧ "grad_norm" ∉ d.2.map Prod.fst

/-- All dictionaries of a run (micro-steps, processes and iterations) have the same names. -/
def SameNames (xs : List Iter) : Prop :=
  ∀ x ∈ xs, ∀ m ∈ x.micros, ∀ d ∈ m, ∀ x' ∈ xs, ∀ m' ∈ x'.micros, ∀ d' ∈ m',
    (∀ k, k ∈ d.1.map Prod.fst ↔ k ∈ d'.1.map Prod.fst) ∧ (∀ k, k ∈ d.2.map Prod.fst ↔ k ∈ d'.2.map Prod.fst)

/-- The mean of a metric over the iterations `w`, their micro-steps and the processes. -/
def meanOf (cfg : Cfg) (w : List Iter) (f : Pair → ℚ) : ℚ :=
  (w.map fun x => (x.micros.map fun m => (m.map f).sum).sum).sum / (w.length * cfg.accum * cfg.procs)

/-- `m` holds the means over the iterations `w`, under exactly their names, and the mean norm if it is measured. -/
structure IsMean (cfg : Cfg) (w : List Iter) (m : Pair) : Prop where
  lossNames : ∀ x ∈ w, ∀ mm ∈ x.micros, ∀ d ∈ mm, ∀ k, k ∈ m.1.map Prod.fst ↔ k ∈ d.1.map Prod.fst
  auxNames : ∀ x ∈ w, ∀ mm ∈ x.micros, ∀ d ∈ mm, ∀ k, k ∈ m.2.map Prod.fst ↔ k ∈ d.2.map Prod.fst ∨ cfg.clipNorm = true ∧ k = "grad_norm"
  nodup : (m.1.map Prod.fst).Nodup ∧ (m.2.map Prod.fst).Nodup
  loss : ∀ k v, (k, v) ∈ m.1 → v = meanOf cfg w fun d => value d.1 k
  aux : ∀ k v, (k, v) ∈ m.2 → k ≠ "grad_norm" → v = meanOf cfg w fun d => value d.2 k
  norm : cfg.clipNorm = true → ("grad_norm", (w.map fun x => x.norms.sum).sum / (w.length * cfg.procs)) ∈ m.2

/-! ### Proof -/

def norm2 (d : Pair) : Pair := (normalize d.1, normalize d.2)
def schema2 (d : Pair) : Schema := (schemaOf d.1, schemaOf d.2)

/-- The metrics of one process in one iteration. -/
def iterPair (cfg : Cfg) (r : Nat) (x : Iter) : Pair :=
  setNorm cfg (x.norms.getD r 0) (average cfg ((x.micros.map fun m => norm2 (m.getD r ([], []))).foldl addPair ([], [])))

theorem micros_totals (n : Nat) (ms : List (List Pair)) (hlen : ∀ m ∈ ms, m.length = n) (T : Nat → Pair) (e : Option (List Schema))
    (e' : Option (List Schema)) (t : List Pair) (h : runMicros e ((List.range n).map T) ms = some (e', t)) :
    t = (List.range n).map fun r => (ms.map fun m => norm2 (m.getD r ([], []))).foldl addPair (T r) := by
  induction ms generalizing T e with
  | nil =>
    simp only [runMicros, Option.some.injEq, Prod.mk.injEq] at h
    rw [← h.2]; rfl
  | cons m ms ih =>
    unfold runMicros at h
    cases hc : checkSchema e (m.map fun d => (schemaOf d.1, schemaOf d.2)) with
    | none => rw [hc] at h; cases h
    | some e1 =>
      rw [hc] at h
      simp only at h
      have hm : (m.map fun d => (normalize d.1, normalize d.2)) = (List.range n).map fun r => norm2 (m.getD r ([], [])) := by
        conv_lhs => rw [eq_range_map m n ([], []) (hlen m (by simp))]
        rw [List.map_map]; rfl
      rw [hm, zip_range] at h
      exact ih (fun m' hm' => hlen m' (by simp [hm'])) _ _ h

theorem checkSchema_some {n : Nat} {S : Schema} {now : List Schema} :
    checkSchema (some (List.replicate n S)) now = if now = List.replicate n S then some (List.replicate n S) else none := rfl

theorem checkSchema_none {n : Nat} (hn : 0 < n) {now : List Schema} (hl : now.length = n) :
    (∀ S, now = List.replicate n S → checkSchema none now = some now) ∧
    (∀ e, checkSchema none now = some e → e = now ∧ ∃ S, now = List.replicate n S) := by
  obtain ⟨a, l, rfl⟩ := List.exists_cons_of_ne_nil (List.ne_nil_of_length_pos (hl ▸ hn))
  unfold checkSchema
  constructor
  · intro S hS
    simp only [List.tail_cons, List.head?_cons, Option.some.injEq]
    rw [if_pos]
    rw [List.all_eq_true]
    intro x hx
    rw [List.eq_replicate_iff] at hS
    rw [decide_eq_true_eq, hS.2 x (by simp [hx]), hS.2 a (by simp)]
  · intro e he
    simp only [List.tail_cons, List.head?_cons, Option.some.injEq] at he
    split_ifs at he with h
    injection he with he
    refine ⟨he.symm, a, ?_⟩
    rw [List.eq_replicate_iff]
    refine ⟨hl, ?_⟩
    intro b hb
    rcases List.mem_cons.mp hb with rfl | hb
    · rfl
    · rw [List.all_eq_true] at h
      exact of_decide_eq_true (h b hb)

/-- Schemas of the micro-steps, given the kept one. -/
theorem micros_schema_kept {n : Nat} (S : Schema) (ms : List (List Pair)) (hlen : ∀ m ∈ ms, m.length = n) (T : List Pair) :
    ((∀ m ∈ ms, ∀ d ∈ m, schema2 d = S) → ∃ t, runMicros (some (List.replicate n S)) T ms = some (some (List.replicate n S), t)) ∧
    (∀ e t, runMicros (some (List.replicate n S)) T ms = some (e, t) → e = some (List.replicate n S) ∧ ∀ m ∈ ms, ∀ d ∈ m, schema2 d = S) := by
  induction ms generalizing T with
  | nil =>
    refine ⟨fun _ => ⟨T, rfl⟩, ?_⟩
    intro e t h
    simp only [runMicros, Option.some.injEq, Prod.mk.injEq] at h
    exact ⟨h.1.symm, by simp⟩
  | cons m ms ih =>
    unfold runMicros
    rw [checkSchema_some]
    have hiff : (m.map fun d => (schemaOf d.1, schemaOf d.2)) = List.replicate n S ↔ ∀ d ∈ m, schema2 d = S := by
      rw [List.eq_replicate_iff]
      exact ⟨fun h d hd => h.2 _ (List.mem_map.mpr ⟨d, hd, rfl⟩), fun h => ⟨by rw [List.length_map]; exact hlen m (by simp), fun b hb => by
        obtain ⟨d, hd, rfl⟩ := List.mem_map.mp hb
        exact h d hd⟩⟩
    by_cases hm : ∀ d ∈ m, schema2 d = S
    · rw [if_pos (hiff.mpr hm)]
      simp only
      obtain ⟨i1, i2⟩ := ih (fun m' hm' => hlen m' (by simp [hm'])) (List.zipWith addPair T (m.map fun d => (normalize d.1, normalize d.2)))
      constructor
      · intro h
        exact i1 fun m' hm' => h m' (by simp [hm'])
      · intro e t h
        obtain ⟨a, b⟩ := i2 e t h
        refine ⟨a, ?_⟩
        intro m' hm'
        rcases List.mem_cons.mp hm' with rfl | hm'
        · exact hm
        · exact b m' hm'
    · rw [if_neg (fun h => hm (hiff.mp h))]
      constructor
      · intro h; exact absurd (h m (by simp)) hm
      · intro e t h; cases h

theorem micros_schema_first {n : Nat} (hn : 0 < n) (ms : List (List Pair)) (hne : ms ≠ []) (hlen : ∀ m ∈ ms, m.length = n) (T : List Pair) :
    (∀ S, (∀ m ∈ ms, ∀ d ∈ m, schema2 d = S) → ∃ t, runMicros none T ms = some (some (List.replicate n S), t)) ∧
    (∀ e t, runMicros none T ms = some (e, t) → ∃ S, e = some (List.replicate n S) ∧ ∀ m ∈ ms, ∀ d ∈ m, schema2 d = S) := by
  obtain ⟨m, ms, rfl⟩ := List.exists_cons_of_ne_nil hne
  have hm := hlen m (by simp)
  obtain ⟨c1, c2⟩ := checkSchema_none hn (now := m.map fun d => (schemaOf d.1, schemaOf d.2)) (by simpa using hm)
  have hiff : ∀ S, (m.map fun d => (schemaOf d.1, schemaOf d.2)) = List.replicate n S ↔ ∀ d ∈ m, schema2 d = S := by
    intro S
    rw [List.eq_replicate_iff]
    exact ⟨fun h d hd => h.2 _ (List.mem_map.mpr ⟨d, hd, rfl⟩), fun h => ⟨by rw [List.length_map]; exact hm, fun b hb => by
      obtain ⟨d, hd, rfl⟩ := List.mem_map.mp hb
      exact h d hd⟩⟩
  constructor
  · intro S h
    have h1 := (hiff S).mpr (h m (by simp))
    unfold runMicros
    rw [c1 S h1, h1]
    exact (micros_schema_kept S ms (fun m' hm' => hlen m' (by simp [hm'])) _).1 fun m' hm' => h m' (by simp [hm'])
  · intro e t h
    unfold runMicros at h
    cases hc : checkSchema none (m.map fun d => (schemaOf d.1, schemaOf d.2)) with
    | none => rw [hc] at h; cases h
    | some e1 =>
      rw [hc] at h
      obtain ⟨rfl, S, hS⟩ := c2 e1 hc
      simp only at h
      rw [hS] at h
      obtain ⟨a, b⟩ := (micros_schema_kept S ms (fun m' hm' => hlen m' (by simp [hm'])) _).2 e t h
      refine ⟨S, a, ?_⟩
      intro m' hm'
      rcases List.mem_cons.mp hm' with rfl | hm'
      · exact (hiff S).mp hS
      · exact b m' hm'

/-- The state after the iterations `w` of the current window. -/
def Rep (cfg : Cfg) (w : List Iter) (s : St) : Prop :=
  s.sums = (List.range cfg.procs).map (fun r => (w.map (iterPair cfg r)).foldl addPair ([], [])) ∧ s.count = w.length

theorem step_sums (cfg : Cfg) (x : Iter) (hx : Shape cfg x) (w : List Iter) (s : St) (hs : Rep cfg w s) (e : Option (List Schema)) (t : List Pair)
    (h : runMicros s.expected (List.replicate cfg.procs ([], [])) x.micros = some (e, t)) :
    List.zipWith addPair s.sums (List.zipWith (setNorm cfg) x.norms (t.map (average cfg))) =
      (List.range cfg.procs).map fun r => ((w ++ [x]).map (iterPair cfg r)).foldl addPair ([], []) := by
  rw [replicate_range] at h
  have ht := micros_totals cfg.procs x.micros hx.procs _ _ _ _ h
  rw [ht, hs.1, List.map_map]
  conv_lhs => rw [eq_range_map x.norms cfg.procs 0 hx.norms]
  rw [zip_range, zip_range]
  apply List.map_congr_left
  intro r _
  simp only [List.map_append, List.map_cons, List.map_nil, List.foldl_append, List.foldl_cons, List.foldl_nil]
  rfl

/-- One iteration. -/
theorem step_cases (cfg : Cfg) (x : Iter) (hx : Shape cfg x) (w : List Iter) (s : St) (hs : Rep cfg w s) :
    (runMicros s.expected (List.replicate cfg.procs ([], [])) x.micros = none ∧ step cfg s x = none) ∨
    ∃ e t, runMicros s.expected (List.replicate cfg.procs ([], [])) x.micros = some (e, t) ∧ ∃ s' ev, step cfg s x = some (s', ev) ∧
      s'.iteration = s.iteration + 1 ∧ s'.expected = e ∧
      ((¬ (cfg.logInterval ∣ s.iteration + 1 ∨ cfg.showInterval ∣ s.iteration + 1) ∧ ev = [] ∧ Rep cfg (w ++ [x]) s') ∨
       ((cfg.logInterval ∣ s.iteration + 1 ∨ cfg.showInterval ∣ s.iteration + 1) ∧ Rep cfg [] s' ∧
        ∃ m, m = gather cfg (w ++ [x]).length ((List.range cfg.procs).map fun r => ((w ++ [x]).map (iterPair cfg r)).foldl addPair ([], []))
            (((List.range cfg.procs).map fun r => ((w ++ [x]).map (iterPair cfg r)).foldl addPair ([], [])).headD ([], [])) ∧
          ev = (if cfg.logInterval ∣ s.iteration + 1 then [Event.log (s.iteration + 1) m] else []) ++
            (if cfg.showInterval ∣ s.iteration + 1 then [Event.show (s.iteration + 1) m] else []))) := by
  cases hr : runMicros s.expected (List.replicate cfg.procs ([], [])) x.micros with
  | none =>
    left
    refine ⟨rfl, ?_⟩
    unfold step; rw [hr]
  | some p =>
    obtain ⟨e, t⟩ := p
    right
    refine ⟨e, t, rfl, ?_⟩
    have hsum := step_sums cfg x hx w s hs e t hr
    unfold step
    rw [hr]
    simp only [hsum, hs.2, ← Nat.dvd_iff_mod_eq_zero]
    by_cases hg : cfg.logInterval ∣ s.iteration + 1 ∨ cfg.showInterval ∣ s.iteration + 1
    · rw [if_pos hg]
      refine ⟨_, _, rfl, rfl, rfl, Or.inr ⟨hg, ?_, _, rfl, ?_⟩⟩
      · unfold Rep
        simp
      · rw [List.length_append, List.length_singleton]
    · rw [if_neg hg]
      refine ⟨_, _, rfl, rfl, rfl, Or.inl ⟨hg, rfl, ?_, ?_⟩⟩
      · rfl
      · simp

/-! ### The gathered values -/

/-- The names with the norm. -/
def auxKeys (cfg : Cfg) (K : List String) : List String := if cfg.clipNorm = true then K ++ ["grad_norm"] else K

theorem addPair_fold (ps : List Pair) : ps.foldl addPair ([], []) = ((ps.map Prod.fst).foldl addDict [], (ps.map Prod.snd).foldl addDict []) := by
  have : ∀ (ps : List Pair) (t : Pair), ps.foldl addPair t = ((ps.map Prod.fst).foldl addDict t.1, (ps.map Prod.snd).foldl addDict t.2) := by
    intro ps
    induction ps with
    | nil => intro t; rfl
    | cons p ps ih => intro t; rw [List.foldl_cons, ih]; rfl
  exact this ps _

theorem getD_mem {α : Type} (l : List α) (r : Nat) (d : α) (h : r < l.length) : l.getD r d ∈ l := by
  rw [List.getD_eq_getElem?_getD, List.getElem?_eq_getElem h]
  exact List.getElem_mem h

theorem iterPair_eq (cfg : Cfg) (ha : 0 < cfg.accum) (x : Iter) (hx : Shape cfg x) (K K' : List String)
    (hS : ∀ m ∈ x.micros, ∀ d ∈ m, schema2 d = (K, K')) (r : Nat) (hr : r < cfg.procs) :
    K.Nodup ∧ K'.Nodup ∧ "grad_norm" ∉ K' ∧
    iterPair cfg r x = (mk K fun k => (x.micros.map fun m => value (m.getD r ([], [])).1 k).sum / cfg.accum,
      mk (auxKeys cfg K') fun k => if cfg.clipNorm = true ∧ k = "grad_norm" then x.norms.getD r 0
        else (x.micros.map fun m => value (m.getD r ([], [])).2 k).sum / cfg.accum) := by
  have hne : x.micros ≠ [] := by
    intro h
    have := hx.micros
    rw [h] at this
    simp at this
    omega
  have hmem : ∀ m ∈ x.micros, m.getD r ([], []) ∈ m := fun m hm => getD_mem m r _ (by rw [hx.procs m hm]; exact hr)
  have hnorm : ∀ m ∈ x.micros, norm2 (m.getD r ([], [])) = (mk K (value (m.getD r ([], [])).1), mk K' (value (m.getD r ([], [])).2)) := by
    intro m hm
    obtain ⟨n1, n2, -⟩ := hx.names m hm _ (hmem m hm)
    have := hS m hm _ (hmem m hm)
    unfold schema2 at this
    injection this with s1 s2
    unfold norm2
    rw [normalize_eq _ n1, normalize_eq _ n2, s1, s2]
  obtain ⟨m0, hm0⟩ := List.exists_mem_of_ne_nil _ hne
  obtain ⟨n1, n2, n3⟩ := hx.names m0 hm0 _ (hmem m0 hm0)
  have hs0 := hS m0 hm0 _ (hmem m0 hm0)
  unfold schema2 at hs0
  injection hs0 with s1 s2
  have hK : K.Nodup := s1 ▸ schema_nodup n1
  have hK' : K'.Nodup := s2 ▸ schema_nodup n2
  have hg : "grad_norm" ∉ K' := by rw [← s2, schema_mem]; exact n3
  refine ⟨hK, hK', hg, ?_⟩
  have hfold : (x.micros.map fun m => norm2 (m.getD r ([], []))).foldl addPair ([], []) =
      (mk K fun k => (x.micros.map fun m => value (m.getD r ([], [])).1 k).sum, mk K' fun k => (x.micros.map fun m => value (m.getD r ([], [])).2 k).sum) := by
    rw [addPair_fold]
    have e1 : ((x.micros.map fun m => norm2 (m.getD r ([], []))).map Prod.fst) = (x.micros.map fun m => value (m.getD r ([], [])).1).map (mk K) := by
      rw [List.map_map, List.map_map]
      exact List.map_congr_left fun m hm => by simp only [Function.comp_apply]; rw [hnorm m hm]
    have e2 : ((x.micros.map fun m => norm2 (m.getD r ([], []))).map Prod.snd) = (x.micros.map fun m => value (m.getD r ([], [])).2).map (mk K') := by
      rw [List.map_map, List.map_map]
      exact List.map_congr_left fun m hm => by simp only [Function.comp_apply]; rw [hnorm m hm]
    rw [e1, e2, foldAdd K hK _ (by simpa using hne), foldAdd K' hK' _ (by simpa using hne)]
    simp only [List.map_map]
    rfl
  have havg : average cfg ((x.micros.map fun m => norm2 (m.getD r ([], []))).foldl addPair ([], [])) =
      (mk K fun k => (x.micros.map fun m => value (m.getD r ([], [])).1 k).sum / cfg.accum,
       mk K' fun k => (x.micros.map fun m => value (m.getD r ([], [])).2 k).sum / cfg.accum) := by
    rw [hfold]
    unfold average
    split_ifs with h
    · simp only [scale_mk]
    · have : cfg.accum = 1 := by omega
      rw [this]
      simp
  unfold iterPair
  rw [havg]
  unfold setNorm auxKeys
  cases hc : cfg.clipNorm with
  | false => simp
  | true =>
    rw [if_neg (by simp), if_neg (by rw [mk_keys]; exact hg)]
    simp only [if_true, true_and]
    congr 1
    unfold mk
    rw [List.map_append]
    congr 1
    · apply List.map_congr_left
      intro k hk
      have : k ≠ "grad_norm" := fun e => hg (e ▸ hk)
      simp [this]

theorem gather_window (cfg : Cfg) (hp : 0 < cfg.procs) (ha : 0 < cfg.accum) (w : List Iter) (hw : w ≠ []) (hx : ∀ x ∈ w, Shape cfg x) (K K' : List String)
    (hS : ∀ x ∈ w, ∀ m ∈ x.micros, ∀ d ∈ m, schema2 d = (K, K')) (mm : Pair)
    (hm : mm = gather cfg w.length ((List.range cfg.procs).map fun r => (w.map (iterPair cfg r)).foldl addPair ([], []))
            (((List.range cfg.procs).map fun r => (w.map (iterPair cfg r)).foldl addPair ([], [])).headD ([], []))) :
    IsMean cfg w mm := by
  obtain ⟨x0, hx0⟩ := List.exists_mem_of_ne_nil _ hw
  obtain ⟨hK, hK', hg, -⟩ := iterPair_eq cfg ha x0 (hx x0 hx0) K K' (hS x0 hx0) 0 hp
  have hKn : (auxKeys cfg K').Nodup := by
    unfold auxKeys
    split_ifs
    · rw [List.nodup_append]
      refine ⟨hK', by simp, ?_⟩
      intro a h1 b h2 e
      simp only [List.mem_singleton] at h2
      subst h2 e
      exact hg h1
    · exact hK'
  obtain ⟨f, hf⟩ : ∃ f : Nat → Iter → String → ℚ, f = fun (r : Nat) (x : Iter) (k : String) => (x.micros.map fun m => value (m.getD r ([], [])).1 k).sum / cfg.accum := ⟨_, rfl⟩
  obtain ⟨g, hgd⟩ : ∃ g : Nat → Iter → String → ℚ, g = fun (r : Nat) (x : Iter) (k : String) => if cfg.clipNorm = true ∧ k = "grad_norm" then x.norms.getD r 0
        else (x.micros.map fun m => value (m.getD r ([], [])).2 k).sum / cfg.accum := ⟨_, rfl⟩
  have hfold : ∀ r, r < cfg.procs → (w.map (iterPair cfg r)).foldl addPair ([], []) =
      (mk K fun k => (w.map fun x => f r x k).sum, mk (auxKeys cfg K') fun k => (w.map fun x => g r x k).sum) := by
    intro r hr
    have he : ∀ x ∈ w, iterPair cfg r x = (mk K (f r x), mk (auxKeys cfg K') (g r x)) := by
      intro x hxw
      rw [hf, hgd]
      exact (iterPair_eq cfg ha x (hx x hxw) K K' (hS x hxw) r hr).2.2.2
    rw [addPair_fold]
    have e1 : (w.map (iterPair cfg r)).map Prod.fst = (w.map (f r)).map (mk K) := by
      rw [List.map_map, List.map_map]
      exact List.map_congr_left fun x hxw => by simp [he x hxw]
    have e2 : (w.map (iterPair cfg r)).map Prod.snd = (w.map (g r)).map (mk (auxKeys cfg K')) := by
      rw [List.map_map, List.map_map]
      exact List.map_congr_left fun x hxw => by simp [he x hxw]
    rw [e1, e2, foldAdd K hK _ (by simpa using hw), foldAdd _ hKn _ (by simpa using hw)]
    simp only [List.map_map]
    rfl
  have hlist : ((List.range cfg.procs).map fun r => (w.map (iterPair cfg r)).foldl addPair ([], [])) =
      (List.range cfg.procs).map fun r => (mk K fun k => (w.map fun x => f r x k).sum, mk (auxKeys cfg K') fun k => (w.map fun x => g r x k).sum) :=
    List.map_congr_left fun r hr => hfold r (List.mem_range.mp hr)
  have hhead : ((List.range cfg.procs).map fun r => (mk K fun k => (w.map fun x => f r x k).sum, mk (auxKeys cfg K') fun k => (w.map fun x => g r x k).sum)).headD ([], []) =
      (mk K fun k => (w.map fun x => f 0 x k).sum, mk (auxKeys cfg K') fun k => (w.map fun x => g 0 x k).sum) := by
    obtain ⟨n, hn⟩ : ∃ n, cfg.procs = n + 1 := ⟨cfg.procs - 1, by omega⟩
    rw [hn, List.range_succ_eq_map]
    rfl
  rw [hlist, hhead, gather_eq cfg hp w.length K (auxKeys cfg K') (fun r k => (w.map fun x => f r x k).sum) (fun r k => (w.map fun x => g r x k).sum)] at hm
  subst hm
  have hproc : ∀ x ∈ w, ∀ m ∈ x.micros, ∀ (h : Pair → ℚ), ((List.range cfg.procs).map fun r => h (m.getD r ([], []))).sum = (m.map h).sum := by
    intro x hxw m hmm h
    conv_rhs => rw [eq_range_map m cfg.procs ([], []) ((hx x hxw).procs m hmm)]
    rw [List.map_map]; rfl
  have hmean : ∀ h : Pair → ℚ, ((List.range cfg.procs).map fun r => (w.map fun x => (x.micros.map fun m => h (m.getD r ([], []))).sum / (cfg.accum : ℚ)).sum / (w.length : ℚ)).sum / (cfg.procs : ℚ) =
      meanOf cfg w h := by
    intro h
    rw [sum_div_list, sum_comm_list]
    unfold meanOf
    have : (w.map fun x => ((List.range cfg.procs).map fun r => (x.micros.map fun m => h (m.getD r ([], []))).sum / (cfg.accum : ℚ)).sum) =
        w.map fun x => (x.micros.map fun m => (m.map h).sum).sum / (cfg.accum : ℚ) := by
      apply List.map_congr_left
      intro x hxw
      rw [sum_div_list, sum_comm_list]
      congr 2
      exact List.map_congr_left fun m hmm => hproc x hxw m hmm h
    rw [this, sum_div_list]
    field_simp
  constructor
  · intro x hxw m hmm d hd k
    simp only [mk_keys]
    have := hS x hxw m hmm d hd
    unfold schema2 at this
    injection this with s1 s2
    rw [← s1, schema_mem]
  · intro x hxw m hmm d hd k
    simp only [mk_keys]
    have := hS x hxw m hmm d hd
    unfold schema2 at this
    injection this with s1 s2
    rw [← schema_mem d.2, s2]
    unfold auxKeys
    cases cfg.clipNorm <;> simp
  · simp only [mk_keys]; exact ⟨hK, hKn⟩
  · intro k v hv
    simp only [mk, List.mem_map, Prod.mk.injEq] at hv
    obtain ⟨k', -, rfl, rfl⟩ := hv
    rw [hf]
    exact hmean fun d => value d.1 k'
  · intro k v hv hk
    simp only [mk, List.mem_map, Prod.mk.injEq] at hv
    obtain ⟨k', -, rfl, rfl⟩ := hv
    rw [hgd]
    simp only [hk, and_false, if_false]
    exact hmean fun d => value d.2 k'
  · intro hc
    simp only [mk, List.mem_map, Prod.mk.injEq]
    refine ⟨"grad_norm", by simp [auxKeys, hc], rfl, ?_⟩
    rw [hgd]
    simp only [hc, and_self, if_true]
    rw [sum_div_list, sum_comm_list]
    have : (w.map fun x => ((List.range cfg.procs).map fun r => x.norms.getD r 0).sum) = w.map fun x => x.norms.sum := by
      apply List.map_congr_left
      intro x hxw
      conv_rhs => rw [eq_range_map x.norms cfg.procs 0 (hx x hxw).norms]
    rw [this]
    field_simp

/-! ### Runs -/

/-- The kept schema fits what has been seen. -/
def Kept (cfg : Cfg) (seen : List Iter) (e : Option (List Schema)) : Prop :=
  (seen = [] ∧ e = none) ∨ (seen ≠ [] ∧ ∃ S, e = some (List.replicate cfg.procs S) ∧ ∀ x ∈ seen, ∀ m ∈ x.micros, ∀ d ∈ m, schema2 d = S)

theorem kept_step (cfg : Cfg) (hp : 0 < cfg.procs) (ha : 0 < cfg.accum) (seen : List Iter) (hseen : ∀ x ∈ seen, Shape cfg x) (e : Option (List Schema)) (h : Kept cfg seen e) (x : Iter)
    (hx : Shape cfg x) (T : List Pair) :
    (∀ e' t, runMicros e T x.micros = some (e', t) → Kept cfg (seen ++ [x]) e') ∧
    (∀ S, (∀ y ∈ seen ++ [x], ∀ m ∈ y.micros, ∀ d ∈ m, schema2 d = S) → ∃ e' t, runMicros e T x.micros = some (e', t)) := by
  have hne : x.micros ≠ [] := by
    intro h
    have := hx.micros
    rw [h] at this
    simp at this
    omega
  rcases h with ⟨rfl, rfl⟩ | ⟨hs, S, rfl, hS⟩
  · obtain ⟨a, b⟩ := micros_schema_first hp x.micros hne hx.procs T
    constructor
    · intro e' t h
      obtain ⟨S, h1, h2⟩ := b e' t h
      exact Or.inr ⟨by simp, S, h1, by simpa using h2⟩
    · intro S h
      obtain ⟨t, ht⟩ := a S fun m hm => h x (by simp) m hm
      exact ⟨_, t, ht⟩
  · obtain ⟨a, b⟩ := micros_schema_kept (n := cfg.procs) S x.micros hx.procs T
    constructor
    · intro e' t h
      obtain ⟨h1, h2⟩ := b e' t h
      refine Or.inr ⟨by simp, S, h1, ?_⟩
      intro y hy
      rcases List.mem_append.mp hy with hy | hy
      · exact hS y hy
      · simp only [List.mem_singleton] at hy
        subst hy
        exact h2
    · intro S' h
      obtain ⟨y, hy⟩ := List.exists_mem_of_ne_nil _ hs
      by_cases hS' : S' = S
      · subst hS'
        obtain ⟨t, ht⟩ := a fun m hm => h x (by simp) m hm
        exact ⟨_, t, ht⟩
      · exfalso
        obtain ⟨m, hm⟩ := List.exists_mem_of_ne_nil y.micros (by
          intro h0
          have := (hseen y hy).micros
          rw [h0] at this
          simp at this
          omega)
        obtain ⟨d, hd⟩ := List.exists_mem_of_ne_nil m (by
          intro h0
          have := (hseen y hy).procs m hm
          rw [h0] at this
          simp at this
          omega)
        exact hS' ((h y (by simp [hy]) m hm d hd).symm.trans (hS y hy m hm d hd))

/-- What an event says. -/
def Good (cfg : Cfg) (a : Nat) (all : List Iter) (i : Nat) (m : Pair) : Prop :=
  ∃ b, a ≤ b ∧ b < i ∧ i ≤ a + all.length ∧ (b = a ∨ cfg.logInterval ∣ b ∨ cfg.showInterval ∣ b) ∧
    (∀ j, b < j → j < i → ¬ cfg.logInterval ∣ j ∧ ¬ cfg.showInterval ∣ j) ∧ IsMean cfg ((all.drop (b - a)).take (i - b)) m

def logAt : Event → Option Nat
  | .log i _ => some i
  | .show _ _ => none
def showAt : Event → Option Nat
  | .log _ _ => none
  | .show i _ => some i
def metricsOf : Event → Nat × Pair
  | .log i m => (i, m)
  | .show i m => (i, m)

/-- Between two iterations of a run that started at iteration `a`: `pre` before the current window `w`. -/
structure Inv (cfg : Cfg) (a : Nat) (pre w : List Iter) (s : St) : Prop where
  it : s.iteration = a + pre.length + w.length
  rep : Rep cfg w s
  kept : Kept cfg (pre ++ w) s.expected
  shape : ∀ x ∈ pre ++ w, Shape cfg x
  first : pre.length = 0 ∨ cfg.logInterval ∣ a + pre.length ∨ cfg.showInterval ∣ a + pre.length
  none : ∀ j, a + pre.length < j → j ≤ a + pre.length + w.length → ¬ cfg.logInterval ∣ j ∧ ¬ cfg.showInterval ∣ j

theorem run_inv (cfg : Cfg) (hp : 0 < cfg.procs) (ha : 0 < cfg.accum) (a : Nat) (xs : List Iter) (hx : ∀ x ∈ xs, Shape cfg x) (pre w : List Iter) (s : St)
    (h : Inv cfg a pre w s) :
    (∀ s' ev, run cfg s xs = some (s', ev) →
      (∀ v ∈ ev, Good cfg a (pre ++ w ++ xs) (metricsOf v).1 (metricsOf v).2) ∧
      ev.filterMap logAt = ((List.range xs.length).map fun j => s.iteration + 1 + j).filter (fun i => decide (cfg.logInterval ∣ i)) ∧
      ev.filterMap showAt = ((List.range xs.length).map fun j => s.iteration + 1 + j).filter (fun i => decide (cfg.showInterval ∣ i)) ∧
      (xs ≠ [] → ∃ S, ∀ x ∈ pre ++ w ++ xs, ∀ m ∈ x.micros, ∀ d ∈ m, schema2 d = S)) ∧
    ((∃ S, ∀ x ∈ pre ++ w ++ xs, ∀ m ∈ x.micros, ∀ d ∈ m, schema2 d = S) → ∃ r, run cfg s xs = some r) := by
  induction xs generalizing pre w s with
  | nil =>
    refine ⟨?_, fun _ => ⟨(s, []), rfl⟩⟩
    intro s' ev hr
    simp only [run, Option.some.injEq, Prod.mk.injEq] at hr
    rw [← hr.2]
    simp
  | cons x xs ih =>
    have hxx := hx x (by simp)
    obtain ⟨k1, k2⟩ := kept_step cfg hp ha (pre ++ w) h.shape s.expected h.kept x hxx (List.replicate cfg.procs ([], []))
    rcases step_cases cfg x hxx w s h.rep with ⟨hn, hst⟩ | ⟨e, t, hrm, s1, ev1, hst, hit, hexp, hcase⟩
    · constructor
      · intro s' ev hr
        unfold run at hr
        rw [hst] at hr
        cases hr
      · rintro ⟨S, hS⟩
        exfalso
        obtain ⟨e', t, hk⟩ := k2 S fun y hy => hS y (by
          rcases List.mem_append.mp hy with hy | hy
          · exact List.mem_append_left _ hy
          · simp only [List.mem_singleton] at hy
            subst hy; simp)
        rw [hn] at hk
        cases hk
    · have hkept := k1 e t hrm
      have hKS : ∃ S, e = some (List.replicate cfg.procs S) ∧ ∀ y ∈ pre ++ w ++ [x], ∀ m ∈ y.micros, ∀ d ∈ m, schema2 d = S := by
        rcases hkept with ⟨h0, -⟩ | ⟨-, S, h1, h2⟩
        · simp at h0
        · exact ⟨S, h1, h2⟩
      have hshape : ∀ y ∈ pre ++ w ++ [x], Shape cfg y := by
        intro y hy
        rcases List.mem_append.mp hy with hy | hy
        · exact h.shape y hy
        · simp only [List.mem_singleton] at hy
          subst hy; exact hxx
      -- the state after the iteration, and its events
      have hnext : ∃ pre' w', pre' ++ w' = pre ++ w ++ [x] ∧ Inv cfg a pre' w' s1 ∧
          (∀ v ∈ ev1, Good cfg a (pre ++ w ++ x :: xs) (metricsOf v).1 (metricsOf v).2) ∧
          ev1.filterMap logAt = (if cfg.logInterval ∣ s.iteration + 1 then [s.iteration + 1] else []) ∧
          ev1.filterMap showAt = (if cfg.showInterval ∣ s.iteration + 1 then [s.iteration + 1] else []) := by
        rcases hcase with ⟨hg, rfl, hrep⟩ | ⟨hg, hrep, m, hm, rfl⟩
        · refine ⟨pre, w ++ [x], by simp, ?_, by simp, ?_, ?_⟩
          · constructor
            · rw [hit, h.it]; simp; omega
            · exact hrep
            · rw [hexp, ← List.append_assoc]; exact hkept
            · rw [← List.append_assoc]; exact hshape
            · exact h.first
            · intro j h1 h2
              rw [List.length_append, List.length_singleton] at h2
              by_cases hj : j ≤ a + pre.length + w.length
              · exact h.none j h1 hj
              · have : j = s.iteration + 1 := by rw [h.it]; omega
                rw [this]
                exact not_or.mp hg
          · rw [if_neg (fun hh => hg (Or.inl hh))]; rfl
          · rw [if_neg (fun hh => hg (Or.inr hh))]; rfl
        · refine ⟨pre ++ w ++ [x], [], by simp, ?_, ?_, ?_, ?_⟩
          · constructor
            · rw [hit, h.it]; simp; omega
            · exact hrep
            · rw [hexp, List.append_nil]; exact hkept
            · rw [List.append_nil]; exact hshape
            · right
              have : a + (pre ++ w ++ [x]).length = s.iteration + 1 := by rw [h.it]; simp; omega
              rw [this]
              exact hg
            · intro j h1 h2
              simp at h1 h2
              omega
          · obtain ⟨S, -, hS⟩ := hKS
            have hmean := gather_window cfg hp ha (w ++ [x]) (by simp) (fun y hy => hshape y (by
                rw [List.append_assoc]; exact List.mem_append_right _ hy)) S.1 S.2 (fun y hy => hS y (by
                rw [List.append_assoc]; exact List.mem_append_right _ hy)) m hm
            have hgood : Good cfg a (pre ++ w ++ x :: xs) (s.iteration + 1) m := by
              refine ⟨a + pre.length, by omega, by rw [h.it]; omega, by rw [h.it]; simp; omega, ?_, ?_, ?_⟩
              · rcases h.first with h0 | h0
                · left; omega
                · right; exact h0
              · intro j h1 h2
                exact h.none j h1 (by rw [h.it] at h2; omega)
              · have e1 : a + pre.length - a = pre.length := by omega
                have e2 : s.iteration + 1 - (a + pre.length) = (w ++ [x]).length := by rw [h.it]; simp; omega
                have e3 : pre ++ w ++ x :: xs = pre ++ ((w ++ [x]) ++ xs) := by simp
                rw [e1, e2, e3, List.drop_left, List.take_left]
                exact hmean
            intro v hv
            rcases List.mem_append.mp hv with hv | hv
            · split_ifs at hv
              · simp only [List.mem_singleton] at hv
                subst hv; exact hgood
              · simp at hv
            · split_ifs at hv
              · simp only [List.mem_singleton] at hv
                subst hv; exact hgood
              · simp at hv
          · by_cases h1 : cfg.logInterval ∣ s.iteration + 1 <;> by_cases h2 : cfg.showInterval ∣ s.iteration + 1 <;> simp only [h1, h2, if_true, if_false] <;> rfl
          · by_cases h1 : cfg.logInterval ∣ s.iteration + 1 <;> by_cases h2 : cfg.showInterval ∣ s.iteration + 1 <;> simp only [h1, h2, if_true, if_false] <;> rfl
      obtain ⟨pre', w', hpw, hinv, hgood, hlog, hshow⟩ := hnext
      have hall : pre' ++ w' ++ xs = pre ++ w ++ x :: xs := by rw [hpw]; simp
      obtain ⟨i1, i2⟩ := ih (fun y hy => hx y (by simp [hy])) pre' w' s1 hinv
      rw [hall] at i1 i2
      constructor
      · intro s' ev hr
        unfold run at hr
        rw [hst] at hr
        simp only at hr
        cases hr2 : run cfg s1 xs with
        | none => rw [hr2] at hr; cases hr
        | some p =>
          obtain ⟨s2, ev2⟩ := p
          rw [hr2] at hr
          simp only [Option.some.injEq, Prod.mk.injEq] at hr
          obtain ⟨g1, g2, g3, g4⟩ := i1 s2 ev2 hr2
          rw [← hr.2]
          have hrange : (List.range (x :: xs).length).map (fun j => s.iteration + 1 + j) =
              (s.iteration + 1) :: (List.range xs.length).map fun j => s1.iteration + 1 + j := by
            rw [List.length_cons, List.range_succ_eq_map, List.map_cons, List.map_map, hit]
            congr 1
            apply List.map_congr_left
            intro j _
            simp only [Function.comp_apply]
            omega
          refine ⟨?_, ?_, ?_, ?_⟩
          · intro v hv
            rcases List.mem_append.mp hv with hv | hv
            · exact hgood v hv
            · exact g1 v hv
          · rw [List.filterMap_append, hlog, g2, hrange, List.filter_cons]
            by_cases hd : cfg.logInterval ∣ s.iteration + 1
            · rw [if_pos hd, if_pos (decide_eq_true hd)]; rfl
            · rw [if_neg hd, if_neg (by simpa using hd)]; rfl
          · rw [List.filterMap_append, hshow, g3, hrange, List.filter_cons]
            by_cases hd : cfg.showInterval ∣ s.iteration + 1
            · rw [if_pos hd, if_pos (decide_eq_true hd)]; rfl
            · rw [if_neg hd, if_neg (by simpa using hd)]; rfl
          · intro _
            by_cases hxs : xs = []
            · subst hxs
              obtain ⟨S, -, hS⟩ := hKS
              exact ⟨S, hS⟩
            · exact g4 hxs
      · intro hS
        obtain ⟨⟨s2, ev2⟩, hr2⟩ := i2 hS
        refine ⟨(s2, ev1 ++ ev2), ?_⟩
        unfold run
        rw [hst]
        simp only [hr2]

theorem start_inv (cfg : Cfg) (a : Nat) : Inv cfg a [] [] (start cfg a) where
  it := rfl
  rep := by unfold Rep start; simp
  kept := Or.inl ⟨rfl, rfl⟩
  shape := by simp
  first := Or.inl rfl
  none := by intro j h1 h2; simp at h1 h2; omega

theorem same_names_iff (cfg : Cfg) (xs : List Iter) (hx : ∀ x ∈ xs, Shape cfg x) :
    SameNames xs ↔ ∃ S, ∀ x ∈ xs, ∀ m ∈ x.micros, ∀ d ∈ m, schema2 d = S := by
  constructor
  · intro h
    by_cases hd : ∃ x ∈ xs, ∃ m ∈ x.micros, ∃ d, d ∈ m
    · obtain ⟨x, hxs, m, hm, d, hd⟩ := hd
      refine ⟨schema2 d, ?_⟩
      intro x' hx' m' hm' d' hd'
      obtain ⟨h1, h2⟩ := h x' hx' m' hm' d' hd' x hxs m hm d hd
      unfold schema2
      obtain ⟨a1, a2, -⟩ := (hx x hxs).names m hm d hd
      obtain ⟨b1, b2, -⟩ := (hx x' hx').names m' hm' d' hd'
      rw [(schema_eq_iff b1 a1).mpr h1, (schema_eq_iff b2 a2).mpr h2]
    · refine ⟨([], []), ?_⟩
      intro x hxs m hm d hdm
      exact absurd ⟨x, hxs, m, hm, d, hdm⟩ hd
  · rintro ⟨S, hS⟩ x hxs m hm d hd x' hx' m' hm' d' hd'
    have e := (hS x hxs m hm d hd).trans (hS x' hx' m' hm' d' hd').symm
    unfold schema2 at e
    injection e with e1 e2
    obtain ⟨a1, a2, -⟩ := (hx x hxs).names m hm d hd
    obtain ⟨b1, b2, -⟩ := (hx x' hx').names m' hm' d' hd'
    exact ⟨(schema_eq_iff a1 b1).mp e1, (schema_eq_iff a2 b2).mp e2⟩

/-! ### Theorems -/

/-- **C96.** Every logged (and every shown) set of metrics is the mean over all processes, all micro-steps and all iterations
since the last time metrics were logged or shown (or since the start of the run). -/
theorem C96_means (cfg : Cfg) (hp : 0 < cfg.procs) (ha : 0 < cfg.accum) (a : Nat) (xs : List Iter) (hx : ∀ x ∈ xs, Shape cfg x) (s : St) (ev : List Event)
    (h : run cfg (start cfg a) xs = some (s, ev)) (i : Nat) (m : Pair) (hm : Event.log i m ∈ ev ∨ Event.show i m ∈ ev) :
    ∃ b, a ≤ b ∧ b < i ∧ i ≤ a + xs.length ∧ (b = a ∨ cfg.logInterval ∣ b ∨ cfg.showInterval ∣ b) ∧
      (∀ j, b < j → j < i → ¬ cfg.logInterval ∣ j ∧ ¬ cfg.showInterval ∣ j) ∧ IsMean cfg ((xs.drop (b - a)).take (i - b)) m := by
  have := ((run_inv cfg hp ha a xs hx [] [] _ (start_inv cfg a)).1 s ev h).1
  rcases hm with hm | hm
  · exact this _ hm
  · exact this _ hm

/-- **C96**, there is one log entry for every multiple of the log interval and one shown line for every multiple of the show
interval, in order. -/
theorem C96_entries (cfg : Cfg) (hp : 0 < cfg.procs) (ha : 0 < cfg.accum) (a : Nat) (xs : List Iter) (hx : ∀ x ∈ xs, Shape cfg x) (s : St) (ev : List Event)
    (h : run cfg (start cfg a) xs = some (s, ev)) :
    ev.filterMap logAt = ((List.range xs.length).map fun j => a + 1 + j).filter (fun i => decide (cfg.logInterval ∣ i)) ∧
    ev.filterMap showAt = ((List.range xs.length).map fun j => a + 1 + j).filter (fun i => decide (cfg.showInterval ∣ i)) := by
  obtain ⟨-, h1, h2, -⟩ := (run_inv cfg hp ha a xs hx [] [] _ (start_inv cfg a)).1 s ev h
  exact ⟨h1, h2⟩

/-- **C96**, a run goes through exactly if the names of the metrics never change: neither between processes, nor between
micro-steps, nor between iterations. -/
theorem C96_names (cfg : Cfg) (hp : 0 < cfg.procs) (ha : 0 < cfg.accum) (a : Nat) (xs : List Iter) (hx : ∀ x ∈ xs, Shape cfg x) :
    (∃ r, run cfg (start cfg a) xs = some r) ↔ SameNames xs := by
  obtain ⟨h1, h2⟩ := run_inv cfg hp ha a xs hx [] [] _ (start_inv cfg a)
  rw [same_names_iff cfg xs hx]
  constructor
  · rintro ⟨⟨s, ev⟩, h⟩
    by_cases hxs : xs = []
    · subst hxs; exact ⟨([], []), by simp⟩
    · exact (h1 s ev h).2.2.2 hxs
  · exact h2

/-- **C96**, the window of a log entry is the whole log interval if the show interval is a multiple of it. -/
theorem C96_whole_interval (cfg : Cfg) (hp : 0 < cfg.procs) (ha : 0 < cfg.accum) (hdvd : cfg.logInterval ∣ cfg.showInterval) (a : Nat) (hL : cfg.logInterval ∣ a)
    (xs : List Iter) (hx : ∀ x ∈ xs, Shape cfg x) (s : St) (ev : List Event) (h : run cfg (start cfg a) xs = some (s, ev)) (i : Nat) (m : Pair)
    (hm : Event.log i m ∈ ev) : a + cfg.logInterval ≤ i ∧ IsMean cfg ((xs.drop (i - cfg.logInterval - a)).take cfg.logInterval) m := by
  obtain ⟨b, h1, h2, h3, h4, h5, h6⟩ := C96_means cfg hp ha a xs hx s ev h i m (Or.inl hm)
  have hb : cfg.logInterval ∣ b := by
    rcases h4 with rfl | h4 | h4
    · exact hL
    · exact h4
    · exact dvd_trans hdvd h4
  have hi : cfg.logInterval ∣ i := by
    have := (C96_entries cfg hp ha a xs hx s ev h).1
    have hmem : i ∈ ev.filterMap logAt := List.mem_filterMap.mpr ⟨_, hm, rfl⟩
    rw [this, List.mem_filter] at hmem
    exact of_decide_eq_true hmem.2
  obtain ⟨u, rfl⟩ := hb
  obtain ⟨v, rfl⟩ := hi
  have hlp : 0 < cfg.logInterval := by
    rcases Nat.eq_zero_or_pos cfg.logInterval with h0 | h0
    · rw [h0] at h2; simp at h2
    · exact h0
  have huv : u < v := Nat.lt_of_mul_lt_mul_left h2
  have hv : v = u + 1 := by
    by_contra hne
    have h7 : cfg.logInterval * u < cfg.logInterval * (u + 1) := Nat.mul_lt_mul_of_pos_left (by omega) hlp
    have h8 : cfg.logInterval * (u + 1) < cfg.logInterval * v := Nat.mul_lt_mul_of_pos_left (by omega) hlp
    exact (h5 _ h7 h8).1 ⟨u + 1, rfl⟩
  subst hv
  have e1 : cfg.logInterval * (u + 1) = cfg.logInterval * u + cfg.logInterval := by ring
  rw [e1] at h6 ⊢
  refine ⟨by omega, ?_⟩
  have e2 : cfg.logInterval * u + cfg.logInterval - cfg.logInterval = cfg.logInterval * u := by omega
  have e3 : cfg.logInterval * u + cfg.logInterval - cfg.logInterval * u = cfg.logInterval := by omega
  rw [e2]
  rw [e3] at h6
  exact h6

/-! ### Findings -/

/-- **C96**, a run that trains a quantiser from the start is aborted by the first step after the codebook is filled: that step
has a metric (`vq_loss`) the earlier ones had not. -/
theorem C96_new_metric_aborts (cfg : Cfg) (hp : 0 < cfg.procs) (ha : 0 < cfg.accum) (a : Nat) (pre : List Iter) (x : Iter) (hpre : pre ≠ [])
    (hx : ∀ y ∈ pre ++ [x], Shape cfg y) (hold : ∀ y ∈ pre, ∀ m ∈ y.micros, ∀ d ∈ m, "vq_loss" ∉ d.1.map Prod.fst)
    (hnew : ∀ m ∈ x.micros, ∀ d ∈ m, "vq_loss" ∈ d.1.map Prod.fst) : run cfg (start cfg a) (pre ++ [x]) = none := by
  by_contra hne
  have hsome : ∃ r, run cfg (start cfg a) (pre ++ [x]) = some r := by
    cases hr : run cfg (start cfg a) (pre ++ [x]) with
    | none => exact absurd hr hne
    | some r => exact ⟨r, rfl⟩
  have hs := (C96_names cfg hp ha a _ hx).mp hsome
  have hex : ∀ y ∈ pre ++ [x], ∃ m ∈ y.micros, ∃ d, d ∈ m := by
    intro y hy
    obtain ⟨m, hm⟩ := List.exists_mem_of_ne_nil y.micros (by
      intro h0
      have := (hx y hy).micros
      rw [h0] at this
      simp at this
      omega)
    obtain ⟨d, hd⟩ := List.exists_mem_of_ne_nil m (by
      intro h0
      have := (hx y hy).procs m hm
      rw [h0] at this
      simp at this
      omega)
    exact ⟨m, hm, d, hd⟩
  obtain ⟨y, hy⟩ := List.exists_mem_of_ne_nil _ hpre
  obtain ⟨m, hm, d, hd⟩ := hex y (by simp [hy])
  obtain ⟨m', hm', d', hd'⟩ := hex x (by simp)
  exact hold y hy m hm d hd (((hs y (by simp [hy]) m hm d hd x (by simp) m' hm' d' hd').1 _).mpr (hnew m' hm' d' hd'))

/-- **C96**, a shown line cuts the window of the next log entry: shown at iteration `i - 1`, the log entry at `i` speaks of
iteration `i` only. -/
theorem C96_short_window (cfg : Cfg) (hp : 0 < cfg.procs) (ha : 0 < cfg.accum) (a : Nat) (xs : List Iter) (hx : ∀ x ∈ xs, Shape cfg x) (s : St)
    (ev : List Event) (h : run cfg (start cfg a) xs = some (s, ev)) (i : Nat) (m : Pair) (hm : Event.log (i + 1) m ∈ ev) (hi : cfg.showInterval ∣ i)
    (hia : a ≤ i) : IsMean cfg ((xs.drop (i - a)).take 1) m := by
  obtain ⟨b, h1, h2, h3, h4, h5, h6⟩ := C96_means cfg hp ha a xs hx s ev h (i + 1) m (Or.inl hm)
  have hb : b = i := by
    by_contra hne
    exact (h5 i (by omega) (by omega)).2 hi
  subst hb
  rwa [show b + 1 - b = 1 by omega] at h6

end Verif.Log
