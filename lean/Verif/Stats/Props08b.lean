import Verif.Stats.Props08

/-!
C08, continued: `SufficientStats` and its simple finalizers.
-/

namespace Verif.Stats

/-! ### Specification: what the parts contribute -/

/-- A named tensor of the statistic: metadata and, for each part, its elements. -/
structure TSpec (Part : Type) where
  name : String
  info : List Nat × String × String
  dim : Nat
  val : Part → Fin dim → ℚ

/-- A named count: for each part, its value. -/
structure CSpec (Part : Type) where
  name : String
  val : Part → Nat

/-- The statistic whose tensors and counts are the sums over the given parts. -/
def suffStat {Part : Type} (sc : Scope) (fin : String) (ts : List (TSpec Part)) (cs : List (CSpec Part))
    (parts : List Part) : SufficientStats :=
  { scope := sc, finalizer := fin,
    tensors := ts.map (fun t => (t.name, vec t.info (fun i => (parts.map (fun p => t.val p i)).sum))),
    counts := cs.map (fun c => (c.name, (((parts.map c.val).sum : Nat) : Int))) }

/-- The schema check looks at the finalizer and at the names only. -/
def NamesOnly (schema : SufficientStats → Bool) : Prop :=
  ∀ a b : SufficientStats, a.finalizer = b.finalizer → a.tensors.map Prod.fst = b.tensors.map Prod.fst →
    a.counts.map Prod.fst = b.counts.map Prod.fst → schema a = schema b

/-! ### Proofs -/

theorem get?_map {α β : Type} (l : List α) (name : α → String) (v : α → β)
    (hnd : (l.map name).Nodup) (x : α) (hx : x ∈ l) :
    get? (name x) (l.map (fun a => (name a, v a))) = some (v x) := by
  induction l with
  | nil => simp at hx
  | cons a l ih =>
    simp only [List.map_cons, List.nodup_cons] at hnd
    simp only [List.map_cons, get?]
    rcases List.mem_cons.mp hx with rfl | hx
    · simp
    · have : name a ≠ name x := by
        intro h; exact hnd.1 (h ▸ List.mem_map.mpr ⟨x, hx, rfl⟩)
      rw [if_neg this, ih hnd.2 hx]

theorem sameKeys_map {α β γ : Type} (l : List α) (name : α → String) (v : α → β) (w : α → γ) :
    sameKeys (l.map (fun a => (name a, v a))) (l.map (fun a => (name a, w a))) = true := by
  unfold sameKeys
  simp only [Bool.and_eq_true, List.all_eq_true, List.any_eq_true, List.mem_map,
    forall_exists_index, and_imp]
  constructor
  · rintro x a ha rfl; exact ⟨_, ⟨a, ha, rfl⟩, by simp⟩
  · rintro x a ha rfl; exact ⟨_, ⟨a, ha, rfl⟩, by simp⟩

theorem suffStat_combine {Part : Type} (schema : SufficientStats → Bool) (hs : NamesOnly schema)
    (sc fin) (ts : List (TSpec Part)) (cs : List (CSpec Part))
    (hts : (ts.map TSpec.name).Nodup) (hcs : (cs.map CSpec.name).Nodup)
    (hok : schema (suffStat sc fin ts cs []) = true) (a b : List Part) :
    (suffStat sc fin ts cs a).combine schema (suffStat sc fin ts cs b) =
      .ok (suffStat sc fin ts cs (a ++ b)) := by
  unfold SufficientStats.combine
  have hc : (suffStat sc fin ts cs a).compat (suffStat sc fin ts cs b) = true := by
    unfold SufficientStats.compat suffStat
    simp only [decide_true, Bool.true_and, sameKeys_map, List.all_map, List.all_eq_true,
      Function.comp_def]
    intro t ht
    rw [get?_map ts TSpec.name _ hts t ht]
    exact vec_compat _ _ _
  rw [if_neg (by simp [hc])]
  have he : SufficientStats.mk (suffStat sc fin ts cs a).scope (suffStat sc fin ts cs a).finalizer
      (addTensors (suffStat sc fin ts cs a).tensors (suffStat sc fin ts cs b).tensors)
      (addCounts (suffStat sc fin ts cs a).counts (suffStat sc fin ts cs b).counts) =
        suffStat sc fin ts cs (a ++ b) := by
    unfold addTensors addCounts
    unfold suffStat
    simp only [SufficientStats.mk.injEq, true_and, List.map_map, Function.comp_def]
    constructor
    · apply List.map_congr_left
      intro t ht
      rw [get?_map ts TSpec.name _ hts t ht]
      simp only [vec_zip, List.map_append, List.sum_append]
    · apply List.map_congr_left
      intro c hc
      rw [get?_map cs CSpec.name _ hcs c hc]
      simp only [List.map_append, List.sum_append]
      push_cast
      rfl
  rw [he]
  unfold SufficientStats.mk?
  rw [if_neg, if_neg]
  · rw [Bool.not_eq_false, ← hok]
    apply hs <;> simp [suffStat, Function.comp_def]
  · simp only [suffStat, List.any_map, Function.comp_def, List.any_eq_true, decide_eq_true_eq]
    rintro ⟨c, -, h⟩
    omega

/-- `SufficientStats`: whatever the order and grouping, the combination of the parts' statistics succeeds
and each named tensor and count is the sum over all parts (taken in any order). -/
theorem C08_sufficient {Part : Type} (schema : SufficientStats → Bool) (hs : NamesOnly schema)
    (sc : Scope) (fin : String) (ts : List (TSpec Part)) (cs : List (CSpec Part))
    (hts : (ts.map TSpec.name).Nodup) (hcs : (cs.map CSpec.name).Nodup)
    (hok : schema (suffStat sc fin ts cs []) = true) (t : Tree Part) (all : List Part)
    (hall : all.Perm t.leaves) :
    (t.map (fun p => suffStat sc fin ts cs [p])).combine (SufficientStats.combine schema) =
      .ok (suffStat sc fin ts cs all) := by
  have h1 : (t.map (fun p => suffStat sc fin ts cs [p])).combine (SufficientStats.combine schema) =
      .ok (suffStat sc fin ts cs t.leaves) := by
    clear hall
    induction t with
    | leaf a => rfl
    | node l r ihl ihr =>
      simp only [Tree.map, Tree.combine, ihl, ihr, Tree.leaves]
      exact suffStat_combine schema hs sc fin ts cs hts hcs hok _ _
  rw [h1]
  congr 1
  unfold suffStat
  simp only [SufficientStats.mk.injEq, true_and]
  constructor
  · apply List.map_congr_left
    intro t _
    congr 2
    funext i
    exact ((hall.map _).sum_eq).symm
  · apply List.map_congr_left
    intro c _
    rw [((hall.map c.val).sum_eq)]

theorem sameKeys_names {α β α' : Type} (a : List (String × α)) (a' : List (String × α'))
    (b : List (String × β)) (h : a.map Prod.fst = a'.map Prod.fst) : sameKeys a b = sameKeys a' b := by
  have hall : ∀ p : String → Bool, a.all (fun x => p x.1) = a'.all (fun x => p x.1) := by
    intro p
    rw [show (fun x : String × α => p x.1) = p ∘ Prod.fst from rfl, ← List.all_map, h, List.all_map]
    rfl
  have hany : ∀ p : String → Bool, a.any (fun x => p x.1) = a'.any (fun x => p x.1) := by
    intro p
    rw [show (fun x : String × α => p x.1) = p ∘ Prod.fst from rfl, ← List.any_map, h, List.any_map]
    rfl
  unfold sameKeys
  rw [hall (fun k => b.any (fun y => y.1 == k))]
  congr 1
  congr 1
  funext y
  exact hany (fun k => k == y.1)

theorem simpleSchema_names : NamesOnly simpleSchema := by
  intro a b h1 h2 h3
  unfold simpleSchema
  simp only [h1, sameKeys_names _ _ _ h2, sameKeys_names _ _ _ h3]

theorem finalizeSimple_ms (eps : ℚ) (s : SufficientStats) (h : s.finalizer = "policy_mean_square_v1") :
    s.finalizeSimple eps = finalizeMeanSquare s := by
  unfold SufficientStats.finalizeSimple; rw [if_pos h]

theorem finalizeSimple_mean (eps : ℚ) (s : SufficientStats) (h : s.finalizer = "mean_v1") :
    s.finalizeSimple eps = finalizeMean s := by
  unfold SufficientStats.finalizeSimple; rw [if_neg (by rw [h]; decide), if_pos h]

theorem finalizeSimple_repl (eps : ℚ) (s : SufficientStats) (h : s.finalizer = "replicated_constant_v1") :
    s.finalizeSimple eps = finalizeReplicated eps s := by
  unfold SufficientStats.finalizeSimple
  rw [if_neg (by rw [h]; decide), if_neg (by rw [h]; decide), if_pos h]

/-- `policy_mean_square_v1`: each part contributes the sum of its valid logits and the number of valid
cells; the finalised value is the squared mean over all valid cells of all parts. -/
theorem C08_mean_square {Part : Type} (eps : ℚ) (sc : Scope) (m : List Nat × String × String)
    (logits : Part → ℚ) (cells : Part → Nat) (t : Tree Part) (all : List Part)
    (hall : all.Perm t.leaves) (hpos : 0 < (all.map cells).sum) :
    ∃ s, (t.map (fun p => suffStat sc "policy_mean_square_v1"
          [⟨"valid_logit_sum", m, 1, fun p _ => logits p⟩] [⟨"valid_cells", cells⟩] [p])).combine
          (SufficientStats.combine simpleSchema) = .ok s ∧
      s.finalizeSimple eps = .ok (vec m (fun _ : Fin 1 =>
        ((all.map logits).sum / ((all.map cells).sum : ℚ)) ^ 2)) := by
  refine ⟨_, C08_sufficient simpleSchema simpleSchema_names sc _ _ _ (by simp) (by simp)
    rfl t all hall, ?_⟩
  rw [finalizeSimple_ms eps _ rfl]
  unfold finalizeMeanSquare suffStat
  simp only [List.map_cons, List.map_nil, get?, if_true, vec_map]
  rw [if_neg (by omega)]
  congr 2

/-- `mean_v1`. -/
theorem C08_mean {Part : Type} (eps : ℚ) (sc : Scope) (m : List Nat × String × String) {d : Nat}
    (val : Part → Fin d → ℚ) (cnt : Part → Nat) (t : Tree Part) (all : List Part)
    (hall : all.Perm t.leaves) (hpos : 0 < (all.map cnt).sum) :
    ∃ s, (t.map (fun p => suffStat sc "mean_v1" [⟨"sum", m, d, val⟩] [⟨"count", cnt⟩] [p])).combine
          (SufficientStats.combine simpleSchema) = .ok s ∧
      s.finalizeSimple eps = .ok (vec m (fun i =>
        (all.map (fun p => val p i)).sum / ((all.map cnt).sum : ℚ))) := by
  refine ⟨_, C08_sufficient simpleSchema simpleSchema_names sc _ _ _ (by simp) (by simp)
    rfl t all hall, ?_⟩
  rw [finalizeSimple_mean eps _ rfl]
  unfold finalizeMean suffStat
  simp only [List.map_cons, List.map_nil, get?, if_true, vec_map]
  rw [if_neg (by omega)]
  congr 2

/-- `_constant_mean` on constants that agree: the constant itself, whatever the number of replicas. -/
theorem constantMean_same (eps : ℚ) (heps : 0 ≤ eps) (m : List Nat × String × String) {d : Nat}
    (c : Fin d → ℚ) (n : Nat) (hn : 0 < n) :
    constantMean eps (vec m (fun i => n * c i)) (vec m (fun i => n * (c i) ^ 2)) n =
      .ok (vec m c) := by
  have hq : (n : ℚ) ≠ 0 := by positivity
  have e1 : (fun i => (n : ℚ) * c i / (n : ℚ)) = c := by funext i; field_simp
  have e2 : (fun i => (n : ℚ) * c i ^ 2 / (n : ℚ)) = fun i => c i ^ 2 := by funext i; field_simp
  unfold constantMean
  rw [if_neg (by omega)]
  simp only [vec_map, Int.cast_natCast, e1, e2]
  rw [if_neg]
  simp only [vec, Bool.not_eq_true, List.any_eq_false, id]
  intro b hb
  rw [List.mem_iff_getElem] at hb
  obtain ⟨i, hi, rfl⟩ := hb
  simp only [List.getElem_zipWith, List.getElem_ofFn, sub_self, abs_zero]
  rw [decide_eq_false_iff_not, not_lt]
  positivity

/-- `replicated_constant_v1`: when every part replicates the same constant, the finalised value is that
constant, for every number of parts, order and grouping. -/
theorem C08_replicated {Part : Type} (eps : ℚ) (heps : 0 ≤ eps) (sc : Scope)
    (m : List Nat × String × String) (c : ℚ) (t : Tree Part) :
    ∃ s, (t.map (fun p => suffStat sc "replicated_constant_v1"
          [⟨"sum", m, 1, fun _ _ => c⟩, ⟨"square_sum", m, 1, fun _ _ => c ^ 2⟩]
          [⟨"replicas", fun _ => 1⟩] [p])).combine (SufficientStats.combine simpleSchema) = .ok s ∧
      s.finalizeSimple eps = .ok (vec m (fun _ : Fin 1 => c)) := by
  refine ⟨_, C08_sufficient simpleSchema simpleSchema_names sc _ _ _ (by simp) (by simp)
    rfl t t.leaves (List.Perm.refl _), ?_⟩
  have hn : 0 < t.leaves.length := by
    induction t with
    | leaf a => simp [Tree.leaves]
    | node l r ihl ihr => simp only [Tree.leaves, List.length_append]; omega
  rw [finalizeSimple_repl eps _ rfl]
  unfold finalizeReplicated suffStat
  have hne : ("sum" : String) ≠ "square_sum" := by decide
  simp only [List.map_cons, List.map_nil, get?, if_true, if_neg hne, List.map_const', List.sum_replicate,
    nsmul_eq_mul, mul_one]
  exact constantMean_same eps heps m (fun _ => c) t.leaves.length hn

/-- Conversely: if the constants of the parts are accepted, each of them is close to the value used:
its squared distance is at most `16 * eps * max(1, value^2)` times the number of parts. -/
theorem C08_replicated_close (eps : ℚ) (m : List Nat × String × String) (cs : List ℚ) (v : ℚ)
    (h : constantMean eps (vec m (fun _ : Fin 1 => cs.sum))
      (vec m (fun _ : Fin 1 => (cs.map (fun c => c ^ 2)).sum)) cs.length =
        .ok (vec m (fun _ : Fin 1 => v))) :
    v = cs.sum / cs.length ∧
    ∀ c ∈ cs, (c - v) ^ 2 ≤ cs.length * (16 * eps * max 1 (v ^ 2)) := by
  unfold constantMean at h
  by_cases h0 : (cs.length : Int) ≤ 0
  · rw [if_pos h0] at h; cases h
  rw [if_neg h0] at h
  dsimp only at h
  simp only [vec_map] at h
  split_ifs at h with hb
  simp only [ Except.ok.injEq, vec, Ten.mk.injEq, true_and, Int.cast_natCast] at h
  have hv : v = cs.sum / cs.length := by
    have := congrArg (fun l : List ℚ => l.head?) h
    simpa using this.symm
  refine ⟨hv, ?_⟩
  have hn : 0 < cs.length := by omega
  have hq : (0 : ℚ) < cs.length := by exact_mod_cast hn
  simp only [Int.cast_natCast, ← hv, vec, List.ofFn_succ, List.ofFn_zero, List.zipWith_cons_cons,
    List.zipWith_nil_left, List.any_cons, List.any_nil, Bool.or_false, id, decide_eq_true_eq, not_lt] at hb
  have hsum : ∀ l : List ℚ, (l.map (fun c => (c - v) ^ 2)).sum =
      (l.map (fun c => c ^ 2)).sum - 2 * v * l.sum + l.length * v ^ 2 := by
    intro l
    induction l with
    | nil => simp
    | cons a l ih => simp only [List.map_cons, List.sum_cons, ih, List.length_cons]; push_cast; ring
  have hvar : (cs.map (fun c => (c - v) ^ 2)).sum =
      cs.length * ((cs.map (fun c => c ^ 2)).sum / cs.length - v ^ 2) := by
    rw [hsum]
    have : cs.sum = cs.length * v := by rw [hv]; field_simp
    rw [this]
    field_simp
    ring
  intro c hc
  have hle : (c - v) ^ 2 ≤ (cs.map (fun c => (c - v) ^ 2)).sum := by
    apply List.single_le_sum
    · intro x hx
      rw [List.mem_map] at hx
      obtain ⟨y, -, rfl⟩ := hx
      positivity
    · exact List.mem_map.mpr ⟨c, hc, rfl⟩
  have h3 := le_trans (le_abs_self _) hb
  calc (c - v) ^ 2 ≤ _ := hle
    _ = cs.length * ((cs.map (fun c => c ^ 2)).sum / cs.length - v ^ 2) := hvar
    _ ≤ _ := by
      apply mul_le_mul_of_nonneg_left _ hq.le
      exact h3

end Verif.Stats
