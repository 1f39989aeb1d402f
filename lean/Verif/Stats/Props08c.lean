import Verif.Stats.Props08b

/-!
C08, continued: the distributed evaluation loop. The value of a metric does not depend on how the rows of
a global batch are spread over the ranks, and replayed batches contribute nothing.
-/

namespace Verif.Stats

/-! ### Specification -/

/-- One forward of all ranks: the rows each rank evaluated and whether they are its own
(`false`: a batch replayed to keep the collectives aligned). -/
abbrev Forward (Row : Type) := List (List Row × Bool)

/-- The rows that count. -/
def ownRows {Row : Type} : Forward Row → List Row
  | [] => []
  | (rows, own) :: rest => (if own then rows else []) ++ ownRows rest

/-- How many ranks had a batch of their own. -/
def owners {Row : Type} (b : Forward Row) : Nat := (b.filter (·.2)).length

/-- Mean of element `i` of the contributions of the rows that count. -/
def batchMean {Row : Type} {d : Nat} (f : Row → Fin d → ℚ) (n : Row → Nat) (b : Forward Row)
    (i : Fin d) : ℚ :=
  ((ownRows b).map (fun r => f r i)).sum / (((ownRows b).map n).sum : ℚ)

/-- What the ranks report for one forward. -/
def report {Row : Type} {d : Nat} (m : List Nat × String × String) (sc : Scope)
    (f : Row → Fin d → ℚ) (n : Row → Nat) (b : Forward Row) : List (SumCount × Bool) :=
  b.map (fun p => (sumStat m sc f n p.1, p.2))

/-! ### Proofs -/

theorem vec_zeros (m) {d : Nat} (g : Fin d → ℚ) : (vec m g).zeros = vec m (fun _ : Fin d => 0) := by
  unfold Ten.zeros; rw [vec_map]

theorem reduceSum_fold (m) {d : Nat} (gs : List (Fin d → ℚ)) (g : Fin d → ℚ) :
    (gs.map (vec m)).foldl (fun a b => a.zip (· + ·) b) (vec m g) =
      vec m (fun i => g i + (gs.map (fun h => h i)).sum) := by
  induction gs generalizing g with
  | nil => simp
  | cons h gs ih =>
    simp only [List.map_cons, List.foldl_cons, vec_zip, ih, List.sum_cons]
    congr 1
    funext i
    ring

theorem reduceSum_vec (m) {d : Nat} (gs : List (Fin d → ℚ)) (h : gs ≠ []) :
    reduceSum (gs.map (vec m)) = some (vec m (fun i => (gs.map (fun g => g i)).sum)) := by
  cases gs with
  | nil => exact absurd rfl h
  | cons g gs =>
    simp only [List.map_cons, reduceSum, reduceSum_fold, List.sum_cons]

theorem ownRows_sum {Row : Type} {d : Nat} (f : Row → Fin d → ℚ) (b : Forward Row) (i : Fin d) :
    (b.map (fun p => if p.2 then rowSum f p.1 i else 0)).sum = rowSum f (ownRows b) i := by
  induction b with
  | nil => simp [ownRows, rowSum]
  | cons p b ih =>
    obtain ⟨rows, own⟩ := p
    simp only [List.map_cons, List.sum_cons, ih, ownRows]
    rw [← congrFun (rowSum_append f _ _) i]
    cases own <;> simp [rowSum]

theorem ownRows_count {Row : Type} (n : Row → Nat) (b : Forward Row) :
    (b.map (fun p => if p.2 then ((rowCount n p.1 : Nat) : Int) else 0)).sum =
      ((rowCount n (ownRows b) : Nat) : Int) := by
  induction b with
  | nil => simp [ownRows, rowCount]
  | cons p b ih =>
    obtain ⟨rows, own⟩ := p
    simp only [List.map_cons, List.sum_cons, ih, ownRows]
    cases own <;> simp [rowCount]

theorem closeGlobalSum_report {Row : Type} {d : Nat} (m) (f : Row → Fin d → ℚ) (n : Row → Nat)
    (b : Forward Row) (hb : b ≠ []) :
    closeGlobalSum (report m .globalBatch f n b) =
      if rowCount n (ownRows b) = 0 then .error "cannot finalize empty SumCount"
      else .ok ⟨.evaluation, vec m (batchMean f n b), 1⟩ := by
  unfold closeGlobalSum report
  have e1 : ((b.map (fun p => (sumStat m .globalBatch f n p.1, p.2))).map
      (fun v : SumCount × Bool => if v.2 then v.1.sum else v.1.sum.zeros)) =
      (b.map (fun p => fun i => if p.2 then rowSum f p.1 i else 0)).map (vec m) := by
    rw [List.map_map, List.map_map]
    apply List.map_congr_left
    rintro ⟨rows, own⟩ _
    cases own <;> simp [sumStat, vec_zeros]
  rw [e1, reduceSum_vec m _ (by simpa using hb)]
  simp only [List.map_map, Function.comp_def, ownRows_sum]
  have e2 : (b.map (fun x => if x.2 = true then (sumStat m Scope.globalBatch f n x.1).count else 0)).sum =
      ((rowCount n (ownRows b) : Nat) : Int) := by
    rw [← ownRows_count]; rfl
  rw [e2]
  unfold SumCount.mk?
  rw [if_neg (by omega)]
  dsimp only
  unfold SumCount.finalize
  dsimp only
  by_cases h0 : rowCount n (ownRows b) = 0
  · rw [if_pos h0, if_pos (by exact_mod_cast h0)]
  · rw [if_neg h0, if_neg (by exact_mod_cast h0)]
    dsimp only
    rw [if_neg (by omega)]
    simp only [vec_map]
    congr 3

/-- Closing one global batch: every rank obtains the mean over the rows that count, counted once; the
rows of replayed batches have no influence. It is an error exactly when no row counts. -/
theorem C08_global_batch {Row : Type} {d : Nat} (m : List Nat × String × String)
    (f : Row → Fin d → ℚ) (n : Row → Nat) (b : Forward Row) (hb : b ≠ []) :
    (0 < ((ownRows b).map n).sum →
      closeGlobalSum (report m .globalBatch f n b) = .ok ⟨.evaluation, vec m (fun i =>
        ((ownRows b).map (fun r => f r i)).sum / (((ownRows b).map n).sum : ℚ)), 1⟩) ∧
    (((ownRows b).map n).sum = 0 → ∃ e, closeGlobalSum (report m .globalBatch f n b) = .error e) := by
  rw [closeGlobalSum_report m f n b hb]
  constructor
  · intro h
    rw [if_neg (by unfold rowCount; omega)]
    rfl
  · intro h
    exact ⟨_, if_pos h⟩

/-- Spread over any number of ranks, in any way and any order: the same value. -/
theorem C08_global_batch_topology {Row : Type} {d : Nat} (m : List Nat × String × String)
    (f : Row → Fin d → ℚ) (n : Row → Nat) (b b' : Forward Row) (hb : b ≠ []) (hb' : b' ≠ [])
    (h : (ownRows b).Perm (ownRows b')) :
    closeGlobalSum (report m .globalBatch f n b) = closeGlobalSum (report m .globalBatch f n b') := by
  rw [closeGlobalSum_report m f n b hb, closeGlobalSum_report m f n b' hb', rowCount_perm n h]
  congr 4
  funext i
  unfold batchMean
  rw [(h.map (fun r => f r i)).sum_eq, (h.map n).sum_eq]

/-! #### The loop -/

/-- A rank's running total: `k` own batches seen so far with element sums `S`. -/
def tot {d : Nat} (m : List Nat × String × String) (S : Fin d → ℚ) (k : Nat) : Option Stat :=
  some (.sc ⟨.evaluation, vec m S, k⟩)

/-- a running total, or nothing yet -/
def IsTot {d : Nat} (m : List Nat × String × String) (o : Option Stat) (p : (Fin d → ℚ) × Nat) : Prop :=
  o = tot m p.1 p.2 ∨ (o = none ∧ p = (fun _ => 0, 0))

theorem stepTotals_tot {d : Nat} (schema) (m) (o : Option Stat) (p : (Fin d → ℚ) × Nat)
    (h : IsTot m o p) (v : Fin d → ℚ) (own : Bool) :
    stepTotals schema o (.sc ⟨.evaluation, vec m v, 1⟩) own =
      .ok (tot m (if own then fun i => p.1 i + v i else p.1) (if own then p.2 + 1 else p.2)) := by
  unfold stepTotals
  rcases h with rfl | ⟨rfl, rfl⟩
  · cases own
    · rfl
    · simp only [if_true, tot, accumulate, SumCount.combine, vec_compat]
      rw [if_neg (by simp)]
      unfold SumCount.mk?
      rw [if_neg (by omega), vec_zip]
      rfl
  · cases own
    · simp [tot, zeroStat, vec_zeros]
    · simp only [if_true, accumulate, tot, Except.map]
      simp

theorem stepRanks_tot {d : Nat} (schema) (m) (v : Fin d → ℚ) :
    ∀ (ts : List (Option Stat)) (ps : List ((Fin d → ℚ) × Nat)) (os : List Bool),
      List.Forall₂ (IsTot m) ts ps → ts.length = os.length →
      stepRanks schema (.sc ⟨.evaluation, vec m v, 1⟩) ts os =
        .ok ((List.zipWith (fun (p : (Fin d → ℚ) × Nat) (own : Bool) =>
          (if own then fun i => p.1 i + v i else p.1, if own then p.2 + 1 else p.2)) ps os).map
            (fun q => tot m q.1 q.2)) := by
  intro ts ps os h
  induction h generalizing os with
  | nil => intro hl; cases os <;> simp_all [stepRanks]
  | cons h hs ih =>
    intro hl
    cases os with
    | nil => simp at hl
    | cons o os =>
      simp only [List.length_cons, Nat.add_right_cancel_iff] at hl
      simp only [stepRanks, stepTotals_tot schema m _ _ h, ih os hl, List.zipWith_cons_cons, List.map_cons]

/-- the running totals of all ranks after the batches -/
def runTotals {Row : Type} {d : Nat} (f : Row → Fin d → ℚ) (n : Row → Nat) :
    List ((Fin d → ℚ) × Nat) → List (Forward Row) → List ((Fin d → ℚ) × Nat)
  | ps, [] => ps
  | ps, b :: rest => runTotals f n (List.zipWith (fun (p : (Fin d → ℚ) × Nat) (own : Bool) =>
      (if own then fun i => p.1 i + batchMean f n b i else p.1, if own then p.2 + 1 else p.2)) ps
      (b.map Prod.snd)) rest

theorem isTot_map {d : Nat} (m) (l : List ((Fin d → ℚ) × Nat)) :
    List.Forall₂ (IsTot m) (l.map (fun q => tot m q.1 q.2)) l := by
  induction l with
  | nil => exact .nil
  | cons a l ih => exact .cons (Or.inl rfl) ih

theorem validateLoop_run {Row : Type} {d : Nat} (schema) (m) (f : Row → Fin d → ℚ) (n : Row → Nat)
    (world : Nat) (hw : 0 < world) :
    ∀ (bs : List (Forward Row)) (ts : List (Option Stat)) (ps : List ((Fin d → ℚ) × Nat)),
      List.Forall₂ (IsTot m) ts ps → ts.length = world → (∀ b ∈ bs, b.length = world) →
      (∀ b ∈ bs, 0 < rowCount n (ownRows b)) →
      ∃ ts', validateLoop schema ts (bs.map (report m .globalBatch f n)) = .ok ts' ∧
        List.Forall₂ (IsTot m) ts' (runTotals f n ps bs) ∧
        (bs ≠ [] → ts' = (runTotals f n ps bs).map (fun q => tot m q.1 q.2)) := by
  intro bs
  induction bs with
  | nil => intro ts ps h _ _ _; exact ⟨ts, rfl, h, fun h => absurd rfl h⟩
  | cons b bs ih =>
    intro ts ps h hl hlen hpos
    have hlb := hlen b (List.mem_cons_self ..)
    have hb : b ≠ [] := by intro h0; rw [h0] at hlb; simp at hlb; omega
    have hp := hpos b (List.mem_cons_self ..)
    simp only [List.map_cons, validateLoop, closeGlobalSum_report m f n b hb]
    rw [if_neg (by omega)]
    dsimp only
    have e : (report m .globalBatch f n b).map Prod.snd = b.map Prod.snd := by
      simp [report, Function.comp_def]
    rw [e, stepRanks_tot schema m _ ts ps _ h (by simp [hl, hlb])]
    dsimp only
    set ps' := List.zipWith (fun (p : (Fin d → ℚ) × Nat) (own : Bool) =>
          (if own then fun i => p.1 i + batchMean f n b i else p.1, if own then p.2 + 1 else p.2)) ps
          (b.map Prod.snd) with hps'
    have hlp : ps.length = world := by rw [← h.length_eq, hl]
    obtain ⟨ts', h1, h2, h3⟩ := ih (ps'.map (fun q => tot m q.1 q.2)) ps' (isTot_map m ps')
      (by simp [hps', hlp, hlb]) (fun x hx => hlen x (List.mem_cons_of_mem _ hx))
      (fun x hx => hpos x (List.mem_cons_of_mem _ hx))
    refine ⟨ts', h1, h2, ?_⟩
    intro _
    by_cases hbs : bs = []
    · subst hbs
      simp only [List.map_nil, validateLoop, Except.ok.injEq] at h1
      rw [← h1]
      rfl
    · exact h3 hbs

theorem zipWith_sums {Row : Type} {d : Nat} (v : Fin d → ℚ) :
    ∀ (ps : List ((Fin d → ℚ) × Nat)) (b : Forward Row), ps.length = b.length →
      (∀ i, ((List.zipWith (fun (p : (Fin d → ℚ) × Nat) (own : Bool) =>
          (if own then fun i => p.1 i + v i else p.1, if own then p.2 + 1 else p.2)) ps
          (b.map Prod.snd)).map (fun q => q.1 i)).sum = (ps.map (fun q => q.1 i)).sum + owners b * v i) ∧
      ((List.zipWith (fun (p : (Fin d → ℚ) × Nat) (own : Bool) =>
          (if own then fun i => p.1 i + v i else p.1, if own then p.2 + 1 else p.2)) ps
          (b.map Prod.snd)).map (fun q => q.2)).sum = (ps.map (fun q => q.2)).sum + owners b := by
  intro ps
  induction ps with
  | nil => intro b hl; cases b <;> simp_all [owners]
  | cons p ps ih =>
    intro b hl
    cases b with
    | nil => simp at hl
    | cons q b =>
      obtain ⟨rows, own⟩ := q
      simp only [List.length_cons, Nat.add_right_cancel_iff] at hl
      obtain ⟨h1, h2⟩ := ih b hl
      constructor
      · intro i
        simp only [List.map_cons, List.zipWith_cons_cons, List.sum_cons, h1]
        cases own
        · simp [owners]; ring
        · simp [owners]; ring
      · simp only [List.map_cons, List.zipWith_cons_cons, List.sum_cons, h2]
        cases own
        · simp [owners]; ring
        · simp [owners]; ring

theorem runTotals_sums {Row : Type} {d : Nat} (f : Row → Fin d → ℚ) (n : Row → Nat) (world : Nat) :
    ∀ (bs : List (Forward Row)) (ps : List ((Fin d → ℚ) × Nat)), ps.length = world →
      (∀ b ∈ bs, b.length = world) →
      (runTotals f n ps bs).length = world ∧
      (∀ i, ((runTotals f n ps bs).map (fun q => q.1 i)).sum =
        (ps.map (fun q => q.1 i)).sum + (bs.map (fun b => owners b * batchMean f n b i)).sum) ∧
      ((runTotals f n ps bs).map (fun q => q.2)).sum =
        (ps.map (fun q => q.2)).sum + (bs.map owners).sum := by
  intro bs
  induction bs with
  | nil => intro ps hl _; simp [runTotals, hl]
  | cons b bs ih =>
    intro ps hl hlen
    have hlb := hlen b (List.mem_cons_self ..)
    obtain ⟨h1, h2⟩ := zipWith_sums (batchMean f n b) ps b (by omega)
    obtain ⟨k0, k1, k2⟩ := ih (List.zipWith (fun (p : (Fin d → ℚ) × Nat) (own : Bool) =>
      (if own then fun i => p.1 i + batchMean f n b i else p.1, if own then p.2 + 1 else p.2)) ps
      (b.map Prod.snd)) (by simp [hl, hlb]) (fun x hx => hlen x (List.mem_cons_of_mem _ hx))
    refine ⟨k0, ?_, ?_⟩
    · intro i
      simp only [runTotals, k1, h1, List.map_cons, List.sum_cons]
      ring
    · simp only [runTotals, k2, h2, List.map_cons, List.sum_cons]
      ring

theorem sumCounts_tot {d : Nat} (m) (l : List ((Fin d → ℚ) × Nat)) :
    sumCounts (l.map (fun q => tot m q.1 q.2)) = l.map (fun q => ⟨.evaluation, vec m q.1, q.2⟩) := by
  induction l with
  | nil => rfl
  | cons a l ih => simp only [List.map_cons, tot, sumCounts, List.cons.injEq, true_and]; exact ih

theorem ownRows_of_owners {Row : Type} (b : Forward Row) (hz : owners b = 0) : ownRows b = [] := by
  induction b with
  | nil => rfl
  | cons p b ih =>
    obtain ⟨rows, own⟩ := p
    cases own
    · simp only [owners, List.filter_cons] at hz ih ⊢
      simpa [ownRows] using ih (by simpa using hz)
    · simp [owners] at hz

/-- The validation value of a metric: the mean of the values of the global batches, each weighted by the
number of ranks that had a batch of their own in it. -/
theorem C08_validation {Row : Type} {d : Nat} (schema : SufficientStats → Bool)
    (m : List Nat × String × String) (f : Row → Fin d → ℚ) (n : Row → Nat) (world : Nat) (hw : 0 < world)
    (bs : List (Forward Row)) (hbs : bs ≠ []) (hlen : ∀ b ∈ bs, b.length = world)
    (hpos : ∀ b ∈ bs, 0 < ((ownRows b).map n).sum) :
    validateMetric schema world (bs.map (report m .globalBatch f n)) =
      .ok (some (vec m (fun i =>
        (bs.map (fun b => owners b * batchMean f n b i)).sum / ((bs.map owners).sum : ℚ)))) := by
  unfold validateMetric
  have h0 : List.Forall₂ (IsTot m) (List.replicate world (none : Option Stat))
      (List.replicate world ((fun _ : Fin d => (0 : ℚ)), 0)) := by
    clear hw hlen
    induction world with
    | zero => exact .nil
    | succ k ih => exact .cons (Or.inr ⟨rfl, rfl⟩) ih
  obtain ⟨ts', h1, _, h3⟩ := validateLoop_run schema m f n world hw bs _ _ h0 (by simp) hlen hpos
  rw [h1]
  dsimp only
  rw [h3 hbs, sumCounts_tot]
  obtain ⟨k0, k1, k2⟩ := runTotals_sums f n world bs
    (List.replicate world ((fun _ : Fin d => (0 : ℚ)), 0)) (by simp) hlen
  set R := runTotals f n (List.replicate world ((fun _ : Fin d => (0 : ℚ)), 0)) bs with hR
  have hRne : R ≠ [] := by intro h; rw [h] at k0; simp at k0; omega
  simp only [List.map_replicate, List.sum_replicate, nsmul_zero, zero_add] at k1 k2
  unfold gatherSum
  have e1 : (R.map (fun q => (⟨.evaluation, vec m q.1, q.2⟩ : SumCount))).map (·.sum) =
      (R.map (fun q => q.1)).map (vec m) := by simp [Function.comp_def]
  have e2 : ((R.map (fun q => (⟨.evaluation, vec m q.1, q.2⟩ : SumCount))).map (·.count)).sum =
      (((bs.map owners).sum : Nat) : Int) := by
    rw [← k2]
    clear hRne k0 k1 k2 hR h3 h1
    induction R with
    | nil => rfl
    | cons a R ih =>
      simp only [List.map_cons, List.sum_cons] at ih ⊢
      rw [ih]; push_cast; rfl
  have hown : 0 < (bs.map owners).sum := by
    obtain ⟨b, rest, rfl⟩ := List.exists_cons_of_ne_nil hbs
    have hb := hpos b (List.mem_cons_self ..)
    have : 0 < owners b := by
      rw [Nat.pos_iff_ne_zero]
      intro hz
      have := ownRows_of_owners b hz
      rw [this] at hb
      simp at hb
    simp only [List.map_cons, List.sum_cons]
    omega
  rw [e1, e2, reduceSum_vec m _ (by simpa using hRne)]
  dsimp only
  rw [if_neg (by exact_mod_cast hown.ne'), vec_map]
  simp only [List.map_map, Function.comp_def, k1]
  congr 3

/-- When every rank has a batch of its own in every forward (planned datasets; one process): the plain
mean of the batch values. It depends only on the global batches, not on the number of ranks or on how
each batch is split. -/
theorem C08_validation_topology {Row : Type} {d : Nat} (schema : SufficientStats → Bool)
    (m : List Nat × String × String) (f : Row → Fin d → ℚ) (n : Row → Nat)
    (batches : List (List Row)) (hne : batches ≠ []) (hpos : ∀ rows ∈ batches, 0 < (rows.map n).sum)
    (world : Nat) (hw : 0 < world) (bs : List (Forward Row))
    (hlen : ∀ b ∈ bs, b.length = world) (hown : ∀ b ∈ bs, ∀ p ∈ b, p.2 = true)
    (hrows : List.Forall₂ (fun b rows => (ownRows b).Perm rows) bs batches) :
    validateMetric schema world (bs.map (report m .globalBatch f n)) =
      .ok (some (vec m (fun i =>
        (batches.map (fun rows => (rows.map (fun r => f r i)).sum / ((rows.map n).sum : ℚ))).sum /
          (batches.length : ℚ)))) := by
  have hbs : bs ≠ [] := by intro h; subst h; cases hrows; exact hne rfl
  have hp : ∀ b ∈ bs, 0 < ((ownRows b).map n).sum := by
    clear hbs hown hlen hne
    induction hrows with
    | nil => simp
    | cons h hs ih =>
      intro b hb
      rcases List.mem_cons.mp hb with rfl | hb
      · rw [(h.map n).sum_eq]; exact hpos _ (List.mem_cons_self ..)
      · exact ih (fun r hr => hpos r (List.mem_cons_of_mem _ hr)) b hb
  rw [C08_validation schema m f n world hw bs hbs hlen hp]
  congr 3
  funext i
  have ho : ∀ b ∈ bs, owners b = world := by
    intro b hb
    unfold owners
    rw [List.filter_eq_self.mpr (hown b hb), hlen b hb]
  have hs1 : (bs.map owners).sum = bs.length * world := by
    rw [List.map_congr_left ho]; simp
  have hs2 : (bs.map (fun b => (owners b : ℚ) * batchMean f n b i)).sum =
      world * (batches.map (fun rows => (rows.map (fun r => f r i)).sum / ((rows.map n).sum : ℚ))).sum := by
    clear hbs hown hlen hp hs1 hne hpos
    induction hrows with
    | nil => simp
    | cons h hs ih =>
      simp only [List.map_cons, List.sum_cons]
      rw [ih (fun b hb => ho b (List.mem_cons_of_mem _ hb)), ho _ (List.mem_cons_self ..)]
      unfold batchMean
      rw [(h.map n).sum_eq, (h.map (fun r => f r i)).sum_eq]
      ring
  rw [hs1, hs2, hrows.length_eq]
  have hwq : (world : ℚ) ≠ 0 := by positivity
  have hbq : (batches.length : ℚ) ≠ 0 := by
    have := List.length_pos_of_ne_nil hne
    positivity
  push_cast
  field_simp

end Verif.Stats
