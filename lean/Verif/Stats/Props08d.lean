import Verif.Stats.Props08c

/-!
C08, continued: global batches of `SufficientStats`, and metrics of scope `evaluation`.
-/

namespace Verif.Stats

/-! ### SufficientStats over one global batch -/

/-- The parts that count. -/
def ownParts {Part : Type} (b : List (Part × Bool)) : List Part := (b.filter (·.2)).map Prod.fst

theorem get?_zeros {α : Type} (l : List α) (name : α → String) (v : α → Ten ℚ)
    (hnd : (l.map name).Nodup) (x : α) (hx : x ∈ l) :
    get? (name x) ((l.map (fun a => (name a, v a))).map (fun kv => (kv.1, kv.2.zeros))) =
      some (v x).zeros := by
  rw [List.map_map]
  exact get?_map l name (fun a => (v a).zeros) hnd x hx

theorem zeroSuff_suffStat {Part : Type} (sc fin) (ts : List (TSpec Part)) (cs : List (CSpec Part))
    (ps : List Part) : zeroSuff (suffStat sc fin ts cs ps) = suffStat sc fin ts cs [] := by
  unfold zeroSuff suffStat
  simp [Function.comp_def, vec_zeros]

theorem ownParts_sum {Part : Type} (g : Part → ℚ) (b : List (Part × Bool)) :
    (b.map (fun p => if p.2 then g p.1 else 0)).sum = ((ownParts b).map g).sum := by
  induction b with
  | nil => rfl
  | cons p b ih =>
    obtain ⟨p, own⟩ := p
    cases own <;> simp_all [ownParts]

theorem ownParts_count {Part : Type} (g : Part → Nat) (b : List (Part × Bool)) :
    (b.map (fun p => if p.2 then ((g p.1 : Nat) : Int) else 0)).sum =
      ((((ownParts b).map g).sum : Nat) : Int) := by
  induction b with
  | nil => rfl
  | cons p b ih =>
    obtain ⟨p, own⟩ := p
    cases own <;> simp_all [ownParts]

theorem filterMap_some {α β : Type} (f : α → Option β) (g : α → β) (l : List α)
    (h : ∀ x ∈ l, f x = some (g x)) : l.filterMap f = l.map g := by
  induction l with
  | nil => rfl
  | cons a l ih =>
    rw [List.filterMap_cons_some (h a (List.mem_cons_self ..)), List.map_cons,
      ih (fun x hx => h x (List.mem_cons_of_mem _ hx))]

/-- what rank `p` offers, possibly emptied -/
def offered {Part : Type} (sc : Scope) (fin : String) (ts : List (TSpec Part)) (cs : List (CSpec Part))
    (p : Part × Bool) : SufficientStats :=
  if p.2 then suffStat sc fin ts cs [p.1] else suffStat sc fin ts cs []

theorem offered_tensor {Part : Type} (sc fin) (ts : List (TSpec Part)) (cs : List (CSpec Part))
    (hts : (ts.map TSpec.name).Nodup) (p : Part × Bool) (t : TSpec Part) (ht : t ∈ ts) :
    get? t.name (offered sc fin ts cs p).tensors =
      some (vec t.info (fun i => if p.2 then t.val p.1 i else 0)) := by
  unfold offered
  split_ifs with h
  · have := get?_map ts TSpec.name (fun t => vec t.info (fun i => ([p.1].map (fun p => t.val p i)).sum)) hts t ht
    simp only [suffStat]
    rw [this]; simp
  · have := get?_map ts TSpec.name
      (fun t => vec t.info (fun i => (([] : List Part).map (fun p => t.val p i)).sum)) hts t ht
    simp only [suffStat]
    rw [this]; simp

theorem offered_count {Part : Type} (sc fin) (ts : List (TSpec Part)) (cs : List (CSpec Part))
    (hcs : (cs.map CSpec.name).Nodup) (p : Part × Bool) (c : CSpec Part) (hc : c ∈ cs) :
    get? c.name (offered sc fin ts cs p).counts =
      some (if p.2 then ((c.val p.1 : Nat) : Int) else 0) := by
  unfold offered
  split_ifs with h
  · have := get?_map cs CSpec.name (fun c => ((([p.1].map c.val).sum : Nat) : Int)) hcs c hc
    simp only [suffStat]
    rw [this]; simp
  · have := get?_map cs CSpec.name (fun c => (((([] : List Part).map c.val).sum : Nat) : Int)) hcs c hc
    simp only [suffStat]
    rw [this]; simp

theorem reduceSuff_offered {Part : Type} (schema : SufficientStats → Bool) (hs : NamesOnly schema)
    (sc sc' : Scope) (fin : String) (ts : List (TSpec Part)) (cs : List (CSpec Part))
    (hts : (ts.map TSpec.name).Nodup) (hcs : (cs.map CSpec.name).Nodup)
    (hok : schema (suffStat sc fin ts cs []) = true) (b : List (Part × Bool)) (hb : b ≠ []) :
    reduceSuff schema sc' (b.map (offered sc fin ts cs)) = .ok (suffStat sc' fin ts cs (ownParts b)) := by
  obtain ⟨x, rest, rfl⟩ := List.exists_cons_of_ne_nil hb
  generalize hB : x :: rest = B at *
  have hx : B.map (offered sc fin ts cs) = offered sc fin ts cs x :: rest.map (offered sc fin ts cs) := by
    rw [← hB]; rfl
  have key : (SufficientStats.mk sc' (offered sc fin ts cs x).finalizer
      ((offered sc fin ts cs x).tensors.filterMap (fun kv =>
        (reduceSum ((B.map (offered sc fin ts cs)).filterMap (fun y => get? kv.1 y.tensors))).map
          (fun t => (kv.1, t))))
      ((offered sc fin ts cs x).counts.map (fun kv =>
        (kv.1, ((B.map (offered sc fin ts cs)).filterMap (fun y => get? kv.1 y.counts)).sum)))) =
      suffStat sc' fin ts cs (ownParts B) := by
    have hf : (offered sc fin ts cs x).finalizer = fin := by unfold offered; split_ifs <;> rfl
    have ht : (offered sc fin ts cs x).tensors =
        ts.map (fun t => (t.name, vec t.info (fun i => if x.2 then t.val x.1 i else 0))) := by
      unfold offered; split_ifs <;> simp [suffStat]
    have hc : (offered sc fin ts cs x).counts =
        cs.map (fun c => (c.name, if x.2 then ((c.val x.1 : Nat) : Int) else 0)) := by
      unfold offered; split_ifs <;> simp [suffStat]
    rw [hf, ht, hc]
    unfold suffStat
    simp only [SufficientStats.mk.injEq, true_and]
    constructor
    · rw [List.filterMap_map]
      apply filterMap_some
      intro t htm
      simp only [Function.comp_def, List.filterMap_map]
      rw [filterMap_some _ (fun p => vec t.info (fun i => if p.2 then t.val p.1 i else 0)) B
        (fun p _ => offered_tensor sc fin ts cs hts p t htm)]
      rw [show B.map (fun p => vec t.info (fun i => if p.2 then t.val p.1 i else 0)) =
        (B.map (fun p => fun i => if p.2 then t.val p.1 i else 0)).map (vec t.info) by
          rw [List.map_map]; rfl]
      rw [reduceSum_vec t.info _ (by simpa using hb)]
      simp only [Option.map_some, List.map_map, Function.comp_def]
      congr 3
      funext i
      exact ownParts_sum (fun p => t.val p i) B
    · rw [List.map_map]
      apply List.map_congr_left
      intro c hcm
      simp only [Function.comp_def, List.filterMap_map]
      rw [filterMap_some _ (fun p => if p.2 then ((c.val p.1 : Nat) : Int) else 0) B
        (fun p _ => offered_count sc fin ts cs hcs p c hcm)]
      rw [ownParts_count]
  rw [hx]
  unfold reduceSuff
  dsimp only
  rw [← hx, key]
  unfold SufficientStats.mk?
  rw [if_neg, if_neg]
  · rw [Bool.not_eq_false, ← hok]
    apply hs <;> simp [suffStat, Function.comp_def]
  · simp only [suffStat, List.any_map, Function.comp_def, List.any_eq_true, decide_eq_true_eq]
    rintro ⟨c, -, h⟩
    omega

/-- A global batch of `SufficientStats`: the value is the finalizer applied to the sums over the parts
that count, entered once in the evaluation mean; an error of the finalizer is the error. So it does not
depend on the number of ranks, on their order, or on replayed parts. -/
theorem C08_global_sufficient {Part : Type} (schema : SufficientStats → Bool) (hs : NamesOnly schema)
    (fin : String) (finalize : SufficientStats → Except String (Ten ℚ))
    (ts : List (TSpec Part)) (cs : List (CSpec Part))
    (hts : (ts.map TSpec.name).Nodup) (hcs : (cs.map CSpec.name).Nodup)
    (hok : schema (suffStat .globalBatch fin ts cs []) = true) (b : List (Part × Bool)) (hb : b ≠ []) :
    closeGlobalSuff schema finalize (b.map (fun p => (suffStat .globalBatch fin ts cs [p.1], p.2))) =
      (finalize (suffStat .globalBatch fin ts cs (ownParts b))).map (fun v => ⟨.evaluation, v, 1⟩) := by
  unfold closeGlobalSuff
  have e : (b.map (fun p => (suffStat .globalBatch fin ts cs [p.1], p.2))).map
      (fun v : SufficientStats × Bool => if v.2 then v.1 else zeroSuff v.1) =
      b.map (offered .globalBatch fin ts cs) := by
    rw [List.map_map]
    apply List.map_congr_left
    intro p _
    simp only [Function.comp_def, offered, zeroSuff_suffStat]
  rw [e, reduceSuff_offered schema hs _ _ fin ts cs hts hcs hok b hb]
  dsimp only
  cases finalize (suffStat .globalBatch fin ts cs (ownParts b)) with
  | error e => rfl
  | ok v => rfl

/-! ### Scope `evaluation`: the ranks accumulate locally and reduce once -/

/-- rows of one rank that count -/
theorem rankTotals_sum {Row : Type} {d : Nat} (schema) (m) (f : Row → Fin d → ℚ) (n : Row → Nat) :
    ∀ (fw : Forward Row) (rows : List Row),
      rankTotals schema (some (.sc (sumStat m .evaluation f n rows)))
        (fw.map (fun p => (Stat.sc (sumStat m .evaluation f n p.1), p.2))) =
      .ok (some (.sc (sumStat m .evaluation f n (rows ++ ownRows fw)))) := by
  intro fw
  induction fw with
  | nil => intro rows; simp [rankTotals, ownRows]
  | cons p fw ih =>
    intro rows
    obtain ⟨r, own⟩ := p
    simp only [List.map_cons, rankTotals, ownRows]
    cases own
    · simp only [stepTotals, Bool.false_eq_true, if_false, List.nil_append]
      exact ih rows
    · simp only [stepTotals, if_true, keep, keepLocal, accumulate, sumStat_combine, Except.map]
      rw [ih, List.append_assoc]

theorem rankTotals_sum_start {Row : Type} {d : Nat} (schema) (m) (f : Row → Fin d → ℚ) (n : Row → Nat)
    (fw : Forward Row) (hne : fw ≠ []) :
    rankTotals schema none (fw.map (fun p => (Stat.sc (sumStat m .evaluation f n p.1), p.2))) =
      .ok (some (.sc (sumStat m .evaluation f n (ownRows fw)))) := by
  obtain ⟨p, fw, rfl⟩ := List.exists_cons_of_ne_nil hne
  obtain ⟨r, own⟩ := p
  simp only [List.map_cons, rankTotals, ownRows]
  cases own
  · simp only [stepTotals, Bool.false_eq_true, if_false, List.nil_append, keep, keepLocal, zeroStat]
    have : (Stat.sc ⟨.evaluation, (sumStat m .evaluation f n r).sum.zeros.zeros, 0⟩) =
        Stat.sc (sumStat m .evaluation f n []) := by
      simp only [sumStat, vec_zeros]
      rfl
    rw [this, rankTotals_sum, List.nil_append]
  · simp only [stepTotals, if_true, keep, keepLocal, accumulate, Except.map]
    rw [rankTotals_sum]

/-- A `SumCount` metric of scope `evaluation`: the value is the mean over all rows that count, of all
forwards of all ranks (each rank having made at least one forward). -/
theorem C08_evaluation_mean {Row : Type} {d : Nat} (schema : SufficientStats → Bool)
    (m : List Nat × String × String) (f : Row → Fin d → ℚ) (n : Row → Nat)
    (ranks : List (Forward Row)) (hr : ranks ≠ []) (hne : ∀ fw ∈ ranks, fw ≠ [])
    (all : List Row) (hall : all.Perm (ranks.flatMap ownRows)) (hpos : 0 < (all.map n).sum) :
    ∃ totals : List SumCount,
      List.Forall₂ (fun fw t => rankTotals schema none
        (fw.map (fun p => (Stat.sc (sumStat m .evaluation f n p.1), p.2))) = .ok (some (.sc t)))
        ranks totals ∧
      gatherSum totals = some (vec m (fun i =>
        (all.map (fun r => f r i)).sum / ((all.map n).sum : ℚ))) := by
  refine ⟨ranks.map (fun fw => sumStat m .evaluation f n (ownRows fw)), ?_, ?_⟩
  · clear hall hr
    induction ranks with
    | nil => exact .nil
    | cons fw ranks ih =>
      exact .cons (rankTotals_sum_start schema m f n fw (hne fw (List.mem_cons_self ..)))
        (ih (fun x hx => hne x (List.mem_cons_of_mem _ hx)))
  · unfold gatherSum
    have e1 : (ranks.map (fun fw => sumStat m .evaluation f n (ownRows fw))).map (·.sum) =
        (ranks.map (fun fw => rowSum f (ownRows fw))).map (vec m) := by
      rw [List.map_map, List.map_map]; rfl
    rw [e1, reduceSum_vec m _ (by simpa using hr)]
    have e2 : ∀ i, ((ranks.map (fun fw => rowSum f (ownRows fw))).map (fun g => g i)).sum =
        (all.map (fun r => f r i)).sum := by
      intro i
      rw [(hall.map (fun r => f r i)).sum_eq]
      clear hall hr hne e1
      induction ranks with
      | nil => simp
      | cons fw ranks ih =>
        simp only [List.map_cons, List.sum_cons, ih, List.flatMap_cons, List.map_append, List.sum_append]
        rfl
    have e3 : ((ranks.map (fun fw => sumStat m .evaluation f n (ownRows fw))).map (·.count)).sum =
        (((all.map n).sum : Nat) : Int) := by
      rw [(hall.map n).sum_eq]
      clear hall hr hne e1 e2
      induction ranks with
      | nil => simp
      | cons fw ranks ih =>
        simp only [List.map_cons, List.sum_cons, ih, List.flatMap_cons, List.map_append, List.sum_append]
        push_cast
        rfl
    simp only [e2, e3]
    rw [if_neg (by omega), vec_map]
    congr 2

/-! ### SufficientStats of scope `evaluation` -/

theorem rankTotals_suff {Part : Type} (schema : SufficientStats → Bool) (hs : NamesOnly schema)
    (fin : String) (ts : List (TSpec Part)) (cs : List (CSpec Part))
    (hts : (ts.map TSpec.name).Nodup) (hcs : (cs.map CSpec.name).Nodup)
    (hok : schema (suffStat .evaluation fin ts cs []) = true) :
    ∀ (fw : List (Part × Bool)) (ps : List Part),
      rankTotals schema (some (.ss (suffStat .evaluation fin ts cs ps)))
        (fw.map (fun p => (Stat.ss (suffStat .evaluation fin ts cs [p.1]), p.2))) =
      .ok (some (.ss (suffStat .evaluation fin ts cs (ps ++ ownParts fw)))) := by
  intro fw
  induction fw with
  | nil => intro ps; simp [rankTotals, ownParts]
  | cons p fw ih =>
    intro ps
    obtain ⟨r, own⟩ := p
    simp only [List.map_cons, rankTotals]
    cases own
    · simp only [stepTotals, Bool.false_eq_true, if_false]
      rw [ih ps]; rfl
    · simp only [stepTotals, if_true, keep, accumulate,
        suffStat_combine schema hs .evaluation fin ts cs hts hcs hok, Except.map]
      rw [ih, List.append_assoc]
      rfl

theorem rankTotals_suff_start {Part : Type} (schema : SufficientStats → Bool) (hs : NamesOnly schema)
    (fin : String) (ts : List (TSpec Part)) (cs : List (CSpec Part))
    (hts : (ts.map TSpec.name).Nodup) (hcs : (cs.map CSpec.name).Nodup)
    (hok : schema (suffStat .evaluation fin ts cs []) = true) (fw : List (Part × Bool)) (hne : fw ≠ []) :
      rankTotals schema none
        (fw.map (fun p => (Stat.ss (suffStat .evaluation fin ts cs [p.1]), p.2))) =
      .ok (some (.ss (suffStat .evaluation fin ts cs (ownParts fw)))) := by
  obtain ⟨p, fw, rfl⟩ := List.exists_cons_of_ne_nil hne
  obtain ⟨r, own⟩ := p
  simp only [List.map_cons, rankTotals]
  cases own
  · simp only [stepTotals, Bool.false_eq_true, if_false, keep, zeroStat]
    have : Stat.ss { zeroSuff (suffStat .evaluation fin ts cs [r]) with
        tensors := (zeroSuff (suffStat .evaluation fin ts cs [r])).tensors.map (fun kv => (kv.1, kv.2.zeros)),
        counts := (zeroSuff (suffStat .evaluation fin ts cs [r])).counts.map (fun kv => (kv.1, 0)) } =
        Stat.ss (suffStat .evaluation fin ts cs []) := by
      rw [zeroSuff_suffStat]
      exact congrArg Stat.ss (zeroSuff_suffStat .evaluation fin ts cs [])
    rw [this, rankTotals_suff schema hs fin ts cs hts hcs hok]
    rfl
  · simp only [stepTotals, if_true, keep, accumulate, Except.map]
    rw [rankTotals_suff schema hs fin ts cs hts hcs hok]
    rfl

theorem suffStat_flatten {Part : Type} (sc : Scope) (fin : String) (ts : List (TSpec Part))
    (cs : List (CSpec Part)) (xss : List (List Part)) :
    suffStat sc fin (ts.map (fun t => (⟨t.name, t.info, t.dim, fun (ps : List Part) i =>
        (ps.map (fun p => t.val p i)).sum⟩ : TSpec (List Part))))
      (cs.map (fun c => (⟨c.name, fun ps => (ps.map c.val).sum⟩ : CSpec (List Part)))) xss =
    suffStat sc fin ts cs xss.flatten := by
  unfold suffStat
  simp only [List.map_map, Function.comp_def, SufficientStats.mk.injEq, true_and]
  constructor
  · apply List.map_congr_left
    intro t _
    congr 2
    funext i
    induction xss with
    | nil => rfl
    | cons x xss ih => simp only [List.map_cons, List.sum_cons, ih, List.flatten_cons, List.map_append,
        List.sum_append]
  · apply List.map_congr_left
    intro c _
    congr 2
    induction xss with
    | nil => rfl
    | cons x xss ih => simp only [List.map_cons, List.sum_cons, ih, List.flatten_cons, List.map_append,
        List.sum_append]

theorem suffStat_single {Part : Type} (sc : Scope) (fin : String) (ts : List (TSpec Part))
    (cs : List (CSpec Part)) (xs : List Part) :
    suffStat sc fin (ts.map (fun t => (⟨t.name, t.info, t.dim, fun (ps : List Part) i =>
        (ps.map (fun p => t.val p i)).sum⟩ : TSpec (List Part))))
      (cs.map (fun c => (⟨c.name, fun ps => (ps.map c.val).sum⟩ : CSpec (List Part)))) [xs] =
    suffStat sc fin ts cs xs := by
  rw [suffStat_flatten]; simp

theorem suffStat_perm {Part : Type} (sc : Scope) (fin : String) (ts : List (TSpec Part))
    (cs : List (CSpec Part)) {xs ys : List Part} (h : xs.Perm ys) :
    suffStat sc fin ts cs xs = suffStat sc fin ts cs ys := by
  unfold suffStat
  simp only [SufficientStats.mk.injEq, true_and]
  constructor
  · apply List.map_congr_left
    intro t _
    congr 2
    funext i
    exact (h.map _).sum_eq
  · apply List.map_congr_left
    intro c _
    rw [(h.map c.val).sum_eq]

/-- A `SufficientStats` metric of scope `evaluation`: the finalizer applied to the sums over all parts
that count, of all forwards of all ranks. -/
theorem C08_evaluation_sufficient {Part : Type} (schema : SufficientStats → Bool) (hs : NamesOnly schema)
    (fin : String) (finalize : SufficientStats → Except String (Ten ℚ))
    (ts : List (TSpec Part)) (cs : List (CSpec Part))
    (hts : (ts.map TSpec.name).Nodup) (hcs : (cs.map CSpec.name).Nodup)
    (hok : schema (suffStat .evaluation fin ts cs []) = true)
    (ranks : List (List (Part × Bool))) (hr : ranks ≠ []) (hne : ∀ fw ∈ ranks, fw ≠ [])
    (all : List Part) (hall : all.Perm (ranks.flatMap ownParts)) :
    ∃ totals : List SufficientStats,
      List.Forall₂ (fun fw t => rankTotals schema none
        (fw.map (fun p => (Stat.ss (suffStat .evaluation fin ts cs [p.1]), p.2))) = .ok (some (.ss t)))
        ranks totals ∧
      gatherSuff schema finalize totals = finalize (suffStat .evaluation fin ts cs all) := by
  refine ⟨ranks.map (fun fw => suffStat .evaluation fin ts cs (ownParts fw)), ?_, ?_⟩
  · clear hall hr
    induction ranks with
    | nil => exact .nil
    | cons fw ranks ih =>
      exact .cons (rankTotals_suff_start schema hs fin ts cs hts hcs hok fw (hne fw (List.mem_cons_self ..)))
        (ih (fun x hx => hne x (List.mem_cons_of_mem _ hx)))
  · set ts' : List (TSpec (List Part)) := ts.map (fun t => ⟨t.name, t.info, t.dim, fun (ps : List Part) i =>
        (ps.map (fun p => t.val p i)).sum⟩) with hts'
    set cs' : List (CSpec (List Part)) := cs.map (fun c => ⟨c.name, fun ps => (ps.map c.val).sum⟩) with hcs'
    have e1 : ranks.map (fun fw => suffStat .evaluation fin ts cs (ownParts fw)) =
        (ranks.map (fun fw => (ownParts fw, true))).map (offered .evaluation fin ts' cs') := by
      rw [List.map_map]
      apply List.map_congr_left
      intro fw _
      simp only [Function.comp_def, offered, if_true, hts', hcs', suffStat_single]
    have e2 : ownParts (ranks.map (fun fw => (ownParts fw, true))) = ranks.map ownParts := by
      unfold ownParts
      rw [List.filter_eq_self.mpr (by simp)]
      simp
    have e3 : suffStat .evaluation fin ts' cs' [] = suffStat .evaluation fin ts cs [] := by
      rw [hts', hcs', suffStat_flatten]; simp
    have key := reduceSuff_offered schema hs .evaluation .evaluation fin ts' cs'
      (by simpa [hts', Function.comp_def] using hts) (by simpa [hcs', Function.comp_def] using hcs)
      (by rw [e3]; exact hok) (ranks.map (fun fw => (ownParts fw, true))) (by simpa using hr)
    rw [e2, ← e1] at key
    have e4 : suffStat .evaluation fin ts' cs' (ranks.map ownParts) = suffStat .evaluation fin ts cs all := by
      rw [hts', hcs', suffStat_flatten]
      exact suffStat_perm _ _ _ _ (by rw [← List.flatMap_def]; exact hall.symm)
    rw [e4] at key
    obtain ⟨fw, ranks, rfl⟩ := List.exists_cons_of_ne_nil hr
    unfold gatherSuff
    simp only [List.map_cons] at key ⊢
    have : (suffStat .evaluation fin ts cs (ownParts fw)).scope = .evaluation := rfl
    simp only [this, key]

/-! ### Maximum -/

/-- A rank's running maximum: its valid count is the number of entries that count and, if there are
any, its value is the greatest. -/
def MaxTot (m : String × String) (es : List ℚ) (t : Maximum) : Prop :=
  ∃ v, t = ⟨⟨[], m.1, m.2, [v]⟩, (es.length : Int)⟩ ∧ (es ≠ [] → v = top es)

/-- what a rank reports: the maximum of the entries of the rows -/
def maxReport {Row : Type} (m : String × String) (e : Row → List ℚ) (rows : List Row) : Maximum :=
  maxStat m e (.rows rows)

theorem maxReport_tot {Row : Type} (m) (e : Row → List ℚ) (rows : List Row) :
    MaxTot m (rows.flatMap e) (maxReport m e rows) := ⟨_, rfl, fun _ => rfl⟩

theorem maxTot_combine (m : String × String) (A B : List ℚ) (a b : Maximum) (ha : MaxTot m A a)
    (hb : MaxTot m B b) : ∃ c, a.combine b = .ok c ∧ MaxTot m (A ++ B) c := by
  obtain ⟨va, rfl, ha⟩ := ha
  obtain ⟨vb, rfl, hb⟩ := hb
  unfold Maximum.combine
  rw [if_neg (by simp [Ten.compat])]
  dsimp only
  by_cases hA : A = []
  · subst hA
    rw [if_pos (by simp)]
    exact ⟨_, rfl, vb, by simp, by simpa using hb⟩
  · have hAl : 0 < A.length := List.length_pos_of_ne_nil hA
    rw [if_neg (by omega)]
    by_cases hB : B = []
    · subst hB
      rw [if_pos (by simp)]
      exact ⟨_, rfl, va, by simp, by simpa using ha⟩
    · have hBl : 0 < B.length := List.length_pos_of_ne_nil hB
      rw [if_neg (by omega)]
      unfold Maximum.mk?
      rw [if_neg (by omega)]
      refine ⟨_, rfl, max va vb, ?_, ?_⟩
      · simp [Ten.zip]
      · intro _; rw [top_append, ha hA, hb hB]

theorem rankTotals_max {Row : Type} (schema) (m) (e : Row → List ℚ) :
    ∀ (fw : Forward Row) (A : List ℚ) (a : Maximum), MaxTot m A a →
      ∃ c, rankTotals schema (some (.mx a))
        (fw.map (fun p => (Stat.mx (maxReport m e p.1), p.2))) = .ok (some (.mx c)) ∧
        MaxTot m (A ++ (ownRows fw).flatMap e) c := by
  intro fw
  induction fw with
  | nil => intro A a h; exact ⟨a, rfl, by simpa [ownRows] using h⟩
  | cons p fw ih =>
    intro A a h
    obtain ⟨r, own⟩ := p
    simp only [List.map_cons, rankTotals, ownRows]
    cases own
    · simp only [stepTotals, Bool.false_eq_true, if_false, List.nil_append]
      exact ih A a h
    · obtain ⟨c, h1, h2⟩ := maxTot_combine m A _ a _ h (maxReport_tot m e r)
      simp only [stepTotals, if_true, keep, keepMax, accumulate, h1, Except.map]
      obtain ⟨c', h3, h4⟩ := ih _ c h2
      exact ⟨c', h3, by simpa [List.flatMap_append, List.append_assoc] using h4⟩

theorem rankTotals_max_start {Row : Type} (schema) (m) (e : Row → List ℚ) (fw : Forward Row)
    (hne : fw ≠ []) :
    ∃ c, rankTotals schema none
        (fw.map (fun p => (Stat.mx (maxReport m e p.1), p.2))) = .ok (some (.mx c)) ∧
        MaxTot m ((ownRows fw).flatMap e) c := by
  obtain ⟨p, fw, rfl⟩ := List.exists_cons_of_ne_nil hne
  obtain ⟨r, own⟩ := p
  simp only [List.map_cons, rankTotals, ownRows]
  cases own
  · simp only [stepTotals, Bool.false_eq_true, if_false, List.nil_append, keep, keepMax, zeroStat]
    have h : MaxTot m [] ⟨(maxReport m e r).value, 0⟩ := ⟨_, rfl, by simp⟩
    obtain ⟨c, h1, h2⟩ := rankTotals_max schema m e fw [] _ h
    exact ⟨c, h1, by simpa using h2⟩
  · simp only [stepTotals, if_true, keep, keepMax, accumulate, Except.map]
    obtain ⟨c, h1, h2⟩ := rankTotals_max schema m e fw _ _ (maxReport_tot m e r)
    exact ⟨c, h1, by simpa [List.flatMap_append] using h2⟩

theorem top_nil : top [] = ⊥ := rfl

theorem reduceMax_fold (m : String × String) (vs : List (WithBot ℚ)) (v : WithBot ℚ) :
    (vs.map (fun v => (⟨[], m.1, m.2, [v]⟩ : Ten (WithBot ℚ)))).foldl (fun a b => Ten.zip max a b)
      (⟨[], m.1, m.2, [v]⟩ : Ten (WithBot ℚ)) = ⟨[], m.1, m.2, [vs.foldl max v]⟩ := by
  induction vs generalizing v with
  | nil => rfl
  | cons w vs ih =>
    simp only [List.map_cons, List.foldl_cons]
    rw [← ih]
    rfl

theorem foldl_max_top (As : List (List ℚ)) (A : List ℚ) :
    (As.map top).foldl max (top A) = top (A ++ As.flatten) := by
  induction As generalizing A with
  | nil => simp
  | cons B As ih =>
    simp only [List.map_cons, List.foldl_cons, ← top_append, ih, List.flatten_cons, List.append_assoc]

theorem gatherMax_tots (m : String × String) (As : List (List ℚ)) (cs : List Maximum) (hne : As ≠ [])
    (h : List.Forall₂ (MaxTot m) As cs) :
    gatherMax cs = if As.flatten = [] then .error "evaluation maximum has no values"
      else .ok ⟨[], m.1, m.2, [top As.flatten]⟩ := by
  have e1 : cs.map (fun x => if x.validCount ≠ 0 then x.value else x.value.map (fun _ => (⊥ : WithBot ℚ))) =
      (As.map top).map (fun v => (⟨[], m.1, m.2, [v]⟩ : Ten (WithBot ℚ))) := by
    clear hne
    induction h with
    | nil => rfl
    | @cons A c As cs h _ ih =>
      simp only [List.map_cons, ih]
      congr 1
      obtain ⟨v, rfl, hv⟩ := h
      by_cases hA : A = []
      · subst hA; simp [Ten.map, top_nil]
      · have : 0 < A.length := List.length_pos_of_ne_nil hA
        rw [if_pos (by dsimp only; omega), hv hA]
  have e2 : (cs.map (·.validCount)).sum = ((As.flatten.length : Nat) : Int) := by
    clear hne e1
    induction h with
    | nil => rfl
    | cons h _ ih =>
      obtain ⟨v, rfl, hv⟩ := h
      simp only [List.map_cons, List.sum_cons, ih, List.flatten_cons, List.length_append]
      push_cast
      rfl
  unfold gatherMax gatherMaxWith
  rw [e1, e2]
  obtain ⟨A, As, rfl⟩ := List.exists_cons_of_ne_nil hne
  simp only [List.map_cons, reduceMax, reduceMax_fold, foldl_max_top]
  simp only [List.flatten_cons]
  by_cases hf : A ++ As.flatten = []
  · rw [if_pos (by rw [hf]; rfl), if_pos hf]
  · have : 0 < (A ++ As.flatten).length := List.length_pos_of_ne_nil hf
    rw [if_neg (by omega), if_neg hf]

/-- A `Maximum` metric, provided the collective takes the maximum: the greatest entry over the rows that
count, of all forwards of all ranks; an error exactly when no entry counts. -/
theorem C08_evaluation_maximum {Row : Type} (schema : SufficientStats → Bool) (m : String × String)
    (e : Row → List ℚ) (ranks : List (Forward Row)) (hr : ranks ≠ []) (hne : ∀ fw ∈ ranks, fw ≠ []) :
    ∃ totals : List Maximum,
      List.Forall₂ (fun fw t => rankTotals schema none
        (fw.map (fun p => (Stat.mx (maxReport m e p.1), p.2))) = .ok (some (.mx t))) ranks totals ∧
      ((∃ x, x ∈ (ranks.flatMap ownRows).flatMap e) →
        ∃ v : ℚ, gatherMax totals = .ok ⟨[], m.1, m.2, [(v : WithBot ℚ)]⟩ ∧
          v ∈ (ranks.flatMap ownRows).flatMap e ∧ ∀ x ∈ (ranks.flatMap ownRows).flatMap e, x ≤ v) ∧
      ((¬ ∃ x, x ∈ (ranks.flatMap ownRows).flatMap e) → ∃ er, gatherMax totals = .error er) := by
  have hex : ∃ totals : List Maximum,
      List.Forall₂ (fun fw t => rankTotals schema none
        (fw.map (fun p => (Stat.mx (maxReport m e p.1), p.2))) = .ok (some (.mx t))) ranks totals ∧
      List.Forall₂ (MaxTot m) (ranks.map (fun fw => (ownRows fw).flatMap e)) totals := by
    clear hr
    induction ranks with
    | nil => exact ⟨[], .nil, .nil⟩
    | cons fw ranks ih =>
      obtain ⟨ts, h1, h2⟩ := ih (fun x hx => hne x (List.mem_cons_of_mem _ hx))
      obtain ⟨c, h3, h4⟩ := rankTotals_max_start schema m e fw (hne fw (List.mem_cons_self ..))
      exact ⟨c :: ts, .cons h3 h1, .cons h4 h2⟩
  obtain ⟨ts, h1, h2⟩ := hex
  have hg := gatherMax_tots m _ ts (by simpa using hr) h2
  have ef : (ranks.map (fun fw => (ownRows fw).flatMap e)).flatten = (ranks.flatMap ownRows).flatMap e := by
    clear hr hne h1 h2 hg
    induction ranks with
    | nil => rfl
    | cons fw ranks ih => simp only [List.map_cons, List.flatten_cons, ih, List.flatMap_cons,
        List.flatMap_append]
  rw [ef] at hg
  refine ⟨ts, h1, ?_, ?_⟩
  · rintro ⟨x, hx⟩
    have hn := List.ne_nil_of_mem hx
    obtain ⟨y, hy, hye⟩ := top_mem _ hn
    refine ⟨y, ?_, hy, ?_⟩
    · rw [hg, if_neg hn, hye]
    · intro z hz
      have := top_le _ z hz
      rw [hye] at this
      exact WithBot.coe_le_coe.mp this
  · intro hn
    rw [hg, if_pos (List.eq_nil_iff_forall_not_mem.mpr (fun x hx => hn ⟨x, hx⟩))]
    exact ⟨_, rfl⟩

/-- A collective that sums whatever `reduction` it is asked for, unless it is "mean" (this is how the
`reduce` of the accelerate library is documented: "mean", "sum" or "none"). -/
def reduceBySum (xs : List (Ten (WithBot ℚ))) : Option (Ten (WithBot ℚ)) :=
  match xs with
  | [] => none
  | x :: r => some (r.foldl (fun a b => a.zip (fun p q => p + q) b) x)

/-- With such a collective the reported maximum of two ranks with maxima 1 and 2 is 3. -/
theorem C08_maximum_needs_max_collective :
    gatherMaxWith reduceBySum [maxReport ("f32", "cpu") (fun x : ℚ => [x]) [1],
      maxReport ("f32", "cpu") (fun x : ℚ => [x]) [2]] = .ok ⟨[], "f32", "cpu", [((3 : ℚ) : WithBot ℚ)]⟩ := by
  decide +kernel

/-! ### Non-vacuity -/

/-- two ranks, the second with a replayed batch in the second forward -/
def exBatches : List (Forward ℚ) := [[([1, 2], true), ([3], true)], [([10], true), ([3], false)]]

example : validateMetric simpleSchema 2
    (exBatches.map (report ([], "f32", "cpu") .globalBatch (fun (r : ℚ) (_ : Fin 1) => r) (fun _ => 1))) =
    .ok (some ⟨[], "f32", "cpu", [(2 * 2 + 1 * 10) / 3]⟩) := by decide +kernel

example : (∀ b ∈ exBatches, b.length = 2) ∧ (∀ b ∈ exBatches, 0 < ((ownRows b).map (fun _ => 1)).sum) := by
  decide +kernel

/-- the same two global batches on one rank and on two: the same value -/
example : List.Forall₂ (fun b rows => (ownRows b).Perm rows)
    ([[([1, 2, 3], true)], [([10, 4], true)]] : List (Forward Nat)) [[1, 2, 3], [10, 4]] ∧
  List.Forall₂ (fun b rows => (ownRows b).Perm rows)
    ([[([3], true), ([1, 2], true)], [([4], true), ([10], true)]] : List (Forward Nat))
      [[1, 2, 3], [10, 4]] := by
  exact ⟨.cons (by decide) (.cons (by decide) .nil), .cons (by decide) (.cons (by decide) .nil)⟩

/-- a tree of three parts, one of them empty -/
example : ((Tree.node (.leaf [1, 2]) (.node (.leaf []) (.leaf [(6 : ℚ)]))).map
    (sumStat ([], "f32", "cpu") .evaluation (fun (r : ℚ) (_ : Fin 1) => r) (fun _ => 1))).combine
    SumCount.combine = .ok ⟨.evaluation, ⟨[], "f32", "cpu", [9]⟩, 3⟩ := by decide +kernel

/-- the replicated constants 2 and 3 are rejected -/
example : constantMean (1 / 8388608) (vec ([], "f32", "cpu") (fun _ : Fin 1 => (2 : ℚ) + 3))
    (vec ([], "f32", "cpu") (fun _ : Fin 1 => (2 : ℚ) ^ 2 + 3 ^ 2)) 2 =
    .error "replicated constant differs across ranks" := by decide +kernel

end Verif.Stats
