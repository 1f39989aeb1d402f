import Verif.Loss.Terms

/-! All terms of a batch. -/

namespace Verif.Loss

open Verif.Stats Verif.Total

/-- the validation statistics of named terms on one part -/
def evalDict (ts : List (String × Term Part)) (part : Part) : Dict RawTerm :=
  ts.map (fun t => (t.1, t.2.head.raw part))

/-- the losses of named terms over all parts -/
def trainDict (log : ℚ → ℚ) (ts : List (String × Term Part)) (parts : List Part) : Dict ℚ :=
  ts.map (fun t => (t.1, t.2.head.value log parts))

/-- the terms training sums -/
def trainTerms (log : ℚ → ℚ) (ts : List (String × Term Part)) (parts : List Part) : List (ℚ × Bool) :=
  ts.map (fun t => (t.2.weight * t.2.head.value log parts, t.2.dependent))

def GoodTerms (parts : List Part) (ts : List (String × Term Part)) : Prop :=
  ∀ t ∈ ts, t.2.head.wellNamed ∧ t.2.head.nonEmpty parts

section

variable (P : Prims) (dd : DD) (cfg : Cfg) (cells : Nat) (parts : List Part)
  (vt pt : List Row → Mat) (hvt : RowMat vt) (hpt : RowMat pt) (hptc : ∀ rows, (pt rows).cols = cells)
  (mask : Option (Row → List ℚ)) (W : Option (List Row → Mat)) (hW : ∀ w, W = some w → RowMat w) (kd : Bool)
  (vqValue : String → ℚ)

include hvt hpt hptc hW

theorem aux_loop (aux : List (String × AuxKind)) (hk : ∀ a ∈ aux, AuxOk P.log cells parts vqValue a.1 a.2)
    (hrows : RowsOk cells mask (allRows parts)) : ∀ i : Nat,
    ∃ ts : List (String × Term Part), GoodTerms parts ts ∧
      (∀ (part : Part) (rows : List Row) (sel : List Bool), SelTo rows sel part.2 → ∀ terms d,
        evalAuxLoop P dd cfg sel (vt part.2) (pt part.2) (maskOf cells mask part.2) (W.map (fun w => w part.2)) kd
          (auxesOf part vqValue rows i aux) terms d =
          .ok (terms ++ rawTerms (ts.map Prod.snd) part, update d (evalDict ts part))) ∧
      (∀ (part0 : Part) terms d,
        trainAuxLoop P cfg (vt (allRows parts)) (pt (allRows parts)) (maskOf cells mask (allRows parts))
          (W.map (fun w => w (allRows parts))) (kdTemp cfg kd) (auxesOf part0 vqValue (allRows parts) i aux) terms d =
          .ok (terms ++ trainTerms P.log ts parts, update d (trainDict P.log ts parts))) := by
  induction aux with
  | nil =>
    intro i
    refine ⟨[], fun t ht => absurd ht (by simp), ?_, ?_⟩
    · intro part rows sel _ terms d
      simp [auxesOf, evalAuxLoop, rawTerms, evalDict, update]
    · intro part0 terms d
      simp [auxesOf, trainAuxLoop, trainTerms, trainDict, update]
  | cons a aux ih =>
    intro i
    obtain ⟨name, k⟩ := a
    obtain ⟨ts, hg, he, ht⟩ := ih (fun x hx => hk x (List.mem_cons_of_mem _ hx)) (i + 1)
    rcases aux_step P dd cfg cells parts vt pt hvt hpt hptc mask W hW kd vqValue i name k
      (hk _ (List.mem_cons_self ..)) hrows with ⟨h1, h2⟩ | ⟨pname, t, hw, hn, h1, h2⟩
    · refine ⟨ts, hg, ?_, ?_⟩
      · intro part rows sel hs terms d
        rw [auxesOf, evalAuxLoop, h1 part rows sel hs]
        exact he part rows sel hs terms d
      · intro part0 terms d
        rw [auxesOf, trainAuxLoop, h2 part0]
        exact ht part0 terms d
    · refine ⟨(pname, t) :: ts, ?_, ?_, ?_⟩
      · intro x hx
        rcases List.mem_cons.1 hx with rfl | hx
        · exact ⟨hw, hn⟩
        · exact hg x hx
      · intro part rows sel hs terms d
        rw [auxesOf, evalAuxLoop, h1 part rows sel hs]
        dsimp only
        rw [he part rows sel hs]
        simp [rawTerms, evalDict, update]
      · intro part0 terms d
        rw [auxesOf, trainAuxLoop, h2 part0]
        dsimp only
        rw [ht part0]
        simp [trainTerms, trainDict, update]

end

/-! ### The terms of a batch -/

/-- the teacher given to `_compute_evaluation_terms` and `_compute_loss_terms`: that of the batch, or none -/
def teacherOf (sc : Schema) (kd : Bool) (rows : List Row) : Option (Mat × Mat) :=
  if kd then some (matOf sc.teacherValueCols Row.teacherValue rows, matOf sc.cells Row.teacherPolicy rows) else none

/-- value, policy, and the rest of the terms of one branch -/
structure Branch where
  value : Head Part
  policy : Head Part
  rest : List (String × Term Part)

/-- the named terms of a branch -/
def Branch.named (cfg : Cfg) (br : Branch) : List (String × Term Part) :=
  ("value_loss", ⟨br.value, true, cfg.valueLambda⟩) :: ("policy_loss", ⟨br.policy, true, cfg.policyLambda⟩) :: br.rest

theorem kdTemperature_rows (P : Prims) (T : ℚ) {v t : List Row → Mat} (hv : RowMat v) (ht : RowMat t) :
    ∃ v' t', RowMat v' ∧ RowMat t' ∧ ∀ rows, applyKdTemperature P (v rows) (t rows) T = (v' rows, t' rows) := by
  have ht' := ht
  obtain ⟨c, f, hf⟩ := ht'
  by_cases hc : c > 1
  · refine ⟨_, fun rows => ((t rows).map (· / T)).onRows P.softmax, hv.map (· / T),
      (ht.map _).onRows _, fun rows => ?_⟩
    have : (t rows).cols > 1 := by rw [hf]; exact hc
    simp only [applyKdTemperature, if_pos this]
  · refine ⟨_, fun rows => ((t rows).map (· / T)).map P.sigmoid, hv.map (· / T),
      (ht.map _).map _, fun rows => ?_⟩
    have : ¬ (t rows).cols > 1 := by rw [hf]; exact hc
    simp only [applyKdTemperature, if_neg this]

theorem kdPolicy_rows (P : Prims) (T : ℚ) (cells : Nat) (mask : Option (Row → List ℚ)) {p t : List Row → Mat}
    (hp : RowMat p) (ht : RowMat t) :
    ∃ p' t', RowMat p' ∧ RowMat t' ∧ (∀ rows, (p' rows).cols = (p rows).cols) ∧
      (∀ rows, (t' rows).cols = (t rows).cols) ∧
      ∀ rows, kdPolicy P (p rows) (t rows) (maskOf cells mask rows) T = (p' rows, t' rows) := by
  cases mask with
  | none =>
    exact ⟨_, _, hp.map (· / T), (ht.map (· / T)).onRows P.softmax, fun _ => rfl, fun _ => rfl, fun rows => rfl⟩
  | some f =>
    exact ⟨_, _, hp.map (· / T), (((ht.fillZero (RowMat.matOf cells f) (-1000000)).map (· / T)).onRows
      P.softmax).fillZero (RowMat.matOf cells f) 0, fun _ => rfl, fun _ => rfl, fun rows => rfl⟩

/-- the weights of the cells, as a function of the rows -/
def weightOf (cfg : Cfg) (cells : Nat) : Option (List Row → Mat) :=
  if cfg.ignoreForbidden then some (fun rows => (matOf cells Row.forbidden rows).map (fun f => 1 - f)) else none

theorem weightOf_rowMat (cfg : Cfg) (cells : Nat) : ∀ w, weightOf cfg cells = some w → RowMat w := by
  intro w hw
  unfold weightOf at hw
  split_ifs at hw
  cases hw
  exact (RowMat.matOf _ _).map _

theorem policyWeight_rows (cfg : Cfg) (cells : Nat) (rows : List Row) :
    policyWeight cfg (matOf cells Row.forbidden rows) = (weightOf cfg cells).map (fun w => w rows) := by
  unfold policyWeight weightOf
  split_ifs <;> rfl

theorem boardMask_rows (sc : Schema) (rows : List Row) :
    (if sc.hasMask then some (matOf sc.cells Row.boardMask rows) else none) = maskOf sc.cells sc.mask rows := by
  unfold maskOf Schema.mask
  split_ifs <;> rfl

/-- One branch (against the teacher or the data): what every rank's validation makes of its part, and what
training makes of all rows. -/
theorem branch_terms (P : Prims) (dd : DD) (cfg : Cfg) (sc : Schema) (parts : List Part) (vqValue : String → ℚ)
    (hk : ∀ a ∈ sc.aux, AuxOk P.log sc.cells parts vqValue a.1 a.2)
    (hrows : RowsOk sc.cells sc.mask (allRows parts)) (kd : Bool) :
    ∃ br : Branch, GoodTerms parts (br.named cfg) ∧
      (∀ (part : Part) (rows : List Row) (isReal : Option (List Bool)) (sel : List Bool),
        evaluationMask (batchOf sc part vqValue rows isReal) = .ok sel → SelTo rows sel part.2 →
        evaluationTerms P dd cfg (batchOf sc part vqValue rows isReal) (teacherOf sc kd rows) =
          .ok (rawTerms ((br.named cfg).map Prod.snd) part,
            update (evalDict ((br.named cfg).take 2) part) (evalDict br.rest part))) ∧
      (∀ part0 : Part,
        lossTerms P cfg (batchOf sc part0 vqValue (allRows parts) none) (teacherOf sc kd (allRows parts)) =
          .ok ((cfg.valueLambda * br.value.value P.log parts + cfg.policyLambda * br.policy.value P.log parts, true) ::
              trainTerms P.log br.rest parts,
            update (trainDict P.log ((br.named cfg).take 2) parts) (trainDict P.log br.rest parts))) := by
  -- targets
  have htv : RowMat (fun rows => if kd then matOf sc.teacherValueCols Row.teacherValue rows
      else matOf sc.valueTargetCols Row.valueTarget rows) := by
    cases kd with
    | true => exact RowMat.matOf _ _
    | false => exact RowMat.matOf _ _
  have htp : RowMat (fun rows => if kd then matOf sc.cells Row.teacherPolicy rows
      else matOf sc.cells Row.policyTarget rows) := by
    cases kd with
    | true => exact RowMat.matOf _ _
    | false => exact RowMat.matOf _ _
  have htpc : ∀ rows, (if kd then matOf sc.cells Row.teacherPolicy rows
      else matOf sc.cells Row.policyTarget rows).cols = sc.cells := by
    intro rows; cases kd <;> rfl
  -- value
  obtain ⟨v1, vt, hv1, hvt, hvv⟩ : ∃ v1 vt : List Row → Mat, RowMat v1 ∧ RowMat vt ∧ ∀ rows,
      (if kd then applyKdTemperature P (matOf sc.valueCols Row.value rows)
          (matOf sc.teacherValueCols Row.teacherValue rows) cfg.kdT
        else (matOf sc.valueCols Row.value rows, matOf sc.valueTargetCols Row.valueTarget rows)) =
        (v1 rows, vt rows) := by
    cases kd with
    | true => exact kdTemperature_rows P cfg.kdT (RowMat.matOf _ _) (RowMat.matOf _ _)
    | false => exact ⟨_, _, RowMat.matOf _ _, RowMat.matOf _ _, fun rows => rfl⟩
  obtain ⟨hdv, hv_w, hv_n, hv_r, hv_v⟩ := headFun_head (value_headFun P dd cfg.vtype (convert_rowVals hv1 hvt)
    cfg.valueGamma) P.log parts hrows.1
  -- policy
  obtain ⟨p1, t1, hp1, ht1, hp1c, ht1c, hprep⟩ := prepare_ok sc.cells sc.mask
    (RowMat.matOf sc.cells Row.policy) htp (fun rows => htpc rows)
  obtain ⟨p2, t2, hp2, ht2, hp2c, ht2c, hpp⟩ : ∃ p2 t2 : List Row → Mat, RowMat p2 ∧ RowMat t2 ∧
      (∀ rows, (p2 rows).cols = sc.cells) ∧ (∀ rows, (t2 rows).cols = sc.cells) ∧ ∀ rows,
      (if kd then kdPolicy P (p1 rows) (t1 rows) (maskOf sc.cells sc.mask rows) cfg.kdT else (p1 rows, t1 rows)) =
        (p2 rows, t2 rows) := by
    cases kd with
    | true =>
      obtain ⟨a, b, ha, hb, hac, hbc, h⟩ := kdPolicy_rows P cfg.kdT sc.cells sc.mask hp1 ht1
      exact ⟨a, b, ha, hb, fun rows => (hac rows).trans (hp1c rows), fun rows => (hbc rows).trans (ht1c rows), h⟩
    | false => exact ⟨p1, t1, hp1, ht1, hp1c, ht1c, fun rows => rfl⟩
  obtain ⟨hdp, hp_w, hp_n, hp_r, hp_v⟩ := headFun_head (policy_headFun P dd cfg.ptype hp2 ht2
    (weightOf_rowMat cfg sc.cells) cfg.policyGamma) P.log parts
    ⟨hrows.1, fun rows => by rw [hp2c]; exact hrows.2.1⟩
  -- regularizer
  obtain ⟨hdr, hr_w, hr_n, hr_r, hr_v⟩ := headFun_head (reg_headFun dd sc.cells sc.cells Row.policy sc.mask)
    P.log parts hrows
  -- auxiliary losses
  obtain ⟨ts, hg, hae, hat⟩ := aux_loop P dd cfg sc.cells parts vt t2 hvt ht2 ht2c sc.mask
    (weightOf cfg sc.cells) (weightOf_rowMat cfg sc.cells) kd vqValue sc.aux hk hrows 0
  refine ⟨⟨hdv, hdp, (if cfg.regLambda > 0 then [("policy_reg", ⟨hdr, false, cfg.regLambda⟩)] else []) ++ ts⟩,
    ?_, ?_, ?_⟩
  · intro x hx
    simp only [Branch.named, List.mem_cons, List.mem_append] at hx
    rcases hx with rfl | rfl | hx | hx
    · exact ⟨hv_w, hv_n⟩
    · exact ⟨hp_w, hp_n⟩
    · split_ifs at hx
      · rw [List.mem_singleton] at hx; subst hx; exact ⟨hr_w, hr_n⟩
      · cases hx
    · exact hg x hx
  · intro part rows isReal sel hsel hs
    have hvv' := hvv part.2
    have hpp' := hpp part.2
    have hprep' := hprep part.2
    have hae' := hae part rows sel hs
    have e1 := hv_r part
    have e2 := hp_r part
    have e3 := hr_r part
    unfold evaluationTerms
    rw [hsel]
    simp only [batchOf, hs.matRows, hs.mat, boardMask_rows]
    have hmask : (maskOf sc.cells sc.mask rows).map (fun m => m.selected sel) = maskOf sc.cells sc.mask part.2 := by
      unfold maskOf
      cases sc.mask with
      | none => rfl
      | some f => simp only [Option.map_some, hs.mat]
    rw [hmask, policyWeight_rows]
    cases kd with
    | true =>
      simp only [teacherOf, if_true, hs.mat, Option.isSome_some] at hvv' hpp' hprep' ⊢
      simp only [hvv', hprep', hpp', hae']
      by_cases hreg : cfg.regLambda > 0
      · simp [hreg, Branch.named, rawTerms, evalDict, update, e1, e2, e3, maskOf]
      · simp [hreg, Branch.named, rawTerms, evalDict, update, e1, e2]
    | false =>
      simp only [teacherOf, Bool.false_eq_true, if_false, hs.mat, Option.isSome_none] at hvv' hpp' hprep' ⊢
      obtain ⟨ha, hb⟩ := Prod.mk.inj hvv'
      obtain ⟨hc, hd⟩ := Prod.mk.inj hpp'
      simp only [ha, hb, hprep', hc, hd, hae']
      by_cases hreg : cfg.regLambda > 0
      · simp [hreg, Branch.named, rawTerms, evalDict, update, e1, e2, e3, maskOf]
      · simp [hreg, Branch.named, rawTerms, evalDict, update, e1, e2]
  · intro part0
    have hvv' := hvv (allRows parts)
    have hpp' := hpp (allRows parts)
    have hprep' := hprep (allRows parts)
    have hat' := hat part0
    unfold lossTerms
    simp only [batchOf, boardMask_rows]
    rw [policyWeight_rows]
    cases kd with
    | true =>
      simp only [teacherOf, if_true, Option.map_some, kdTemp] at hvv' hpp' hprep' hat' ⊢
      simp only [hvv', hprep', hpp', hat']
      by_cases hreg : cfg.regLambda > 0
      · simp [hreg, Branch.named, trainTerms, trainDict, update, ← hv_v, ← hp_v, ← hr_v, maskOf, allRows]
      · simp [hreg, Branch.named, trainTerms, trainDict, update, ← hv_v, ← hp_v, allRows]
    | false =>
      simp only [teacherOf, Bool.false_eq_true, if_false, Option.map_none, kdTemp] at hvv' hpp' hprep' hat' ⊢
      obtain ⟨ha, hb⟩ := Prod.mk.inj hvv'
      obtain ⟨hc, hd⟩ := Prod.mk.inj hpp'
      simp only [ha, hb, hprep', hc, hd, hat']
      by_cases hreg : cfg.regLambda > 0
      · simp [hreg, Branch.named, trainTerms, trainDict, update, ← hv_v, ← hp_v, ← hr_v, maskOf, allRows]
      · simp [hreg, Branch.named, trainTerms, trainDict, update, ← hv_v, ← hp_v, allRows]

end Verif.Loss
