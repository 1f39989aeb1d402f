/-
C99: splitting a training batch over processes and micro-steps does not change the loss that is minimised.

The loss is `compute_supervised_losses` (model: `Loss/Model.lean`).  The model of the accumulation
(trainer/base.py:3730-3787 with `accelerator.accumulate`, `accelerator.backward`): every micro-step's loss is
divided by `gradient_accumulation_steps`, its gradient is added to the process' gradient, and the processes'
gradients are averaged before the optimiser step.
-/
import Verif.Loss.Props76b
import Mathlib.Tactic.Positivity
import Mathlib.Tactic.FieldSimp
import Mathlib.Tactic.Module
import Mathlib.Algebra.Module.LinearMap.Defs
import Mathlib.Algebra.Module.Rat
import Mathlib.Algebra.BigOperators.Group.List.Basic
import Mathlib.Algebra.Order.BigOperators.Group.List
import Mathlib.Algebra.Order.Ring.Rat
import Mathlib.LinearAlgebra.Pi

namespace Verif.Loss

open Verif.Stats Verif.Total

/-! ### Specification -/

/-- the mean of a quantity of the rows -/
def rowMean (f : Row → ℚ) (rows : List Row) : ℚ := (rows.map f).sum / rows.length

/-- the average of some numbers -/
def average (xs : List ℚ) : ℚ := xs.sum / xs.length

/-- no policy regularisation is switched on: neither the main one nor an auxiliary one -/
def NoReg (cfg : Cfg) (sc : Schema) : Prop :=
  cfg.regLambda ≤ 0 ∧ ∀ name c, (name, AuxKind.policyReg c) ∈ sc.aux → cfg.lambdas name = none ∧ cfg.regLambda = 0

/-- the weights of the regularisations are not negative -/
def RegWeights (cfg : Cfg) (sc : Schema) : Prop :=
  0 ≤ cfg.regLambda ∧ ∀ name c w, (name, AuxKind.policyReg c) ∈ sc.aux → cfg.lambdas name = some w → 0 ≤ w

/-- the auxiliary losses fit the policy, and none comes from a vector quantiser -/
def PlainAux (sc : Schema) : Prop :=
  ∀ a ∈ sc.aux, match a.2 with
    | .policyLoss c => c = sc.cells
    | .vq _ => False
    | _ => True

/-! ### Losses as functions of the rows -/

/-- a mean over the rows plus multiples of squared means over the rows -/
structure Form where
  lin : Row → ℚ
  sq : List (ℚ × (Row → ℚ))

def Form.eval (F : Form) (rows : List Row) : ℚ :=
  rowMean F.lin rows + (F.sq.map fun c => c.1 * rowMean c.2 rows ^ 2).sum

def Form.add (F G : Form) : Form := ⟨fun r => F.lin r + G.lin r, F.sq ++ G.sq⟩
def Form.scale (c : ℚ) (F : Form) : Form := ⟨fun r => c * F.lin r, F.sq.map fun d => (c * d.1, d.2)⟩

theorem sum_map_add' (f g : Row → ℚ) (rows : List Row) :
    (rows.map fun r => f r + g r).sum = (rows.map f).sum + (rows.map g).sum := by
  induction rows with
  | nil => simp
  | cons r rows ih => simp only [List.map_cons, List.sum_cons, ih]; ring

theorem sum_map_scale {α : Type} (c : ℚ) (f : α → ℚ) (rows : List α) :
    (rows.map fun r => c * f r).sum = c * (rows.map f).sum := by
  induction rows with
  | nil => simp
  | cons r rows ih => simp only [List.map_cons, List.sum_cons, ih]; ring

theorem rowMean_add (f g : Row → ℚ) (rows : List Row) :
    rowMean (fun r => f r + g r) rows = rowMean f rows + rowMean g rows := by
  unfold rowMean; rw [sum_map_add', add_div]

theorem rowMean_scale (c : ℚ) (f : Row → ℚ) (rows : List Row) :
    rowMean (fun r => c * f r) rows = c * rowMean f rows := by
  unfold rowMean; rw [sum_map_scale, mul_div_assoc]

theorem Form.eval_add (F G : Form) (rows : List Row) : (F.add G).eval rows = F.eval rows + G.eval rows := by
  unfold Form.eval Form.add
  simp only [rowMean_add, List.map_append, List.sum_append]
  ring

theorem Form.eval_scale (c : ℚ) (F : Form) (rows : List Row) : (F.scale c).eval rows = c * F.eval rows := by
  unfold Form.eval Form.scale
  simp only [rowMean_scale, List.map_map]
  have : (F.sq.map ((fun d : ℚ × (Row → ℚ) => d.1 * rowMean d.2 rows ^ 2) ∘ fun d => (c * d.1, d.2)))
      = F.sq.map fun d => c * (d.1 * rowMean d.2 rows ^ 2) := by
    apply List.map_congr_left
    intro d _
    simp only [Function.comp_apply]; ring
  rw [this, sum_map_scale]; ring

/-- a loss that is a mean over the rows -/
def Linear (x : List Row → ℚ) : Prop := ∃ f, ∀ rows, x rows = rowMean f rows

theorem Linear.form {x : List Row → ℚ} (h : Linear x) : ∃ F : Form, F.sq = [] ∧ ∀ rows, x rows = F.eval rows := by
  obtain ⟨f, hf⟩ := h
  exact ⟨⟨f, []⟩, rfl, fun rows => by rw [hf]; simp [Form.eval]⟩

theorem RowList.linear {F : List Row → List ℚ} (h : RowList F) : Linear (fun rows => mean (F rows)) := by
  obtain ⟨f, hf⟩ := h
  exact ⟨f, fun rows => by simp only [hf, mean, rowMean, List.length_map]⟩

theorem linear_zero : Linear (fun _ => 0) := ⟨fun _ => 0, fun rows => by simp [rowMean]⟩

theorem RowMat.linear {M : List Row → Mat} (h : RowMat M) : Linear (fun rows => (M rows).sum / (M rows).numel) := by
  obtain ⟨c, f, hf⟩ := h
  refine ⟨fun r => (f r).sum / c, fun rows => ?_⟩
  simp only [hf, Mat.sum, Mat.numel, List.length_map, List.map_map, rowMean]
  have : (rows.map fun r => (f r).sum / (c : ℚ)) = rows.map fun r => (c : ℚ)⁻¹ * (f r).sum := by
    apply List.map_congr_left; intro r _; rw [div_eq_inv_mul]
  rw [this, sum_map_scale]
  push_cast
  show (rows.map (List.sum ∘ f)).sum / _ = _
  rw [show (List.sum ∘ f) = fun r => (f r).sum from rfl, div_eq_mul_inv, div_eq_mul_inv, mul_inv]
  ring

theorem value_linear (P : Prims) (ty : VType) {V T : List Row → Val} (h : RowVals V T) (gamma : ℚ) :
    Linear (fun rows => dispatchValueLoss P ty (V rows) (T rows) gamma) := by
  cases ty with
  | MSE =>
    obtain ⟨F, hF, -, h1, -⟩ := mse_rowList P h
    simp only [dispatchValueLoss, h1]
    exact hF.linear
  | KL => exact (ce_rowList P h (W := none) (by simp) 0 true).linear
  | CE => exact (ce_rowList P h (W := none) (by simp) gamma false).linear

theorem policy_linear (P : Prims) (ty : PType) {p t : List Row → Mat} (hp : RowMat p) (ht : RowMat t)
    {W : Option (List Row → Mat)} (hW : ∀ w, W = some w → RowMat w) (gamma : ℚ) :
    Linear (fun rows => dispatchPolicyLoss P ty (p rows) (t rows) (W.map (fun w => w rows)) gamma) := by
  have hv : RowVals (fun rows => .two (p rows)) (fun rows => .two (t rows)) := by
    obtain ⟨c, f, hf⟩ := hp
    obtain ⟨d, g, hg⟩ := ht
    exact Or.inr ⟨c, d, f, g, fun rows => ⟨by simp only [hf], by simp only [hg]⟩⟩
  cases ty with
  | KL => exact (ce_rowList P hv hW 0 true).linear
  | CE => exact (ce_rowList P hv hW gamma false).linear
  | NONE => exact linear_zero
  | MSE =>
    cases W with
    | none => exact ((hp.onRows _).zip ht _).linear
    | some w => exact (((hp.onRows _).zip ht _).zip (hW w rfl) _).linear

theorem reg_form (c : Nat) (p : Row → List ℚ) :
    ∃ g : Row → ℚ, ∀ rows, policyRegLoss (matOf c p rows) none = rowMean g rows ^ 2 := by
  obtain ⟨g, hg⟩ := (RowMat.matOf c p).linear
  exact ⟨g, fun rows => by rw [← hg]; rfl⟩

/-! ### Terms -/

/-- terms, evaluated on rows -/
def evalTerms (ts : List (Form × Bool)) (rows : List Row) : List (ℚ × Bool) := ts.map fun t => (t.1.eval rows, t.2)
/-- named losses, evaluated on rows -/
def evalNamed (d : Dict Form) (rows : List Row) : Dict ℚ := d.map fun kv => (kv.1, kv.2.eval rows)

/-- what is known of a term -/
structure TermOk (cfg : Cfg) (sc : Schema) (t : Form × Bool) : Prop where
  dep : t.2 = true → t.1.sq = []
  plain : NoReg cfg sc → t.1.sq = []
  weights : RegWeights cfg sc → ∀ c ∈ t.1.sq, 0 ≤ c.1

theorem termOk_linear (cfg : Cfg) (sc : Schema) (F : Form) (b : Bool) (h : F.sq = []) : TermOk cfg sc (F, b) :=
  ⟨fun _ => h, fun _ => h, fun _ c hc => by simp only [h] at hc; cases hc⟩

def Form.plus (a : Option Form) (F : Form) : Form :=
  match a with
  | none => F
  | some a => a.add F

theorem sumTerms_skip (dep : Option Bool) (acc : Option ℚ) (x : ℚ) (d : Bool) (rest : List (ℚ × Bool))
    (h : dep ≠ none ∧ some d ≠ dep) : sumTerms dep acc ((x, d) :: rest) = sumTerms dep acc rest := by
  cases acc <;> (rw [sumTerms, if_pos h])

theorem sumTerms_take (dep : Option Bool) (acc : Option ℚ) (x : ℚ) (d : Bool) (rest : List (ℚ × Bool))
    (h : ¬ (dep ≠ none ∧ some d ≠ dep)) :
    sumTerms dep acc ((x, d) :: rest) = sumTerms dep (some ((acc.map fun a => a + x).getD x)) rest := by
  cases acc <;> (rw [sumTerms, if_neg h]; rfl)

theorem sumTerms_form (dep : Option Bool) : ∀ (ts : List (Form × Bool)) (acc : Option Form),
    ∃ out : Option Form, (∀ rows, sumTerms dep (acc.map fun F => F.eval rows) (evalTerms ts rows)
        = out.map fun F => F.eval rows) ∧
      ((acc = none → ∀ t ∈ ts, dep ≠ none ∧ some t.2 ≠ dep) → acc = none → out = none) ∧
      (acc.isSome = true → out.isSome = true) ∧
      (∀ Q : ℚ × (Row → ℚ) → Prop, (∀ F, acc = some F → ∀ c ∈ F.sq, Q c) →
        (∀ t ∈ ts, (dep = none ∨ some t.2 = dep) → ∀ c ∈ t.1.sq, Q c) → ∀ F, out = some F → ∀ c ∈ F.sq, Q c) := by
  intro ts
  induction ts with
  | nil =>
    intro acc
    refine ⟨acc, fun rows => rfl, fun _ h => h, fun h => h, fun Q h1 _ => h1⟩
  | cons t ts ih =>
    intro acc
    obtain ⟨F, d⟩ := t
    by_cases hd : dep ≠ none ∧ some d ≠ dep
    · obtain ⟨out, h1, h2, h3, h4⟩ := ih acc
      refine ⟨out, fun rows => ?_, fun h => h2 fun ha t ht => h ha t (List.mem_cons_of_mem _ ht), h3,
        fun Q ha ht => h4 Q ha fun t hm => ht t (List.mem_cons_of_mem _ hm)⟩
      rw [← h1]
      show sumTerms dep _ ((F.eval rows, d) :: evalTerms ts rows) = _
      exact sumTerms_skip _ _ _ _ _ hd
    · obtain ⟨out, h1, h2, h3, h4⟩ := ih (some (Form.plus acc F))
      refine ⟨out, fun rows => ?_, fun h ha => absurd (h ha _ (List.mem_cons_self ..)) hd, fun _ => h3 rfl, ?_⟩
      · rw [← h1]
        show sumTerms dep _ ((F.eval rows, d) :: evalTerms ts rows) = _
        rw [sumTerms_take _ _ _ _ _ hd]
        cases acc with
        | none => rfl
        | some A =>
          simp only [Option.map_some, Form.plus, Form.eval_add, Option.getD_some]
      · intro Q ha ht
        have hdQ : dep = none ∨ some d = dep := by
          by_contra hc
          exact hd ⟨fun h => hc (Or.inl h), fun h => hc (Or.inr h)⟩
        refine h4 Q ?_ fun t hm => ht t (List.mem_cons_of_mem _ hm)
        intro G hG c hc
        cases hG
        cases acc with
        | none => exact ht _ (List.mem_cons_self ..) hdQ c hc
        | some A =>
          rcases List.mem_append.1 hc with hc | hc
          · exact ha A rfl c hc
          · exact ht _ (List.mem_cons_self ..) hdQ c hc

section

variable (P : Prims) (cfg : Cfg) (sc : Schema)
  (vt pt : List Row → Mat) (hvt : RowMat vt) (hpt : RowMat pt) (hptc : ∀ rows, (pt rows).cols = sc.cells)
  (W : Option (List Row → Mat)) (hW : ∀ w, W = some w → RowMat w) (kd : Bool)

include hvt hpt hptc hW

theorem aux_form (i : Nat) (name : String) (k : AuxKind) (hm : (name, k) ∈ sc.aux) (haux : PlainAux sc)
    (hmask : sc.hasMask = true → NoReg cfg sc) :
    (∀ part vq rows, trainAux P cfg name (vt rows) (pt rows) (maskOf sc.cells sc.mask rows)
        (W.map (fun w => w rows)) (kdTemp cfg kd) (auxOf part vq rows i name k) = .ok none) ∨
    ∃ (pname : String) (w : ℚ) (F : Form) (dep : Bool), TermOk cfg sc (F.scale w, dep) ∧ ∀ part vq rows,
      trainAux P cfg name (vt rows) (pt rows) (maskOf sc.cells sc.mask rows)
        (W.map (fun w => w rows)) (kdTemp cfg kd) (auxOf part vq rows i name k)
        = .ok (some (pname, w, F.eval rows, dep)) := by
  have lin : ∀ (x : List Row → ℚ) (pname : String) (w : ℚ) (dep : Bool), Linear x →
      (∀ part vq rows, trainAux P cfg name (vt rows) (pt rows) (maskOf sc.cells sc.mask rows)
        (W.map (fun w => w rows)) (kdTemp cfg kd) (auxOf part vq rows i name k)
        = .ok (some (pname, w, x rows, dep))) →
      ∃ (pname : String) (w : ℚ) (F : Form) (dep : Bool), TermOk cfg sc (F.scale w, dep) ∧ ∀ part vq rows,
        trainAux P cfg name (vt rows) (pt rows) (maskOf sc.cells sc.mask rows)
          (W.map (fun w => w rows)) (kdTemp cfg kd) (auxOf part vq rows i name k)
          = .ok (some (pname, w, F.eval rows, dep)) := by
    intro x pname w dep hx h
    obtain ⟨F, hF, hFe⟩ := hx.form
    refine ⟨pname, w, F, dep, termOk_linear _ _ _ _ (by simp [Form.scale, hF]), fun part vq rows => ?_⟩
    rw [h, hFe]
  have hk := haux (name, k) hm
  cases k with
  | valueLoss c =>
    right
    have hm : RowMat (fun rows => if kd then (matOf c (fun r => r.aux i 0) rows).map (· / cfg.kdT)
        else matOf c (fun r => r.aux i 0) rows) := by
      cases kd with
      | true => exact (RowMat.matOf c _).map _
      | false => exact RowMat.matOf c _
    refine lin _ (name ++ "_loss") ((cfg.lambdas name).getD cfg.valueLambda) true
      (value_linear P cfg.vtype (convert_rowVals hm hvt) cfg.valueGamma) fun part vq rows => ?_
    simp only [trainAux, auxOf]
    cases kd <;> rfl
  | policyLoss c =>
    have hc : c = sc.cells := hk
    subst hc
    by_cases hN : cfg.ptype = .NONE
    · left
      intro part vq rows
      simp only [trainAux, auxOf, hN, if_true]
    · right
      obtain ⟨p', t', hp', ht', -, -, hprep⟩ := prepare_ok sc.cells sc.mask
        (RowMat.matOf sc.cells (fun r => r.aux i 0)) hpt (fun rows => hptc rows)
      have hm : RowMat (fun rows => if kd then (p' rows).map (· / cfg.kdT) else p' rows) := by
        cases kd with
        | true => exact hp'.map _
        | false => exact hp'
      refine lin _ (name ++ "_loss") ((cfg.lambdas name).getD cfg.policyLambda) true
        (policy_linear P cfg.ptype hm ht' hW cfg.policyGamma) fun part vq rows => ?_
      simp only [trainAux, auxOf, if_neg hN, hprep]
      cases kd <;> rfl
  | uncertainty flat c =>
    right
    obtain ⟨F, hF, hu, -, -⟩ := mse_rowList P (valOf_rowVals flat c c (fun r => r.aux i 1) (fun r => r.aux i 2))
    refine lin _ (name ++ "_loss") ((cfg.lambdas name).getD 1) false ((vecOf_rowList (fun r => r.aux i 0)).zip hF P.huber).linear fun part vq rows => ?_
    simp only [trainAux, auxOf, valueUncertaintyLoss, hu]
  | relUncertainty flat c =>
    right
    obtain ⟨F, hF, hu, -, -⟩ := mse_rowList P (valOf_rowVals flat c c (fun r => r.aux i 1) (fun r => r.aux i 3))
    obtain ⟨G, hG, hw, -, -⟩ := mse_rowList P (valOf_rowVals flat c c (fun r => r.aux i 2) (fun r => r.aux i 3))
    refine lin _ (name ++ "_loss") ((cfg.lambdas name).getD 1) false ((vecOf_rowList (fun r => r.aux i 0)).zip (hG.zip hF (fun l s => if l < s then l / s else 1))
        (fun a b => (a - b) ^ 2)).linear fun part vq rows => ?_
    simp only [trainAux, auxOf, valueRelativeUncertaintyLoss, hu, hw]
  | policyReg c =>
    by_cases hN : cfg.lambdas name = none ∧ cfg.regLambda = 0
    · left
      intro part vq rows
      simp only [trainAux, auxOf, if_pos hN]
    · right
      have hnr : ¬ NoReg cfg sc := fun h => hN (h.2 name c hm)
      have hfm : sc.mask = none := by
        unfold Schema.mask
        cases hb : sc.hasMask with
        | false => rfl
        | true => exact absurd (hmask hb) hnr
      obtain ⟨g, hg⟩ := reg_form c (fun r => r.aux i 0)
      refine ⟨name, (cfg.lambdas name).getD cfg.regLambda, ⟨fun _ => 0, [(1, g)]⟩, false,
        ⟨fun h => (by cases h), fun h => absurd h hnr, fun h d hd => ?_⟩, fun part vq rows => ?_⟩
      · simp only [Form.scale, List.map_cons, List.map_nil, List.mem_singleton] at hd
        subst hd
        simp only [mul_one]
        cases hl : cfg.lambdas name with
        | none => exact h.1
        | some w => exact h.2 name c w hm hl
      · simp only [trainAux, auxOf, if_neg hN, hfm, maskOf, Option.map_none, hg]
        have : (⟨fun _ => 0, [(1, g)]⟩ : Form).eval rows = rowMean g rows ^ 2 := by
          simp [Form.eval, rowMean]
        rw [this]
  | vq slots => exact hk.elim

theorem loop_form (haux : PlainAux sc) (hmask : sc.hasMask = true → NoReg cfg sc) :
    ∀ (aux : List (String × AuxKind)), (∀ a ∈ aux, a ∈ sc.aux) → ∀ (i : Nat) (ts : List (Form × Bool)) (d : Dict Form),
    (∀ t ∈ ts, TermOk cfg sc t) → (NoReg cfg sc → ∀ kv ∈ d, kv.2.sq = []) →
    ∃ (ts' : List (Form × Bool)) (d' : Dict Form), (∀ t ∈ ts', TermOk cfg sc t) ∧
      (NoReg cfg sc → ∀ kv ∈ d', kv.2.sq = []) ∧ (∃ r, ts' = ts ++ r) ∧
      ∀ part vq rows, trainAuxLoop P cfg (vt rows) (pt rows) (maskOf sc.cells sc.mask rows) (W.map (fun w => w rows))
        (kdTemp cfg kd) (auxesOf part vq rows i aux) (evalTerms ts rows) (evalNamed d rows)
        = .ok (evalTerms ts' rows, evalNamed d' rows) := by
  intro aux
  induction aux with
  | nil => intro _ i ts d hts hd; exact ⟨ts, d, hts, hd, ⟨[], by simp⟩, fun part vq rows => rfl⟩
  | cons a aux ih =>
    intro hsub i ts d hts hd
    obtain ⟨name, k⟩ := a
    have hsub' := fun a ha => hsub a (List.mem_cons_of_mem _ ha)
    rcases aux_form P cfg sc vt pt hvt hpt hptc W hW kd i name k (hsub _ (List.mem_cons_self ..)) haux hmask with
      h | ⟨pname, w, F, dep, hok, h⟩
    · obtain ⟨ts', d', h1, h1', h2, h3⟩ := ih hsub' (i + 1) ts d hts hd
      refine ⟨ts', d', h1, h1', h2, fun part vq rows => ?_⟩
      rw [auxesOf, trainAuxLoop, h]
      exact h3 part vq rows
    · obtain ⟨ts', d', h1, h1', ⟨r, h2⟩, h3⟩ := ih hsub' (i + 1) (ts ++ [(F.scale w, dep)]) (setKey d pname F) (by
        intro t ht
        rcases List.mem_append.1 ht with ht | ht
        · exact hts t ht
        · rw [List.mem_singleton] at ht; rw [ht]; exact hok) (by
        intro hn kv hkv
        rcases mem_setKey d pname F kv hkv with hkv | rfl
        · exact hd hn kv hkv
        · have := hok.plain hn
          simpa [Form.scale] using this)
      refine ⟨ts', d', h1, h1', ⟨(F.scale w, dep) :: r, by rw [h2]; simp⟩, fun part vq rows => ?_⟩
      rw [auxesOf, trainAuxLoop, h]
      dsimp only
      rw [← h3 part vq rows]
      congr 1
      · simp only [evalTerms, List.map_append, List.map_cons, List.map_nil, Form.eval_scale]
      · exact setKey_mapv (fun G : Form => G.eval rows) d pname F

end

theorem branch_form (P : Prims) (cfg : Cfg) (sc : Schema) (haux : PlainAux sc)
    (hmask : sc.hasMask = true → NoReg cfg sc) (kd : Bool) :
    ∃ (F : Form) (ts : List (Form × Bool)) (d : Dict Form), F.sq = [] ∧ (∀ t ∈ ts, TermOk cfg sc t) ∧
      (NoReg cfg sc → ∀ kv ∈ d, kv.2.sq = []) ∧
      ∀ part vq rows, lossTerms P cfg (batchOf sc part vq rows none) (teacherOf sc kd rows)
        = .ok (evalTerms ((F, true) :: ts) rows, evalNamed d rows) := by
  have htp : RowMat (fun rows => if kd then matOf sc.cells Row.teacherPolicy rows
      else matOf sc.cells Row.policyTarget rows) := by
    cases kd with
    | true => exact RowMat.matOf _ _
    | false => exact RowMat.matOf _ _
  have htpc : ∀ rows, (if kd then matOf sc.cells Row.teacherPolicy rows
      else matOf sc.cells Row.policyTarget rows).cols = sc.cells := by
    intro rows; cases kd <;> rfl
  obtain ⟨v1, vt, hv1, hvt, hvv⟩ : ∃ v1 vt : List Row → Mat, RowMat v1 ∧ RowMat vt ∧ ∀ rows,
      (if kd then applyKdTemperature P (matOf sc.valueCols Row.value rows)
          (matOf sc.teacherValueCols Row.teacherValue rows) cfg.kdT
        else (matOf sc.valueCols Row.value rows, matOf sc.valueTargetCols Row.valueTarget rows)) =
        (v1 rows, vt rows) := by
    cases kd with
    | true => exact kdTemperature_rows P cfg.kdT (RowMat.matOf _ _) (RowMat.matOf _ _)
    | false => exact ⟨_, _, RowMat.matOf _ _, RowMat.matOf _ _, fun rows => rfl⟩
  obtain ⟨FV, hFV, hFVe⟩ := (value_linear P cfg.vtype (convert_rowVals hv1 hvt) cfg.valueGamma).form
  obtain ⟨p1, t1, hp1, ht1, hp1c, ht1c, hprep⟩ := prepare_ok sc.cells sc.mask
    (RowMat.matOf sc.cells Row.policy) htp (fun rows => htpc rows)
  obtain ⟨p2, t2, hp2, ht2, hp2c, ht2c, hpp⟩ : ∃ p2 t2 : List Row → Mat, RowMat p2 ∧ RowMat t2 ∧
      (∀ rows, (p2 rows).cols = sc.cells) ∧ (∀ rows, (t2 rows).cols = sc.cells) ∧ ∀ rows,
      (if kd then kdPolicy P (p1 rows) (t1 rows) (maskOf sc.cells sc.mask rows) cfg.kdT else (p1 rows, t1 rows)) =
        (p2 rows, t2 rows) := by
    cases kd with
    | true =>
      obtain ⟨a, b, ha, hb, hac, hbc, h⟩ := kdPolicy_rows P cfg.kdT sc.cells sc.mask hp1 ht1
      exact ⟨a, b, ha, hb, fun rows => (hac rows).trans (hp1c rows), fun rows => (hbc rows).trans (ht1c rows), h⟩
    | false => exact ⟨p1, t1, hp1, ht1, hp1c, ht1c, fun rows => rfl⟩
  obtain ⟨FP, hFP, hFPe⟩ := (policy_linear P cfg.ptype hp2 ht2 (weightOf_rowMat cfg sc.cells) cfg.policyGamma).form
  -- the main regularisation
  obtain ⟨FR, hFR⟩ : ∃ FR : Form, cfg.regLambda > 0 → TermOk cfg sc (FR.scale cfg.regLambda, false) ∧
      ∀ rows, policyRegLoss (matOf sc.cells Row.policy rows) (maskOf sc.cells sc.mask rows) = FR.eval rows := by
    obtain ⟨g, hg⟩ := reg_form sc.cells Row.policy
    refine ⟨⟨fun _ => 0, [(1, g)]⟩, fun hr => ?_⟩
    have hnr : ¬ NoReg cfg sc := fun h => absurd hr (not_lt.2 h.1)
    have hfm : sc.mask = none := by
      unfold Schema.mask
      cases hb : sc.hasMask with
      | false => rfl
      | true => exact absurd (hmask hb) hnr
    refine ⟨⟨fun h => (by cases h), fun h => absurd h hnr, fun h d hd => ?_⟩, fun rows => ?_⟩
    · simp only [Form.scale, List.map_cons, List.map_nil, List.mem_singleton] at hd
      subst hd
      simp only [mul_one]
      exact h.1
    · rw [hfm]
      show policyRegLoss _ none = _
      rw [hg]
      simp [Form.eval, rowMean]
  obtain ⟨FT, hFT, hFTe⟩ : ∃ FT : Form, FT.sq = [] ∧ ∀ rows, FT.eval rows
      = cfg.valueLambda * FV.eval rows + cfg.policyLambda * FP.eval rows :=
    ⟨(FV.scale cfg.valueLambda).add (FP.scale cfg.policyLambda), by simp [Form.add, Form.scale, hFV, hFP],
      fun rows => by rw [Form.eval_add, Form.eval_scale, Form.eval_scale]⟩
  have hstart : ∀ t ∈ [(FT, true)] ++ (if cfg.regLambda > 0 then [(FR.scale cfg.regLambda, false)] else []),
      TermOk cfg sc t := by
    intro t ht
    rcases List.mem_append.1 ht with ht | ht
    · rw [List.mem_singleton] at ht; rw [ht]; exact termOk_linear _ _ _ _ hFT
    · split_ifs at ht with hr
      · rw [List.mem_singleton] at ht; rw [ht]; exact (hFR hr).1
      · cases ht
  have hdict : NoReg cfg sc → ∀ kv ∈ (if cfg.regLambda > 0 then
      setKey [("value_loss", FV), ("policy_loss", FP)] "policy_reg" FR
      else [("value_loss", FV), ("policy_loss", FP)]), kv.2.sq = [] := by
    intro hn kv hkv
    rw [if_neg (not_lt.2 hn.1)] at hkv
    simp only [List.mem_cons, List.not_mem_nil, or_false] at hkv
    rcases hkv with rfl | rfl
    · exact hFV
    · exact hFP
  obtain ⟨ts', d', h1, h1', ⟨r, h2⟩, h3⟩ := loop_form P cfg sc vt t2 hvt ht2 ht2c (weightOf cfg sc.cells)
    (weightOf_rowMat cfg sc.cells) kd haux hmask sc.aux (fun a h => h) 0
    ([(FT, true)] ++ (if cfg.regLambda > 0 then [(FR.scale cfg.regLambda, false)] else []))
    (if cfg.regLambda > 0 then setKey [("value_loss", FV), ("policy_loss", FP)] "policy_reg" FR
      else [("value_loss", FV), ("policy_loss", FP)]) hstart hdict
  refine ⟨FT, (if cfg.regLambda > 0 then [(FR.scale cfg.regLambda, false)] else []) ++ r, d', hFT, ?_, h1', ?_⟩
  · intro t ht
    refine h1 t ?_
    rw [h2]
    simp only [List.append_assoc]
    exact List.mem_append_right _ ht
  · intro part vq rows
    have e : (FT, true) :: ((if cfg.regLambda > 0 then [(FR.scale cfg.regLambda, false)] else []) ++ r) = ts' := by
      rw [h2]; simp
    rw [e, ← h3 part vq rows]
    have hvv' := hvv rows
    have hpp' := hpp rows
    have hprep' := hprep rows
    have e1 := hFVe rows
    have e2 := hFPe rows
    unfold lossTerms
    simp only [batchOf, boardMask_rows]
    rw [policyWeight_rows]
    cases kd with
    | true =>
      simp only [teacherOf, if_true, Option.map_some] at hvv' hpp' hprep' ⊢
      simp only [hvv', hprep', hpp']
      by_cases hreg : cfg.regLambda > 0
      · simp only [hreg, if_true, (hFR hreg).2 rows, e1, e2, kdTemp]
        congr 1
        simp only [evalTerms, List.map_append, List.map_cons, List.map_nil, hFTe, Form.eval_scale]
      · simp only [hreg, if_false, e1, e2, kdTemp]
        congr 1
        simp only [evalTerms, List.append_nil, List.map_cons, List.map_nil, hFTe]
    | false =>
      simp only [teacherOf, Bool.false_eq_true, if_false, Option.map_none] at hvv' hpp' hprep' ⊢
      obtain ⟨ha, hb⟩ := Prod.mk.inj hvv'
      obtain ⟨hc, hd⟩ := Prod.mk.inj hpp'
      simp only [ha, hb, hprep', hc, hd]
      by_cases hreg : cfg.regLambda > 0
      · simp only [hreg, if_true, (hFR hreg).2 rows, e1, e2, kdTemp, Bool.false_eq_true, if_false]
        congr 1
        simp only [evalTerms, List.map_append, List.map_cons, List.map_nil, hFTe, Form.eval_scale]
      · simp only [hreg, if_false, e1, e2, kdTemp, Bool.false_eq_true]
        congr 1
        simp only [evalTerms, List.append_nil, List.map_cons, List.map_nil, hFTe]

theorem sum_head (dep : Option Bool) (hd : dep = none ∨ dep = some true) (cfg : Cfg) (sc : Schema) (F : Form)
    (ts : List (Form × Bool)) (hF : F.sq = []) (hts : ∀ t ∈ ts, TermOk cfg sc t) :
    ∃ G : Form, TermOk cfg sc (G, decide (dep = some true)) ∧
      ∀ rows, sumTerms dep none (evalTerms ((F, true) :: ts) rows) = some (G.eval rows) := by
  obtain ⟨out, h1, -, h3, h4⟩ := sumTerms_form dep ts (some F)
  obtain ⟨G, rfl⟩ := Option.isSome_iff_exists.1 (h3 rfl)
  have hacc : ∀ Q : ℚ × (Row → ℚ) → Prop, ∀ F', some F = some F' → ∀ c ∈ F'.sq, Q c := by
    rintro Q F' h c hc
    cases h
    rw [hF] at hc; cases hc
  have hnil : ∀ l : List (ℚ × (Row → ℚ)), (∀ c ∈ l, False) → l = [] := fun l h => by
    cases l with
    | nil => rfl
    | cons a l => exact (h a (List.mem_cons_self ..)).elim
  refine ⟨G, ⟨fun hdt => ?_, fun hn => ?_, fun hw => ?_⟩, fun rows => ?_⟩
  · have hdt : dep = some true := by simpa using hdt
    refine hnil _ (h4 (fun _ => False) (hacc _) (fun t ht hdep c hc => ?_) G rfl)
    have : t.2 = true := by
      rcases hdep with h | h
      · rw [hdt] at h; cases h
      · rw [hdt] at h; exact Option.some.inj h
    rw [(hts t ht).dep this] at hc; cases hc
  · refine hnil _ (h4 (fun _ => False) (hacc _) (fun t ht hdep c hc => ?_) G rfl)
    rw [(hts t ht).plain hn] at hc; cases hc
  · exact h4 (fun c => 0 ≤ c.1) (hacc _) (fun t ht _ => (hts t ht).weights hw) G rfl
  · have := h1 rows
    simp only [Option.map_some] at this
    rw [← this]
    show sumTerms dep none ((F.eval rows, true) :: evalTerms ts rows) = _
    rw [sumTerms_take]
    · rfl
    · rintro ⟨a, b⟩
      rcases hd with hd | hd
      · exact a hd
      · exact b hd.symm

/-- The loss of a batch is a mean over its rows plus multiples of squared means over its rows. -/
theorem total_form (P : Prims) (cfg : Cfg) (sc : Schema) (haux : PlainAux sc)
    (hmask : sc.hasMask = true → NoReg cfg sc) :
    ∃ (F : Form) (d : Dict Form), TermOk cfg sc (F, false) ∧ (NoReg cfg sc → ∀ kv ∈ d, kv.2.sq = []) ∧
      ∀ part vq rows, computeLosses P cfg (batchOf sc part vq rows none) = .ok (F.eval rows, evalNamed d rows) := by
  obtain ⟨F, ts, d, hF, hts, hd, h⟩ := branch_form P cfg sc haux hmask false
  have hkey : ∀ (d : Dict Form) (G : Form), TermOk cfg sc (G, false) → (NoReg cfg sc → ∀ kv ∈ d, kv.2.sq = []) →
      (NoReg cfg sc → ∀ kv ∈ setKey d "total_loss" G, kv.2.sq = []) := by
    intro d G hG hd hn kv hkv
    rcases mem_setKey _ _ _ _ hkv with hkv | rfl
    · exact hd hn kv hkv
    · exact hG.plain hn
  cases hT : sc.hasTeacher with
  | false =>
    obtain ⟨G, hG, hs⟩ := sum_head none (Or.inl rfl) cfg sc F ts hF hts
    refine ⟨G, setKey d "total_loss" G, hG, hkey d G hG hd, fun part vq rows => ?_⟩
    have hb : (batchOf sc part vq rows none).teacher = none := by simp [batchOf, hT]
    have hr : (batchOf sc part vq rows none).isReal = none := rfl
    have hl : lossTerms P cfg (batchOf sc part vq rows none) none
      = .ok (evalTerms ((F, true) :: ts) rows, evalNamed d rows) := h part vq rows
    unfold computeLosses trainBody
    rw [hr, hb]
    dsimp only
    rw [hl]
    dsimp only
    rw [hs rows]
    dsimp only
    rw [show evalNamed (setKey d "total_loss" G) rows = setKey (evalNamed d rows) "total_loss" (G.eval rows) from
      (setKey_mapv (fun G : Form => G.eval rows) d "total_loss" G).symm]
  | true =>
    obtain ⟨Fk, tsk, dk, hFk, htsk, hdk, hk⟩ := branch_form P cfg sc haux hmask true
    obtain ⟨Gk, hGk, hsk⟩ := sum_head (some true) (Or.inr rfl) cfg sc Fk tsk hFk htsk
    obtain ⟨Gr, hGr, hsr⟩ := sum_head (some true) (Or.inr rfl) cfg sc F ts hF hts
    obtain ⟨out, h1, -, -, h4⟩ := sumTerms_form (some false) ts none
    have hsi : ∀ rows, sumTerms (some false) none (evalTerms ((F, true) :: ts) rows) = out.map fun G => G.eval rows := by
      intro rows
      rw [← h1 rows]
      exact sumTerms_skip _ _ _ _ _ ⟨by simp, by simp⟩
    obtain ⟨Gt, hGt⟩ : ∃ Gt : Form, Gt = ((Gk.scale (cfg.kdAlpha * cfg.kdT ^ 2)).add (Gr.scale (1 - cfg.kdAlpha))) :=
      ⟨_, rfl⟩
    have hGts : Gt.sq = [] := by
      have a1 := hGk.dep (by simp)
      have a2 := hGr.dep (by simp)
      simp only at a1 a2
      simp [hGt, Form.add, Form.scale, a1, a2]
    have hGte : ∀ rows, Gt.eval rows = cfg.kdAlpha * Gk.eval rows * cfg.kdT ^ 2 + (1 - cfg.kdAlpha) * Gr.eval rows := by
      intro rows
      rw [hGt, Form.eval_add, Form.eval_scale, Form.eval_scale]; ring
    obtain ⟨G, hGe⟩ : ∃ G : Form, G = (out.map fun H => Gt.add H).getD Gt := ⟨_, rfl⟩
    have hG : TermOk cfg sc (G, false) := by
      refine ⟨fun h => (by cases h), fun hn => ?_, fun hw => ?_⟩
      · cases ho : out with
        | none => simp [hGe, ho, hGts]
        | some H =>
          have : H.sq = [] := by
            have := h4 (fun _ => False) (by rintro _ h; cases h) (fun t ht _ c hc => by
              rw [(hts t ht).plain hn] at hc; cases hc) H ho
            cases hH : H.sq with
            | nil => rfl
            | cons a l => exact (this a (by rw [hH]; exact List.mem_cons_self ..)).elim
          simp [hGe, ho, Form.add, hGts, this]
      · cases ho : out with
        | none =>
          intro c hc
          simp [hGe, ho, hGts] at hc
        | some H =>
          intro c hc
          simp only [hGe, ho, Option.map_some, Option.getD_some, Form.add, hGts, List.nil_append] at hc
          exact h4 (fun c => 0 ≤ c.1) (by rintro _ h; cases h) (fun t ht _ => (hts t ht).weights hw) H ho c hc
    obtain ⟨dt, hdt⟩ : ∃ dt : Dict Form, dt = update d (dk.map (fun kv => ("kd_" ++ kv.1, kv.2))) := ⟨_, rfl⟩
    have hdts : NoReg cfg sc → ∀ kv ∈ dt, kv.2.sq = [] := by
      intro hn kv hkv
      rw [hdt] at hkv
      rcases mem_update _ _ _ hkv with hkv | hkv
      · exact hd hn kv hkv
      · obtain ⟨x, hx, rfl⟩ := List.mem_map.1 hkv
        exact hdk hn x hx
    refine ⟨G, setKey dt "total_loss" G, hG, hkey dt G hG hdts, fun part vq rows => ?_⟩
    have hb : (batchOf sc part vq rows none).teacher = some (matOf sc.teacherValueCols Row.teacherValue rows,
        matOf sc.cells Row.teacherPolicy rows) := by simp [batchOf, hT]
    have hr : (batchOf sc part vq rows none).isReal = none := rfl
    have hlk : lossTerms P cfg (batchOf sc part vq rows none) (some (matOf sc.teacherValueCols Row.teacherValue rows,
        matOf sc.cells Row.teacherPolicy rows))
      = .ok (evalTerms ((Fk, true) :: tsk) rows, evalNamed dk rows) := hk part vq rows
    have hl : lossTerms P cfg (batchOf sc part vq rows none) none
      = .ok (evalTerms ((F, true) :: ts) rows, evalNamed d rows) := h part vq rows
    unfold computeLosses trainBody
    rw [hr, hb]
    dsimp only
    rw [hlk, hl]
    dsimp only
    rw [hsk rows, hsr rows, hsi rows]
    dsimp only
    rw [show evalNamed (setKey dt "total_loss" G) rows = setKey (evalNamed dt rows) "total_loss" (G.eval rows) from
      (setKey_mapv (fun G : Form => G.eval rows) dt "total_loss" G).symm]
    rw [show evalNamed dt rows = update (evalNamed d rows) ((evalNamed dk rows).map fun kv => ("kd_" ++ kv.1, kv.2)) by
      rw [hdt]
      unfold evalNamed
      have r1 := rename_mapv (fun G : Form => G.eval rows) dk
      have r2 := update_mapv (fun G : Form => G.eval rows) d (dk.map (fun kv => ("kd_" ++ kv.1, kv.2)))
      exact r2.symm.trans (congrArg _ r1.symm)]
    rw [hGe]
    cases out with
    | none => simp only [Option.map_none, Option.getD_none, hGte]
    | some H => simp only [Option.map_some, Option.getD_some, Form.eval_add, hGte]

/-! ### The theorems -/

theorem Form.eval_linear (F : Form) (h : F.sq = []) (rows : List Row) : F.eval rows = rowMean F.lin rows := by
  simp [Form.eval, h]

/-- The loss of a batch, and every named loss, is the mean over its rows of a loss of the row alone. -/
theorem C99_rowwise (P : Prims) (cfg : Cfg) (sc : Schema) (haux : PlainAux sc) (hreg : NoReg cfg sc) :
    ∃ (f : Row → ℚ) (g : Dict (Row → ℚ)), ∀ part vq rows,
      computeLosses P cfg (batchOf sc part vq rows none)
        = .ok (rowMean f rows, g.map fun kv => (kv.1, rowMean kv.2 rows)) := by
  obtain ⟨F, d, hF, hd, h⟩ := total_form P cfg sc haux (fun _ => hreg)
  refine ⟨F.lin, d.map fun kv => (kv.1, kv.2.lin), fun part vq rows => ?_⟩
  rw [h, F.eval_linear (hF.plain hreg), List.map_map]
  congr 2
  unfold evalNamed
  apply List.map_congr_left
  intro kv hkv
  simp only [Function.comp_apply]
  rw [kv.2.eval_linear (hd hreg kv hkv)]

/-- the loss, a number -/
def lossOf (P : Prims) (cfg : Cfg) (sc : Schema) (rows : List Row) : ℚ :=
  ((computeLosses P cfg (batchOf sc (0, rows) (fun _ => 0) rows none)).toOption.map Prod.fst).getD 0

theorem average_rowMean (f : Row → ℚ) (n : Nat) (hn : 0 < n) :
    ∀ parts : List (List Row), (∀ p ∈ parts, p.length = n) →
      rowMean f parts.flatten = average (parts.map (rowMean f)) := by
  intro parts hp
  have h1 : ((parts.flatten.map f).sum : ℚ) = n * (parts.map (rowMean f)).sum := by
    induction parts with
    | nil => simp
    | cons p parts ih =>
      have hpl := hp p (List.mem_cons_self ..)
      rw [List.flatten_cons, List.map_append, List.sum_append, ih (fun q hq => hp q (List.mem_cons_of_mem _ hq)),
        List.map_cons, List.sum_cons, mul_add]
      congr 1
      unfold rowMean
      rw [hpl]
      have : (n : ℚ) ≠ 0 := by exact_mod_cast hn.ne'
      field_simp
  have h2 : parts.flatten.length = n * parts.length := by
    clear h1
    induction parts with
    | nil => simp
    | cons p parts ih =>
      rw [List.flatten_cons, List.length_append, hp p (List.mem_cons_self ..),
        ih (fun q hq => hp q (List.mem_cons_of_mem _ hq)), List.length_cons]
      ring
  unfold average
  rw [rowMean, h1, h2, List.length_map]
  push_cast
  have : (n : ℚ) ≠ 0 := by exact_mod_cast hn.ne'
  rw [mul_div_mul_left _ _ this]

/-- Splitting a batch into parts of equal size: its loss is the average of the losses of the parts. -/
theorem C99_split (P : Prims) (cfg : Cfg) (sc : Schema) (haux : PlainAux sc) (hreg : NoReg cfg sc)
    (parts : List (List Row)) (n : Nat) (hn : 0 < n) (hsize : ∀ p ∈ parts, p.length = n) :
    (∀ rows, ∃ d, computeLosses P cfg (batchOf sc (0, rows) (fun _ => 0) rows none) = .ok (lossOf P cfg sc rows, d)) ∧
    lossOf P cfg sc parts.flatten = average (parts.map (lossOf P cfg sc)) := by
  obtain ⟨f, g, h⟩ := C99_rowwise P cfg sc haux hreg
  have hl : lossOf P cfg sc = rowMean f := by
    funext rows
    unfold lossOf
    rw [h]; rfl
  refine ⟨fun rows => ⟨_, by rw [hl]; exact h _ _ _⟩, ?_⟩
  rw [hl]
  exact average_rowMean f n hn parts hsize

/-- trainer/base.py:3730-3787: `process r` is the list of the micro-batches of process `r`.  Every micro-step adds
the gradient of `loss / steps`; the processes' gradients are averaged.  `D` is the gradient. -/
def accumulatedGrad {Θ G : Type} [AddCommGroup G] [Module ℚ G] (D : (Θ → ℚ) →ₗ[ℚ] G) (steps : Nat)
    (procs : List (List (Θ → ℚ))) : G :=
  (procs.length : ℚ)⁻¹ • (procs.map fun micro => (micro.map fun loss => D ((steps : ℚ)⁻¹ • loss)).sum).sum

theorem map_sum_lin {Θ G : Type} [AddCommGroup G] [Module ℚ G] (D : (Θ → ℚ) →ₗ[ℚ] G) (l : List (Θ → ℚ)) :
    (l.map D).sum = D l.sum := by
  induction l with
  | nil => simp
  | cons a l ih => simp [ih]

/-- The gradient that the optimiser gets is that of the loss of all rows at once, whatever the number of
processes and micro-steps: the parameters `θ` decide what the rows hold. -/
theorem C99_gradient {Θ G : Type} [AddCommGroup G] [Module ℚ G] (D : (Θ → ℚ) →ₗ[ℚ] G) (P : Prims) (cfg : Cfg)
    (sc : Schema) (haux : PlainAux sc) (hreg : NoReg cfg sc) (steps n : Nat) (hn : 0 < n) (hs : 0 < steps)
    (procs : List (List (Θ → List Row))) (hp : procs ≠ []) (hsteps : ∀ m ∈ procs, m.length = steps)
    (hsize : ∀ m ∈ procs, ∀ b ∈ m, ∀ θ, (b θ).length = n) :
    accumulatedGrad D steps (procs.map fun m => m.map fun b => fun θ => lossOf P cfg sc (b θ))
      = D fun θ => lossOf P cfg sc ((procs.flatten.map fun b => b θ).flatten) := by
  have hfun : (fun θ => lossOf P cfg sc ((procs.flatten.map fun b => b θ).flatten))
      = (procs.length : ℚ)⁻¹ • (procs.map fun m => (m.map fun b =>
        ((steps : ℚ)⁻¹ • fun θ => lossOf P cfg sc (b θ) : Θ → ℚ)).sum).sum := by
    funext θ
    have hsz : ∀ p ∈ procs.flatten.map (fun b => b θ), p.length = n := by
      intro p hpm
      obtain ⟨b, hb, rfl⟩ := List.mem_map.1 hpm
      obtain ⟨m, hm, hbm⟩ := List.mem_flatten.1 hb
      exact hsize m hm b hbm θ
    rw [(C99_split P cfg sc haux hreg _ n hn hsz).2]
    have hlen : procs.flatten.length = steps * procs.length := by
      clear hp hsize hsz
      induction procs with
      | nil => simp
      | cons m procs ih =>
        rw [List.flatten_cons, List.length_append, hsteps m (List.mem_cons_self ..),
          ih (fun q hq => hsteps q (List.mem_cons_of_mem _ hq)), List.length_cons]
        ring
    unfold average
    rw [List.length_map, List.length_map, hlen, List.map_map]
    have hsum : ∀ (l : List (Θ → ℚ)), l.sum θ = (l.map fun h => h θ).sum := by
      intro l
      induction l with
      | nil => rfl
      | cons a l ih => simp [ih]
    rw [Pi.smul_apply, hsum, List.map_map]
    have hin : ∀ m : List (Θ → List Row), ((m.map fun b =>
        ((steps : ℚ)⁻¹ • fun θ => lossOf P cfg sc (b θ) : Θ → ℚ)).sum) θ
        = (steps : ℚ)⁻¹ * (m.map fun b => lossOf P cfg sc (b θ)).sum := by
      intro m
      rw [hsum, List.map_map, ← sum_map_scale]
      rfl
    have hout : (procs.map ((fun h : Θ → ℚ => h θ) ∘ fun m => (m.map fun b =>
        ((steps : ℚ)⁻¹ • fun θ => lossOf P cfg sc (b θ) : Θ → ℚ)).sum)).sum
        = (steps : ℚ)⁻¹ * (procs.map fun m => (m.map fun b => lossOf P cfg sc (b θ)).sum).sum := by
      rw [← sum_map_scale]
      congr 1
      apply List.map_congr_left
      intro m _
      exact hin m
    rw [hout]
    have hfl : (procs.flatten.map ((lossOf P cfg sc) ∘ fun b => b θ)).sum
        = (procs.map fun m => (m.map fun b => lossOf P cfg sc (b θ)).sum).sum := by
      clear hp hsteps hsize hsz hlen hout
      induction procs with
      | nil => rfl
      | cons m procs ih =>
        rw [List.flatten_cons, List.map_append, List.sum_append, ih, List.map_cons, List.sum_cons]
        rfl
    rw [hfl]
    push_cast
    rw [smul_eq_mul, div_eq_mul_inv, mul_inv]
    ring
  rw [hfun, map_smul, ← map_sum_lin]
  unfold accumulatedGrad
  rw [List.length_map, List.map_map, List.map_map]
  congr 2
  apply List.map_congr_left
  intro m _
  simp only [Function.comp_apply]
  rw [← map_sum_lin, List.map_map, List.map_map]
  rfl

theorem sq_average (xs : List ℚ) : average xs ^ 2 ≤ average (xs.map fun x => x ^ 2) := by
  -- Cauchy-Schwarz by induction
  have key : ∀ xs : List ℚ, xs.sum ^ 2 ≤ xs.length * (xs.map fun x => x ^ 2).sum := by
    intro xs
    induction xs with
    | nil => simp
    | cons a xs ih =>
      simp only [List.sum_cons, List.map_cons, List.length_cons]
      push_cast
      have h2 : 2 * a * xs.sum ≤ (xs.map fun x => x ^ 2).sum + xs.length * a ^ 2 := by
        clear ih
        induction xs with
        | nil => simp
        | cons b xs ih =>
          simp only [List.sum_cons, List.map_cons, List.length_cons]
          push_cast
          nlinarith [sq_nonneg (a - b)]
      nlinarith
  unfold average
  rw [List.length_map]
  rcases xs with _ | ⟨a, xs⟩
  · simp
  · have hpos : (0 : ℚ) < ((a :: xs).length : ℚ) := by simp only [List.length_cons]; positivity
    rw [div_pow, div_le_div_iff₀ (by positivity) hpos]
    have := key (a :: xs)
    nlinarith [sq_nonneg ((a :: xs).length : ℚ)]

/-- With a policy regularisation (and no board mask) splitting makes the loss larger or equal, never smaller: the
squared mean of the logits is replaced by the average of the squared means of the parts. -/
theorem C99_regularised (P : Prims) (cfg : Cfg) (sc : Schema) (haux : PlainAux sc) (hmask : sc.hasMask = false)
    (hw : RegWeights cfg sc) (parts : List (List Row)) (n : Nat) (hn : 0 < n) (hsize : ∀ p ∈ parts, p.length = n) :
    lossOf P cfg sc parts.flatten ≤ average (parts.map (lossOf P cfg sc)) := by
  obtain ⟨F, d, hF, -, h⟩ := total_form P cfg sc haux (fun hm => by rw [hmask] at hm; cases hm)
  have hl : lossOf P cfg sc = F.eval := by
    funext rows
    unfold lossOf
    rw [h]; rfl
  rw [hl]
  have hav : ∀ (f g : List Row → ℚ), average (parts.map fun p => f p + g p)
      = average (parts.map f) + average (parts.map g) := by
    intro f g
    unfold average
    rw [List.length_map, List.length_map, List.length_map, ← add_div]
    congr 1
    clear hsize
    induction parts with
    | nil => simp
    | cons p parts ih => simp only [List.map_cons, List.sum_cons, ih]; ring
  have hsc : ∀ (c : ℚ) (f : List Row → ℚ), average (parts.map fun p => c * f p) = c * average (parts.map f) := by
    intro c f
    unfold average
    rw [List.length_map, List.length_map, sum_map_scale, mul_div_assoc]
  have hww : ∀ c ∈ F.sq, 0 ≤ c.1 := hF.weights hw
  have e : (parts.map F.eval) = parts.map fun p => rowMean F.lin p + (F.sq.map fun c => c.1 * rowMean c.2 p ^ 2).sum := rfl
  rw [e, hav, ← average_rowMean F.lin n hn parts hsize]
  unfold Form.eval
  refine add_le_add (le_refl _) ?_
  generalize F.sq = sq at hww
  induction sq with
  | nil => simp [average]
  | cons c sq ih =>
    simp only [List.map_cons, List.sum_cons]
    rw [hav, hsc]
    refine add_le_add ?_ (ih fun x hx => hww x (List.mem_cons_of_mem _ hx))
    refine mul_le_mul_of_nonneg_left ?_ (hww c (List.mem_cons_self ..))
    rw [average_rowMean c.2 n hn parts hsize]
    have := sq_average (parts.map (rowMean c.2))
    rw [List.map_map] at this
    exact this

end Verif.Loss
