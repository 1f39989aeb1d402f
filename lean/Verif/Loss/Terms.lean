import Verif.Loss.Rowwise
import Mathlib.Tactic.SplitIfs

/-! The terms of the validation statistics and of the training loss, for batches made of rows. -/

namespace Verif.Loss

open Verif.Stats Verif.Total

/-! ### Selection of the real rows -/

def SelTo (rows : List Row) (sel : List Bool) (real : List Row) : Prop :=
  rows.length = sel.length ∧ select rows sel = real

theorem select_map {α β : Type} (f : α → β) (xs : List α) (m : List Bool) :
    select (xs.map f) m = (select xs m).map f := by
  unfold select
  induction xs generalizing m with
  | nil => rfl
  | cons x xs ih =>
    cases m with
    | nil => rfl
    | cons b m =>
      simp only [List.map_cons, List.zip_cons_cons, List.filter_cons]
      cases b <;> simp [ih]

theorem select_all {α : Type} (xs : List α) : select xs (List.replicate xs.length true) = xs := by
  unfold select
  induction xs with
  | nil => rfl
  | cons x xs ih => simp only [List.length_cons, List.replicate_succ, List.zip_cons_cons, List.filter_cons,
      if_true, List.map_cons, ih]

theorem select_pairs {α : Type} (xs : List (α × Bool)) :
    select (xs.map (fun x => x.1)) (xs.map (fun x => x.2)) = (xs.filter (fun x => x.2)).map (fun x => x.1) := by
  unfold select
  induction xs with
  | nil => rfl
  | cons x xs ih =>
    obtain ⟨a, b⟩ := x
    simp only [List.map_cons, List.zip_cons_cons, List.filter_cons]
    cases b <;> simp [ih]

theorem selTo_all (rows : List Row) : SelTo rows (List.replicate rows.length true) rows :=
  ⟨by simp, select_all rows⟩

theorem SelTo.mat {rows : List Row} {sel : List Bool} {real : List Row} (h : SelTo rows sel real) (c : Nat)
    (f : Row → List ℚ) : (matOf c f rows).selected sel = matOf c f real := by
  unfold Mat.selected
  rw [if_pos (by simp [matOf, h.1])]
  simp only [matOf, select_map, h.2]

theorem SelTo.matRows {rows : List Row} {sel : List Bool} {real : List Row} (h : SelTo rows sel real) (c : Nat)
    (f : Row → List ℚ) : ({ matOf c f rows with rows := select (matOf c f rows).rows sel } : Mat) = matOf c f real := by
  simp only [matOf, select_map, h.2]

theorem SelTo.vec {rows : List Row} {sel : List Bool} {real : List Row} (h : SelTo rows sel real)
    (f : Row → List ℚ) : selected1 (vecOf f rows) sel = vecOf f real := by
  unfold selected1
  rw [if_pos (by simp [vecOf, h.1])]
  simp only [vecOf, select_map, h.2]

theorem SelTo.val {rows : List Row} {sel : List Bool} {real : List Row} (h : SelTo rows sel real) (flat : Bool)
    (c : Nat) (f : Row → List ℚ) : (valOf flat c f rows).selected sel = valOf flat c f real := by
  unfold valOf Val.selected
  cases flat with
  | true => simp only [if_true, h.vec]
  | false => simp only [Bool.false_eq_true, if_false, h.mat]

theorem valOf_rowVals (flat : Bool) (c d : Nat) (f g : Row → List ℚ) : RowVals (valOf flat c f) (valOf flat d g) := by
  cases flat with
  | true => exact Or.inl ⟨fun r => (f r).getD 0 0, fun r => (g r).getD 0 0, fun rows => ⟨rfl, rfl⟩⟩
  | false => exact Or.inr ⟨c, d, f, g, fun rows => ⟨rfl, rfl⟩⟩

theorem vecOf_rowList (f : Row → List ℚ) : RowList (vecOf f) := ⟨_, fun _ => rfl⟩

/-! ### One auxiliary loss -/

theorem HeadFun.weaken {S : List Row → RawTerm} {x : List Row → ℚ} {p q : List Row → Prop} (h : HeadFun S x p)
    (hpq : ∀ rows, q rows → p rows) : HeadFun S x q := by
  rcases h with ⟨dd, s, n, h1, h2, h3, h4, h5⟩ | ⟨dd, s, n, h1, h2, h3, h4, h5⟩
  · exact Or.inl ⟨dd, s, n, h1, h2, h3, fun rows h => h4 rows (hpq rows h), fun rows h => h5 rows (hpq rows h)⟩
  · exact Or.inr ⟨dd, s, n, h1, h2, h3, fun rows h => h4 rows (hpq rows h), fun rows h => h5 rows (hpq rows h)⟩

section

variable (P : Prims) (dd : DD) (cfg : Cfg) (cells : Nat) (parts : List Part)
  (vt pt : List Row → Mat) (hvt : RowMat vt) (hpt : RowMat pt) (hptc : ∀ rows, (pt rows).cols = cells)
  (mask : Option (Row → List ℚ)) (W : Option (List Row → Mat)) (hW : ∀ w, W = some w → RowMat w) (kd : Bool)
  (vqValue : String → ℚ)

/-- all rows that count -/
def allRows (parts : List Part) : List Row := parts.flatMap (fun p => p.2)

/-- the mask of some rows -/
def maskOf (cells : Nat) (mask : Option (Row → List ℚ)) (rows : List Row) : Option Mat :=
  mask.map (fun f => matOf cells f rows)

def kdTemp (cfg : Cfg) (kd : Bool) : Option ℚ := if kd then some cfg.kdT else none

/-- what validation makes of the auxiliary loss of a part, and training of that of all rows -/
def AuxTerm (i : Nat) (name : String) (k : AuxKind) (pname : String) (t : Term Part) : Prop :=
  t.head.wellNamed ∧ t.head.nonEmpty parts ∧
  (∀ (part : Part) (rows : List Row) (sel : List Bool), SelTo rows sel part.2 →
    evalAux P dd cfg sel name (vt part.2) (pt part.2) (maskOf cells mask part.2) (W.map (fun w => w part.2)) kd
      (auxOf part vqValue rows i name k) = .ok (some (pname, t.weight, t.head.raw part, t.dependent))) ∧
  ∀ part0 : Part, trainAux P cfg name (vt (allRows parts)) (pt (allRows parts)) (maskOf cells mask (allRows parts))
    (W.map (fun w => w (allRows parts))) (kdTemp cfg kd) (auxOf part0 vqValue (allRows parts) i name k) =
      .ok (some (pname, t.weight, t.head.value P.log parts, t.dependent))

theorem prepare_ok {p t : List Row → Mat} (hp : RowMat p) (ht : RowMat t)
    (hc : ∀ rows, (t rows).cols = (p rows).cols) :
    ∃ p' t' : List Row → Mat, RowMat p' ∧ RowMat t' ∧ (∀ rows, (p' rows).cols = (p rows).cols) ∧
      (∀ rows, (t' rows).cols = (p rows).cols) ∧
      ∀ rows, preparePolicy (p rows) (t rows) (maskOf cells mask rows) = .ok (p' rows, t' rows) := by
  cases mask with
  | none =>
    refine ⟨p, t, hp, ht, fun _ => rfl, hc, fun rows => ?_⟩
    unfold preparePolicy
    rw [if_neg (by rw [hc]; simp)]
    rfl
  | some f =>
    refine ⟨_, _, hp.fillZero (RowMat.matOf cells f) (-1000000), ht.fillZero (RowMat.matOf cells f) 0,
      fun _ => rfl, hc, fun rows => ?_⟩
    unfold preparePolicy
    rw [if_neg (by rw [hc]; simp)]
    rfl

include hvt hpt hptc hW

theorem aux_step (i : Nat) (name : String) (k : AuxKind) (hk : AuxOk P.log cells parts vqValue name k)
    (hrows : RowsOk cells mask (allRows parts)) :
    ((∀ (part : Part) (rows : List Row) (sel : List Bool), SelTo rows sel part.2 →
      evalAux P dd cfg sel name (vt part.2) (pt part.2) (maskOf cells mask part.2) (W.map (fun w => w part.2)) kd
        (auxOf part vqValue rows i name k) = .ok none) ∧
     ∀ part0 : Part, trainAux P cfg name (vt (allRows parts)) (pt (allRows parts))
       (maskOf cells mask (allRows parts)) (W.map (fun w => w (allRows parts))) (kdTemp cfg kd)
       (auxOf part0 vqValue (allRows parts) i name k) = .ok none) ∨
    ∃ (pname : String) (t : Term Part),
      AuxTerm P dd cfg cells parts vt pt mask W kd vqValue i name k pname t := by
  cases k with
  | valueLoss c =>
    right
    have hm : RowMat (fun rows => if kd then (matOf c (fun r => r.aux i 0) rows).map (· / cfg.kdT)
        else matOf c (fun r => r.aux i 0) rows) := by
      cases kd with
      | true => exact (RowMat.matOf c _).map _
      | false => exact RowMat.matOf c _
    obtain ⟨hd, h1, h2, h3, h4⟩ := headFun_head (value_headFun P dd cfg.vtype (convert_rowVals hm hvt)
      cfg.valueGamma) P.log parts hrows.1
    refine ⟨name ++ "_loss", ⟨hd, true, (cfg.lambdas name).getD cfg.valueLambda⟩, h1, h2, ?_, ?_⟩
    · intro part rows sel hs
      simp only [evalAux, auxOf, hs.mat, h3]
    · intro part0
      simp only [trainAux, auxOf, ← h4]
      cases kd <;> rfl
  | policyLoss c =>
    have hc : c = cells := hk
    subst hc
    by_cases hN : cfg.ptype = .NONE
    · left
      constructor
      · intro part rows sel hs
        simp only [evalAux, auxOf, hN, if_true]
      · intro part0
        simp only [trainAux, auxOf, hN, if_true]
    · right
      obtain ⟨p', t', hp', ht', hc1, hc2, hprep⟩ := prepare_ok c mask
        (RowMat.matOf c (fun r => r.aux i 0)) hpt (fun rows => hptc rows)
      have hm : RowMat (fun rows => if kd then (p' rows).map (· / cfg.kdT) else p' rows) := by
        cases kd with
        | true => exact hp'.map _
        | false => exact hp'
      obtain ⟨hd, h1, h2, h3, h4⟩ := headFun_head (policy_headFun P dd cfg.ptype hm ht' hW cfg.policyGamma)
        P.log parts ⟨hrows.1, fun rows => by
          have : (if kd then (p' rows).map (· / cfg.kdT) else p' rows).cols = c := by
            have := hc1 rows
            cases kd with
            | true => exact this
            | false => exact this
          rw [this]; exact hrows.2.1⟩
      refine ⟨name ++ "_loss", ⟨hd, true, (cfg.lambdas name).getD cfg.policyLambda⟩, h1, h2, ?_, ?_⟩
      · intro part rows sel hs
        simp only [evalAux, auxOf, hs.mat, if_neg hN, hprep, h3]
      · intro part0
        simp only [trainAux, auxOf, if_neg hN, hprep, ← h4]
        cases kd <;> rfl
  | uncertainty flat c =>
    right
    obtain ⟨F, hF, hu, -, -⟩ := mse_rowList P (valOf_rowVals flat c c (fun r => r.aux i 1) (fun r => r.aux i 2))
    obtain ⟨hd, h1, h2, h3, h4⟩ := headFun_head (headFun_list dd
      ((vecOf_rowList (fun r => r.aux i 0)).zip hF P.huber)) P.log parts hrows.1
    refine ⟨name ++ "_loss", ⟨hd, false, (cfg.lambdas name).getD 1⟩, h1, h2, ?_, ?_⟩
    · intro part rows sel hs
      simp only [evalAux, auxOf, hs.vec, hs.val, uncertaintyStat, hu, h3]
    · intro part0
      simp only [trainAux, auxOf, valueUncertaintyLoss, hu, ← h4]
      rfl
  | relUncertainty flat c =>
    right
    obtain ⟨F, hF, hu, -, -⟩ := mse_rowList P (valOf_rowVals flat c c (fun r => r.aux i 1) (fun r => r.aux i 3))
    obtain ⟨G, hG, hw, -, -⟩ := mse_rowList P (valOf_rowVals flat c c (fun r => r.aux i 2) (fun r => r.aux i 3))
    obtain ⟨hd, h1, h2, h3, h4⟩ := headFun_head (headFun_list dd
      ((vecOf_rowList (fun r => r.aux i 0)).zip (hG.zip hF (fun l s => if l < s then l / s else 1))
        (fun a b => (a - b) ^ 2))) P.log parts hrows.1
    refine ⟨name ++ "_loss", ⟨hd, false, (cfg.lambdas name).getD 1⟩, h1, h2, ?_, ?_⟩
    · intro part rows sel hs
      simp only [evalAux, auxOf, hs.vec, hs.val, relUncertaintyStat, hu, hw, h3]
    · intro part0
      simp only [trainAux, auxOf, valueRelativeUncertaintyLoss, hu, hw, ← h4]
      rfl
  | policyReg c =>
    have hc : c = cells := hk
    subst hc
    by_cases hN : cfg.lambdas name = none ∧ cfg.regLambda = 0
    · left
      constructor
      · intro part rows sel hs
        simp only [evalAux, auxOf, if_pos hN]
      · intro part0
        simp only [trainAux, auxOf, if_pos hN]
    · right
      obtain ⟨hd, h1, h2, h3, h4⟩ := headFun_head (reg_headFun dd c c (fun r => r.aux i 0) mask) P.log parts hrows
      refine ⟨name, ⟨hd, false, (cfg.lambdas name).getD cfg.regLambda⟩, h1, h2, ?_, ?_⟩
      · intro part rows sel hs
        simp only [evalAux, auxOf, if_neg hN, hs.mat, h3]
        rfl
      · intro part0
        simp only [trainAux, auxOf, if_neg hN, ← h4]
        rfl
  | vq slots =>
    right
    obtain ⟨h1, h2, h3⟩ := hk
    refine ⟨name ++ "_loss", ⟨.vq slots, false, (cfg.lambdas name).getD 1⟩, h1, h2, ?_, ?_⟩
    · intro part rows sel hs
      simp only [evalAux, auxOf]
      rfl
    · intro part0
      simp only [trainAux, auxOf, h3]

end

end Verif.Loss
