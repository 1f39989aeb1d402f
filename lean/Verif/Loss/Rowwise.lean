import Verif.Loss.Spec
import Mathlib.Tactic.Ring
import Mathlib.Tactic.Linarith
import Mathlib.Data.List.Basic

/-! Every tensor the losses compute is made row by row; sums and counts are additive over rows. -/

namespace Verif.Loss

open Verif.Stats Verif.Total

def RowList (F : List Row → List ℚ) : Prop := ∃ f : Row → ℚ, ∀ rows, F rows = rows.map f
def RowMat (M : List Row → Mat) : Prop := ∃ (c : Nat) (f : Row → List ℚ), ∀ rows, M rows = ⟨c, rows.map f⟩
/-- both with one dimension, or both with two -/
def RowVals (V T : List Row → Val) : Prop :=
  (∃ f g : Row → ℚ, ∀ rows, V rows = .one (rows.map f) ∧ T rows = .one (rows.map g)) ∨
  (∃ (c d : Nat) (f g : Row → List ℚ), ∀ rows, V rows = .two ⟨c, rows.map f⟩ ∧ T rows = .two ⟨d, rows.map g⟩)

def Additive (s : List Row → ℚ) : Prop := ∃ g : Row → ℚ, ∀ rows, s rows = (rows.map g).sum
def AdditiveN (n : List Row → Nat) : Prop := ∃ g : Row → Nat, ∀ rows, n rows = (rows.map g).sum

theorem zipWith_map_same {α β γ δ : Type} (h : β → γ → δ) (f : α → β) (g : α → γ) (l : List α) :
    List.zipWith h (l.map f) (l.map g) = l.map (fun a => h (f a) (g a)) := by
  induction l with
  | nil => rfl
  | cons a l ih => simp [ih]

theorem RowMat.matOf (c : Nat) (f : Row → List ℚ) : RowMat (matOf c f) := ⟨c, f, fun _ => rfl⟩

theorem RowMat.onRows {M : List Row → Mat} (h : RowMat M) (g : List ℚ → List ℚ) :
    RowMat (fun rows => (M rows).onRows g) := by
  obtain ⟨c, f, hf⟩ := h
  refine ⟨c, fun r => g (f r), fun rows => ?_⟩
  simp only [hf, Mat.onRows, List.map_map]; rfl

theorem RowMat.map {M : List Row → Mat} (h : RowMat M) (g : ℚ → ℚ) : RowMat (fun rows => (M rows).map g) :=
  h.onRows _

theorem RowMat.zip {M N : List Row → Mat} (h : RowMat M) (k : RowMat N) (g : ℚ → ℚ → ℚ) :
    RowMat (fun rows => (M rows).zip g (N rows)) := by
  obtain ⟨c, f, hf⟩ := h
  obtain ⟨d, e, he⟩ := k
  refine ⟨c, fun r => List.zipWith g (f r) (e r), fun rows => ?_⟩
  simp only [hf, he, Mat.zip, zipWith_map_same]

theorem RowMat.fillZero {M N : List Row → Mat} (h : RowMat M) (k : RowMat N) (x : ℚ) :
    RowMat (fun rows => (M rows).fillZero (N rows) x) := h.zip k _

theorem RowMat.col {M : List Row → Mat} (h : RowMat M) (j : Nat) : RowList (fun rows => (M rows).col j) := by
  obtain ⟨c, f, hf⟩ := h
  refine ⟨fun r => (f r).getD j 0, fun rows => ?_⟩
  simp only [hf, Mat.col, List.map_map]; rfl

theorem RowList.zip {F G : List Row → List ℚ} (h : RowList F) (k : RowList G) (op : ℚ → ℚ → ℚ) :
    RowList (fun rows => List.zipWith op (F rows) (G rows)) := by
  obtain ⟨f, hf⟩ := h
  obtain ⟨g, hg⟩ := k
  exact ⟨fun r => op (f r) (g r), fun rows => by simp only [hf, hg, zipWith_map_same]⟩

theorem RowMat.winrate {M : List Row → Mat} (h : RowMat M) : RowList (fun rows => winrateOf (M rows)) :=
  (h.col 0).zip (h.col 1) _

theorem RowMat.sum {M : List Row → Mat} (h : RowMat M) : Additive (fun rows => (M rows).sum) := by
  obtain ⟨c, f, hf⟩ := h
  refine ⟨fun r => (f r).sum, fun rows => ?_⟩
  simp only [hf, Mat.sum, List.map_map]; rfl

theorem RowMat.numel {M : List Row → Mat} (h : RowMat M) : AdditiveN (fun rows => (M rows).numel) := by
  obtain ⟨c, f, hf⟩ := h
  refine ⟨fun _ => c, fun rows => ?_⟩
  simp only [hf, Mat.numel, List.length_map]
  simp

theorem RowMat.rowsLength {M : List Row → Mat} (h : RowMat M) : ∀ rows, (M rows).rows.length = rows.length := by
  obtain ⟨c, f, hf⟩ := h
  intro rows; simp [hf]

theorem RowList.sum {F : List Row → List ℚ} (h : RowList F) : Additive (fun rows => (F rows).sum) := by
  obtain ⟨f, hf⟩ := h
  exact ⟨f, fun rows => by simp only [hf]⟩

theorem RowList.length {F : List Row → List ℚ} (h : RowList F) : ∀ rows, (F rows).length = rows.length := by
  obtain ⟨f, hf⟩ := h
  intro rows; simp [hf]

theorem AdditiveN.length : AdditiveN (fun rows => rows.length) := ⟨fun _ => 1, fun rows => by simp⟩

theorem RowMat.cols {M : List Row → Mat} (h : RowMat M) : ∀ rows rows', (M rows).cols = (M rows').cols := by
  obtain ⟨c, f, hf⟩ := h
  intro rows rows'; rw [hf, hf]

theorem convert_rowVals {V T : List Row → Mat} (hv : RowMat V) (ht : RowMat T) :
    RowVals (fun rows => (convertValueTarget (V rows) (T rows)).1)
      (fun rows => (convertValueTarget (V rows) (T rows)).2) := by
  have hv' := hv
  have ht' := ht
  obtain ⟨c, f, hf⟩ := hv'
  obtain ⟨d, g, hg⟩ := ht'
  by_cases hc : c = 1
  · left
    obtain ⟨a, ha⟩ := hv.col 0
    have hb : RowList (fun rows => if d = 1 then (T rows).col 0
        else List.zipWith (fun a b => (a - b + 1) / 2) ((T rows).col 0) ((T rows).col 1)) := by
      by_cases hd : d = 1
      · simp only [hd, if_true]; exact ht.col 0
      · simp only [hd, if_false]; exact (ht.col 0).zip (ht.col 1) _
    obtain ⟨b, hb⟩ := hb
    refine ⟨a, b, fun rows => ?_⟩
    have h1 : (V rows).cols = 1 := by rw [hf, hc]
    have h2 : (T rows).cols = d := by rw [hg]
    simp only [convertValueTarget, h1, h2, if_true, ← ha, ← hb]
    refine ⟨trivial, ?_⟩
    split <;> rfl
  · right
    refine ⟨c, d, f, g, fun rows => ?_⟩
    have h1 : (V rows).cols = c := by rw [hf]
    simp only [convertValueTarget, h1, if_neg hc, hf, hg]
    exact ⟨trivial, trivial⟩

/-- a statistic as a function of the rows, the loss that training computes from them, and when it has
entries -/
def HeadFun (S : List Row → RawTerm) (x : List Row → ℚ) (pos : List Row → Prop) : Prop :=
  (∃ (dd : DD) (s : List Row → ℚ) (n : List Row → Nat), (∀ rows, S rows = .mean (scalar dd (s rows)) (n rows)) ∧
    Additive s ∧ AdditiveN n ∧ (∀ rows, pos rows → x rows = s rows / n rows) ∧ ∀ rows, pos rows → 0 < n rows) ∨
  (∃ (dd : DD) (s : List Row → ℚ) (n : List Row → Nat), (∀ rows, S rows = .reg (scalar dd (s rows)) (n rows)) ∧
    Additive s ∧ AdditiveN n ∧ (∀ rows, pos rows → x rows = (s rows / n rows) ^ 2) ∧ ∀ rows, pos rows → 0 < n rows)

theorem headFun_list (dd : DD) {F : List Row → List ℚ} (h : RowList F) :
    HeadFun (fun rows => sumCount dd (F rows)) (fun rows => mean (F rows)) (fun rows => rows ≠ []) := by
  left
  refine ⟨dd, fun rows => (F rows).sum, fun rows => rows.length, fun rows => ?_, h.sum, AdditiveN.length,
    fun rows _ => ?_, fun rows hr => List.length_pos_iff.2 hr⟩
  · simp only [sumCount, h.length]
  · simp only [mean, h.length]

theorem ce_rowList (P : Prims) {V T : List Row → Val} (h : RowVals V T) {W : Option (List Row → Mat)}
    (hW : ∀ w, W = some w → RowMat w) (gamma : ℚ) (kl : Bool) :
    RowList (fun rows => crossEntropyNone P (V rows) (T rows) (W.map (fun w => w rows)) gamma kl) := by
  rcases h with ⟨f, g, h⟩ | ⟨c, d, f, g, h⟩
  · refine ⟨fun r => bceEntry P gamma kl (f r) (g r), fun rows => ?_⟩
    simp only [(h rows).1, (h rows).2, crossEntropyNone, zipWith_map_same]
  · cases W with
    | none =>
      refine ⟨fun r => ceRow P gamma kl (f r) (g r), fun rows => ?_⟩
      simp only [(h rows).1, (h rows).2, crossEntropyNone, Option.map_none, zipWith_map_same]
    | some w =>
      obtain ⟨e, k, hk⟩ := hW w rfl
      refine ⟨fun r => ceRow P gamma kl (f r) (List.zipWith (· * ·) (g r) (k r)), fun rows => ?_⟩
      simp only [(h rows).1, (h rows).2, hk, crossEntropyNone, Option.map_some, Mat.zip, zipWith_map_same]

theorem mse_rowList (P : Prims) {V T : List Row → Val} (h : RowVals V T) :
    ∃ F, RowList F ∧ (∀ rows, uncertaintyGt P (V rows) (T rows) = F rows) ∧
      (∀ rows, valueLossMse P (V rows) (T rows) = mean (F rows)) ∧
      ∀ dd gamma rows, valueLossStat P dd .MSE (V rows) (T rows) gamma = sumCount dd (F rows) := by
  rcases h with ⟨f, g, h⟩ | ⟨c, d, f, g, h⟩
  · refine ⟨fun rows => List.zipWith (fun a b => (P.sigmoid a - b) ^ 2) (rows.map f) (rows.map g),
      RowList.zip ⟨f, fun _ => rfl⟩ ⟨g, fun _ => rfl⟩ _, ?_, ?_, ?_⟩
    · intro rows; rw [(h rows).1, (h rows).2]; rfl
    · intro rows; rw [(h rows).1, (h rows).2]; rfl
    · intro dd gamma rows; rw [(h rows).1, (h rows).2]; rfl
  · refine ⟨fun rows => List.zipWith (fun a b => (a - b) ^ 2)
        (winrateOf ((⟨c, rows.map f⟩ : Mat).onRows P.softmax)) (winrateOf ⟨d, rows.map g⟩), ?_, ?_, ?_, ?_⟩
    · have h1 : RowMat (fun rows => (⟨c, rows.map f⟩ : Mat)) := ⟨c, f, fun _ => rfl⟩
      have h2 : RowMat (fun rows => (⟨d, rows.map g⟩ : Mat)) := ⟨d, g, fun _ => rfl⟩
      exact (h1.onRows P.softmax).winrate.zip h2.winrate _
    · intro rows; rw [(h rows).1, (h rows).2]; rfl
    · intro rows; rw [(h rows).1, (h rows).2]; rfl
    · intro dd gamma rows; rw [(h rows).1, (h rows).2]; rfl

theorem value_headFun (P : Prims) (dd : DD) (ty : VType) {V T : List Row → Val} (h : RowVals V T) (gamma : ℚ) :
    HeadFun (fun rows => valueLossStat P dd ty (V rows) (T rows) gamma)
      (fun rows => dispatchValueLoss P ty (V rows) (T rows) gamma) (fun rows => rows ≠ []) := by
  cases ty with
  | MSE =>
    obtain ⟨F, hF, -, h1, h2⟩ := mse_rowList P h
    simp only [h2, dispatchValueLoss, h1]
    exact headFun_list dd hF
  | KL =>
    have := headFun_list dd (ce_rowList P h (W := none) (by simp) 0 true)
    exact this
  | CE =>
    have := headFun_list dd (ce_rowList P h (W := none) (by simp) gamma false)
    exact this

theorem policy_headFun (P : Prims) (dd : DD) (ty : PType) {p t : List Row → Mat} (hp : RowMat p) (ht : RowMat t)
    {W : Option (List Row → Mat)} (hW : ∀ w, W = some w → RowMat w) (gamma : ℚ) :
    HeadFun (fun rows => policyLossStat P dd ty (p rows) (t rows) (W.map (fun w => w rows)) gamma)
      (fun rows => dispatchPolicyLoss P ty (p rows) (t rows) (W.map (fun w => w rows)) gamma)
      (fun rows => rows ≠ [] ∧ ∀ rows', 0 < (p rows').cols) := by
  have hv : RowVals (fun rows => .two (p rows)) (fun rows => .two (t rows)) := by
    obtain ⟨c, f, hf⟩ := hp
    obtain ⟨d, g, hg⟩ := ht
    exact Or.inr ⟨c, d, f, g, fun rows => ⟨by simp only [hf], by simp only [hg]⟩⟩
  have weaken : ∀ {S x}, HeadFun S x (fun rows => rows ≠ []) →
      HeadFun S x (fun rows => rows ≠ [] ∧ ∀ rows', 0 < (p rows').cols) := by
    rintro S x (⟨dd, s, n, h1, h2, h3, h4, h5⟩ | ⟨dd, s, n, h1, h2, h3, h4, h5⟩)
    · exact Or.inl ⟨dd, s, n, h1, h2, h3, fun rows h => h4 rows h.1, fun rows h => h5 rows h.1⟩
    · exact Or.inr ⟨dd, s, n, h1, h2, h3, fun rows h => h4 rows h.1, fun rows h => h5 rows h.1⟩
  cases ty with
  | KL => exact weaken (headFun_list dd (ce_rowList P hv hW 0 true))
  | CE => exact weaken (headFun_list dd (ce_rowList P hv hW gamma false))
  | NONE =>
    left
    refine ⟨dd, fun rows => (p rows).sum * 0, fun rows => rows.length, fun rows => ?_, ⟨fun _ => 0, fun rows => ?_⟩,
      AdditiveN.length, fun rows _ => ?_, fun rows h => List.length_pos_iff.2 h.1⟩
    · simp only [policyLossStat, if_true, hp.rowsLength]
    · simp
    · simp [dispatchPolicyLoss]
  | MSE =>
    left
    obtain ⟨M, hMe⟩ : ∃ M : List Row → Mat, M = fun rows =>
        match W.map (fun w => w rows) with
        | none => Mat.zip (fun a b => (a - b) ^ 2) ((p rows).onRows P.softmax) (t rows)
        | some w => (Mat.zip (fun a b => (a - b) ^ 2) ((p rows).onRows P.softmax) (t rows)).zip (· * ·) w :=
      ⟨_, rfl⟩
    have hM : RowMat M := by
      rw [hMe]
      cases W with
      | none => exact (hp.onRows _).zip ht _
      | some w => exact ((hp.onRows _).zip ht _).zip (hW w rfl) _
    refine ⟨dd, fun rows => (M rows).sum, fun rows => (M rows).numel, fun rows => ?_, hM.sum, hM.numel,
      fun rows _ => ?_, fun rows h => ?_⟩
    · simp only [hMe, policyLossStat]
      cases W <;> simp
    · simp only [hMe, dispatchPolicyLoss, policyLossMse]
      cases W <;> rfl
    · have hc : (M rows).cols = (p rows).cols := by
        rw [hMe]; cases W <;> rfl
      show 0 < (M rows).rows.length * (M rows).cols
      rw [hM.rowsLength, hc]
      exact Nat.mul_pos (List.length_pos_iff.2 h.1) (h.2 rows)

theorem sum_map_congr {α : Type} (l : List α) (f g : α → ℚ) (h : ∀ a ∈ l, f a = g a) :
    (l.map f).sum = (l.map g).sum := by
  rw [List.map_congr_left h]

/-- the cells that count in one row of the mask -/
def validCells (r : List ℚ) : Nat := (r.filter (fun b => b ≠ 0)).length

theorem binary_sum (r : List ℚ) (h : ∀ b ∈ r, b = 0 ∨ b = 1) : r.sum = validCells r := by
  induction r with
  | nil => rfl
  | cons b r ih =>
    have h' := ih (fun x hx => h x (List.mem_cons_of_mem _ hx))
    unfold validCells at *
    rw [List.sum_cons, h', List.filter_cons]
    rcases h b (List.mem_cons_self ..) with rfl | rfl
    · simp
    · simp; ring

theorem binary_valid (r : List ℚ) (h : ∀ b ∈ r, b = 0 ∨ b = 1) :
    r.map (fun b => if b = 0 then (0 : ℚ) else 1) = r := by
  induction r with
  | nil => rfl
  | cons b r ih =>
    rw [List.map_cons, ih (fun x hx => h x (List.mem_cons_of_mem _ hx))]
    rcases h b (List.mem_cons_self ..) with rfl | rfl <;> simp

theorem reg_headFun (dd : DD) (c d : Nat) (p : Row → List ℚ) (mask : Option (Row → List ℚ)) :
    HeadFun (fun rows => policyRegStat dd (matOf c p rows) (mask.map (fun f => matOf d f rows)))
      (fun rows => policyRegLoss (matOf c p rows) (mask.map (fun f => matOf d f rows)))
      (fun rows => rows ≠ [] ∧ 0 < c ∧ maskOk mask rows) := by
  right
  cases mask with
  | none =>
    refine ⟨dd, fun rows => (matOf c p rows).sum, fun rows => (matOf c p rows).numel, fun rows => rfl,
      (RowMat.matOf c p).sum, (RowMat.matOf c p).numel, fun rows _ => rfl, fun rows h => ?_⟩
    show 0 < (matOf c p rows).rows.length * c
    rw [(RowMat.matOf c p).rowsLength]
    exact Nat.mul_pos (List.length_pos_iff.2 h.1) h.2.1
  | some f =>
    refine ⟨dd, fun rows => ((matOf c p rows).zip (· * ·) ((matOf d f rows).map
        (fun b => if b = 0 then 0 else 1))).sum, fun rows => (rows.map (fun r => validCells (f r))).sum,
      fun rows => ?_, ((RowMat.matOf c p).zip ((RowMat.matOf d f).map _) _).sum, ⟨_, fun rows => rfl⟩,
      fun rows h => ?_, fun rows h => ?_⟩
    · show RawTerm.reg _ _ = _
      congr 2
      simp only [matOf, List.map_map]
      rfl
    · obtain ⟨-, -, hb, -⟩ := h
      show ((Mat.zip _ _ _).sum / (matOf d f rows).sum) ^ 2 = _
      have e1 : (matOf d f rows).map (fun b => if b = 0 then (0 : ℚ) else 1) = matOf d f rows := by
        unfold matOf Mat.map Mat.onRows
        simp only [List.map_map]
        congr 1
        apply List.map_congr_left
        intro r hr
        exact binary_valid (f r) (hb r hr)
      have e2 : (matOf d f rows).sum = (((rows.map (fun r => validCells (f r))).sum : Nat) : ℚ) := by
        unfold matOf Mat.sum
        simp only [List.map_map]
        clear e1
        induction rows with
        | nil => rfl
        | cons r rows ih =>
          simp only [List.map_cons, List.sum_cons, Nat.cast_add, Function.comp_apply]
          rw [binary_sum (f r) (hb r (List.mem_cons_self ..)),
            ih (fun x hx => hb x (List.mem_cons_of_mem _ hx))]
      dsimp only
      rw [e1, e2]
    · obtain ⟨-, -, -, r, hr, b, hbm, hb0⟩ := h
      have h1 : 0 < validCells (f r) := by
        unfold validCells
        exact List.length_pos_iff.2 (List.ne_nil_of_mem (List.mem_filter.2 ⟨hbm, by simpa using hb0⟩))
      have h2 : validCells (f r) ≤ (rows.map (fun r => validCells (f r))).sum :=
        List.le_sum_of_mem (List.mem_map.2 ⟨r, hr, rfl⟩)
      exact lt_of_lt_of_le h1 h2

/-! ### From the rows of the parts to all rows -/

theorem additive_total {s : List Row → ℚ} (h : Additive s) (parts : List Part) :
    total (fun p : Part => s p.2) parts = s (parts.flatMap (fun p => p.2)) := by
  obtain ⟨g, hg⟩ := h
  unfold total
  induction parts with
  | nil => simp [hg]
  | cons p parts ih =>
    rw [List.map_cons, List.sum_cons, List.flatMap_cons, ih]
    simp only [hg, List.map_append, List.sum_append]

theorem additiveN_total {s : List Row → Nat} (h : AdditiveN s) (parts : List Part) :
    totalN (fun p : Part => s p.2) parts = s (parts.flatMap (fun p => p.2)) := by
  obtain ⟨g, hg⟩ := h
  unfold totalN
  induction parts with
  | nil => simp [hg]
  | cons p parts ih =>
    rw [List.map_cons, List.sum_cons, List.flatMap_cons, ih]
    simp only [hg, List.map_append, List.sum_append]

theorem headFun_head {S : List Row → RawTerm} {x : List Row → ℚ} {pos : List Row → Prop}
    (h : HeadFun S x pos) (log : ℚ → ℚ) (parts : List Part) (hpos : pos (parts.flatMap (fun p => p.2))) :
    ∃ hd : Head Part, hd.wellNamed ∧ hd.nonEmpty parts ∧ (∀ p : Part, hd.raw p = S p.2) ∧
      x (parts.flatMap (fun p => p.2)) = hd.value log parts := by
  rcases h with ⟨dd, s, n, h1, h2, h3, h4, h5⟩ | ⟨dd, s, n, h1, h2, h3, h4, h5⟩
  · refine ⟨.mean dd (fun p => s p.2) (fun p => n p.2), trivial, ?_, fun p => ?_, ?_⟩
    · show 0 < totalN (fun p : Part => n p.2) parts
      rw [additiveN_total h3]; exact h5 _ hpos
    · rw [h1]; rfl
    · rw [h4 _ hpos]
      show _ = total (fun p : Part => s p.2) parts / totalN (fun p : Part => n p.2) parts
      rw [additive_total h2, additiveN_total h3]
  · refine ⟨.reg dd (fun p => s p.2) (fun p => n p.2), trivial, ?_, fun p => ?_, ?_⟩
    · show 0 < totalN (fun p : Part => n p.2) parts
      rw [additiveN_total h3]; exact h5 _ hpos
    · rw [h1]; rfl
    · rw [h4 _ hpos]
      show _ = (total (fun p : Part => s p.2) parts / totalN (fun p : Part => n p.2) parts) ^ 2
      rw [additive_total h2, additiveN_total h3]

end Verif.Loss
