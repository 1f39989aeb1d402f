/-
C93: evaluation metrics are sums over the real rows.
-/
import Verif.Metric.Model
import Verif.Stats.Props08c
import Mathlib.Tactic.Linarith
import Mathlib.Tactic.Ring
import Mathlib.Tactic.SplitIfs
import Mathlib.Data.Finset.Card
import Mathlib.Data.List.Nodup

namespace Verif.Metric
open Verif.Loss Verif.Stats Verif.Total

/-! ### Specification: one row -/

/-- One position: model outputs and targets.  `board` is read if the model gives a board mask. -/
structure Row where
  value : List ℚ
  policy : List ℚ
  board : List ℚ
  valueTarget : List ℚ
  policyTarget : List ℚ

/-- Columns of the value, its target and the policy, and whether there is a board mask. -/
structure Shape where
  value : Nat
  target : Nat
  cells : Nat
  masked : Bool

def RowOk (sh : Shape) (r : Row) : Prop :=
  r.value.length = sh.value ∧ r.valueTarget.length = sh.target ∧ r.policy.length = sh.cells ∧
    r.policyTarget.length = sh.cells ∧ (sh.masked = true → r.board.length = sh.cells)

/-- The batch of some positions with flags. -/
def batchOf (sh : Shape) (withFlags : Bool) (rows : List (Row × Bool)) : Batch where
  isReal := if withFlags then some (rows.map (·.2)) else none
  value := ⟨sh.value, rows.map (·.1.value)⟩
  policy := ⟨sh.cells, rows.map (·.1.policy)⟩
  boardMask := if sh.masked then some ⟨sh.cells, rows.map (·.1.board)⟩ else none
  valueTarget := ⟨sh.target, rows.map (·.1.valueTarget)⟩
  policyTarget := ⟨sh.cells, rows.map (·.1.policyTarget)⟩

/-- The positions that count. -/
def realRows (withFlags : Bool) (rows : List (Row × Bool)) : List Row :=
  if withFlags then (rows.filter (·.2)).map (·.1) else rows.map (·.1)

/-- Off the board the logit is `-10^6` and the target 0. -/
def Row.logits (sh : Shape) (r : Row) : List ℚ :=
  if sh.masked then List.zipWith (fun x b => if b = 0 then -1000000 else x) r.policy r.board else r.policy
def Row.targets (sh : Shape) (r : Row) : List ℚ :=
  if sh.masked then List.zipWith (fun x b => if b = 0 then 0 else x) r.policyTarget r.board else r.policyTarget

def ind (p : Prop) [Decidable p] : ℚ := if p then 1 else 0

/-- The winning rate a scalar value head is compared with: the target itself, or that of win, loss, draw. -/
def Row.winTarget (sh : Shape) (r : Row) : ℚ :=
  if sh.target = 1 then r.valueTarget.getD 0 0 else (r.valueTarget.getD 0 0 - r.valueTarget.getD 1 0 + 1) / 2

def wr (p : List ℚ) : ℚ := (p.getD 0 0 - p.getD 1 0 + 1) / 2

/-- A metric that is a mean: its name, the score of a row, and how many entries a row has. -/
abbrev Score := String × (Row → ℚ) × Nat

def policyScores (S : Choice) (sh : Shape) : List Score :=
  [("bestmove_acc", fun r => ind (S.argmax (r.logits sh) = S.argmax (r.targets sh)), 1),
   ("top2move_acc", fun r => ((S.topk 2 (r.logits sh)).toFinset ∩ (S.topk 2 (r.targets sh)).toFinset).card, 2),
   ("top3move_acc", fun r => ((S.topk 3 (r.logits sh)).toFinset ∩ (S.topk 3 (r.targets sh)).toFinset).card, 3)]

def valueScores (P : Prims) (S : Choice) (sh : Shape) : List Score :=
  if sh.value = 1 then
    [("winrate_acc", fun r => ind (0 ≤ (P.sigmoid (r.value.getD 0 0) - 1 / 2) * (r.winTarget sh - 1 / 2)), 1),
     ("winrate_mse", fun r => (P.sigmoid (r.value.getD 0 0) - r.winTarget sh) ^ 2, 1)]
  else
    [("drawrate_acc", fun r => ind (S.argmax (P.softmax r.value) = 2 ↔ S.argmax r.valueTarget = 2), 1),
     ("drawrate_mse", fun r => ((P.softmax r.value).getD 2 0 - r.valueTarget.getD 2 0) ^ 2, 1),
     ("winrate_acc", fun r => ind ((P.softmax r.value).getD 1 0 ≤ (P.softmax r.value).getD 0 0 ↔ r.valueTarget.getD 1 0 ≤ r.valueTarget.getD 0 0), 1),
     ("winrate_mse", fun r => (wr (P.softmax r.value) - wr r.valueTarget) ^ 2, 1)]

/-- The errors of a row in cross evaluation. -/
def Row.absErrors (P : Prims) (sh : Shape) (r : Row) : List ℚ :=
  if sh.value = 1 then [|P.sigmoid (r.value.getD 0 0) - r.winTarget sh|]
  else List.zipWith (fun p t => |p - t|) (P.softmax r.value) r.valueTarget
def Row.relErrors (P : Prims) (sh : Shape) (r : Row) : List ℚ :=
  if sh.value = 1 then [|P.sigmoid (r.value.getD 0 0) - r.winTarget sh| / (|P.sigmoid (r.value.getD 0 0)| + 1 / 10000)]
  else List.zipWith (fun p t => |p - t| / (|p| + 1 / 10000)) (P.softmax r.value) r.valueTarget

/-- The statistic of a score over rows. -/
def meanOf (dd : String × String) (sc : Score) (rows : List Row) : String × MStat :=
  (sc.1, .sum ⟨.globalBatch, ⟨[], dd.1, dd.2, [(rows.map sc.2.1).sum]⟩, ((rows.map fun _ => sc.2.2).sum : Nat)⟩)

/-- The greatest entry: `⊥` (not counted) without entries. -/
def IsTop (xs : List ℚ) (v : WithBot ℚ) : Prop := (xs = [] ∧ v = ⊥) ∨ ∃ x : ℚ, v = x ∧ x ∈ xs ∧ ∀ y ∈ xs, y ≤ x

/-- Shapes the function accepts. -/
def Accepts (sh : Shape) (cross : Bool) : Prop :=
  3 ≤ sh.cells ∧ (sh.value = 1 ∧ sh.target ≠ 0 ∨ 3 ≤ sh.value ∧ 3 ≤ sh.target ∧ (cross = true → sh.value = sh.target))

/-- `topk` returns no index twice; softmax keeps the length. -/
def Regular (P : Prims) (S : Choice) : Prop := (∀ k r, (S.topk k r).Nodup) ∧ ∀ r, (P.softmax r).length = r.length

/-! ### Proof -/

theorem select_map {α : Type} (f : Row → α) (rows : List (Row × Bool)) :
    select (rows.map fun r => f r.1) (rows.map (·.2)) = ((rows.filter (·.2)).map (·.1)).map f := by
  unfold select
  induction rows with
  | nil => rfl
  | cons a rows ih =>
    obtain ⟨r, b⟩ := a
    cases b
    · simpa using ih
    · simpa using ih

theorem select_all {α : Type} (xs : List α) : select xs (List.replicate xs.length true) = xs := by
  unfold select
  induction xs with
  | nil => rfl
  | cons a xs ih => simpa [List.replicate_succ] using ih

theorem selected_of (c : Nat) (f : Row → List ℚ) (w : Bool) (rows : List (Row × Bool)) :
    (Mat.mk c (rows.map fun r => f r.1)).selected (if w then rows.map (·.2) else List.replicate rows.length true) =
      ⟨c, (realRows w rows).map f⟩ := by
  unfold Mat.selected realRows
  cases w with
  | true => simp [select_map]
  | false =>
    simp only [Bool.false_eq_true, if_false, List.length_map, List.length_replicate, if_true, Mat.mk.injEq, true_and]
    have := select_all (rows.map fun r => f r.1)
    rw [List.length_map] at this
    rw [this, List.map_map]
    rfl

theorem flags_of (sh : Shape) (w : Bool) (rows : List (Row × Bool)) :
    flags (batchOf sh w rows) = .ok (if w then rows.map (·.2) else List.replicate rows.length true) := by
  unfold flags batchOf
  cases w <;> simp

theorem zipWith_same {α β γ δ : Type} (g : β → γ → δ) (f1 : α → β) (f2 : α → γ) (l : List α) :
    List.zipWith g (l.map f1) (l.map f2) = l.map fun a => g (f1 a) (f2 a) := by
  induction l with
  | nil => rfl
  | cons a l ih => simp [ih]

theorem overlap_eq (S : Choice) (k : Nat) (a b : List ℚ) (h : (S.topk k a).Nodup) :
    overlap S k a b = ((S.topk k a).toFinset ∩ (S.topk k b).toFinset).card := by
  unfold overlap
  rw [← List.toFinset_card_of_nodup (h.filter _)]
  congr 1
  ext i
  simp

theorem trues_map {α : Type} (l : List α) (p : α → Bool) : trues (l.map p) = (l.map fun a => if p a = true then (1 : ℚ) else 0).sum := by
  unfold trues
  rw [List.map_map]
  rfl

theorem foldl_top (xs : List ℚ) (a : WithBot ℚ) :
    xs.foldl (fun (m : WithBot ℚ) (x : ℚ) => Max.max m (x : WithBot ℚ)) a = Max.max a (xs.foldl (fun (m : WithBot ℚ) (x : ℚ) => Max.max m (x : WithBot ℚ)) ⊥) := by
  induction xs generalizing a with
  | nil => simp
  | cons x xs ih =>
    rw [List.foldl_cons, ih, List.foldl_cons, ih (Max.max ⊥ _)]
    simp [max_assoc]

theorem isTop_foldl (xs : List ℚ) : IsTop xs (xs.foldl (fun (m : WithBot ℚ) (x : ℚ) => Max.max m (x : WithBot ℚ)) ⊥) := by
  induction xs with
  | nil => exact Or.inl ⟨rfl, rfl⟩
  | cons x xs ih =>
    right
    rw [List.foldl_cons, foldl_top]
    rcases ih with ⟨rfl, h⟩ | ⟨y, h, hm, hle⟩
    · exact ⟨x, by rw [h]; simp, by simp, by simp⟩
    · rw [h]
      rcases le_total x y with hxy | hxy
      · refine ⟨y, ?_, by simp [hm], ?_⟩
        · rw [max_eq_right]; simpa using hxy
        · simpa using ⟨hxy, hle⟩
      · refine ⟨x, ?_, by simp, ?_⟩
        · rw [max_eq_left (by simpa using hxy)]; simp
        · intro z hz
          rcases List.mem_cons.mp hz with rfl | hz
          · exact le_refl _
          · exact (hle z hz).trans hxy

theorem sum_const {α : Type} (l : List α) (k : Nat) : (l.map fun _ => k).sum = k * l.length := by
  induction l with
  | nil => simp
  | cons a l ih => rw [List.map_cons, List.sum_cons, ih, List.length_cons]; ring

theorem natCast_sum {α : Type} (l : List α) (f : α → Nat) : (((l.map f).sum : Nat) : ℚ) = (l.map fun a => (f a : ℚ)).sum := by
  induction l with
  | nil => simp
  | cons a l ih => simp [ih]

theorem prepare_of (sh : Shape) (R : List Row) :
    preparePolicy ⟨sh.cells, R.map Row.policy⟩ ⟨sh.cells, R.map Row.policyTarget⟩
        (if sh.masked then some ⟨sh.cells, R.map Row.board⟩ else none) =
      .ok (⟨sh.cells, R.map (Row.logits sh)⟩, ⟨sh.cells, R.map (Row.targets sh)⟩) := by
  unfold preparePolicy
  cases hm : sh.masked with
  | false =>
    have h1 : Row.logits sh = Row.policy := by funext r; simp [Row.logits, hm]
    have h2 : Row.targets sh = Row.policyTarget := by funext r; simp [Row.targets, hm]
    simp [h1, h2]
  | true =>
    simp [Mat.fillZero, Mat.zip, zipWith_same, Row.logits, Row.targets, hm]

theorem policy_of (S : Choice) (hn : ∀ k r, (S.topk k r).Nodup) (dd : String × String) (sh : Shape) (h3 : 3 ≤ sh.cells) (R : List Row) :
    bestmove S dd ⟨sh.cells, R.map (Row.logits sh)⟩ ⟨sh.cells, R.map (Row.targets sh)⟩ =
        meanOf dd ("bestmove_acc", fun r => ind (S.argmax (r.logits sh) = S.argmax (r.targets sh)), 1) R ∧
    ∀ k, k ≤ 3 → topMoves S dd k ⟨sh.cells, R.map (Row.logits sh)⟩ ⟨sh.cells, R.map (Row.targets sh)⟩ =
        .ok (meanOf dd ("top" ++ toString k ++ "move_acc",
          fun r => ((S.topk k (r.logits sh)).toFinset ∩ (S.topk k (r.targets sh)).toFinset).card, k) R) := by
  constructor
  · simp [bestmove, meanOf, sumCount, zipWith_same, trues_map, scalar, ind]
  · intro k hk
    unfold topMoves
    rw [if_neg (by show ¬ k > sh.cells; omega)]
    simp only [meanOf, sumCount, zipWith_same, scalar, sum_const, List.length_map]
    rw [natCast_sum]
    simp only [overlap_eq S k _ _ (hn k _)]

theorem scalar_of (P : Prims) (S : Choice) (dd : String × String) (sh : Shape) (h1 : sh.value = 1) (ht : sh.target ≠ 0) (R : List Row) :
    ∃ t, convertValueTarget ⟨sh.value, R.map Row.value⟩ ⟨sh.target, R.map Row.valueTarget⟩ =
        (.one (R.map fun r => r.value.getD 0 0), .one t) ∧ t = R.map (Row.winTarget sh) ∧
      scalarValue P dd (R.map fun r => r.value.getD 0 0) t = (valueScores P S sh).map fun sc => meanOf dd sc R := by
  refine ⟨R.map (Row.winTarget sh), ?_, rfl, ?_⟩
  · unfold convertValueTarget
    simp only [h1, if_true, Mat.col, List.map_map]
    by_cases h : sh.target = 1
    · simp [h, Row.winTarget, Function.comp_def]
    · rw [if_neg h, zipWith_same]
      simp [h, Row.winTarget, Function.comp_def]
  · simp [scalarValue, valueScores, h1, meanOf, sumCount, scalar, zipWith_same, trues_map, ind, Function.comp_def]

theorem wdl_of (P : Prims) (S : Choice) (dd : String × String) (sh : Shape) (h1 : sh.value ≠ 1) (R : List Row) :
    wdlValue P S dd ⟨sh.value, R.map Row.value⟩ ⟨sh.target, R.map Row.valueTarget⟩ = (valueScores P S sh).map fun sc => meanOf dd sc R := by
  simp [wdlValue, valueScores, h1, meanOf, sumCount, scalar, trues_map, ind, Function.comp_def, Mat.onRows, Mat.col, winrateOf, wr, zipWith_same]

theorem zip_flatten (f : ℚ → ℚ → ℚ) (a b : Row → List ℚ) (R : List Row) (h : ∀ r ∈ R, (a r).length = (b r).length) :
    List.zipWith f (R.map a).flatten (R.map b).flatten = R.flatMap fun r => List.zipWith f (a r) (b r) := by
  induction R with
  | nil => rfl
  | cons r R ih =>
    rw [List.map_cons, List.flatten_cons, List.map_cons, List.flatten_cons, List.flatMap_cons,
      List.zipWith_append (h r (by simp)), ih fun x hx => h x (by simp [hx])]

theorem sum_flatMap (f : Row → List ℚ) (R : List Row) : (R.flatMap f).sum = (R.map fun r => (f r).sum).sum := by
  induction R with
  | nil => rfl
  | cons r R ih => simp [ih]

theorem length_flatMap_const (f : Row → List ℚ) (R : List Row) (n : Nat) (h : ∀ r ∈ R, (f r).length = n) :
    (R.flatMap f).length = n * R.length := by
  induction R with
  | nil => rfl
  | cons r R ih =>
    rw [List.flatMap_cons, List.length_append, h r (by simp), ih fun x hx => h x (by simp [hx]), List.length_cons]
    ring

theorem zipWith_zipWith_left (a b : List ℚ) :
    List.zipWith (fun e p => e / (|p| + 1 / 10000)) (List.zipWith (fun p t => |p - t|) a b) a =
      List.zipWith (fun p t => |p - t| / (|p| + 1 / 10000)) a b := by
  induction a generalizing b with
  | nil => rfl
  | cons x a ih =>
    cases b with
    | nil => rfl
    | cons y b => simp only [List.zipWith_cons_cons, ih]

/-- Cross evaluation on the concatenated elements. -/
theorem cross_of (P : Prims) (S : Choice) (dd : String × String) (sh : Shape) (pr tg : List ℚ) (R : List Row)
    (ha : List.zipWith (fun p t => |p - t|) pr tg = R.flatMap (Row.absErrors P sh))
    (hr : List.zipWith (fun p t => |p - t| / (|p| + 1 / 10000)) pr tg = R.flatMap (Row.relErrors P sh))
    (hal : ∀ r ∈ R, (r.absErrors P sh).length = sh.value) (hrl : ∀ r ∈ R, (r.relErrors P sh).length = sh.value) :
    ∃ va vr, IsTop (R.flatMap (Row.absErrors P sh)) va ∧ IsTop (R.flatMap (Row.relErrors P sh)) vr ∧
      crossEval dd pr tg =
          [meanOf dd ("value_abserr_mean", fun r => (r.absErrors P sh).sum, sh.value) R,
           ("value_abserr_max", .max ⟨⟨[], dd.1, dd.2, [va]⟩, (R.flatMap (Row.absErrors P sh)).length⟩),
           meanOf dd ("value_relerr_mean", fun r => (r.relErrors P sh).sum, sh.value) R,
           ("value_relerr_max", .max ⟨⟨[], dd.1, dd.2, [vr]⟩, (R.flatMap (Row.relErrors P sh)).length⟩)] := by
  refine ⟨_, _, isTop_foldl _, isTop_foldl _, ?_⟩
  unfold crossEval
  simp only [zipWith_zipWith_left]
  simp only [ha, hr]
  simp only [meanOf, sumCount, scalar, maximum, sum_flatMap, sum_const]
  rw [length_flatMap_const _ R _ hal, length_flatMap_const _ R _ hrl]

/-- **C93.** For every batch of an accepted shape the metrics are, by name and in order: the score of every real row
summed, with the number of entries; and in cross evaluation the mean and the maximum of the errors. -/
theorem C93_statistics (P : Prims) (S : Choice) (hreg : Regular P S) (dd : String × String) (cross : Bool) (sh : Shape)
    (hsh : Accepts sh cross) (w : Bool) (rows : List (Row × Bool)) (hrows : ∀ r ∈ rows, RowOk sh r.1) :
    ∃ (ms : List (String × MStat)) (va vr : WithBot ℚ),
      metricStats P S dd cross (batchOf sh w rows) = .ok ms ∧
      IsTop ((realRows w rows).flatMap (Row.absErrors P sh)) va ∧ IsTop ((realRows w rows).flatMap (Row.relErrors P sh)) vr ∧
      ms = (policyScores S sh ++ valueScores P S sh).map (fun sc => meanOf dd sc (realRows w rows)) ++
        if cross = true then
          [meanOf dd ("value_abserr_mean", fun r => (r.absErrors P sh).sum, sh.value) (realRows w rows),
           ("value_abserr_max", .max ⟨⟨[], dd.1, dd.2, [va]⟩, ((realRows w rows).flatMap (Row.absErrors P sh)).length⟩),
           meanOf dd ("value_relerr_mean", fun r => (r.relErrors P sh).sum, sh.value) (realRows w rows),
           ("value_relerr_max", .max ⟨⟨[], dd.1, dd.2, [vr]⟩, ((realRows w rows).flatMap (Row.relErrors P sh)).length⟩)]
        else [] := by
  obtain ⟨h3, hv⟩ := hsh
  obtain ⟨hbest, htop⟩ := policy_of S hreg.1 dd sh h3 (realRows w rows)
  have hR : ∀ r ∈ realRows w rows, RowOk sh r := by
    intro r hr
    unfold realRows at hr
    cases w with
    | true =>
      simp only [if_true, List.mem_map, List.mem_filter] at hr
      obtain ⟨x, ⟨hx, _⟩, rfl⟩ := hr
      exact hrows x hx
    | false =>
      simp only [Bool.false_eq_true, if_false, List.mem_map] at hr
      obtain ⟨x, hx, rfl⟩ := hr
      exact hrows x hx
  have hval : ∃ va vr, IsTop ((realRows w rows).flatMap (Row.absErrors P sh)) va ∧ IsTop ((realRows w rows).flatMap (Row.relErrors P sh)) vr ∧
      valueStats P S dd cross ⟨sh.value, (realRows w rows).map Row.value⟩ ⟨sh.target, (realRows w rows).map Row.valueTarget⟩ =
        .ok ((valueScores P S sh).map (fun sc => meanOf dd sc (realRows w rows)) ++
        if cross = true then
          [meanOf dd ("value_abserr_mean", fun r => (r.absErrors P sh).sum, sh.value) (realRows w rows),
           ("value_abserr_max", .max ⟨⟨[], dd.1, dd.2, [va]⟩, ((realRows w rows).flatMap (Row.absErrors P sh)).length⟩),
           meanOf dd ("value_relerr_mean", fun r => (r.relErrors P sh).sum, sh.value) (realRows w rows),
           ("value_relerr_max", .max ⟨⟨[], dd.1, dd.2, [vr]⟩, ((realRows w rows).flatMap (Row.relErrors P sh)).length⟩)]
        else []) := by
    rcases hv with ⟨h1, ht⟩ | ⟨h1, h2, hc⟩
    · obtain ⟨t, e1, e2, e3⟩ := scalar_of P S dd sh h1 ht (realRows w rows)
      have hne : sh.value = 1 := h1
      obtain ⟨va, vr, hva, hvr, hce⟩ := cross_of P S dd sh (((realRows w rows).map fun r => r.value.getD 0 0).map P.sigmoid) t (realRows w rows)
        (by rw [e2, List.map_map, zipWith_same]; unfold Row.absErrors; simp [h1, List.flatMap_singleton', ← List.map_eq_flatMap])
        (by rw [e2, List.map_map, zipWith_same]; unfold Row.relErrors; simp [h1, ← List.map_eq_flatMap])
        (by intro r _; simp [Row.absErrors, h1]) (by intro r _; simp [Row.relErrors, h1])
      refine ⟨va, vr, hva, hvr, ?_⟩
      unfold valueStats
      rw [if_pos (show (Mat.mk sh.value _).cols = 1 from h1), if_neg (show ¬ (Mat.mk sh.target _).cols = 0 from ht), e1]
      simp only [e3]
      rw [hce]
    · have hne : sh.value ≠ 1 := by omega
      obtain ⟨va, vr, hva, hvr, hce⟩ : ∃ va vr, IsTop ((realRows w rows).flatMap (Row.absErrors P sh)) va ∧
          IsTop ((realRows w rows).flatMap (Row.relErrors P sh)) vr ∧ (cross = true →
          crossEval dd ((Mat.mk sh.value ((realRows w rows).map Row.value)).onRows P.softmax).rows.flatten ((realRows w rows).map Row.valueTarget).flatten =
          [meanOf dd ("value_abserr_mean", fun r => (r.absErrors P sh).sum, sh.value) (realRows w rows),
           ("value_abserr_max", .max ⟨⟨[], dd.1, dd.2, [va]⟩, ((realRows w rows).flatMap (Row.absErrors P sh)).length⟩),
           meanOf dd ("value_relerr_mean", fun r => (r.relErrors P sh).sum, sh.value) (realRows w rows),
           ("value_relerr_max", .max ⟨⟨[], dd.1, dd.2, [vr]⟩, ((realRows w rows).flatMap (Row.relErrors P sh)).length⟩)]) := by
        cases cross with
        | false => exact ⟨_, _, isTop_foldl _, isTop_foldl _, by simp⟩
        | true =>
          have hlen : ∀ r ∈ realRows w rows, (P.softmax r.value).length = r.valueTarget.length := by
            intro r hr
            obtain ⟨a, b, _⟩ := hR r hr
            rw [hreg.2, a, b, hc rfl]
          obtain ⟨va, vr, hva, hvr, hce⟩ := cross_of P S dd sh ((Mat.mk sh.value ((realRows w rows).map Row.value)).onRows P.softmax).rows.flatten
            ((realRows w rows).map Row.valueTarget).flatten (realRows w rows)
            (by
              simp only [Mat.onRows, List.map_map, Function.comp_def]
              rw [zip_flatten _ _ _ _ hlen]
              unfold Row.absErrors; simp [hne])
            (by
              simp only [Mat.onRows, List.map_map, Function.comp_def]
              rw [zip_flatten _ _ _ _ hlen]
              unfold Row.relErrors; simp [hne])
            (by
              intro r hr
              simp only [Row.absErrors, if_neg hne, List.length_zipWith]
              rw [hlen r hr, (hR r hr).2.1, hc rfl, Nat.min_self])
            (by
              intro r hr
              simp only [Row.relErrors, if_neg hne, List.length_zipWith]
              rw [hlen r hr, (hR r hr).2.1, hc rfl, Nat.min_self])
          exact ⟨va, vr, hva, hvr, fun _ => hce⟩
      refine ⟨va, vr, hva, hvr, ?_⟩
      unfold valueStats
      rw [if_neg (show ¬ (Mat.mk sh.value _).cols = 1 from hne),
        if_neg (show ¬ ((Mat.mk sh.value _).cols < 3 ∨ (Mat.mk sh.target _).cols < 3) by show ¬ (sh.value < 3 ∨ sh.target < 3); omega),
        if_neg (show ¬ (cross = true ∧ (Mat.mk sh.value _).cols ≠ (Mat.mk sh.target _).cols) from fun h => h.2 (hc h.1)),
        wdl_of P S dd sh hne]
      cases cross with
      | false => rfl
      | true => simp only [if_true]; rw [hce rfl]
  obtain ⟨va, vr, hva, hvr, hvs⟩ := hval
  refine ⟨_, va, vr, ?_, hva, hvr, rfl⟩
  unfold metricStats
  rw [flags_of]
  simp only [bind, Except.bind]
  have hb : (batchOf sh w rows).boardMask.map (fun m => m.selected (if w then rows.map (·.2) else List.replicate rows.length true)) =
      if sh.masked then some ⟨sh.cells, (realRows w rows).map Row.board⟩ else none := by
    unfold batchOf
    cases sh.masked with
    | false => rfl
    | true => simp only [if_true, Option.map_some]; rw [selected_of sh.cells Row.board w rows]
  rw [hb]
  have e1 : (batchOf sh w rows).policy.selected (if w then rows.map (·.2) else List.replicate rows.length true) = ⟨sh.cells, (realRows w rows).map Row.policy⟩ :=
    selected_of sh.cells Row.policy w rows
  have e2 : (batchOf sh w rows).policyTarget.selected (if w then rows.map (·.2) else List.replicate rows.length true) = ⟨sh.cells, (realRows w rows).map Row.policyTarget⟩ :=
    selected_of sh.cells Row.policyTarget w rows
  have e3 : (batchOf sh w rows).value.selected (if w then rows.map (·.2) else List.replicate rows.length true) = ⟨sh.value, (realRows w rows).map Row.value⟩ :=
    selected_of sh.value Row.value w rows
  have e4 : (batchOf sh w rows).valueTarget.selected (if w then rows.map (·.2) else List.replicate rows.length true) = ⟨sh.target, (realRows w rows).map Row.valueTarget⟩ :=
    selected_of sh.target Row.valueTarget w rows
  rw [e1, e2, e3, e4, prepare_of]
  simp only
  rw [if_neg (by show ¬ sh.cells = 0; omega), htop 2 (by omega), htop 3 (by omega)]
  simp only [hvs, hbest]
  rfl

/-! ### Consequences -/

/-- **C93**, rows that are not real do not matter: equal real rows (in any order) give equal sums and counts. -/
theorem C93_padding (dd : String × String) (sc : Score) (w w' : Bool) (rows rows' : List (Row × Bool))
    (h : (realRows w rows).Perm (realRows w' rows')) :
    meanOf dd sc (realRows w rows) = meanOf dd sc (realRows w' rows') := by
  unfold meanOf
  rw [(h.map _).sum_eq, (h.map _).sum_eq]

theorem ind_range (p : Prop) [Decidable p] : 0 ≤ ind p ∧ ind p ≤ 1 := by
  unfold ind
  split_ifs <;> norm_num

/-- `topk` returns `k` indices; probabilities are in `[0, 1]`. -/
structure Ranges (P : Prims) (S : Choice) : Prop where
  nodup : ∀ k r, (S.topk k r).Nodup
  topk : ∀ k r, (S.topk k r).length ≤ k
  sigmoid : ∀ x, 0 ≤ P.sigmoid x ∧ P.sigmoid x ≤ 1
  softmax : ∀ r j, 0 ≤ (P.softmax r).getD j 0 ∧ (P.softmax r).getD j 0 ≤ 1

/-- Targets are in `[0, 1]`. -/
def TargetOk (r : Row) : Prop := ∀ j, 0 ≤ r.valueTarget.getD j 0 ∧ r.valueTarget.getD j 0 ≤ 1

theorem sq_le_one (a b : ℚ) (ha : 0 ≤ a ∧ a ≤ 1) (hb : 0 ≤ b ∧ b ≤ 1) : 0 ≤ (a - b) ^ 2 ∧ (a - b) ^ 2 ≤ 1 := by
  refine ⟨sq_nonneg _, ?_⟩
  nlinarith [ha.1, ha.2, hb.1, hb.2]

theorem wr_range (a b : ℚ) (ha : 0 ≤ a ∧ a ≤ 1) (hb : 0 ≤ b ∧ b ≤ 1) : 0 ≤ (a - b + 1) / 2 ∧ (a - b + 1) / 2 ≤ 1 := by
  constructor <;> linarith [ha.1, ha.2, hb.1, hb.2]

/-- **C93**, every score of a row is between 0 and its number of entries. -/
theorem C93_score_range (P : Prims) (S : Choice) (hr : Ranges P S) (sh : Shape) (sc : Score)
    (hs : sc ∈ policyScores S sh ++ valueScores P S sh) (r : Row) (ht : TargetOk r) : 0 ≤ sc.2.1 r ∧ sc.2.1 r ≤ sc.2.2 := by
  have hcard : ∀ k, (0 : ℚ) ≤ ((S.topk k (r.logits sh)).toFinset ∩ (S.topk k (r.targets sh)).toFinset).card ∧
      (((S.topk k (r.logits sh)).toFinset ∩ (S.topk k (r.targets sh)).toFinset).card : ℚ) ≤ k := by
    intro k
    refine ⟨Nat.cast_nonneg _, ?_⟩
    have h1 := Finset.card_le_card (Finset.inter_subset_left (s₁ := (S.topk k (r.logits sh)).toFinset) (s₂ := (S.topk k (r.targets sh)).toFinset))
    have h2 := (S.topk k (r.logits sh)).toFinset_card_le
    exact_mod_cast (h1.trans h2).trans (hr.topk k _)
  have hwt : 0 ≤ r.winTarget sh ∧ r.winTarget sh ≤ 1 := by
    unfold Row.winTarget
    split_ifs
    · exact ht 0
    · exact wr_range _ _ (ht 0) (ht 1)
  rcases List.mem_append.mp hs with hs | hs
  · simp only [policyScores, List.mem_cons, List.not_mem_nil, or_false] at hs
    rcases hs with rfl | rfl | rfl
    · simpa using ind_range _
    · exact hcard 2
    · exact hcard 3
  · unfold valueScores at hs
    split_ifs at hs
    · simp only [List.mem_cons, List.not_mem_nil, or_false] at hs
      rcases hs with rfl | rfl
      · simpa using ind_range _
      · simpa using sq_le_one _ _ (hr.sigmoid _) hwt
    · simp only [List.mem_cons, List.not_mem_nil, or_false] at hs
      rcases hs with rfl | rfl | rfl | rfl
      · simpa using ind_range _
      · simpa using sq_le_one _ _ (hr.softmax _ 2) (ht 2)
      · simpa using ind_range _
      · simpa [wr] using sq_le_one _ _ (wr_range _ _ (hr.softmax r.value 0) (hr.softmax r.value 1)) (wr_range _ _ (ht 0) (ht 1))

theorem sum_range (f : Row → ℚ) (k : Nat) (rows : List Row) (h : ∀ r ∈ rows, 0 ≤ f r ∧ f r ≤ k) :
    0 ≤ (rows.map f).sum ∧ (rows.map f).sum ≤ ((rows.map fun _ => k).sum : Nat) := by
  induction rows with
  | nil => simp
  | cons r rows ih =>
    obtain ⟨h1, h2⟩ := h r (by simp)
    obtain ⟨h3, h4⟩ := ih fun x hx => h x (by simp [hx])
    simp only [List.map_cons, List.sum_cons, Nat.cast_add]
    constructor <;> linarith

/-- The statistics of one metric on the ranks of a forward: each rank's real rows. -/
def reports (dd : String × String) (sc : Score) (fwd : Forward Row) : List (SumCount × Bool) :=
  fwd.map fun p => (⟨.globalBatch, ⟨[], dd.1, dd.2, [(p.1.map sc.2.1).sum]⟩, ((p.1.map fun _ => sc.2.2).sum : Nat)⟩, p.2)

/-- **C93**, validation over any number of ranks and forwards gives the mean over the forwards of the mean score per
entry, however the rows of a forward are spread over the ranks; it is between 0 and 1. -/
theorem C93_validation (P : Prims) (S : Choice) (hr : Ranges P S) (dd : String × String) (sh : Shape) (sc : Score)
    (hs : sc ∈ policyScores S sh ++ valueScores P S sh) (schema : SufficientStats → Bool)
    (batches : List (List Row)) (hne : batches ≠ []) (hpos : ∀ rows ∈ batches, rows ≠ [])
    (ht : ∀ rows ∈ batches, ∀ r ∈ rows, TargetOk r)
    (world : Nat) (hw : 0 < world) (fwds : List (Forward Row)) (hlen : ∀ b ∈ fwds, b.length = world)
    (hown : ∀ b ∈ fwds, ∀ p ∈ b, p.2 = true) (hrows : List.Forall₂ (fun b rows => (ownRows b).Perm rows) fwds batches) :
    ∃ v : ℚ, validateMetric schema world (fwds.map (reports dd sc)) = .ok (some ⟨[], dd.1, dd.2, [v]⟩) ∧
      v = (batches.map fun rows => (rows.map sc.2.1).sum / (sc.2.2 * rows.length : ℚ)).sum / batches.length ∧
      0 ≤ v ∧ v ≤ 1 := by
  have hk : 0 < sc.2.2 := by
    rcases List.mem_append.mp hs with hs | hs
    · simp only [policyScores, List.mem_cons, List.not_mem_nil, or_false] at hs
      rcases hs with rfl | rfl | rfl <;> simp
    · unfold valueScores at hs
      split_ifs at hs
      · simp only [List.mem_cons, List.not_mem_nil, or_false] at hs
        rcases hs with rfl | rfl <;> simp
      · simp only [List.mem_cons, List.not_mem_nil, or_false] at hs
        rcases hs with rfl | rfl | rfl | rfl <;> simp
  have hp : ∀ rows ∈ batches, 0 < (rows.map fun _ => sc.2.2).sum := by
    intro rows hr
    rw [sum_const]
    exact Nat.mul_pos hk (List.length_pos_of_ne_nil (hpos rows hr))
  have h := C08_validation_topology schema ([], dd.1, dd.2) (fun (r : Row) (_ : Fin 1) => sc.2.1 r) (fun _ => sc.2.2) batches hne hp world hw fwds hlen hown hrows
  have e : fwds.map (report ([], dd.1, dd.2) .globalBatch (fun (r : Row) (_ : Fin 1) => sc.2.1 r) (fun _ => sc.2.2)) = fwds.map (reports dd sc) := by
    apply List.map_congr_left
    intro b _
    unfold report reports
    apply List.map_congr_left
    intro p _
    simp [sumStat, vec, rowSum, rowCount]
  rw [e] at h
  refine ⟨_, ?_, rfl, ?_⟩
  · rw [h]
    simp only [sum_const, Nat.cast_mul]
    simp [vec]
  · have hb : ∀ rows ∈ batches, 0 ≤ (rows.map sc.2.1).sum / (sc.2.2 * rows.length : ℚ) ∧ (rows.map sc.2.1).sum / (sc.2.2 * rows.length : ℚ) ≤ 1 := by
      intro rows hrw
      obtain ⟨h1, h2⟩ := sum_range sc.2.1 sc.2.2 rows fun r hrr => C93_score_range P S hr sh sc hs r (ht rows hrw r hrr)
      rw [sum_const, Nat.cast_mul] at h2
      have : (0 : ℚ) < sc.2.2 * rows.length := by
        have := hp rows hrw
        rw [sum_const] at this
        exact_mod_cast this
      exact ⟨div_nonneg h1 this.le, (div_le_one this).mpr h2⟩
    have hall : ∀ l : List (List Row), (∀ rows ∈ l, 0 ≤ (rows.map sc.2.1).sum / (sc.2.2 * rows.length : ℚ) ∧ (rows.map sc.2.1).sum / (sc.2.2 * rows.length : ℚ) ≤ 1) →
        0 ≤ (l.map fun rows => (rows.map sc.2.1).sum / (sc.2.2 * rows.length : ℚ)).sum ∧
        (l.map fun rows => (rows.map sc.2.1).sum / (sc.2.2 * rows.length : ℚ)).sum ≤ l.length := by
      intro l hl
      induction l with
      | nil => simp
      | cons a l ih =>
        obtain ⟨h1, h2⟩ := hl a (by simp)
        obtain ⟨h3, h4⟩ := ih fun x hx => hl x (by simp [hx])
        simp only [List.map_cons, List.sum_cons, List.length_cons, Nat.cast_add, Nat.cast_one]
        constructor <;> linarith
    obtain ⟨h1, h2⟩ := hall batches hb
    have : (0 : ℚ) < batches.length := by exact_mod_cast List.length_pos_of_ne_nil hne
    exact ⟨div_nonneg h1 this.le, (div_le_one this).mpr h2⟩

/-- `argmax` returns an index of a greatest entry. -/
def ArgmaxOk (S : Choice) : Prop := ∀ r : List ℚ, r ≠ [] → ∃ x, r[S.argmax r]? = some x ∧ ∀ y ∈ r, y ≤ x

/-- **C93**, with a board mask the predicted best move is on the board and greatest there, provided some logit on the board
is above `-10^6`. -/
theorem C93_best_on_board (S : Choice) (hS : ArgmaxOk S) (sh : Shape) (hm : sh.masked = true) (r : Row) (hr : RowOk sh r)
    (hb : ∃ (i : Nat) (x b : ℚ), r.policy[i]? = some x ∧ r.board[i]? = some b ∧ b ≠ 0 ∧ -1000000 < x) :
    ∃ x b : ℚ, r.policy[S.argmax (r.logits sh)]? = some x ∧ r.board[S.argmax (r.logits sh)]? = some b ∧ b ≠ 0 ∧
      ∀ (i : Nat) (y c : ℚ), r.policy[i]? = some y → r.board[i]? = some c → c ≠ 0 → y ≤ x := by
  obtain ⟨i, x, b, h1, h2, h3, h4⟩ := hb
  have hl : ∀ (j : Nat) (y c : ℚ), r.policy[j]? = some y → r.board[j]? = some c → (r.logits sh)[j]? = some (if c = 0 then -1000000 else y) := by
    intro j y c e1 e2
    unfold Row.logits
    simp [hm, List.getElem?_zipWith, e1, e2]
  have hne : r.logits sh ≠ [] := by
    intro e
    have := hl i x b h1 h2
    rw [e] at this
    simp at this
  obtain ⟨m, hm1, hm2⟩ := hS _ hne
  have hmx : x ≤ m := by
    have := hm2 _ (List.mem_of_getElem? (hl i x b h1 h2))
    rwa [if_neg h3] at this
  obtain ⟨p, hp⟩ : ∃ p, r.policy[S.argmax (r.logits sh)]? = some p := by
    have hlt := (List.getElem?_eq_some_iff.mp hm1).1
    have : (r.logits sh).length ≤ r.policy.length := by
      unfold Row.logits
      simp [hm]
    exact ⟨_, List.getElem?_eq_getElem (Nat.lt_of_lt_of_le hlt this)⟩
  obtain ⟨c, hc⟩ : ∃ c, r.board[S.argmax (r.logits sh)]? = some c := by
    have hlt := (List.getElem?_eq_some_iff.mp hp).1
    rw [hr.2.2.1, ← hr.2.2.2.2 hm] at hlt
    exact ⟨_, List.getElem?_eq_getElem hlt⟩
  have hmp := hl _ p c hp hc
  rw [hm1] at hmp
  have hc0 : c ≠ 0 := by
    intro e
    rw [if_pos e] at hmp
    cases hmp
    linarith
  rw [if_neg hc0] at hmp
  cases hmp
  refine ⟨m, c, hp, hc, hc0, ?_⟩
  intro j y d e1 e2 hd
  have := hm2 _ (List.mem_of_getElem? (hl j y d e1 e2))
  rwa [if_neg hd] at this

/-! ### Finding: a drawn target counts differently for the two kinds of value heads -/

/-- **C93**, a scalar head is always right about a drawn position; a win-loss-draw head exactly if it does not prefer the
loss. -/
theorem C93_draws_differ (P : Prims) (S : Choice) (sh sh' : Shape) (h1 : sh.value = 1) (h3 : sh'.value ≠ 1) (ht : sh.target = 3)
    (r : Row) (hd : r.valueTarget = [0, 0, 1]) :
    (∃ f, ("winrate_acc", f, 1) ∈ valueScores P S sh ∧ f r = 1) ∧
    (∃ f, ("winrate_acc", f, 1) ∈ valueScores P S sh' ∧ (f r = 1 ↔ (P.softmax r.value).getD 1 0 ≤ (P.softmax r.value).getD 0 0)) := by
  constructor
  · refine ⟨_, by simp only [valueScores, if_pos h1]; exact List.mem_cons_self .., ?_⟩
    simp [ind, Row.winTarget, ht, hd]
  · refine ⟨_, by simp only [valueScores, if_neg h3]; exact List.mem_cons_of_mem _ (List.mem_cons_of_mem _ (List.mem_cons_self ..)), ?_⟩
    simp [ind, hd]

end Verif.Metric
