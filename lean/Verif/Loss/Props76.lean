import Verif.Loss.Loop
import Verif.Total.Props75b
import Mathlib.Tactic.Ring

/-!
C76: the validation loss is the training loss. The `total_loss` statistic of every rank, reduced over the ranks
and finalised, is the total that the training loss gives for all real rows of the global batch at once; the
named losses are the same as well.
-/

namespace Verif.Loss

open Verif.Stats Verif.Total

/-! ### Sums of terms -/

theorem sumTerms_some (dep : Option Bool) (ts : List (ℚ × Bool)) : ∀ a : ℚ,
    sumTerms dep (some a) ts =
      some (a + ((ts.filter (fun t => decide (dep = none ∨ some t.2 = dep))).map Prod.fst).sum) := by
  induction ts with
  | nil => intro a; simp [sumTerms]
  | cons t ts ih =>
    intro a
    obtain ⟨x, d⟩ := t
    rw [sumTerms, List.filter_cons]
    by_cases h : dep = none ∨ some d = dep
    · rw [if_neg (by rintro ⟨h1, h2⟩; rcases h with h | h; exacts [h1 h, h2 h])]
      dsimp only
      rw [ih, if_pos (by simpa using h)]
      simp only [List.map_cons, List.sum_cons]
      congr 1; ring
    · rw [if_pos ⟨fun h1 => h (Or.inl h1), fun h1 => h (Or.inr h1)⟩, ih, if_neg (by simpa using h)]

theorem sumTerms_none (dep : Option Bool) (ts : List (ℚ × Bool)) :
    sumTerms dep none ts =
      match ts.filter (fun t => decide (dep = none ∨ some t.2 = dep)) with
      | [] => none
      | l => some (l.map Prod.fst).sum := by
  induction ts with
  | nil => rfl
  | cons t ts ih =>
    obtain ⟨x, d⟩ := t
    rw [sumTerms, List.filter_cons]
    by_cases h : dep = none ∨ some d = dep
    · rw [if_neg (by rintro ⟨h1, h2⟩; rcases h with h | h; exacts [h1 h, h2 h])]
      dsimp only
      rw [sumTerms_some, if_pos (by simpa using h)]
      simp
    · rw [if_pos ⟨fun h1 => h (Or.inl h1), fun h1 => h (Or.inr h1)⟩, ih, if_neg (by simpa using h)]

/-- an empty sum is no sum -/
theorem sumTerms_cases (dep : Option Bool) (ts : List (ℚ × Bool)) :
    sumTerms dep none ts = none ∧
        ((ts.filter (fun t => decide (dep = none ∨ some t.2 = dep))).map Prod.fst).sum = 0 ∨
      sumTerms dep none ts =
        some ((ts.filter (fun t => decide (dep = none ∨ some t.2 = dep))).map Prod.fst).sum := by
  rw [sumTerms_none]
  cases h : ts.filter (fun t => decide (dep = none ∨ some t.2 = dep)) with
  | nil => left; simp
  | cons t l => right; rfl

theorem sum_trainTerms (log : ℚ → ℚ) (ts : List (String × Term Part)) (parts : List Part) :
    ((trainTerms log ts parts).map Prod.fst).sum = weighted log (ts.map Prod.snd) parts := by
  unfold trainTerms weighted
  rw [List.map_map, List.map_map]
  rfl

theorem filter_trainTerms (log : ℚ → ℚ) (ts : List (String × Term Part)) (parts : List Part) (b : Bool) :
    (((trainTerms log ts parts).filter (fun t => decide (some b = (none : Option Bool) ∨ some t.2 = some b))).map
      Prod.fst).sum = weighted log ((ts.map Prod.snd).filter (fun t => t.dependent == b)) parts := by
  unfold trainTerms weighted
  rw [List.filter_map, List.filter_map, List.map_map, List.map_map]
  have hp : (fun t : ℚ × Bool => decide (some b = (none : Option Bool) ∨ some t.2 = some b)) ∘
      (fun t : String × Term Part => (t.2.weight * t.2.head.value log parts, t.2.dependent)) =
      (fun t : Term Part => t.dependent == b) ∘ Prod.snd := by
    funext t
    simp only [Function.comp_apply]
    cases t.2.dependent <;> cases b <;> rfl
  rw [hp]
  rfl

/-! ### Ranks and parts -/

theorem ownParts_ranks (ranks : List (Rank × Bool)) :
    ownParts (ranks.map (fun r => (r.1.part, r.2))) = countedParts ranks := by
  unfold ownParts countedParts
  rw [List.filter_map, List.map_map]
  rfl

theorem allRows_counted (ranks : List (Rank × Bool)) : allRows (countedParts ranks) = realRows ranks := by
  unfold allRows countedParts realRows
  rw [List.flatMap_map]
  rfl

theorem rank_mask (sc : Schema) (vq : String → ℚ) (r : Rank) :
    evaluationMask (r.batch sc vq) = .ok (r.rows.map (fun x => x.2)) := by
  unfold evaluationMask Rank.batch batchOf
  simp [matOf]

theorem rank_sel (r : Rank) : SelTo (r.rows.map (fun x => x.1)) (r.rows.map (fun x => x.2)) r.part.2 :=
  ⟨by simp, select_pairs r.rows⟩

theorem forall₂_map_left {α β γ : Type} {R : β → γ → Prop} (f : α → β) {l : List α} {m : List γ}
    (h : List.Forall₂ R (l.map f) m) : List.Forall₂ (fun a c => R (f a) c) l m := by
  induction l generalizing m with
  | nil => cases h; exact .nil
  | cons a l ih =>
    cases h with
    | cons h1 h2 => exact .cons h1 (ih h2)

theorem forall₂_imp {α γ : Type} {R S : α → γ → Prop} {l : List α} {m : List γ}
    (hRS : ∀ a ∈ l, ∀ c, R a c → S a c) (h : List.Forall₂ R l m) : List.Forall₂ S l m := by
  induction h with
  | nil => exact .nil
  | cons h1 h2 ih =>
    exact .cons (hRS _ (List.mem_cons_self ..) _ h1) (ih (fun a ha => hRS a (List.mem_cons_of_mem _ ha)))

/-- the total of a batch: the weighted sums of its terms -/
theorem train_plain (P : Prims) (cfg : Cfg) (br : Branch) (parts : List Part) (b : Batch) (D : Dict ℚ)
    (hr : b.isReal = none) (ht : b.teacher = none)
    (hl : lossTerms P cfg b none = .ok ((cfg.valueLambda * br.value.value P.log parts +
      cfg.policyLambda * br.policy.value P.log parts, true) :: trainTerms P.log br.rest parts, D)) :
    computeLosses P cfg b = .ok (weighted P.log ((br.named cfg).map Prod.snd) parts,
      setKey D "total_loss" (weighted P.log ((br.named cfg).map Prod.snd) parts)) := by
  have hs : weighted P.log ((br.named cfg).map Prod.snd) parts = cfg.valueLambda * br.value.value P.log parts +
      cfg.policyLambda * br.policy.value P.log parts + weighted P.log (br.rest.map Prod.snd) parts := by
    simp [weighted, Branch.named]; ring
  have hsum : sumTerms none none ((cfg.valueLambda * br.value.value P.log parts +
      cfg.policyLambda * br.policy.value P.log parts, true) :: trainTerms P.log br.rest parts) =
      some (weighted P.log ((br.named cfg).map Prod.snd) parts) := by
    rw [sumTerms, if_neg (by simp)]
    rw [sumTerms_some, hs]
    simp only [true_or, decide_true, List.filter_true, sum_trainTerms]
  unfold computeLosses trainBody
  rw [hr, ht]
  dsimp only
  rw [hl]
  dsimp only
  rw [hsum]

theorem train_teacher (P : Prims) (cfg : Cfg) (kd br : Branch) (parts : List Part) (b : Batch) (D E : Dict ℚ)
    (t : Mat × Mat) (hr : b.isReal = none) (ht : b.teacher = some t)
    (hk : lossTerms P cfg b (some t) = .ok ((cfg.valueLambda * kd.value.value P.log parts +
      cfg.policyLambda * kd.policy.value P.log parts, true) :: trainTerms P.log kd.rest parts, D))
    (hl : lossTerms P cfg b none = .ok ((cfg.valueLambda * br.value.value P.log parts +
      cfg.policyLambda * br.policy.value P.log parts, true) :: trainTerms P.log br.rest parts, E)) :
    ∃ total, total = cfg.kdAlpha * cfg.kdT ^ 2 *
          weighted P.log (((kd.named cfg).map Prod.snd).filter (fun t => t.dependent)) parts +
        (1 - cfg.kdAlpha) * weighted P.log (((br.named cfg).map Prod.snd).filter (fun t => t.dependent)) parts +
        weighted P.log (((br.named cfg).map Prod.snd).filter (fun t => !t.dependent)) parts ∧
      computeLosses P cfg b = .ok (total,
        setKey (update E (D.map (fun kv => ("kd_" ++ kv.1, kv.2)))) "total_loss" total) := by
  have hd : ∀ br : Branch, sumTerms (some true) none ((cfg.valueLambda * br.value.value P.log parts +
      cfg.policyLambda * br.policy.value P.log parts, true) :: trainTerms P.log br.rest parts) =
      some (weighted P.log (((br.named cfg).map Prod.snd).filter (fun t => t.dependent)) parts) := by
    intro br
    rw [sumTerms, if_neg (by simp)]
    rw [sumTerms_some, filter_trainTerms]
    congr 1
    have : ∀ l : List (Term Part), l.filter (fun t => t.dependent == true) = l.filter (fun t => t.dependent) := by
      intro l; congr 1; funext t; simp
    rw [this]
    simp only [Branch.named, List.map_cons, List.filter_cons, if_true, weighted, List.sum_cons]
    ring
  have hi : sumTerms (some false) none ((cfg.valueLambda * br.value.value P.log parts +
      cfg.policyLambda * br.policy.value P.log parts, true) :: trainTerms P.log br.rest parts) = none ∧
        weighted P.log (((br.named cfg).map Prod.snd).filter (fun t => !t.dependent)) parts = 0 ∨
      sumTerms (some false) none ((cfg.valueLambda * br.value.value P.log parts +
      cfg.policyLambda * br.policy.value P.log parts, true) :: trainTerms P.log br.rest parts) =
        some (weighted P.log (((br.named cfg).map Prod.snd).filter (fun t => !t.dependent)) parts) := by
    have hf : weighted P.log (((br.named cfg).map Prod.snd).filter (fun t => !t.dependent)) parts =
        weighted P.log ((br.rest.map Prod.snd).filter (fun t => t.dependent == false)) parts := by
      have : ∀ l : List (Term Part), l.filter (fun t => t.dependent == false) = l.filter (fun t => !t.dependent) := by
        intro l; congr 1; funext t; cases t.dependent <;> rfl
      rw [this]
      simp [Branch.named]
    rw [sumTerms, if_pos (by simp), hf, ← filter_trainTerms]
    exact sumTerms_cases _ _
  refine ⟨_, rfl, ?_⟩
  unfold computeLosses trainBody
  rw [hr, ht]
  dsimp only
  rw [hk, hl]
  dsimp only
  rw [hd kd, hd br]
  dsimp only
  have e : ∀ a k t r : ℚ, a * k * t ^ 2 + (1 - a) * r = a * t ^ 2 * k + (1 - a) * r := by
    intros; ring
  rcases hi with ⟨hi, h0⟩ | hi
  · rw [hi, h0, e, add_zero]
  · rw [hi, e]

/-- The validation total, reduced over the ranks and finalised, is the training total on all real rows, with
or without a teacher. -/
theorem C76_total (P : Prims) (dd : DD) (cfg : Cfg) (sc : Schema) (vq : String → ℚ) (eps : ℚ) (heps : 0 ≤ eps)
    (ranks : List (Rank × Bool))
    (haux : ∀ a ∈ sc.aux, AuxOk P.log sc.cells (countedParts ranks) vq a.1 a.2)
    (hrows : RowsOk sc.cells sc.mask (realRows ranks)) (part0 : Part) :
    ∃ stats : List (SufficientStats × Bool),
      List.Forall₂ (fun r s => totalStatistic P dd cfg (r.1.batch sc vq) = .ok s.1 ∧ s.2 = r.2) ranks stats ∧
      ∃ total named v,
        computeLosses P cfg (batchOf sc part0 vq (realRows ranks) none) = .ok (total, named) ∧
        closeGlobalSuff validSchema (finalize eps P.log) stats = .ok v ∧
        v.scope = .evaluation ∧ v.count = 1 ∧ v.sum.data = [total] := by
  have hne : ranks.map (fun r => (r.1.part, r.2)) ≠ [] := by
    intro h
    rw [List.map_eq_nil_iff] at h
    exact hrows.1 (by rw [h]; rfl)
  rw [← allRows_counted] at hrows ⊢
  obtain ⟨br, hg, hev, htr⟩ := branch_terms P dd cfg sc (countedParts ranks) vq haux hrows false
  cases hT : sc.hasTeacher with
  | false =>
    obtain ⟨stats, h1, h2, -⟩ := C75_total eps heps P.log ((br.named cfg).map Prod.snd) (by simp [Branch.named])
      (fun t ht => by
        obtain ⟨x, hx, rfl⟩ := List.mem_map.1 ht
        exact (hg x hx).1) (ranks.map (fun r => (r.1.part, r.2))) hne
    rw [ownParts_ranks] at h2
    refine ⟨stats, ?_, ?_⟩
    · refine forall₂_imp (fun r _ s hs => ?_) (forall₂_map_left _ h1)
      refine ⟨?_, hs.2⟩
      have ht : (r.1.batch sc vq).teacher = none := by simp [Rank.batch, batchOf, hT]
      unfold totalStatistic
      rw [ht]
      have := hev r.1.part _ _ _ (rank_mask sc vq r.1) (rank_sel r.1)
      simp only [teacherOf, Bool.false_eq_true, if_false] at this
      unfold Rank.batch
      rw [this]
      exact hs.1
    · obtain ⟨v, hv1, hv2, hv3, hv4⟩ := h2 (fun t ht => by
        obtain ⟨x, hx, rfl⟩ := List.mem_map.1 ht
        exact (hg x hx).2)
      exact ⟨_, _, v, train_plain P cfg br (countedParts ranks) _ _ rfl (by simp [batchOf, hT]) (htr part0),
        hv1, hv2, hv3, hv4⟩
  | true =>
    obtain ⟨kd, kg, kev, ktr⟩ := branch_terms P dd cfg sc (countedParts ranks) vq haux hrows true
    obtain ⟨stats, h1, h2, -⟩ := C75_total_teacher eps heps P.log ((kd.named cfg).map Prod.snd)
      ((br.named cfg).map Prod.snd) ⟨⟨kd.value, true, cfg.valueLambda⟩, by simp [Branch.named], rfl⟩
      ⟨⟨br.value, true, cfg.valueLambda⟩, by simp [Branch.named], rfl⟩ cfg.kdAlpha cfg.kdT
      (fun t ht => by
        obtain ⟨x, hx, rfl⟩ := List.mem_map.1 ht
        exact (kg x hx).1)
      (fun t ht => by
        obtain ⟨x, hx, rfl⟩ := List.mem_map.1 ht
        exact (hg x hx).1) (ranks.map (fun r => (r.1.part, r.2))) hne
    rw [ownParts_ranks] at h2
    refine ⟨stats, ?_, ?_⟩
    · refine forall₂_imp (fun r _ s hs => ?_) (forall₂_map_left _ h1)
      refine ⟨?_, hs.2⟩
      have ht : (r.1.batch sc vq).teacher = teacherOf sc true (r.1.rows.map (fun x => x.1)) := by
        simp [Rank.batch, batchOf, hT, teacherOf]
      have hs' : teacherOf sc true (r.1.rows.map (fun x => x.1)) = some
        (matOf sc.teacherValueCols Row.teacherValue (r.1.rows.map (fun x => x.1)),
          matOf sc.cells Row.teacherPolicy (r.1.rows.map (fun x => x.1))) := rfl
      have e1 := kev r.1.part _ _ _ (rank_mask sc vq r.1) (rank_sel r.1)
      have e2 := hev r.1.part _ _ _ (rank_mask sc vq r.1) (rank_sel r.1)
      unfold totalStatistic
      rw [ht]
      unfold Rank.batch
      rw [e1, hs']
      dsimp only
      have e3 : teacherOf sc false (r.1.rows.map (fun x => x.1)) = none := rfl
      rw [e3] at e2
      rw [e2]
      exact hs.1
    · obtain ⟨v, hv1, hv2, hv3, hv4⟩ := h2 (fun t ht _ => by
        obtain ⟨x, hx, rfl⟩ := List.mem_map.1 ht
        exact (kg x hx).2) (fun t ht => by
        obtain ⟨x, hx, rfl⟩ := List.mem_map.1 ht
        exact (hg x hx).2)
      obtain ⟨total, htot, htrain⟩ := train_teacher P cfg kd br (countedParts ranks) _ _ _ _ rfl
        (by simp only [batchOf, hT, if_true]) (ktr part0) (htr part0)
      exact ⟨total, _, v, htrain, hv1, hv2, hv3, by rw [hv4, htot]⟩

end Verif.Loss
