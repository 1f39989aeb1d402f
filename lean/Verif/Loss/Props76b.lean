import Verif.Loss.Props76

/-!
C76: the named losses of validation are those of training; padding rows do not change the training loss; a
batch of padding rows only gives zeros under the same names.
-/

namespace Verif.Loss

open Verif.Stats Verif.Total

/-! ### Dictionaries under a map of the values -/

theorem names_mapv {α β : Type} (f : α → β) (d : Dict α) : names (d.map (fun kv => (kv.1, f kv.2))) = names d := by
  simp [names, Function.comp_def]

theorem setKey_mapv {α β : Type} (f : α → β) (d : Dict α) (k : String) (v : α) :
    setKey (d.map (fun kv => (kv.1, f kv.2))) k (f v) = (setKey d k v).map (fun kv => (kv.1, f kv.2)) := by
  unfold setKey
  rw [names_mapv]
  by_cases h : k ∈ names d
  · rw [if_pos h, if_pos h, List.map_map, List.map_map]
    apply List.map_congr_left
    intro x _
    simp only [Function.comp_apply]
    split_ifs <;> rfl
  · rw [if_neg h, if_neg h, List.map_append]
    rfl

theorem update_mapv {α β : Type} (f : α → β) (d e : Dict α) :
    update (d.map (fun kv => (kv.1, f kv.2))) (e.map (fun kv => (kv.1, f kv.2))) =
      (update d e).map (fun kv => (kv.1, f kv.2)) := by
  unfold update
  induction e generalizing d with
  | nil => rfl
  | cons x e ih =>
    rw [List.map_cons, List.foldl_cons, List.foldl_cons, ← ih]
    simp only
    rw [setKey_mapv]

theorem rename_mapv {α β : Type} (f : α → β) (d : Dict α) :
    (d.map (fun kv => (kv.1, f kv.2))).map (fun kv => ("kd_" ++ kv.1, kv.2)) =
      (d.map (fun kv => ("kd_" ++ kv.1, kv.2))).map (fun kv => (kv.1, f kv.2)) := by
  rw [List.map_map, List.map_map]
  rfl

theorem mem_setKey {α : Type} (d : Dict α) (k : String) (v : α) (x : String × α) (hx : x ∈ setKey d k v) :
    x ∈ d ∨ x = (k, v) := by
  unfold setKey at hx
  by_cases h : k ∈ names d
  · rw [if_pos h, List.mem_map] at hx
    obtain ⟨y, hy, rfl⟩ := hx
    by_cases hk : y.1 = k
    · rw [if_pos hk]; exact Or.inr rfl
    · rw [if_neg hk]; exact Or.inl hy
  · rw [if_neg h, List.mem_append, List.mem_singleton] at hx
    exact hx

theorem mem_update {α : Type} (d e : Dict α) (x : String × α) (hx : x ∈ update d e) : x ∈ d ∨ x ∈ e := by
  unfold update at hx
  induction e generalizing d with
  | nil => exact Or.inl hx
  | cons y e ih =>
    rw [List.foldl_cons] at hx
    rcases ih _ hx with h | h
    · rcases mem_setKey d y.1 y.2 x h with h | h
      · exact Or.inl h
      · exact Or.inr (by rw [h]; exact List.mem_cons_self ..)
    · exact Or.inr (List.mem_cons_of_mem _ h)

/-- the heads of a branch, by name -/
def headsOf (cfg : Cfg) (br : Branch) : Dict (Head Part) :=
  update (((br.named cfg).take 2).map (fun t => (t.1, t.2.head))) (br.rest.map (fun t => (t.1, t.2.head)))

theorem evalDict_heads (cfg : Cfg) (br : Branch) (part : Part) :
    update (evalDict ((br.named cfg).take 2) part) (evalDict br.rest part) =
      (headsOf cfg br).map (fun kv => (kv.1, kv.2.raw part)) := by
  unfold headsOf
  rw [← update_mapv (fun h : Head Part => h.raw part)]
  unfold evalDict
  rw [List.map_map, List.map_map]
  rfl

theorem trainDict_heads (cfg : Cfg) (br : Branch) (log : ℚ → ℚ) (parts : List Part) :
    update (trainDict log ((br.named cfg).take 2) parts) (trainDict log br.rest parts) =
      (headsOf cfg br).map (fun kv => (kv.1, kv.2.value log parts)) := by
  unfold headsOf
  rw [← update_mapv (fun h : Head Part => h.value log parts)]
  unfold trainDict
  rw [List.map_map, List.map_map]
  rfl

theorem headsOf_good (cfg : Cfg) (br : Branch) (parts : List Part) (hg : GoodTerms parts (br.named cfg)) :
    ∀ h ∈ headsOf cfg br, h.2.wellNamed ∧ h.2.nonEmpty parts := by
  intro h hh
  rcases mem_update _ _ _ hh with hh | hh
  · obtain ⟨t, ht, rfl⟩ := List.mem_map.1 hh
    exact hg t (List.mem_of_mem_take ht)
  · obtain ⟨t, ht, rfl⟩ := List.mem_map.1 hh
    refine hg t ?_
    unfold Branch.named
    exact List.mem_cons_of_mem _ (List.mem_cons_of_mem _ ht)

/-- The named losses: there are loss heads, by name, such that every rank's validation gives the statistics of
the heads for its real rows, and training on all real rows gives the values of the heads over all of them,
under the same names in the same order, and `total_loss`. -/
theorem C76_named (P : Prims) (dd : DD) (cfg : Cfg) (sc : Schema) (vq : String → ℚ) (ranks : List (Rank × Bool))
    (haux : ∀ a ∈ sc.aux, AuxOk P.log sc.cells (countedParts ranks) vq a.1 a.2)
    (hrows : RowsOk sc.cells sc.mask (realRows ranks)) (part0 : Part) :
    ∃ heads : Dict (Head Part),
      (∀ h ∈ heads, h.2.wellNamed ∧ h.2.nonEmpty (countedParts ranks)) ∧
      (∀ r : Rank, namedStatistics P dd cfg (r.batch sc vq) = .ok (heads.map (fun h => (h.1, h.2.raw r.part)))) ∧
      ∃ total, computeLosses P cfg (batchOf sc part0 vq (realRows ranks) none) =
        .ok (total, setKey (heads.map (fun h => (h.1, h.2.value P.log (countedParts ranks)))) "total_loss" total) := by
  rw [← allRows_counted] at hrows ⊢
  obtain ⟨br, hg, hev, htr⟩ := branch_terms P dd cfg sc (countedParts ranks) vq haux hrows false
  cases hT : sc.hasTeacher with
  | false =>
    refine ⟨headsOf cfg br, headsOf_good cfg br _ hg, ?_, ?_⟩
    · intro r
      have ht : (r.batch sc vq).teacher = none := by simp [Rank.batch, batchOf, hT]
      have e2 := hev r.part _ _ _ (rank_mask sc vq r) (rank_sel r)
      have e3 : teacherOf sc false (r.rows.map (fun x => x.1)) = none := rfl
      rw [e3] at e2
      unfold namedStatistics
      rw [ht]
      unfold Rank.batch
      rw [e2]
      dsimp only
      rw [evalDict_heads]
    · refine ⟨weighted P.log ((br.named cfg).map Prod.snd) (countedParts ranks), ?_⟩
      rw [train_plain P cfg br (countedParts ranks) _ _ rfl (by simp [batchOf, hT]) (htr part0), trainDict_heads]
  | true =>
    obtain ⟨kd, kg, kev, ktr⟩ := branch_terms P dd cfg sc (countedParts ranks) vq haux hrows true
    refine ⟨update (headsOf cfg br) ((headsOf cfg kd).map (fun kv => ("kd_" ++ kv.1, kv.2))), ?_, ?_, ?_⟩
    · intro h hh
      rcases mem_update _ _ _ hh with hh | hh
      · exact headsOf_good cfg br _ hg h hh
      · obtain ⟨t, ht, rfl⟩ := List.mem_map.1 hh
        exact headsOf_good cfg kd _ kg t ht
    · intro r
      have ht : (r.batch sc vq).teacher = teacherOf sc true (r.rows.map (fun x => x.1)) := by
        simp [Rank.batch, batchOf, hT, teacherOf]
      have hs' : teacherOf sc true (r.rows.map (fun x => x.1)) = some
        (matOf sc.teacherValueCols Row.teacherValue (r.rows.map (fun x => x.1)),
          matOf sc.cells Row.teacherPolicy (r.rows.map (fun x => x.1))) := rfl
      have e1 := kev r.part _ _ _ (rank_mask sc vq r) (rank_sel r)
      have e2 := hev r.part _ _ _ (rank_mask sc vq r) (rank_sel r)
      have e3 : teacherOf sc false (r.rows.map (fun x => x.1)) = none := rfl
      rw [e3] at e2
      unfold namedStatistics
      rw [ht]
      unfold Rank.batch
      rw [e1, hs']
      dsimp only
      rw [e2]
      dsimp only
      rw [evalDict_heads, evalDict_heads, rename_mapv (fun h : Head Part => h.raw r.part),
        update_mapv (fun h : Head Part => h.raw r.part)]
    · obtain ⟨total, htot, htrain⟩ := train_teacher P cfg kd br (countedParts ranks) _ _ _ _ rfl
        (by simp only [batchOf, hT, if_true]) (ktr part0) (htr part0)
      refine ⟨total, ?_⟩
      rw [htrain, trainDict_heads, trainDict_heads,
        rename_mapv (fun h : Head Part => h.value P.log (countedParts ranks)),
        update_mapv (fun h : Head Part => h.value P.log (countedParts ranks))]

/-! ### Padding rows -/

theorem SelTo.aux {rows : List Row} {sel : List Bool} {real : List Row} (h : SelTo rows sel real) (part : Part)
    (vq : String → ℚ) (i : Nat) (name : String) (k : AuxKind) :
    (auxOf part vq rows i name k).selected sel = auxOf part vq real i name k := by
  cases k <;> simp only [auxOf, Aux.selected, h.mat, h.vec, h.val]

theorem SelTo.auxes {rows : List Row} {sel : List Bool} {real : List Row} (h : SelTo rows sel real) (part : Part)
    (vq : String → ℚ) (aux : List (String × AuxKind)) : ∀ i,
    (auxesOf part vq rows i aux).map (fun na => (na.1, na.2.selected sel)) = auxesOf part vq real i aux := by
  induction aux with
  | nil => intro i; rfl
  | cons a aux ih =>
    intro i
    obtain ⟨name, k⟩ := a
    rw [auxesOf, List.map_cons, ih, auxesOf, h.aux]

theorem filterReal_batch {rows : List Row} {sel : List Bool} {real : List Row} (h : SelTo rows sel real)
    (sc : Schema) (part : Part) (vq : String → ℚ) (m : Option (List Bool)) :
    (batchOf sc part vq rows m).filterReal sel = batchOf sc part vq real none := by
  unfold Batch.filterReal batchOf
  simp only [h.mat, h.auxes, Batch.mk.injEq, true_and, and_true]
  constructor
  · cases sc.hasMask <;> simp [h.mat]
  · cases sc.hasTeacher <;> simp [h.mat]

/-- Training: padding rows do not change any loss (of a batch with a real row). -/
theorem C76_padding (P : Prims) (cfg : Cfg) (sc : Schema) (vq : String → ℚ) (r : Rank) (hr : r.real ≠ []) :
    computeLosses P cfg (r.batch sc vq) = computeLosses P cfg (batchOf sc r.part vq r.real none) := by
  have hany : (r.rows.map (fun x => x.2)).any (fun m => m) = true := by
    rw [List.any_map, List.any_eq_true]
    obtain ⟨x, hx⟩ := List.exists_mem_of_ne_nil _ hr
    unfold Rank.real at hx
    rw [List.mem_map] at hx
    obtain ⟨y, hy, -⟩ := hx
    rw [List.mem_filter] at hy
    exact ⟨y, hy.1, hy.2⟩
  have hb : (r.batch sc vq).isReal = some (r.rows.map (fun x => x.2)) := rfl
  unfold computeLosses
  rw [hb]
  dsimp only
  rw [if_pos hany]
  unfold Rank.batch
  rw [filterReal_batch (rank_sel r)]
  rfl

/-! ### Batches of padding rows only -/

/-- names of a dictionary after `d[k] = v` -/
def addName (l : List String) (k : String) : List String := if k ∈ l then l else l ++ [k]

theorem names_setKey {α : Type} (d : Dict α) (k : String) (v : α) : names (setKey d k v) = addName (names d) k := by
  unfold setKey addName
  by_cases h : k ∈ names d
  · rw [if_pos h, if_pos h]
    unfold names
    rw [List.map_map]
    apply List.map_congr_left
    intro x _
    simp only [Function.comp_apply]
    split_ifs with hk
    · exact hk.symm
    · rfl
  · rw [if_neg h, if_neg h]
    simp [names]

theorem names_update {α : Type} (d e : Dict α) : names (update d e) = (names e).foldl addName (names d) := by
  unfold update
  induction e generalizing d with
  | nil => rfl
  | cons x e ih =>
    rw [List.foldl_cons, ih, names_setKey]
    rfl

/-- the auxiliary losses of policies have the size of the board -/
def auxFits (sc : Schema) : Prop := ∀ a ∈ sc.aux, match a.2 with
  | .policyLoss c => c = sc.cells
  | _ => True

theorem auxNames (P : Prims) (cfg : Cfg) (cells : Nat) (hasMask : Bool) (aux : List (String × AuxKind))
    (hfit : ∀ a ∈ aux, match a.2 with
      | .policyLoss c => c = cells
      | _ => True) : ∀ (i : Nat) (ns : List String) (ds : List Bool),
    ∃ ns' ds', ∀ (vt pt : Mat) (mask W : Option Mat) (kdT : Option ℚ) (part : Part) (vq : String → ℚ)
      (rows : List Row) (terms : List (ℚ × Bool)) (d : Dict ℚ), pt.cols = cells →
      names d = ns → terms.map Prod.snd = ds →
      ∃ terms' d', trainAuxLoop P cfg vt pt mask W kdT (auxesOf part vq rows i aux) terms d = .ok (terms', d') ∧
        names d' = ns' ∧ terms'.map Prod.snd = ds' := by
  induction aux with
  | nil =>
    intro i ns ds
    exact ⟨ns, ds, fun _ _ _ _ _ _ _ _ terms d _ h1 h2 => ⟨terms, d, rfl, h1, h2⟩⟩
  | cons a aux ih =>
    intro i ns ds
    obtain ⟨name, k⟩ := a
    have hk := hfit _ (List.mem_cons_self ..)
    have ih := ih (fun x hx => hfit x (List.mem_cons_of_mem _ hx)) (i + 1)
    -- one step: skipped, or one more name
    have step : (∀ (vt pt : Mat) (mask W : Option Mat) (kdT : Option ℚ) (part : Part) (vq : String → ℚ)
        (rows : List Row), pt.cols = cells →
          trainAux P cfg name vt pt mask W kdT (auxOf part vq rows i name k) = .ok none) ∨
        ∃ (pname : String) (dep : Bool), ∀ (vt pt : Mat) (mask W : Option Mat) (kdT : Option ℚ) (part : Part)
          (vq : String → ℚ) (rows : List Row), pt.cols = cells → ∃ w x,
          trainAux P cfg name vt pt mask W kdT (auxOf part vq rows i name k) = .ok (some (pname, w, x, dep)) := by
      cases k with
      | valueLoss c => exact Or.inr ⟨_, _, fun _ _ _ _ _ _ _ _ _ => ⟨_, _, rfl⟩⟩
      | uncertainty flat c => exact Or.inr ⟨_, _, fun _ _ _ _ _ _ _ _ _ => ⟨_, _, rfl⟩⟩
      | relUncertainty flat c => exact Or.inr ⟨_, _, fun _ _ _ _ _ _ _ _ _ => ⟨_, _, rfl⟩⟩
      | vq slots => exact Or.inr ⟨_, _, fun _ _ _ _ _ _ _ _ _ => ⟨_, _, rfl⟩⟩
      | policyReg c =>
        by_cases hN : cfg.lambdas name = none ∧ cfg.regLambda = 0
        · left; intro _ _ _ _ _ _ _ _ _; simp only [trainAux, auxOf, if_pos hN]
        · right; exact ⟨_, _, fun _ _ _ _ _ _ _ _ _ => ⟨_, _, by simp only [trainAux, auxOf, if_neg hN]; rfl⟩⟩
      | policyLoss c =>
        have hc : c = cells := hk
        by_cases hN : cfg.ptype = .NONE
        · left; intro _ _ _ _ _ _ _ _ _; simp only [trainAux, auxOf, if_pos hN]
        · right
          refine ⟨name ++ "_loss", true, fun vt pt mask W kdT part vq rows hpt => ?_⟩
          have hprep : ∃ q, preparePolicy (matOf c (fun r => r.aux i 0) rows) pt mask = .ok q := by
            unfold preparePolicy
            rw [if_neg (by simp [matOf, hpt, hc])]
            cases mask <;> exact ⟨_, rfl⟩
          obtain ⟨q, hq⟩ := hprep
          exact ⟨_, _, by simp only [trainAux, auxOf, if_neg hN, hq]; rfl⟩
    rcases step with h | ⟨pname, dep, h⟩
    · obtain ⟨ns', ds', H⟩ := ih ns ds
      refine ⟨ns', ds', fun vt pt mask W kdT part vq rows terms d hpt h1 h2 => ?_⟩
      rw [auxesOf, trainAuxLoop, h vt pt mask W kdT part vq rows hpt]
      exact H vt pt mask W kdT part vq rows terms d hpt h1 h2
    · obtain ⟨ns', ds', H⟩ := ih (addName ns pname) (ds ++ [dep])
      refine ⟨ns', ds', fun vt pt mask W kdT part vq rows terms d hpt h1 h2 => ?_⟩
      obtain ⟨w, x, hx⟩ := h vt pt mask W kdT part vq rows hpt
      rw [auxesOf, trainAuxLoop, hx]
      exact H vt pt mask W kdT part vq rows _ _ hpt (by rw [names_setKey, h1]) (by simp [h2])

theorem lossNames (P : Prims) (cfg : Cfg) (sc : Schema) (hfit : auxFits sc) (kd : Bool) :
    ∃ ns ds, ∀ (part : Part) (vq : String → ℚ) (rows : List Row) (m : Option (List Bool)),
      ∃ terms d, lossTerms P cfg (batchOf sc part vq rows m) (teacherOf sc kd rows) = .ok (terms, d) ∧
        names d = ns ∧ terms.map Prod.snd = true :: ds := by
  obtain ⟨ns, ds, H⟩ := auxNames P cfg sc.cells sc.hasMask sc.aux hfit 0
    (if cfg.regLambda > 0 then ["value_loss", "policy_loss", "policy_reg"] else ["value_loss", "policy_loss"])
    (if cfg.regLambda > 0 then [true, false] else [true])
  have hlen : ∃ ds', ds = true :: ds' := by
    -- the first term stays
    have : ∀ (aux : List (String × Aux)) vt pt mask W kdT x (terms : List (ℚ × Bool)) d terms' d',
        trainAuxLoop P cfg vt pt mask W kdT aux ((x, true) :: terms) d = .ok (terms', d') →
        ∃ rest, terms' = (x, true) :: rest := by
      intro aux
      induction aux with
      | nil => intro vt pt mask W kdT x terms d terms' d' h; cases h; exact ⟨_, rfl⟩
      | cons a aux ih =>
        intro vt pt mask W kdT x terms d terms' d' h
        obtain ⟨name, a⟩ := a
        rw [trainAuxLoop] at h
        cases hx : trainAux P cfg name vt pt mask W kdT a with
        | error e => rw [hx] at h; cases h
        | ok o =>
          rw [hx] at h
          cases o with
          | none => exact ih _ _ _ _ _ _ _ _ _ _ h
          | some q =>
            obtain ⟨pname, w, y, dep⟩ := q
            exact ih _ _ _ _ _ _ _ _ _ _ h
    obtain ⟨terms', d', h1, -, h3⟩ := H ⟨0, []⟩ ⟨sc.cells, []⟩ none none none (0, []) (fun _ => 0) []
      (if cfg.regLambda > 0 then [(0, true), (0, false)] else [(0, true)])
      (if cfg.regLambda > 0 then [("value_loss", 0), ("policy_loss", 0), ("policy_reg", 0)]
        else [("value_loss", 0), ("policy_loss", 0)]) rfl (by split_ifs <;> rfl) (by split_ifs <;> rfl)
    have : ∃ rest, terms' = ((0 : ℚ), true) :: rest := by
      by_cases hreg : cfg.regLambda > 0
      · rw [if_pos hreg] at h1; exact this _ _ _ _ _ _ _ _ _ _ _ h1
      · rw [if_neg hreg] at h1; exact this _ _ _ _ _ _ _ _ _ _ _ h1
    obtain ⟨rest, rfl⟩ := this
    exact ⟨_, h3.symm⟩
  obtain ⟨ds', rfl⟩ := hlen
  refine ⟨ns, ds', fun part vq rows m => ?_⟩
  have fits : ∀ pt : Mat, pt.cols = sc.cells → ∃ p q : Mat, preparePolicy (batchOf sc part vq rows m).policy pt
      (batchOf sc part vq rows m).boardMask = .ok (p, q) ∧ q.cols = sc.cells := by
    intro pt hpt
    unfold preparePolicy
    rw [if_neg (by simp [batchOf, matOf, hpt])]
    cases (batchOf sc part vq rows m).boardMask with
    | none => exact ⟨_, _, rfl, hpt⟩
    | some f => exact ⟨_, _, rfl, hpt⟩
  cases kd with
  | true =>
    obtain ⟨p, q, hq, hqc⟩ := fits (matOf sc.cells Row.teacherPolicy rows) rfl
    unfold lossTerms
    simp only [teacherOf, if_true, hq]
    refine H _ _ _ _ _ part vq rows _ _ ?_ ?_ ?_
    · simp only [kdPolicy]
      cases (batchOf sc part vq rows m).boardMask <;> exact hqc
    · by_cases hreg : cfg.regLambda > 0
      · rw [if_pos hreg, if_pos hreg, names_setKey]; rfl
      · rw [if_neg hreg, if_neg hreg]; rfl
    · by_cases hreg : cfg.regLambda > 0
      · rw [if_pos hreg, if_pos hreg]; rfl
      · rw [if_neg hreg, if_neg hreg]; rfl
  | false =>
    obtain ⟨p, q, hq, hqc⟩ := fits (matOf sc.cells Row.policyTarget rows) rfl
    have hq' : preparePolicy (batchOf sc part vq rows m).policy (batchOf sc part vq rows m).policyTarget
      (batchOf sc part vq rows m).boardMask = .ok (p, q) := hq
    unfold lossTerms
    simp only [teacherOf, Bool.false_eq_true, if_false, hq']
    refine H _ _ _ _ _ part vq rows _ _ hqc ?_ ?_
    · by_cases hreg : cfg.regLambda > 0
      · rw [if_pos hreg, if_pos hreg, names_setKey]; rfl
      · rw [if_neg hreg, if_neg hreg]; rfl
    · by_cases hreg : cfg.regLambda > 0
      · rw [if_pos hreg, if_pos hreg]; rfl
      · rw [if_neg hreg, if_neg hreg]; rfl

theorem trainNames (P : Prims) (cfg : Cfg) (sc : Schema) (hfit : auxFits sc) :
    ∃ ns, ∀ (part : Part) (vq : String → ℚ) (rows : List Row) (m : Option (List Bool)),
      ∃ total d, trainBody P cfg (batchOf sc part vq rows m) = .ok (total, d) ∧ names d = ns := by
  obtain ⟨ns, ds, H⟩ := lossNames P cfg sc hfit false
  have dep : ∀ terms : List (ℚ × Bool), terms.map Prod.snd = true :: ds → ∀ o : Option Bool, o ≠ some false →
      ∃ s, sumTerms o none terms = some s := by
    intro terms ht o ho
    cases terms with
    | nil => cases ht
    | cons t ts =>
      obtain ⟨x, d⟩ := t
      have hd : d = true := by simpa using (List.cons.inj ht).1
      subst hd
      rw [sumTerms, if_neg (by rintro ⟨h1, h2⟩; rcases o with _ | b; exact h1 rfl; cases b; exact ho rfl; exact h2 rfl)]
      rw [sumTerms_some]
      exact ⟨_, rfl⟩
  cases hT : sc.hasTeacher with
  | false =>
    refine ⟨addName ns "total_loss", fun part vq rows m => ?_⟩
    obtain ⟨terms, d, h1, h2, h3⟩ := H part vq rows m
    obtain ⟨s, hs⟩ := dep terms h3 none (by simp)
    have ht : (batchOf sc part vq rows m).teacher = none := by simp [batchOf, hT]
    refine ⟨s, setKey d "total_loss" s, ?_, by rw [names_setKey, h2]⟩
    unfold trainBody
    rw [ht]
    have e : teacherOf sc false rows = none := rfl
    rw [e] at h1
    rw [h1]
    dsimp only
    rw [hs]
  | true =>
    obtain ⟨kns, kds, K⟩ := lossNames P cfg sc hfit true
    refine ⟨addName ((kns.map (fun k => "kd_" ++ k)).foldl addName ns) "total_loss", fun part vq rows m => ?_⟩
    obtain ⟨terms, d, h1, h2, h3⟩ := H part vq rows m
    obtain ⟨kterms, kd, k1, k2, k3⟩ := K part vq rows m
    obtain ⟨s, hs⟩ := dep terms h3 (some true) (by simp)
    have hk : ∃ k, sumTerms (some true) none kterms = some k := by
      cases kterms with
      | nil => cases k3
      | cons t ts =>
        obtain ⟨x, d⟩ := t
        have hd : d = true := by simpa using (List.cons.inj k3).1
        subst hd
        rw [sumTerms, if_neg (by simp)]
        rw [sumTerms_some]
        exact ⟨_, rfl⟩
    obtain ⟨k, hk⟩ := hk
    have ht : (batchOf sc part vq rows m).teacher = teacherOf sc true rows := by simp [batchOf, hT, teacherOf]
    obtain ⟨t, hst⟩ : ∃ t, teacherOf sc true rows = some t := ⟨_, rfl⟩
    have e : teacherOf sc false rows = none := rfl
    rw [e] at h1
    unfold trainBody
    rw [ht, k1, hst]
    dsimp only
    rw [h1]
    dsimp only
    rw [hk, hs]
    refine ⟨_, _, rfl, ?_⟩
    rw [names_setKey, names_update, h2]
    congr 2
    rw [← k2]
    simp [names, Function.comp_def]

theorem first_mat (c : Nat) (f : Row → List ℚ) (rows : List Row) (n : Nat) (hn : rows.length = n) :
    (matOf c f rows).firstRow n = matOf c f (rows.take 1) := by
  unfold Mat.firstRow
  rw [if_pos (by simp [matOf, hn])]
  simp [matOf, List.map_take]

theorem first_vec (f : Row → List ℚ) (rows : List Row) (n : Nat) (hn : rows.length = n) :
    first1 (vecOf f rows) n = vecOf f (rows.take 1) := by
  unfold first1
  rw [if_pos (by simp [vecOf, hn])]
  simp [vecOf, List.map_take]

theorem first_val (flat : Bool) (c : Nat) (f : Row → List ℚ) (rows : List Row) (n : Nat) (hn : rows.length = n) :
    (valOf flat c f rows).first n = valOf flat c f (rows.take 1) := by
  unfold valOf Val.first
  cases flat with
  | true => simp only [if_true, first_vec _ _ _ hn]
  | false => simp only [Bool.false_eq_true, if_false, first_mat _ _ _ _ hn]

theorem first_auxes (part : Part) (vq : String → ℚ) (rows : List Row) (n : Nat) (hn : rows.length = n)
    (aux : List (String × AuxKind)) : ∀ i,
    (auxesOf part vq rows i aux).map (fun na => (na.1, na.2.first n)) = auxesOf part vq (rows.take 1) i aux := by
  induction aux with
  | nil => intro i; rfl
  | cons a aux ih =>
    intro i
    obtain ⟨name, k⟩ := a
    rw [auxesOf, List.map_cons, ih, auxesOf]
    congr 2
    cases k <;> simp only [auxOf, Aux.first, first_mat _ _ _ _ hn, first_vec _ _ _ hn, first_val _ _ _ _ _ hn]

theorem probe_batch (sc : Schema) (part : Part) (vq : String → ℚ) (rows : List Row) (m : Option (List Bool)) (n : Nat)
    (hn : rows.length = n) : (batchOf sc part vq rows m).probe n = batchOf sc part vq (rows.take 1) none := by
  unfold Batch.probe batchOf
  simp only [first_mat _ _ _ _ hn, first_auxes _ _ _ _ hn, Batch.mk.injEq, true_and, and_true]
  constructor
  · cases sc.hasMask <;> simp [first_mat _ _ _ _ hn]
  · cases sc.hasTeacher <;> simp [first_mat _ _ _ _ hn]

/-- Training: a batch of padding rows only is not an error; its total and all its named losses are zero, and
the names are those of any batch of the same kind. A batch without rows is refused. -/
theorem C76_all_padding (P : Prims) (cfg : Cfg) (sc : Schema) (hfit : auxFits sc) (vq : String → ℚ) (r : Rank)
    (hr : r.real = []) :
    (r.rows ≠ [] → ∃ d, computeLosses P cfg (r.batch sc vq) = .ok (0, d) ∧ (∀ kv ∈ d, kv.2 = 0) ∧
      ∀ (part : Part) (vq' : String → ℚ) (rows : List Row), ∃ total d',
        computeLosses P cfg (batchOf sc part vq' rows none) = .ok (total, d') ∧ names d' = names d) ∧
    (r.rows = [] → ∃ e, computeLosses P cfg (r.batch sc vq) = .error e) := by
  have hany : ¬ (r.rows.map (fun x => x.2)).any (fun m => m) = true := by
    rw [List.any_map, List.any_eq_true]
    rintro ⟨y, hy, h2⟩
    have : y.1 ∈ r.real := List.mem_map.2 ⟨y, List.mem_filter.2 ⟨hy, h2⟩, rfl⟩
    rw [hr] at this
    cases this
  have hb : (r.batch sc vq).isReal = some (r.rows.map (fun x => x.2)) := rfl
  constructor
  · intro hne
    obtain ⟨ns, H⟩ := trainNames P cfg sc hfit
    obtain ⟨total, d, h1, h2⟩ := H r.part vq ((r.rows.map (fun x => x.1)).take 1) none
    refine ⟨d.map (fun kv => (kv.1, 0)), ?_, ?_, ?_⟩
    · unfold computeLosses
      rw [hb]
      dsimp only
      rw [if_neg hany, if_neg (by simpa using hne)]
      have : (r.batch sc vq).probe (r.rows.map (fun x => x.2)).length =
          batchOf sc r.part vq ((r.rows.map (fun x => x.1)).take 1) none := by
        unfold Rank.batch
        exact probe_batch _ _ _ _ _ _ (by simp)
      rw [this, h1]
    · intro kv hkv
      obtain ⟨x, _, rfl⟩ := List.mem_map.1 hkv
      rfl
    · intro part vq' rows
      obtain ⟨t', d', h1', h2'⟩ := H part vq' rows none
      refine ⟨t', d', h1', ?_⟩
      rw [h2', ← h2]
      exact (names_mapv (fun _ => (0 : ℚ)) d).symm
  · intro h
    unfold computeLosses
    rw [hb]
    dsimp only
    rw [if_neg hany, if_pos (by simp [h])]
    exact ⟨_, rfl⟩

/-- Validation refuses what it cannot reduce over the ranks: an auxiliary loss given as a number. -/
theorem C76_opaque_refused (P : Prims) (dd : DD) (cfg : Cfg) (b : Batch) (name : String) (x : ℚ)
    (h : (name, Aux.opaque x) ∈ b.aux) : ∃ e, totalStatistic P dd cfg b = .error e := by
  have loop : ∀ (aux : List (String × Aux)) sel vt pt mask W kd terms d, (name, Aux.opaque x) ∈ aux →
      ∃ e, evalAuxLoop P dd cfg sel vt pt mask W kd aux terms d = .error e := by
    intro aux
    induction aux with
    | nil => intro _ _ _ _ _ _ _ _ h; cases h
    | cons a aux ih =>
      intro sel vt pt mask W kd terms d h
      obtain ⟨n, a⟩ := a
      rw [evalAuxLoop]
      rcases List.mem_cons.1 h with h | h
      · cases h
        exact ⟨_, rfl⟩
      · cases evalAux P dd cfg sel n vt pt mask W kd a with
        | error e => exact ⟨_, rfl⟩
        | ok o =>
          cases o with
          | none => exact ih _ _ _ _ _ _ _ _ h
          | some q =>
            obtain ⟨pname, w, y, dep⟩ := q
            exact ih _ _ _ _ _ _ _ _ h
  have : ∃ e, evaluationTerms P dd cfg b b.teacher = .error e := by
    unfold evaluationTerms
    cases evaluationMask b with
    | error e => exact ⟨_, rfl⟩
    | ok sel =>
      dsimp only
      split
      · exact ⟨_, rfl⟩
      · exact loop _ _ _ _ _ _ _ _ _ h
  obtain ⟨e, he⟩ := this
  exact ⟨e, by unfold totalStatistic; rw [he]⟩

end Verif.Loss
