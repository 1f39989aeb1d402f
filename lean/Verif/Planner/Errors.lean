import Verif.Planner.Loops
import Mathlib.Data.List.Perm.Subperm

/-! Which exceptions `next_batch` can raise, and that its loops end. -/
namespace Verif.Planner
open Verif.Reservoir (Res)

variable {σ ε : Type}

/-- All records of an epoch have shapes in `S`, and `S` respects the declared uniform shape or the queue limit. -/
structure Fits (P : Planner σ ε) (rem : σ → List ε) (epoch : Nat) (S : List Nat) : Prop where
  shapes : ∀ y, ∀ x ∈ rem (P.src.start epoch y), P.shape x ∈ S
  uniform : ∀ c, P.uniform = some c → ∀ s ∈ S, s = c
  limit : P.uniform = none → S.length ≤ P.cfg.maxQueues

/-- An explained exception. -/
def ErrOk (P : Planner σ ε) (rem : σ → List ε) (epoch : Nat) (e : Err) : Prop :=
  e = .reservoir ∨ (e = .emptyCycles ∧ P.sharded = true ∧ ∃ y, ∀ k < 17, rem (P.src.start epoch (y + k)) = []) ∨
    ((e = .shape ∨ e = .queueLimit) ∧ ¬ ∃ S, Fits P rem epoch S)

theorem refill_error {P : Planner σ ε} {ok : σ → Prop} {rem : σ → List ε} (L : Records P.src ok rem)
    (hv : P.Valid) {st : St σ ε} {e : Err} (hc : Core P ok rem st) (h : refill P (refillFuel P st) st = .error e) :
    e = .reservoir := by
  have key : ∀ (fuel : Nat) (st : St σ ε), refill P fuel st = .error e → e = .reservoir ∨ e = .fuel := by
    intro fuel
    induction fuel with
    | zero => intro st h; simp [refill] at h; exact Or.inr h.symm
    | succ fuel ih =>
      intro st h
      rw [refill] at h
      split at h
      · simp at h
      simp only at h
      split at h
      · unfold drainInto at h
        split at h
        · simp at h; exact Or.inl h.symm
        · simp at h
      · split at h
        · rename_i e' ho
          simp only [Except.error.injEq] at h
          subst h
          unfold offerInto at ho
          split at ho
          · simp at ho; exact Or.inl ho.symm
          · simp at ho
        · exact ih _ h
  rcases key _ _ h with h1 | h1
  · exact h1
  · subst h1
    refine absurd h (refill_fuel L hv.cfg _ _ hc ?_)
    unfold refillFuel
    rw [L.left _ hc.ok]

/-- Loop weight outside the collected records. -/
noncomputable def weight (P : Planner σ ε) (rem : σ → List ε) (st : St σ ε) (empty : Nat) : Nat :=
  open Classical in
  if pool rem st ≠ [] then 0 else if rem (P.src.start st.epoch st.cycle) ≠ [] then 18 else 17 - empty

theorem weight_le (P : Planner σ ε) (rem : σ → List ε) (st : St σ ε) (empty : Nat) : weight P rem st empty ≤ 18 := by
  unfold weight
  split
  · omega
  · split <;> omega

/-- The `empty` cycles before the current one had no records. -/
def EmptyBefore (P : Planner σ ε) (rem : σ → List ε) (st : St σ ε) (empty : Nat) : Prop :=
  empty ≤ 16 ∧ empty ≤ st.cycle ∧ ∀ k < empty, rem (P.src.start st.epoch (st.cycle - empty + k)) = []

/-- One restart: the counter stays truthful and the weight drops, or the exception is justified. -/
theorem restart_weight {P : Planner σ ε} {ok : σ → Prop} {rem : σ → List ε} (L : Records P.src ok rem) (hv : P.Valid)
    {st st1 st2 : St σ ε} {empty : Nat} (hR : Refilled P ok rem st st1) (hr : st1.ready = [])
    (hE : EmptyBefore P rem st empty) (hle : ¬ 16 < countEmpty st1 empty) (h2 : restartCycle P st1 = .ok st2) :
    EmptyBefore P rem st2 (countEmpty st1 empty) ∧ weight P rem st2 (countEmpty st1 empty) < weight P rem st empty := by
  obtain ⟨hc2, he2, hb2, hcy2, hq2, hf2, hp2⟩ := restart_spec L hv h2
  obtain ⟨hp1, hp0, hex⟩ := hR.pool_nil hr
  have hcount := hR.core.count
  have hrem1 : rem st1.cursor = [] := hR.core.done hex
  rw [hrem1, List.length_nil, Nat.add_zero] at hcount
  obtain ⟨hE1, hE2, hE3⟩ := hE
  have hep : st1.epoch = st.epoch := hR.frame.1.symm
  have hcy : st1.cycle = st.cycle := hR.frame.2.2.1.symm
  rw [hep, hcy] at hcount hp2
  rw [hcy] at hcy2
  rw [hep] at he2
  unfold countEmpty at hle ⊢
  by_cases ho : st1.res.offered = 0
  · rw [if_pos ho] at hle ⊢
    have hnil : rem (P.src.start st.epoch st.cycle) = [] := List.eq_nil_of_length_eq_zero (hcount.trans ho)
    refine ⟨⟨by omega, by omega, ?_⟩, ?_⟩
    · intro k hk
      rw [he2, hcy2]
      by_cases hk2 : k < empty
      · have := hE3 k hk2
        rwa [show st.cycle + 1 - (empty + 1) + k = st.cycle - empty + k by omega]
      · rw [show st.cycle + 1 - (empty + 1) + k = st.cycle by omega]
        exact hnil
    · unfold weight
      rw [hp0, hnil, he2, hcy2, hp2]
      simp only [ne_eq, not_true_eq_false, if_false]
      split
      · omega
      · omega
  · rw [if_neg ho] at hle ⊢
    have hnil : rem (P.src.start st.epoch st.cycle) ≠ [] := by
      intro h
      rw [h] at hcount
      exact ho hcount.symm
    refine ⟨⟨by omega, by omega, fun k hk => by omega⟩, ?_⟩
    unfold weight
    rw [hp0, he2, hcy2, hp2]
    simp only [ne_eq, not_true_eq_false, if_false]
    rw [if_pos hnil]
    split
    · omega
    · omega

theorem empty_justified {P : Planner σ ε} {ok : σ → Prop} {rem : σ → List ε}
    {st st1 : St σ ε} {empty : Nat} (hR : Refilled P ok rem st st1) (hr : st1.ready = [])
    (hE : EmptyBefore P rem st empty) (hle : 16 < countEmpty st1 empty) :
    ∃ y, ∀ k < 17, rem (P.src.start st.epoch (y + k)) = [] := by
  obtain ⟨hp1, hp0, hex⟩ := hR.pool_nil hr
  have hcount := hR.core.count
  rw [hR.core.done hex, List.length_nil, Nat.add_zero, ← hR.frame.1, ← hR.frame.2.2.1] at hcount
  obtain ⟨hE1, hE2, hE3⟩ := hE
  unfold countEmpty at hle
  by_cases ho : st1.res.offered = 0
  · rw [if_pos ho] at hle
    have hnil : rem (P.src.start st.epoch st.cycle) = [] := List.eq_nil_of_length_eq_zero (hcount.trans ho)
    refine ⟨st.cycle - empty, fun k hk => ?_⟩
    by_cases hk2 : k < empty
    · exact hE3 k hk2
    · rw [show st.cycle - empty + k = st.cycle by omega]
      exact hnil
  · rw [if_neg ho] at hle; omega

/-- Shapes of everything held, under `Fits`. -/
def ShapeInv (P : Planner σ ε) (rem : σ → List ε) (acc : List ε) (st : St σ ε) : Prop :=
  ∀ S, Fits P rem st.epoch S → (∀ x ∈ acc ++ held rem st, P.shape x ∈ S) ∧ ∀ s ∈ st.queues.map (·.1), s ∈ S

theorem ShapeInv.refill {P : Planner σ ε} {ok : σ → Prop} {rem : σ → List ε} {acc : List ε} {st st1 : St σ ε}
    (h : ShapeInv P rem acc st) (hR : Refilled P ok rem st st1) : ShapeInv P rem acc st1 := by
  intro S hS
  rw [← hR.frame.1] at hS
  obtain ⟨h1, h2⟩ := h S hS
  refine ⟨fun x hx => h1 x ?_, ?_⟩
  · rcases List.mem_append.mp hx with hx | hx
    · exact List.mem_append_left _ hx
    · exact List.mem_append_right _ ((held_perm hR).subset hx)
  · rw [← hR.frame.2.2.2.1]; exact h2

theorem ShapeInv.restart {P : Planner σ ε} {ok : σ → Prop} {rem : σ → List ε} (L : Records P.src ok rem) (hv : P.Valid)
    {acc : List ε} {st st2 : St σ ε} (h : ShapeInv P rem acc st) (h2 : restartCycle P st = .ok st2) :
    ShapeInv P rem acc st2 := by
  obtain ⟨hc2, he2, hb2, hcy2, hq2, hf2, hp2⟩ := restart_spec L hv h2
  intro S hS
  rw [he2] at hS
  obtain ⟨h1, h3⟩ := h S hS
  refine ⟨fun x hx => ?_, by rw [hq2]; exact h3⟩
  rcases List.mem_append.mp hx with hx | hx
  · exact h1 x (List.mem_append_left _ hx)
  · unfold held at hx
    rw [hq2, hp2] at hx
    rcases List.mem_append.mp hx with hx | hx
    · exact h1 x (List.mem_append_right _ (List.mem_append_left _ hx))
    · exact hS.shapes _ x hx

theorem sharded_of_mayRestart {P : Planner σ ε} {st : St σ ε} (h : mayRestart P st = true) : P.sharded = true := by
  unfold mayRestart at h
  simp only [Bool.and_eq_true] at h
  exact h.1

theorem uniformLoop_error {P : Planner σ ε} {ok : σ → Prop} {rem : σ → List ε} (L : Records P.src ok rem)
    (hv : P.Valid) {code : Nat} (hu : P.uniform = some code) {e : Err} : ∀ (fuel : Nat) (acc : List ε) (empty : Nat)
    (st : St σ ε), Good P ok rem st → acc.length ≤ P.batch → (e ≠ .fuel → ShapeInv P rem acc st) → EmptyBefore P rem st empty →
      19 * (P.batch - acc.length) + weight P rem st empty < fuel →
      uniformLoop P code fuel acc empty st = .error e → ErrOk P rem st.epoch e
  | 0, _, _, _, _, _, _, _, hf, _ => by omega
  | fuel + 1, acc, empty, st, g, hlen, hsh, hE, hf, h => by
    rw [uniformLoop] at h
    by_cases hlt : acc.length < P.batch
    · rw [if_pos hlt] at h
      cases hr : refill P (refillFuel P st) st with
      | error e' =>
        rw [hr] at h
        simp only [Except.error.injEq] at h
        subst h
        exact Or.inl (refill_error L hv g.core hr)
      | ok st1 =>
        rw [hr] at h
        have hR := refill_spec L hv.cfg _ _ _ g.core hr
        have g1 : Good P ok rem st1 := g.of_core hR.core hR.frame.2.1.symm hR.frame.2.2.2.1.symm hR.frame.2.2.2.2.symm
        have hsh1 := fun h => (hsh h).refill hR
        simp only at h
        by_cases hrd : st1.ready = []
        · rw [if_pos hrd] at h
          by_cases hm : mayRestart P st1 = true
          · rw [if_pos hm] at h
            by_cases he : 16 < countEmpty st1 empty
            · rw [if_pos he] at h
              simp only [Except.error.injEq] at h
              exact Or.inr (Or.inl ⟨h.symm, sharded_of_mayRestart hm, empty_justified hR hrd hE he⟩)
            rw [if_neg he] at h
            obtain ⟨st2, h2⟩ := restart_ok hm (hR.pool_nil hrd).2.2 hrd
            rw [h2] at h
            simp only at h
            obtain ⟨hE2, hw2⟩ := restart_weight L hv hR hrd hE he h2
            obtain ⟨hc2, hrest⟩ := restart_spec L hv h2
            have g2 : Good P ok rem st2 := g1.of_core hc2 hrest.2.1 hrest.2.2.2.1 hrest.2.2.2.2.1
            have := uniformLoop_error L hv hu fuel acc _ st2 g2 hlen (fun h => (hsh1 h).restart L hv h2) hE2 (by omega) h
            rwa [hrest.1, ← hR.frame.1] at this
          · rw [if_neg hm] at h
            unfold uniformTail at h
            split at h
            · simp at h
            · exact Or.inl (makeSome_error h)
        · rw [if_neg hrd] at h
          by_cases hs : ((st1.ready.take (min (P.batch - acc.length) st1.ready.length)).any fun e => P.shape e != code) = true
          · rw [if_pos hs] at h
            simp only [Except.error.injEq] at h
            refine Or.inr (Or.inr ⟨Or.inl h.symm, ?_⟩)
            rintro ⟨S, hS⟩
            simp only [List.any_eq_true, bne_iff_ne, ne_eq] at hs
            obtain ⟨x, hx, hne⟩ := hs
            have hS1 : Fits P rem st1.epoch S := by rw [← hR.frame.1]; exact hS
            have := (hsh1 (by rw [← h]; simp) S hS1).1 x (List.mem_append_right _ (List.mem_append_right _ (List.mem_append_left _
              (List.mem_append_left _ (List.mem_of_mem_take hx)))))
            exact hne (hS.uniform _ hu _ this)
          rw [if_neg hs] at h
          have g2 : Good P ok rem { st1 with ready := st1.ready.drop (min (P.batch - acc.length) st1.ready.length) } :=
            g1.of_core ⟨g1.core.inv, g1.core.closed, g1.core.done, g1.core.ok, g1.core.count⟩ rfl rfl rfl
          have hpos := List.length_pos_of_ne_nil hrd
          have hE1 : EmptyBefore P rem { st1 with ready := st1.ready.drop (min (P.batch - acc.length) st1.ready.length) } empty := by
            unfold EmptyBefore
            simp only
            rw [← hR.frame.1, ← hR.frame.2.2.1]
            exact hE
          have := uniformLoop_error L hv hu fuel (acc ++ st1.ready.take (min (P.batch - acc.length) st1.ready.length)) empty _ g2
            (by rw [List.length_append, List.length_take]; omega) ?_ hE1 ?_ h
          · simp only at this
            rwa [← hR.frame.1] at this
          · intro hef S hS
            obtain ⟨h1, h3⟩ := hsh1 hef S hS
            refine ⟨fun x hx => h1 x ?_, h3⟩
            simp only [List.mem_append, held, pool] at hx ⊢
            rcases hx with (hx | hx) | hx | (hx | hx) | hx
            · exact Or.inl hx
            · exact Or.inr (Or.inr (Or.inl (Or.inl (List.mem_of_mem_take hx))))
            · exact Or.inr (Or.inl hx)
            · exact Or.inr (Or.inr (Or.inl (Or.inl (List.mem_of_mem_drop hx))))
            · exact Or.inr (Or.inr (Or.inl (Or.inr hx)))
            · exact Or.inr (Or.inr (Or.inr hx))
          · have h1 := weight_le P rem { st1 with ready := st1.ready.drop (min (P.batch - acc.length) st1.ready.length) } empty
            rw [List.length_append, List.length_take]
            omega
    · rw [if_neg hlt] at h
      exact Or.inl (makeSome_error h)

theorem genericLoop_error {P : Planner σ ε} {ok : σ → Prop} {rem : σ → List ε} (L : Records P.src ok rem)
    (hv : P.Valid) (hu : P.uniform = none) {e : Err} : ∀ (fuel : Nat) (empty : Nat)
    (st : St σ ε), Good P ok rem st → (e ≠ .fuel → ShapeInv P rem [] st) → EmptyBefore P rem st empty →
      19 * (P.cfg.maxQueues * P.batch - (queued st.queues).length) + weight P rem st empty < fuel →
      genericLoop P fuel empty st = .error e → ErrOk P rem st.epoch e
  | 0, _, _, _, _, _, hf, _ => by omega
  | fuel + 1, empty, st, g, hsh, hE, hf, h => by
    rw [genericLoop] at h
    cases hr : refill P (refillFuel P st) st with
    | error e' =>
      rw [hr] at h
      simp only [Except.error.injEq] at h
      subst h
      exact Or.inl (refill_error L hv g.core hr)
    | ok st1 =>
      rw [hr] at h
      have hR := refill_spec L hv.cfg _ _ _ g.core hr
      have g1 : Good P ok rem st1 := g.of_core hR.core hR.frame.2.1.symm hR.frame.2.2.2.1.symm hR.frame.2.2.2.2.symm
      have hsh1 := fun h => (hsh h).refill hR
      simp only at h
      cases hrd : st1.ready with
      | nil =>
        rw [hrd] at h
        simp only at h
        by_cases hm : mayRestart P st1 = true
        · rw [if_pos hm] at h
          by_cases he : 16 < countEmpty st1 empty
          · rw [if_pos he] at h
            simp only [Except.error.injEq] at h
            exact Or.inr (Or.inl ⟨h.symm, sharded_of_mayRestart hm, empty_justified hR hrd hE he⟩)
          rw [if_neg he] at h
          obtain ⟨st2, h2⟩ := restart_ok hm (hR.pool_nil hrd).2.2 hrd
          rw [h2] at h
          simp only at h
          obtain ⟨hE2, hw2⟩ := restart_weight L hv hR hrd hE he h2
          obtain ⟨hc2, hrest⟩ := restart_spec L hv h2
          have g2 : Good P ok rem st2 := g1.of_core hc2 hrest.2.1 hrest.2.2.2.1 hrest.2.2.2.2.1
          have hqq : st2.queues = st.queues := hrest.2.2.2.1.trans hR.frame.2.2.2.1.symm
          have := genericLoop_error L hv hu fuel _ st2 g2 (fun h => (hsh1 h).restart L hv h2) hE2 (by rw [hqq]; omega) h
          rwa [hrest.1, ← hR.frame.1] at this
        · rw [if_neg hm] at h
          unfold genericTail at h
          split at h
          · simp at h
          · split at h
            · simp at h
            · exact Or.inl (makeSome_error h)
      | cons x ready =>
        rw [hrd] at h
        simp only at h
        have hxheld : x ∈ held rem st1 := by
          unfold held pool; rw [hrd]; simp
        cases ha : appendShape P st1.queues x with
        | error err =>
          rw [ha] at h
          simp only [Except.error.injEq] at h
          subst h
          unfold appendShape at ha
          split at ha
          · simp at ha
          rename_i hg
          split at ha
          · rename_i hlim
            simp only [Except.error.injEq] at ha
            refine Or.inr (Or.inr ⟨Or.inr ha.symm, ?_⟩)
            rintro ⟨S, hS⟩
            have hS1 : Fits P rem st1.epoch S := by rw [← hR.frame.1]; exact hS
            obtain ⟨h1, h2⟩ := hsh1 (by rw [← ha]; simp) S hS1
            have hnd : (P.shape x :: st1.queues.map (·.1)).Nodup :=
              List.nodup_cons.mpr ⟨qget_none hg, g1.keys⟩
            have hsub : (P.shape x :: st1.queues.map (·.1)) ⊆ S := by
              intro s hs
              rcases List.mem_cons.mp hs with rfl | hs
              · exact h1 x hxheld
              · exact h2 s hs
            have := (List.subperm_of_subset hnd hsub).length_le
            have := hS.limit hu
            simp only [List.length_cons, List.length_map] at *
            omega
          · simp at ha
        | ok lq =>
          obtain ⟨l, q⟩ := lq
          rw [ha] at h
          simp only at h
          have hA := appendShape_spec g1.keys ha
          obtain ⟨l0, rfl, hl0⟩ := hA.queue
          by_cases hfull : (l0 ++ [x]).length = P.batch
          · rw [if_pos hfull] at h
            exact Or.inl (makeSome_error h)
          rw [if_neg hfull] at h
          have hl0len : l0.length < P.batch := by
            rcases hl0 with rfl | h
            · simpa using hv.batch
            · exact g1.short _ h
          have hl0sh : ∀ y ∈ l0 ++ [x], P.shape y = P.shape x := by
            intro y hy
            rcases List.mem_append.mp hy with hy | hy
            · rcases hl0 with rfl | h
              · simp at hy
              · exact g1.shapes _ h y hy
            · simp only [List.mem_singleton] at hy; rw [hy]
          have hshort : ∀ p ∈ q, p.2.length < P.batch := by
            intro p hp
            rcases hA.mem p hp with rfl | hp''
            · simp only [List.length_append, List.length_singleton] at hfull ⊢
              omega
            · exact g1.short p hp''
          have g2 : Good P ok rem ⟨st1.epoch, st1.batchIndex, st1.cycle, st1.cursor, st1.res, ready,
              q, st1.exhausted, st1.finished⟩ := by
            refine ⟨⟨g1.core.inv, g1.core.closed, g1.core.done, g1.core.ok, g1.core.count⟩, g1.running, hA.nodup, ?_,
              hshort, hA.limit g1.limit, by simp [hu], g1.budget⟩
            intro p hp y hy
            rcases hA.mem p hp with rfl | hp''
            · exact hl0sh y hy
            · exact g1.shapes p hp'' y hy
          have hE1 : EmptyBefore P rem ⟨st1.epoch, st1.batchIndex, st1.cycle, st1.cursor, st1.res, ready,
              q, st1.exhausted, st1.finished⟩ empty := by
            unfold EmptyBefore
            simp only
            rw [← hR.frame.1, ← hR.frame.2.2.1]
            exact hE
          have := genericLoop_error L hv hu fuel empty _ g2 ?_ hE1 ?_ h
          · simp only at this
            rwa [← hR.frame.1] at this
          · intro hef S hS
            obtain ⟨h1, h3⟩ := hsh1 hef S hS
            refine ⟨fun y hy => h1 y ?_, ?_⟩
            · simp only [List.nil_append] at hy ⊢
              unfold held pool at hy ⊢
              rw [hrd]
              rcases List.mem_append.mp hy with hy | hy
              · have := hA.perm.subset hy
                rcases List.mem_append.mp this with hy | hy
                · exact List.mem_append_left _ hy
                · simp only [List.mem_singleton] at hy
                  rw [hy]; simp
              · apply List.mem_append_right
                exact List.mem_cons_of_mem _ hy
            · intro s hs
              simp only at hs
              obtain ⟨p, hp, rfl⟩ := List.mem_map.mp hs
              rcases hA.mem p hp with rfl | hp''
              · exact h1 x (by simpa using hxheld)
              · exact h3 _ (List.mem_map_of_mem hp'')
          · have h1 := weight_le P rem ⟨st1.epoch, st1.batchIndex, st1.cycle, st1.cursor, st1.res, ready,
              q, st1.exhausted, st1.finished⟩ empty
            have h2 := hA.perm.length_eq
            have h3 := queued_length_le hshort
            have h4 := Nat.mul_le_mul_right P.batch (hA.limit g1.limit)
            have h5 := congrArg (fun l => (queued l).length) hR.frame.2.2.2.1
            simp only [List.length_append, List.length_singleton] at h2 h5 ⊢
            omega

theorem makeSome_keys {P : Planner σ ε} {st st' : St σ ε} {rows : List ε}
    {real : List Bool} {last : Bool} {ob : Option (Batch ε)}
    (h : makeSome P st rows real last = .ok (ob, st')) : st'.queues = [] ∨ st'.queues = st.queues := by
  unfold makeSome makeBatch finishBudget at h
  simp only at h
  by_cases hb : budgetLast P st = true
  · rw [if_pos hb] at h
    by_cases hcl : st.res.closed = true
    · rw [if_pos hcl] at h
      simp only [Except.ok.injEq, Prod.mk.injEq] at h
      rw [← h.2]; exact Or.inl rfl
    · rw [if_neg hcl] at h
      cases hd : Reservoir.drain P.H (resCfg P st.epoch st.cycle) st.res with
      | none => rw [hd] at h; simp at h
      | some q =>
        rw [hd] at h
        simp only [Except.ok.injEq, Prod.mk.injEq] at h
        rw [← h.2]; exact Or.inl rfl
  · rw [if_neg hb] at h
    simp only [Except.ok.injEq, Prod.mk.injEq] at h
    rw [← h.2]; exact Or.inr rfl

/-- Keys in `S`. -/
def KeysIn (S : List Nat) (q : List (Nat × List ε)) : Prop := ∀ s ∈ q.map (·.1), s ∈ S

theorem KeysIn.of_makeSome {S : List Nat} {P : Planner σ ε} {st st' : St σ ε} {rows : List ε}
    {real : List Bool} {last : Bool} {ob : Option (Batch ε)}
    (h : makeSome P st rows real last = .ok (ob, st')) (hk : KeysIn S st.queues) : KeysIn S st'.queues := by
  rcases makeSome_keys h with h | h
  · rw [h]; intro s hs; simp at hs
  · rw [h]; exact hk

theorem genericTail_keys {S : List Nat} {P : Planner σ ε} {st st' : St σ ε} {ob : Option (Batch ε)}
    (hk : KeysIn S st.queues) (h : genericTail P st = .ok (ob, st')) : KeysIn S st'.queues := by
  unfold genericTail at h
  split at h
  · simp only [Except.ok.injEq, Prod.mk.injEq] at h
    rw [← h.2]; intro s hs; simp at hs
  · split at h
    · simp only [Except.ok.injEq, Prod.mk.injEq] at h
      rw [← h.2]; exact hk
    · refine KeysIn.of_makeSome h ?_
      intro s hs
      simp only at hs
      obtain ⟨p, hp, rfl⟩ := List.mem_map.mp hs
      exact hk _ (List.mem_map_of_mem (List.mem_of_mem_filter hp))

theorem genericLoop_keys {P : Planner σ ε} {ok : σ → Prop} {rem : σ → List ε} (L : Records P.src ok rem)
    (hv : P.Valid) (hu : P.uniform = none) {S : List Nat} {epoch : Nat} (hS : Fits P rem epoch S) {st' : St σ ε}
    {ob : Option (Batch ε)} : ∀ (fuel : Nat) (empty : Nat) (st : St σ ε), Good P ok rem st → st.epoch = epoch →
      (∀ x ∈ held rem st, P.shape x ∈ S) → KeysIn S st.queues →
      genericLoop P fuel empty st = .ok (ob, st') → KeysIn S st'.queues
  | 0, _, _, _, _, _, _, h => by simp [genericLoop] at h
  | fuel + 1, empty, st, g, hep, hx, hk, h => by
    rw [genericLoop] at h
    cases hr : refill P (refillFuel P st) st with
    | error e' => rw [hr] at h; simp at h
    | ok st1 =>
      rw [hr] at h
      have hR := refill_spec L hv.cfg _ _ _ g.core hr
      have g1 : Good P ok rem st1 := g.of_core hR.core hR.frame.2.1.symm hR.frame.2.2.2.1.symm hR.frame.2.2.2.2.symm
      have hk1 : KeysIn S st1.queues := by rw [← hR.frame.2.2.2.1]; exact hk
      have hx1 : ∀ x ∈ held rem st1, P.shape x ∈ S := fun x h => hx x ((held_perm hR).subset h)
      have hep1 : st1.epoch = epoch := hR.frame.1.symm.trans hep
      simp only at h
      cases hrd : st1.ready with
      | nil =>
        rw [hrd] at h
        simp only at h
        by_cases hm : mayRestart P st1 = true
        · rw [if_pos hm] at h
          by_cases he : 16 < countEmpty st1 empty
          · rw [if_pos he] at h; simp at h
          rw [if_neg he] at h
          obtain ⟨st2, h2⟩ := restart_ok hm (hR.pool_nil hrd).2.2 hrd
          rw [h2] at h
          simp only at h
          obtain ⟨hc2, hrest⟩ := restart_spec L hv h2
          have g2 : Good P ok rem st2 := g1.of_core hc2 hrest.2.1 hrest.2.2.2.1 hrest.2.2.2.2.1
          refine genericLoop_keys L hv hu hS fuel _ st2 g2 (hrest.1.trans hep1) ?_ (by rw [hrest.2.2.2.1]; exact hk1) h
          intro x hx
          unfold held at hx
          rw [hrest.2.2.2.1, hrest.2.2.2.2.2, hep1] at hx
          rcases List.mem_append.mp hx with hx | hx
          · exact hx1 x (List.mem_append_left _ hx)
          · exact hS.shapes _ x hx
        · rw [if_neg hm] at h
          exact genericTail_keys hk1 h
      | cons x ready =>
        rw [hrd] at h
        simp only at h
        have hxs : P.shape x ∈ S := hx1 x (by unfold held pool; rw [hrd]; simp)
        cases ha : appendShape P st1.queues x with
        | error err => rw [ha] at h; simp at h
        | ok lq =>
          obtain ⟨l, q⟩ := lq
          rw [ha] at h
          simp only at h
          have hA := appendShape_spec g1.keys ha
          obtain ⟨l0, rfl, hl0⟩ := hA.queue
          have hkq : KeysIn S q := by
            intro s hs
            obtain ⟨p, hp, rfl⟩ := List.mem_map.mp hs
            rcases hA.mem p hp with rfl | hp''
            · exact hxs
            · exact hk1 _ (List.mem_map_of_mem hp'')
          by_cases hfull : (l0 ++ [x]).length = P.batch
          · rw [if_pos hfull] at h
            refine KeysIn.of_makeSome h ?_
            simp only [KeysIn, qset_keys_some (l' := ([] : List ε)) hA.get]
            exact hkq
          rw [if_neg hfull] at h
          have hl0len : l0.length < P.batch := by
            rcases hl0 with rfl | h
            · simpa using hv.batch
            · exact g1.short _ h
          have g2 : Good P ok rem ⟨st1.epoch, st1.batchIndex, st1.cycle, st1.cursor, st1.res, ready,
              q, st1.exhausted, st1.finished⟩ := by
            refine ⟨⟨g1.core.inv, g1.core.closed, g1.core.done, g1.core.ok, g1.core.count⟩, g1.running, hA.nodup, ?_,
              ?_, hA.limit g1.limit, by simp [hu], g1.budget⟩
            · intro p hp y hy
              rcases hA.mem p hp with rfl | hp''
              · simp only at hy ⊢
                rcases List.mem_append.mp hy with hy | hy
                · rcases hl0 with rfl | h
                  · simp at hy
                  · exact g1.shapes _ h y hy
                · simp only [List.mem_singleton] at hy; rw [hy]
              · exact g1.shapes p hp'' y hy
            · intro p hp
              rcases hA.mem p hp with rfl | hp''
              · simp only [List.length_append, List.length_singleton] at hfull ⊢
                omega
              · exact g1.short p hp''
          refine genericLoop_keys L hv hu hS fuel empty _ g2 hep1 ?_ hkq h
          intro y hy
          apply hx1 y
          unfold held pool at hy ⊢
          rw [hrd]
          rcases List.mem_append.mp hy with hy | hy
          · have := hA.perm.subset hy
            rcases List.mem_append.mp this with hy | hy
            · exact List.mem_append_left _ hy
            · simp only [List.mem_singleton] at hy
              rw [hy]; simp
          · apply List.mem_append_right
            exact List.mem_cons_of_mem _ hy

theorem nextBatch_keys {P : Planner σ ε} {ok : σ → Prop} {rem : σ → List ε} (L : Records P.src ok rem)
    (hv : P.Valid) {S : List Nat} {st st' : St σ ε} (hS : Fits P rem st.epoch S)
    {ob : Option (Batch ε)} (g : Good P ok rem st) (hx : ∀ x ∈ held rem st, P.shape x ∈ S) (hk : KeysIn S st.queues)
    (h : nextBatch P st = .ok (ob, st')) (g' : Good P ok rem st') : KeysIn S st'.queues := by
  cases hu : P.uniform with
  | some code =>
    rw [g'.uniform (by simp [hu])]
    intro s hs; simp at hs
  | none =>
    unfold nextBatch at h
    rw [if_neg (by simp [g.running]), hu] at h
    exact genericLoop_keys L hv hu hS _ _ _ g rfl hx hk h

theorem nextBatch_error {P : Planner σ ε} {ok : σ → Prop} {rem : σ → List ε} (L : Records P.src ok rem)
    (hv : P.Valid) {st : St σ ε} (g : Good P ok rem st) {e : Err} (hs : e ≠ .fuel → ShapeInv P rem [] st)
    (h : nextBatch P st = .error e) : ErrOk P rem st.epoch e := by
  unfold nextBatch at h
  rw [if_neg (by simp [g.running])] at h
  have hE : EmptyBefore P rem st 0 := ⟨by omega, by omega, fun k hk => by omega⟩
  have hw := weight_le P rem st 0
  cases hu : P.uniform with
  | none =>
    rw [hu] at h
    refine genericLoop_error L hv hu _ _ _ g hs hE ?_ h
    unfold genericFuel
    omega
  | some code =>
    rw [hu] at h
    refine uniformLoop_error L hv hu _ _ _ _ g (Nat.zero_le _) hs hE ?_ h
    unfold uniformFuel
    simp only [List.length_nil]
    omega

theorem nextBatch_no_fuel {P : Planner σ ε} {ok : σ → Prop} {rem : σ → List ε} (L : Records P.src ok rem)
    (hv : P.Valid) {st : St σ ε} (g : Good P ok rem st) : nextBatch P st ≠ .error .fuel := by
  intro h
  rcases nextBatch_error L hv g (fun h => absurd rfl h) h with h | h | h
  · simp at h
  · simp at h
  · simp at h

end Verif.Planner
