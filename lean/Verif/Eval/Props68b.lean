import Verif.Eval.Props68

/-!
C68, continued: planned datasets, and concrete runs.
-/

namespace Verif.Eval

/-- State of a rank at the beginning of iteration `k` of a planned evaluation. -/
structure PInv {α : Type} (k : Nat) (own : List α) (l : List (Item α)) (r : Rank α) : Prop where
  split : l = own.map Item.batch ++ r.src
  len : own.length = k
  idx : r.batchIndex = k
  out : r.out = own.map (fun a => (a, true))

theorem fetchPlanned_cases {α : Type} (r : Rank α) :
    (r.src = [] ∧ fetchPlanned r = ⟨r, none, false⟩) ∨
    (∃ a rest, r.src = .batch a :: rest ∧ fetchPlanned r = ⟨{ r with src := rest }, some a, false⟩) ∨
    (∃ rest, r.src = .fails :: rest ∧ fetchPlanned r = ⟨{ r with src := rest }, none, true⟩) := by
  unfold fetchPlanned
  cases hs : r.src with
  | nil => exact Or.inl ⟨rfl, rfl⟩
  | cons i rest =>
    cases i with
    | batch a => exact Or.inr (Or.inl ⟨a, rest, rfl, rfl⟩)
    | fails => exact Or.inr (Or.inr ⟨rest, rfl, rfl⟩)

theorem fetchPlanned_out {α : Type} (r : Rank α) : (fetchPlanned r).rank.out = r.out := by
  rcases fetchPlanned_cases r with ⟨_, h⟩ | ⟨a, rest, _, h⟩ | ⟨rest, _, h⟩ <;> rw [h]

/-- How a planned evaluation ends. -/
def POutcome {α : Type} (mb : Option Nat) (loaders : List (List (Item α))) (run : Run α) : Prop :=
  (∃ k ranks, run = .done ranks ∧ List.Forall₂ (fun l r => ∃ own : List α, own.length = k ∧
      r.out = own.map (fun a => (a, true)) ∧ visible mb l = own.map Item.batch) loaders ranks) ∨
  (∃ k ranks, run = .raised ranks ∧ List.Forall₂ (fun l r => ∃ own : List α, own.length = k ∧
      r.out = own.map (fun a => (a, true)) ∧ ∃ t, visible mb l = own.map Item.batch ++ t) loaders ranks ∧
    ((∃ l ∈ loaders, (visible mb l)[k]? = some .fails) ∨
      ((∃ l ∈ loaders, (visible mb l).length = k) ∧ ∃ l ∈ loaders, k < (visible mb l).length)))

theorem visible_pre {α : Type} {mb : Option Nat} {own : List α} {l src : List (Item α)}
    (hs : l = own.map Item.batch ++ src) (hlt : ∀ m, mb = some m → own.length < m) :
    ∃ mb', (∀ m, mb' = some m → 0 < m) ∧ visible mb l = own.map Item.batch ++ visible mb' src := by
  refine ⟨mb.map (· - own.length), ?_, visible_split hs (fun m hm => Nat.le_of_lt (hlt m hm))⟩
  intro m hm
  cases mb with
  | none => simp at hm
  | some m' => have := hlt m' rfl; simp at hm; omega

theorem visible_cons {β : Type} {mb : Option Nat} (h : ∀ m, mb = some m → 0 < m) (b : β) (t : List β) :
    ∃ t', visible mb (b :: t) = b :: t' := by
  cases mb with
  | none => exact ⟨t, rfl⟩
  | some m =>
    have := h m rfl
    obtain ⟨m', rfl⟩ : ∃ m', m = m' + 1 := ⟨m - 1, by omega⟩
    exact ⟨t.take m', rfl⟩

theorem loopPlanned_outcome {α : Type} (mb : Option Nat) (loaders : List (List (Item α)))
    (hne : loaders ≠ []) :
    ∀ (fuel k : Nat) (ranks : List (Rank α)),
      List.Forall₂ (fun l r => ∃ own, PInv k own l r) loaders ranks → (∀ m, mb = some m → k ≤ m) →
      (ranks.map (fun r => r.src.length)).sum < fuel →
      POutcome mb loaders (loopPlanned mb fuel ranks) := by
  intro fuel
  induction fuel with
  | zero => intro k ranks _ _ h; omega
  | succ fuel ih =>
    intro k ranks hinv hlim hfuel
    have hrne : ranks ≠ [] := by intro h; subst h; cases hinv; exact hne rfl
    unfold loopPlanned
    dsimp only
    have hidx : ∀ r ∈ ranks, r.batchIndex = k := by
      intro r hr
      obtain ⟨l, _, own, h⟩ := forall₂_mem_right hinv hr
      exact h.idx
    by_cases hl : mb = some k
    · have hst : (ranks.map (fun r => atLimit mb r.batchIndex)).all id = true := by
        rw [List.all_map, List.all_eq_true]
        intro r hr
        simp only [Function.comp_def, id, hidx r hr]
        exact (atLimit_iff hlim).mpr hl
      rw [if_pos hst]
      left
      refine ⟨k, ranks, rfl, forall₂_imp ?_ hinv⟩
      rintro l r ⟨own, h⟩
      refine ⟨own, h.len, h.out, visible_exh h.split ?_ (Or.inr ?_)⟩
      · intro m hm; rw [h.len]; exact hlim m hm
      · rw [h.len]; exact hl
    · have hno : ∀ r ∈ ranks, atLimit mb r.batchIndex = false := by
        intro r hr
        rw [hidx r hr, ← Bool.not_eq_true]
        exact fun hc => hl ((atLimit_iff hlim).mp hc)
      have hlt : ∀ m, mb = some m → k < m := by
        intro m hm
        have := hlim m hm
        by_contra hc
        exact hl (by rw [hm]; congr 1; omega)
      rw [if_neg (by
        rw [List.all_map, List.all_eq_true]
        intro hc
        obtain ⟨r, rs, rfl⟩ := List.exists_cons_of_ne_nil hrne
        have h1 := hc r (List.mem_cons_self ..)
        have h2 := hno r (List.mem_cons_self ..)
        simp only [Function.comp_def, id] at h1
        rw [h2] at h1; cases h1)]
      rw [if_neg (by
        rw [List.any_map, List.any_eq_true]
        rintro ⟨r, hr, hc⟩
        simp only [Function.comp_def, id] at hc
        rw [hno r hr] at hc; cases hc)]
      set fs := ranks.map fetchPlanned with hfs
      have hfne : fs ≠ [] := by simpa [hfs] using hrne
      have hraise : List.Forall₂ (fun l r => ∃ own : List α, own.length = k ∧
          r.out = own.map (fun a => (a, true)) ∧ ∃ t, visible mb l = own.map Item.batch ++ t)
          loaders (fs.map (·.rank)) := by
        rw [hfs, List.map_map]
        apply forall₂_map_right
        refine forall₂_imp ?_ hinv
        rintro l r ⟨own, h⟩
        refine ⟨own, h.len, by simp only [Function.comp_def, fetchPlanned_out]; exact h.out, _,
          visible_split h.split (fun m hm => by rw [h.len]; exact hlim m hm)⟩
      have hpre : ∀ (l : List (Item α)) (r : Rank α) (own : List α), PInv k own l r → ∃ mb', (∀ m, mb' = some m → 0 < m) ∧
          visible mb l = own.map Item.batch ++ visible mb' r.src := by
        intro l r own h
        exact visible_pre h.split (fun m hm => by rw [h.len]; exact hlt m hm)
      by_cases herr : fs.any (·.error) = true
      · rw [if_pos herr]
        right
        refine ⟨k, _, rfl, hraise, Or.inl ?_⟩
        rw [List.any_eq_true] at herr
        obtain ⟨f, hf, he⟩ := herr
        rw [hfs, List.mem_map] at hf
        obtain ⟨r, hr, rfl⟩ := hf
        obtain ⟨l, hlm, own, h⟩ := forall₂_mem_right hinv hr
        refine ⟨l, hlm, ?_⟩
        rcases fetchPlanned_cases r with ⟨_, h1⟩ | ⟨a, rest, _, h1⟩ | ⟨rest, hs, h1⟩
        · rw [h1] at he; cases he
        · rw [h1] at he; cases he
        · obtain ⟨mb', hm', hv⟩ := hpre l r own h
          obtain ⟨t', ht⟩ := visible_cons hm' Item.fails rest
          rw [hv, hs, ht, List.getElem?_append_right (by simp [h.len])]
          simp [h.len]
      · rw [if_neg herr]
        have hnoerr : ∀ r ∈ ranks, (fetchPlanned r).error = false := by
          intro r hr
          by_contra hc
          apply herr
          rw [List.any_eq_true]
          exact ⟨fetchPlanned r, List.mem_map.mpr ⟨r, hr, rfl⟩, by simpa using hc⟩
        set avail := fs.map (fun f => f.data.isSome) with havail
        rw [agree_const fs (fun _ => decidePlanned avail) (decidePlanned avail) hfne (fun _ _ => rfl)]
        have hav_iff : avail.any id = true ↔ ∃ r ∈ ranks, ∃ a rest, r.src = Item.batch a :: rest := by
          rw [havail, List.any_map, List.any_eq_true]
          constructor
          · rintro ⟨f, hf, hd⟩
            rw [hfs, List.mem_map] at hf
            obtain ⟨r, hr, rfl⟩ := hf
            rcases fetchPlanned_cases r with ⟨_, h1⟩ | ⟨a, rest, hs, h1⟩ | ⟨rest, hs, h1⟩
            · rw [h1] at hd; cases hd
            · exact ⟨r, hr, a, rest, hs⟩
            · rw [h1] at hd; cases hd
          · rintro ⟨r, hr, a, rest, hs⟩
            refine ⟨fetchPlanned r, List.mem_map.mpr ⟨r, hr, rfl⟩, ?_⟩
            simp [fetchPlanned, hs]
        have hall_iff : avail.all id = true ↔ ∀ r ∈ ranks, ∃ a rest, r.src = Item.batch a :: rest := by
          rw [havail, List.all_map, List.all_eq_true]
          constructor
          · intro hc r hr
            have hd := hc (fetchPlanned r) (List.mem_map.mpr ⟨r, hr, rfl⟩)
            rcases fetchPlanned_cases r with ⟨_, h1⟩ | ⟨a, rest, hs, h1⟩ | ⟨rest, hs, h1⟩
            · rw [h1] at hd; cases hd
            · exact ⟨a, rest, hs⟩
            · rw [h1] at hd; cases hd
          · intro hc f hf
            rw [hfs, List.mem_map] at hf
            obtain ⟨r, hr, rfl⟩ := hf
            obtain ⟨a, rest, hs⟩ := hc r hr
            simp [fetchPlanned, hs]
        have hempty : ∀ r ∈ ranks, (¬ ∃ a rest, r.src = Item.batch a :: rest) → r.src = [] := by
          intro r hr hn
          rcases fetchPlanned_cases r with ⟨h0, _⟩ | ⟨a, rest, hs, _⟩ | ⟨rest, hs, h1⟩
          · exact h0
          · exact absurd ⟨a, rest, hs⟩ hn
          · have := hnoerr r hr; rw [h1] at this; cases this
        unfold decidePlanned
        by_cases hany : avail.any id = true
        · rw [if_neg (by simpa using hany)]
          by_cases hall : avail.all id = true
          · rw [if_neg (by simpa using hall)]
            dsimp only
            have hstep : List.Forall₂ (fun l r => ∃ r', finishPlanned (fetchPlanned r) = some r' ∧
                ∃ own, PInv (k + 1) own l r') loaders ranks := by
              refine forall₂_and hinv ?_
              rintro l _ r hr ⟨own, h⟩
              obtain ⟨a, rest, hs⟩ := hall_iff.mp hall r hr
              refine ⟨_, by simp [fetchPlanned, finishPlanned, hs]; rfl, own ++ [a], ?_⟩
              constructor
              · rw [h.split, hs]; simp
              · simp [h.len]
              · simp [h.idx]
              · simp [h.out]
            obtain ⟨ranks', h2, h3⟩ := allSome_forall₂ hstep
            rw [hfs, List.map_map]
            have h2' : allSome (ranks.map (finishPlanned ∘ fetchPlanned)) = some ranks' := h2
            rw [h2']
            refine ih (k + 1) ranks' h3 (fun m hm => by have := hlt m hm; omega) ?_
            have hsum : (ranks'.map (fun r => r.src.length)).sum + ranks'.length =
                (ranks.map (fun r => r.src.length)).sum := by
              have hb := hall_iff.mp hall
              clear hstep h3 hinv hfs havail hav_iff hall_iff hempty hany hall hidx hno hfne hrne hfuel herr
                hnoerr hraise h2
              clear_value fs avail
              induction ranks generalizing ranks' with
              | nil => simp [allSome] at h2'; subst h2'; rfl
              | cons r rs ihr =>
                obtain ⟨a, rest, hs⟩ := hb r (List.mem_cons_self ..)
                simp only [List.map_cons, Function.comp_def, fetchPlanned, finishPlanned, hs, allSome] at h2'
                split at h2'
                · rename_i l' hl'
                  cases h2'
                  have := ihr l' hl' (fun x hx => hb x (List.mem_cons_of_mem _ hx))
                  simp only [List.map_cons, List.sum_cons, List.length_cons, hs]
                  omega
                · cases h2'
            have hlen : ranks'.length = ranks.length := by rw [← h3.length_eq, hinv.length_eq]
            have : 0 < ranks.length := List.length_pos_of_ne_nil hrne
            omega
          · rw [if_pos (by simpa using hall)]
            right
            refine ⟨k, _, rfl, hraise, Or.inr ⟨?_, ?_⟩⟩
            · have : ∃ r ∈ ranks, ¬ ∃ a rest, r.src = Item.batch a :: rest := by
                by_contra hc
                apply hall
                rw [hall_iff]
                intro r hr
                by_contra h'
                exact hc ⟨r, hr, h'⟩
              obtain ⟨r, hr, hn⟩ := this
              obtain ⟨l, hlm, own, h⟩ := forall₂_mem_right hinv hr
              refine ⟨l, hlm, ?_⟩
              rw [visible_exh h.split (fun m hm => by rw [h.len]; exact hlim m hm)
                (Or.inl (hempty r hr hn)), List.length_map, h.len]
            · obtain ⟨r, hr, a, rest, hs⟩ := hav_iff.mp hany
              obtain ⟨l, hlm, own, h⟩ := forall₂_mem_right hinv hr
              refine ⟨l, hlm, ?_⟩
              obtain ⟨mb', hm', hv⟩ := hpre l r own h
              obtain ⟨t', ht⟩ := visible_cons hm' (Item.batch a) rest
              rw [hv, hs, ht]
              simp [h.len]
        · rw [if_pos (by simpa using hany)]
          left
          refine ⟨k, _, rfl, ?_⟩
          rw [hfs, List.map_map]
          apply forall₂_map_right
          refine forall₂_and hinv ?_
          rintro l _ r hr ⟨own, h⟩
          refine ⟨own, h.len, by simp only [Function.comp_def, fetchPlanned_out]; exact h.out, ?_⟩
          refine visible_exh h.split (fun m hm => by rw [h.len]; exact hlim m hm) (Or.inl ?_)
          apply hempty r hr
          rintro ⟨a, rest, hs⟩
          exact hany (hav_iff.mpr ⟨r, hr, a, rest, hs⟩)

theorem runPlanned_outcome {α : Type} (mb : Option Nat) (loaders : List (List (Item α)))
    (hne : loaders ≠ []) : POutcome mb loaders (runPlanned mb loaders) := by
  refine loopPlanned_outcome mb loaders hne (fuelFor loaders) 0 (start loaders) ?_ (fun m _ => by omega)
    (start_sum loaders)
  unfold start
  clear hne
  induction loaders with
  | nil => exact .nil
  | cons l ls ih => exact .cons ⟨[], by simp, rfl, rfl, rfl⟩ ih

/-- Planned datasets, all ranks with the same number of batches (up to `max_batches`): every rank yields
exactly its own batches, all of them real. -/
theorem C68_planned_equal {α : Type} (mb : Option Nat) (data : List (List α)) (hne : data ≠ []) (n : Nat)
    (h : ∀ bs ∈ data, (visible mb bs).length = n) :
    ∃ ranks, runPlanned mb (data.map (List.map Item.batch)) = .done ranks ∧
      List.Forall₂ (fun bs r => r.out = (visible mb bs).map (fun a => (a, true))) data ranks := by
  rcases runPlanned_outcome mb (data.map (List.map (Item.batch (α := α)))) (by simpa using hne) with
    ⟨k, ranks, h1, h2⟩ | ⟨k, ranks, _, _, ⟨l, hl, hf⟩ | ⟨⟨l, hl, hlk⟩, ⟨l', hl', hlk'⟩⟩⟩
  · refine ⟨ranks, h1, ?_⟩
    rw [List.forall₂_map_left_iff] at h2
    refine forall₂_imp ?_ h2
    rintro bs r ⟨own, _, ho, hv⟩
    rw [visible_map] at hv
    rw [map_batch_inj hv, ho]
  · exfalso
    rw [List.mem_map] at hl
    obtain ⟨bs, _, rfl⟩ := hl
    have := List.mem_of_getElem? hf
    rw [visible_map, List.mem_map] at this
    obtain ⟨a, _, h⟩ := this
    cases h
  · exfalso
    rw [List.mem_map] at hl hl'
    obtain ⟨bs, hb, rfl⟩ := hl
    obtain ⟨bs', hb', rfl⟩ := hl'
    rw [visible_map, List.length_map] at hlk hlk'
    rw [h bs hb] at hlk
    rw [h bs' hb'] at hlk'
    omega

/-- Planned datasets, ranks with different numbers of batches: no rank silently evaluates on less data;
all ranks raise in the same iteration, after the batches of the shortest rank. -/
theorem C68_planned_differs {α : Type} (mb : Option Nat) (data : List (List α)) (n : Nat)
    (hmin : ∃ bs ∈ data, (visible mb bs).length = n) (hle : ∀ bs ∈ data, n ≤ (visible mb bs).length)
    (hlt : ∃ bs ∈ data, n < (visible mb bs).length) :
    ∃ ranks, runPlanned mb (data.map (List.map Item.batch)) = .raised ranks ∧
      List.Forall₂ (fun bs r => r.out = (bs.take n).map (fun a => (a, true))) data ranks := by
  have hne : data ≠ [] := by rintro rfl; obtain ⟨l, h, _⟩ := hmin; simp at h
  rcases runPlanned_outcome mb (data.map (List.map (Item.batch (α := α)))) (by simpa using hne) with
    ⟨k, ranks, h1, h2⟩ | ⟨k, ranks, h1, h2, h3⟩
  · exfalso
    rw [List.forall₂_map_left_iff] at h2
    obtain ⟨b1, hb1, e1⟩ := hmin
    obtain ⟨b2, hb2, e2⟩ := hlt
    obtain ⟨_, _, own1, l1, _, v1⟩ := forall₂_mem_left h2 hb1
    obtain ⟨_, _, own2, l2, _, v2⟩ := forall₂_mem_left h2 hb2
    rw [visible_map] at v1 v2
    rw [map_batch_inj v1] at e1
    rw [map_batch_inj v2] at e2
    omega
  · refine ⟨ranks, h1, ?_⟩
    have hk : k = n := by
      rcases h3 with ⟨l, hl, hf⟩ | ⟨⟨l, hl, hlk⟩, _⟩
      · exfalso
        rw [List.mem_map] at hl
        obtain ⟨bs, _, rfl⟩ := hl
        have := List.mem_of_getElem? hf
        rw [visible_map, List.mem_map] at this
        obtain ⟨a, _, h⟩ := this
        cases h
      · rw [List.mem_map] at hl
        obtain ⟨bs, hb, rfl⟩ := hl
        rw [visible_map, List.length_map] at hlk
        have h5 := hle bs hb
        -- every rank has at least `k` visible batches
        rw [List.forall₂_map_left_iff] at h2
        obtain ⟨b1, hb1, e1⟩ := hmin
        obtain ⟨_, _, own, lo, _, t, hv⟩ := forall₂_mem_left h2 hb1
        have := congrArg List.length hv
        simp only [visible_map, List.length_map, List.length_append] at this
        omega
    subst hk
    rw [List.forall₂_map_left_iff] at h2
    refine forall₂_imp ?_ h2
    rintro bs r ⟨own, lo, ho, t, hv⟩
    rw [visible_map] at hv
    have : own = bs.take k := by
      have h6 : (visible mb bs).take k = own := by
        apply map_batch_inj
        rw [List.map_take, hv, List.take_append_of_le_length (by simp [lo]),
          List.take_of_length_le (by simp [lo])]
      have h7 : k ≤ (visible mb bs).length := by
        have := congrArg List.length hv
        simp only [List.length_map, List.length_append] at this
        omega
      rw [← h6]
      cases mb with
      | none => rfl
      | some m =>
        simp only [visible, List.length_take] at h7 ⊢
        rw [List.take_take]
        congr 1
        omega
    rw [ho, this]

/-- Planned datasets: all ranks return or all raise, whatever the loaders do, and no rank ever uses
another rank's batch or a batch twice. -/
theorem C68_planned_never_stuck {α : Type} (mb : Option Nat) (loaders : List (List (Item α)))
    (hne : loaders ≠ []) :
    ∃ ranks n, (runPlanned mb loaders = .done ranks ∨ runPlanned mb loaders = .raised ranks) ∧
      List.Forall₂ (fun l r => ∃ own : List α, own.length = n ∧ r.out = own.map (fun a => (a, true)) ∧
        ∃ t, visible mb l = own.map Item.batch ++ t) loaders ranks := by
  rcases runPlanned_outcome mb loaders hne with ⟨k, ranks, h1, h2⟩ | ⟨k, ranks, h1, h2, _⟩
  · refine ⟨ranks, k, Or.inl h1, forall₂_imp ?_ h2⟩
    rintro l r ⟨own, a, b, c⟩
    exact ⟨own, a, b, [], by simpa using c⟩
  · exact ⟨ranks, k, Or.inr h1, h2⟩

/-! ### Concrete runs -/

/-- three ranks with 2, 0 and 3 batches: three forwards each -/
example : (match runMap none ([[10, 11], [], [30, 31, 32]].map (List.map Item.batch)) with
    | .done rs => rs.map (·.out)
    | _ => []) =
    [[(10, true), (11, true), (11, false)], [(10, false), (10, false), (10, false)],
      [(30, true), (31, true), (32, true)]] := by decide +kernel

/-- the same with `max_batches = 1` -/
example : (match runMap (some 1) ([[10, 11], [], [30, 31, 32]].map (List.map Item.batch)) with
    | .done rs => rs.map (·.out)
    | _ => []) = [[(10, true)], [(10, false)], [(30, true)]] := by decide +kernel

/-- the third rank fails at its second batch -/
example : (match runMap none [[Item.batch 1, .batch 2, .batch 3], [.batch 4], [.batch 5, .fails]] with
    | .raised rs => rs.map (·.out)
    | _ => []) = [[(1, true)], [(4, true)], [(5, true)]] := by decide +kernel

/-- planned ranks with 2 and 1 batches -/
example : (match runPlanned none [[Item.batch 1, .batch 2], [.batch 4]] with
    | .raised rs => rs.map (·.out)
    | _ => []) = [[(1, true)], [(4, true)]] := by decide +kernel

end Verif.Eval
