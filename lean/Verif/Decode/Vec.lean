import Verif.Decode.Lemmas

/-! # The vectorised post-processing is the scalar one, row by row -/
namespace Verif.Decode
open Verif.Board Verif.Rng

variable {α β γ κ : Type}

theorem exists_none_of_mapM {f : β → Option γ} {l : List β} (h : l.mapM f = none) : ∃ x ∈ l, f x = none := by
  induction l with
  | nil => simp at h
  | cons a as ih =>
    rw [mapM_cons'] at h
    cases ha : f a with
    | none => exact ⟨a, by simp, ha⟩
    | some y =>
      cases hs : as.mapM f with
      | none => obtain ⟨x, hx, hf⟩ := ih hs; exact ⟨x, by simp [hx], hf⟩
      | some ys => simp [ha, hs] at h

theorem mapM_map' (g : κ → β) (f : β → Option γ) (l : List κ) : (l.map g).mapM f = l.mapM fun x => f (g x) := by
  induction l with
  | nil => rfl
  | cons a as ih => rw [List.map_cons, mapM_cons', mapM_cons', ih]

theorem mapM_some_map (g : β → γ) (l : List β) : (l.mapM fun x => some (g x)) = some (l.map g) := by
  induction l with
  | nil => rfl
  | cons a as ih => rw [mapM_cons', ih]; rfl

theorem mapM_cons_iff {f : β → Option γ} {a : β} {as : List β} {r : List γ} (h : (a :: as).mapM f = some r) :
    ∃ y ys, f a = some y ∧ as.mapM f = some ys ∧ r = y :: ys := by
  rw [mapM_cons'] at h
  cases ha : f a with
  | none => simp [ha] at h
  | some y =>
    cases hs : as.mapM f with
    | none => simp [ha, hs] at h
    | some ys => simp [ha, hs] at h; exact ⟨y, ys, rfl, rfl, h.symm⟩

theorem mapM_bind (f : β → Option γ) (g : γ → Option κ) (l : List β) :
    ((l.mapM f).bind fun ys => ys.mapM g) = l.mapM fun x => (f x).bind g := by
  induction l with
  | nil => rfl
  | cons a as ih =>
    rw [mapM_cons', mapM_cons', ← ih]
    cases f a with
    | none => rfl
    | some y =>
      cases as.mapM f with
      | none => cases h : g y <;> simp [h]
      | some ys => simp only [Option.bind_some, Option.map_some, mapM_cons']

/-- Zipped compositions. -/
theorem zip_mapM {δ ε : Type} (s : β → Option γ) (d : κ → Option δ) (f : γ × δ → Option ε) (rows : List β)
    (keys : List κ) (hl : rows.length = keys.length) :
    ((rows.mapM s).bind fun rows' => (keys.mapM d).bind fun idxs => (rows'.zip idxs).mapM f) =
      (rows.zip keys).mapM fun p => (s p.1).bind fun r => (d p.2).bind fun i => f (r, i) := by
  induction rows generalizing keys with
  | nil =>
    cases keys with
    | nil => rfl
    | cons k ks => simp at hl
  | cons a as ih =>
    cases keys with
    | nil => simp at hl
    | cons k ks =>
      have ih := ih ks (by simpa using hl)
      rw [List.zip_cons_cons, mapM_cons', mapM_cons', mapM_cons', ← ih]
      cases s a with
      | none => rfl
      | some y =>
        cases hd : d k with
        | none => cases as.mapM s <;> simp
        | some i =>
          cases as.mapM s with
          | none => cases h : f (y, i) <;> simp [h]
          | some ys =>
            cases ks.mapM d with
            | none => cases h : f (y, i) <;> simp [h]
            | some is => simp only [Option.bind_some, Option.map_some, mapM_cons', List.zip_cons_cons]

/-! ### The side to move -/

/-- The scalar form of `vecSide`. -/
def sideOne (c : Cfg α) (r : Row α) : Option (Row α) :=
  if c.fixedSide then
    if r.stm.length ≠ 1 then none
    else if r.stm.any c.gt0 then swapValue (flipPlanes r) else some r
  else some r

theorem vecSide_eq (c : Cfg α) (rows : List (Row α)) : vecSide c rows = rows.mapM (sideOne c) := by
  unfold vecSide
  by_cases hf : c.fixedSide = true
  swap
  · rw [if_neg hf]
    rw [mapM_congr' (g := fun x => some x) (fun x _ => by simp [sideOne, hf])]
    have := mapM_some_map (fun x : Row α => x) rows
    simpa using this.symm
  rw [if_pos hf]
  by_cases hb : rows.any (fun r => r.stm.length != 1) = true
  · rw [if_pos hb]
    obtain ⟨r, hr, hne⟩ := List.any_eq_true.mp hb
    have : sideOne c r = none := by
      have : r.stm.length ≠ 1 := by simpa using hne
      simp [sideOne, hf, this]
    rw [mapM_none hr this]
  · rw [if_neg hb]
    have hall : ∀ r ∈ rows, r.stm.length = 1 := by
      intro r hr
      by_contra hne
      exact hb (List.any_eq_true.mpr ⟨r, hr, by simpa using hne⟩)
    have key : rows.mapM (sideOne c) = rows.mapM fun x =>
        if x.stm.any c.gt0 then swapValue ((fun x => if x.stm.any c.gt0 then flipPlanes x else x) x)
        else some ((fun x => if x.stm.any c.gt0 then flipPlanes x else x) x) := by
      apply mapM_congr'
      intro x hx
      simp only [sideOne, hf, if_true, hall x hx]
      by_cases hw : x.stm.any c.gt0 = true <;> simp [hw]
    simp only []
    by_cases hw : ((rows.map fun r => r.stm.any c.gt0).any id) = true
    · rw [if_pos hw, maskSet_apply, key]
      exact maskSet_applyM _ _ _ rows
    · rw [if_neg hw, key]
      have : ∀ x ∈ rows, x.stm.any c.gt0 = false := by
        intro x hx
        by_contra h
        exact hw (List.any_eq_true.mpr ⟨_, List.mem_map.mpr ⟨x, hx, rfl⟩, by simpa using h⟩)
      rw [mapM_congr' (g := fun x => some x) (fun x hx => by simp [this x hx])]
      simpa using (mapM_some_map (fun x : Row α => x) rows).symm

/-! ### Symmetries keep the shape -/

theorem available_mem {h w : Nat} {k : Kind} {l : List Sym} (ha : available h w k = some l) :
    (0 < l.length ∧ l.length ≤ 8) ∧ (h ≠ w → ∀ s ∈ l, s.ops.2.2 = false) := by
  unfold available at ha
  cases k <;> simp only at ha
  all_goals first
    | cases ha
    | (split_ifs at ha with hh <;> first | cases ha | skip)
  all_goals (refine ⟨by (try split_ifs) <;> simp, ?_⟩)
  · intro hne s hs
    rw [if_neg hne] at hs
    revert hs
    cases s <;> simp [Sym.ops]
  all_goals (intro hne; exact absurd (by simpa using hh) hne)

theorem applyArr_dims {s : Sym} {h w : Nat} (f : Nat → Nat → β) (hs : h ≠ w → s.ops.2.2 = false) :
    (s.applyArr ⟨h, w, f⟩).h = h ∧ (s.applyArr ⟨h, w, f⟩).w = w := by
  by_cases hh : h = w
  · subst hh
    unfold Sym.applyArr
    cases s <;> simp [Sym.ops, Grid.flipX, Grid.flipY, Grid.swap]
  · have := hs hh
    unfold Sym.applyArr
    simp only [this, Bool.false_eq_true, if_false]
    cases s <;> simp [Sym.ops, Grid.flipX, Grid.flipY]

/-- The shape facts of a row that the loader guarantees and the transformations keep. -/
def Good (h w : Nat) (r : Row α) : Prop :=
  r.h = h ∧ r.w = w ∧ r.bh = h ∧ r.bw = w ∧ ∀ g, r.policy = .plane g → g.h = h ∧ g.w = w

theorem sideOne_keeps {c : Cfg α} {r r' : Row α} (h : sideOne c r = some r') :
    r'.h = r.h ∧ r'.w = r.w ∧ r'.bh = r.bh ∧ r'.bw = r.bw ∧ r'.policy = r.policy ∧ r'.stm = r.stm ∧
      r'.planes.length = r.planes.length ∧ r'.value.length = r.value.length := by
  unfold sideOne at h
  by_cases hf : c.fixedSide = true
  · rw [if_pos hf] at h
    by_cases hs : r.stm.length = 1
    · rw [if_neg (by simpa using hs)] at h
      by_cases hw : r.stm.any c.gt0 = true
      · rw [if_pos hw] at h
        unfold swapValue at h
        have hv : (flipPlanes r).value = r.value := rfl
        rw [hv] at h
        cases hval : r.value with
        | nil => simp [hval] at h
        | cons a t =>
          cases t with
          | nil => simp [hval] at h
          | cons b t =>
            simp [hval] at h
            subst h
            simp [flipPlanes]
      · rw [if_neg hw] at h; cases h; simp
    · rw [if_pos hs] at h; cases h
  · rw [if_neg hf] at h; cases h; simp

/-- The scalar symmetry. -/
def symOne [Zero α] (c : Cfg α) (idx : Nat) (r : Row α) : Option (Row α) :=
  match c.kind with
  | none => some r
  | some k => ((available r.h r.w k).bind (·[idx]?)).bind fun s => symRow s r

theorem postOne_eq [Zero α] (c : Cfg α) (hc : c.fixedSize = none) (idx : Nat) (r : Row α) {h w : Nat} (hg : Good h w r) :
    postOne c idx r = (sideOne c r).bind (symOne c idx) := by
  obtain ⟨h1, h2, h3, h4, h5⟩ := hg
  -- the symmetry part, for any row of the same dimensions
  have hsym : ∀ (st : Int) (pl : List (Nat → Nat → α)) (val : List α),
      ((augment c.kind idx (⟨r.bh, r.bw, r.h, r.w, pl, st, val, r.policy, none, none, none⟩ : Sample α)).bind
        fun s => (pad c.fixedSize s).map (finish false)).map
        (fun s => (⟨s.bh, s.bw, s.h, s.w, s.planes, r.stm, s.value, s.policy⟩ : Row α)) = symOne c idx { r with planes := pl, value := val } := by
    intro st pl val
    unfold augment symOne
    cases hk : c.kind with
    | none => simp [hc, pad, finish]
    | some k =>
      simp only [h1, h2, h3, h4]
      cases ha : available h w k with
      | none => simp
      | some l =>
        simp only [Option.bind_some]
        cases hi : l[idx]? with
        | none => simp
        | some s =>
          have hmem : s ∈ l := List.mem_of_getElem? hi
          have hdim := fun (β : Type) (f : Nat → Nat → β) => applyArr_dims (s := s) (h := h) (w := w) f
            (fun hne => (available_mem ha).2 hne s hmem)
          simp only [Option.bind_some, symRow, symPolicy]
          rw [if_neg (by simp [hdim])]
          cases hp : r.policy with
          | flat v =>
            simp only [hp]
            by_cases hv : v.length = h * w + 1
            · simp [hv, hc, pad, finish, hdim]
            · simp [hv]
          | plane g =>
            obtain ⟨g1, g2⟩ := h5 g hp
            have hgd : (s.applyArr g).h = g.h ∧ (s.applyArr g).w = g.w := by
              cases g with
              | mk gh gw gf =>
                simp only at g1 g2
                subst g1 g2
                exact hdim _ gf
            simp only [hp]
            rw [if_neg (by simp [hgd])]
            simp [hc, pad, finish, hdim]
  unfold postOne sideOne process fixSide
  by_cases hf : c.fixedSide = true
  · by_cases hl : r.stm.length = 1
    · by_cases hw : r.stm.any c.gt0 = true
      · have hv : (flipPlanes r).value = r.value := rfl
        simp only [hf, hl, hw, sideSwap, swapValue, hv]
        cases hval : r.value with
        | nil => simp
        | cons a t =>
          cases t with
          | nil => simp
          | cons b t =>
            have := hsym 1 r.planes.reverse (b :: a :: t)
            simpa [flipPlanes] using this
      · have hw' : r.stm.any c.gt0 = false := by simpa using hw
        simp only [hf, hl, hw']
        simpa using hsym 0 r.planes r.value
    · rw [if_pos ⟨hf, hl⟩, if_pos hf, if_pos hl]; rfl
  · have hf' : c.fixedSide = false := by simpa using hf
    simp only [hf']
    simpa using hsym (if r.stm.any c.gt0 then 1 else 0) r.planes r.value

/-! ### The loop over the symmetries -/

theorem symLoop_eq [Zero α] (choices : List Sym) (items : List (Row α × Nat)) (hlt : ∀ p ∈ items, p.2 < choices.length) :
    ∀ (syms : List Sym) (k : Nat), choices.drop k = syms → k + syms.length = choices.length →
      ((symLoop (items.map Prod.fst) (items.map Prod.snd) k syms
        (items.map fun p => if decide (p.2 < k) then (choices[p.2]?).bind fun s => symRow s p.1 else none)).bind
        fun out => out.mapM id) = items.mapM fun p => (choices[p.2]?).bind fun s => symRow s p.1 := by
  intro syms
  induction syms with
  | nil =>
    intro k _ hk
    simp only [symLoop, Option.bind_some]
    rw [mapM_id_map]
    apply mapM_congr'
    intro p hp
    have := hlt p hp
    simp at hk
    rw [if_pos (by simp; omega)]
  | cons sym syms ih =>
    intro k hd hk
    have hsym : choices[k]? = some sym := by
      have : (choices.drop k)[0]? = some sym := by rw [hd]; rfl
      simpa using this
    have hd' : choices.drop (k + 1) = syms := by
      have : (choices.drop k).drop 1 = syms := by rw [hd]; rfl
      simpa [List.drop_drop] using this
    rw [symLoop, takeAt_positions _ _ _ (by simp)]
    have hmask : (items.map Prod.snd).map (· == k) = items.map fun p => p.2 == k := by simp [List.map_map, Function.comp_def]
    rw [hmask, maskGet_map, Option.bind_some, mapM_map', maskGet_eq_filter]
    have hcongr : ((items.filter fun p => p.2 == k).mapM fun x => symRow sym x.1) =
        (items.filter fun p => p.2 == k).mapM fun p => (choices[p.2]?).bind fun s => symRow s p.1 := by
      apply mapM_congr'
      intro p hp
      have : p.2 = k := by simpa using (List.mem_filter.mp hp).2
      rw [this, hsym]; rfl
    rw [hcongr]
    cases hv : ((items.filter fun p => p.2 == k).mapM fun p => (choices[p.2]?).bind fun s => symRow s p.1) with
    | none =>
      obtain ⟨p, hp, hn⟩ := exists_none_of_mapM hv
      simp only [Option.bind_none]
      rw [mapM_none (List.mem_of_mem_filter hp) hn]
    | some vals =>
      simp only []
      rw [putAt_positions _ _ _ _ (by simp), hmask]
      have hstep := scatter_step items (fun p => p.2 == k) (fun p => decide (p.2 < k))
        (fun p => (choices[p.2]?).bind fun s => symRow s p.1) vals (by rw [maskGet_eq_filter]; exact hv)
      rw [hstep]
      have hdone : (fun p : Row α × Nat => if (decide (p.2 < k) || p.2 == k) = true then (choices[p.2]?).bind fun s => symRow s p.1 else none) =
          fun p => if decide (p.2 < k + 1) = true then (choices[p.2]?).bind fun s => symRow s p.1 else none := by
        funext p
        have : (decide (p.2 < k) || p.2 == k) = decide (p.2 < k + 1) := by
          by_cases h : p.2 < k + 1
          · rcases Nat.lt_succ_iff_lt_or_eq.mp h with h' | h' <;> simp [h, h']
          · have h1 : ¬ p.2 < k := by omega
            have h2 : ¬ p.2 = k := by omega
            simp [h, h1, h2]
        rw [this]
      rw [hdone]
      exact ih (k + 1) hd' (by simp at hk; omega)

/-! ### The draws -/

/-- Seeds and epochs that the checkpoint format and the RNG accept. -/
def ValidSeed (c : Cfg α) : Prop := (-(2 ^ 63) ≤ c.seed ∧ c.seed < 2 ^ 63) ∧ (-(2 ^ 63) ≤ c.epoch ∧ c.epoch < 2 ^ 63)

/-- Drawing for a list of keys is drawing for every key alone, and the draws are in range. -/
theorem drawKeys_eq (c : Cfg α) (hv : ValidSeed c) (n : Nat) (hn : 0 < n) (hn' : n ≤ 2 ^ 64) :
    ∃ d : SampleKey → Option Nat, (∀ keys, drawKeys c keys n = keys.mapM d) ∧ ∀ k v, d k = some v → v < n := by
  by_cases hp : n &&& (n - 1) = 0
  · exact ⟨v2Single c.H n c.seed "symmetry" c.epoch 0, fun keys => C03_v2_batched _ _ hn hn' hp _ _ _ _ _,
      fun k v h => C03_v2_in_range _ _ hn hn' _ _ _ _ _ _ h⟩
  · refine ⟨fun k => if k.address.length = 1 ∨ k.address.length = 2 then
        (uniformBelow c.H n c.seed "symmetry" (.seq [.int c.epoch, k.val, .int 0]) 0).map Prod.fst else none, fun keys => ?_, ?_⟩
    · unfold drawKeys uniformBelowForKeysV2
      rw [if_neg (by omega), if_pos hp]
      exact C03_batched_keys c.H n hn hn' c.seed "symmetry" c.epoch 0 hv.1 hv.2 (by decide +kernel) keys
    · intro k v h
      beta_reduce at h
      split_ifs at h
      cases hu : uniformBelow c.H n c.seed "symmetry" (.seq [.int c.epoch, k.val, .int 0]) 0 with
      | none => simp [hu] at h
      | some p =>
        simp [hu] at h
        have := (C01_uniform_below_in_range c.H n c.seed "symmetry" _ 0 p.1 p.2 hu).1
        omega

/-- The vectorised post-processing of rows of one size, with any draws that are made key by key. -/
theorem vecPost_eq [Zero α] (c : Cfg α) (hc : c.fixedSize = none) (h w : Nat) (rows : List (Row α)) (keys : List SampleKey)
    (hl : rows.length = keys.length) (hne : rows ≠ []) (hg : ∀ r ∈ rows, Good h w r) (draw : Nat → Option (List Nat))
    (hd : ∀ n, 0 < n → n ≤ 8 → draw n = drawKeys c keys n) (hv : ValidSeed c) :
    vecPost c draw rows = (rows.zip keys).mapM fun p => (pickOne c h w p.2).bind fun i => postOne c i p.1 := by
  have hpost : ∀ p ∈ rows.zip keys, ∀ i, postOne c i p.1 = (sideOne c p.1).bind (symOne c i) := by
    intro p hp i
    exact postOne_eq c hc i p.1 (hg p.1 (List.of_mem_zip hp).1)
  rw [mapM_congr' (g := fun p => (sideOne c p.1).bind fun r => (pickOne c h w p.2).bind fun i => symOne c i r) (by
    intro p hp
    cases hk : pickOne c h w p.2 with
    | none => cases sideOne c p.1 <;> rfl
    | some i => simp only [Option.bind_some, hpost p hp])]
  rw [← zip_mapM (sideOne c) (pickOne c h w) (fun p => symOne c p.2 p.1) rows keys hl]
  unfold vecPost
  rw [vecSide_eq]
  cases hs : rows.mapM (sideOne c) with
  | none => rfl
  | some rows' =>
    simp only [Option.bind_some]
    have hlen : rows'.length = rows.length := mapM_length hs
    have hg' : ∀ r ∈ rows', Good h w r := by
      intro r hr
      obtain ⟨x, hx, hf⟩ := mapM_mem_rev hs hr
      obtain ⟨k1, k2, k3, k4, k5, -⟩ := sideOne_keeps hf
      obtain ⟨g1, g2, g3, g4, g5⟩ := hg x hx
      exact ⟨k1.trans g1, k2.trans g2, k3.trans g3, k4.trans g4, fun g hp => g5 g (k5 ▸ hp)⟩
    unfold vecSym
    cases hk : c.kind with
    | none =>
      have e1 : keys.mapM (pickOne c h w) = some (keys.map fun _ => 0) := by
        rw [← mapM_some_map]
        exact mapM_congr' fun x _ => by simp [pickOne, hk]
      rw [e1]
      simp only [Option.bind_some]
      rw [mapM_congr' (g := fun p : Row α × Nat => some p.1) (fun p _ => by simp [symOne, hk]), mapM_some_map, List.map_fst_zip]
      simp; omega
    | some k =>
      cases hr : rows' with
      | nil => simp [hr] at hlen; exact absurd (List.length_eq_zero_iff.mp hlen.symm) hne
      | cons r rs =>
        rw [← hr]
        simp only [hr]
        rw [← hr]
        have hgr := hg' r (by simp [hr])
        rw [hgr.1, hgr.2.1]
        cases ha : available h w k with
        | none =>
          simp only []
          cases keys with
          | nil => simp at hl; exact absurd hl hne
          | cons k0 ks =>
            have : pickOne c h w k0 = none := by simp [pickOne, hk, ha]
            rw [mapM_none (by simp) this]; rfl
        | some choices =>
          simp only []
          have hcl := (available_mem ha).1
          obtain ⟨d, hdk, hdr⟩ := drawKeys_eq c hv choices.length hcl.1 (by omega)
          have hpick : ∀ key, pickOne c h w key = d key := by
            intro key
            have := hdk [key]
            rw [mapM_cons'] at this
            simp only [pickOne, hk, ha]
            unfold drawKeys at this
            rw [this]
            cases d key <;> simp
          rw [hd _ hcl.1 hcl.2, hdk, mapM_congr' (f := pickOne c h w) (g := d) (fun x _ => hpick x)]
          cases hi : keys.mapM d with
          | none => rfl
          | some idxs =>
            simp only [Option.bind_some]
            have hil : idxs.length = keys.length := mapM_length hi
            have hsymOne : ∀ p ∈ rows'.zip idxs, symOne c p.2 p.1 = (choices[p.2]?).bind fun s => symRow s p.1 := by
              intro p hp
              have := hg' p.1 (List.of_mem_zip hp).1
              simp only [symOne, hk, this.1, this.2.1, ha, Option.bind_some]
            rw [mapM_congr' hsymOne]
            by_cases hfo : flatOk h w rows' = true
            · rw [if_pos hfo]
              have := symLoop_eq choices (rows'.zip idxs) (by
                intro p hp
                obtain ⟨x, _, hx⟩ := mapM_mem_rev hi (List.of_mem_zip hp).2
                exact hdr x p.2 hx) choices 0 (by simp) (by simp)
              rw [List.map_fst_zip (by omega), List.map_snd_zip (by omega)] at this
              rw [← this]
              congr 2
              have : ((rows'.zip idxs).map fun p : Row α × Nat =>
                  if decide (p.2 < 0) = true then (choices[p.2]?).bind fun s => symRow s p.1 else none) =
                  (rows'.zip idxs).map fun _ => none := by
                apply List.map_congr_left; intro p _; simp
              rw [this, List.map_const']
              congr 1
              simp; omega
            · rw [if_neg hfo]
              have : ∃ r ∈ rows', ∃ v, r.policy = .flat v ∧ v.length ≠ h * w + 1 := by
                by_contra hno
                apply hfo
                unfold flatOk
                rw [List.all_eq_true]
                intro r hr
                cases hp : r.policy with
                | plane g => rfl
                | flat v =>
                  simp only []
                  by_contra hv
                  exact hno ⟨r, hr, v, hp, by simpa using hv⟩
              obtain ⟨r0, hr0, v, hpv, hlv⟩ := this
              obtain ⟨j, hj, hje⟩ := List.getElem_of_mem hr0
              have hmem : (r0, idxs[j]'(by omega)) ∈ rows'.zip idxs := by
                rw [List.mem_iff_getElem]
                exact ⟨j, by simp; omega, by simp [hje]⟩
              symm
              apply mapM_none hmem
              have hgr0 := hg' r0 hr0
              simp only []
              cases choices[idxs[j]'(by omega)]? with
              | none => rfl
              | some s =>
                simp only [Option.bind_some, symRow, hpv]
                split_ifs with h1 h2
                · rfl
                · rfl
                · exact absurd (by rw [hgr0.1, hgr0.2.1] at h2; simpa using h2) hlv

end Verif.Decode
