/-
C91: a Muon step updates every parameter on its own.
-/
import Verif.Muon.Props92
import Mathlib.Data.List.Basic
import Mathlib.Tactic.SplitIfs

namespace Verif.Muon
open Matrix

/-! ### Specification: one parameter -/

/-- Momentum: a running mean of the gradients, from zero. -/
noncomputable def newBuf (μ : ℝ) (old : Option (List ℝ)) (g : List ℝ) : List ℝ :=
  match old with
  | none => g.map fun x => (1 - μ) * x
  | some b => List.zipWith (fun b x => μ * b + (1 - μ) * x) b g

/-- The direction: the new mean, or with Nesterov the mean once more mixed with the gradient. -/
noncomputable def direction (μ : ℝ) (nesterov : Bool) (buf g : List ℝ) : List ℝ :=
  if nesterov then List.zipWith (fun b x => (1 - μ) * x + μ * b) buf g else buf

/-- What a step does to one parameter of shape `d × r₁ × r₂ × …` (at least two dimensions): decay, then
`-lr √(max(d, r₁r₂…))` times the orthogonalised direction, seen as a `d × r₁r₂…` matrix. -/
def Updated (h : Hyper) (p q : Par) : Prop :=
  ∃ g d rest, p.grad = some g ∧ p.shape = d :: rest ∧
    q.shape = p.shape ∧ q.dev = p.dev ∧ q.dtype = p.dtype ∧ q.grad = p.grad ∧
    q.buf = some (newBuf h.momentum p.buf g) ∧
    q.val = List.zipWith (fun x u => (if h.wd > 0 then (1 - h.lr * h.wd) * x else x) - h.lr * Real.sqrt (max d rest.prod : Nat) * u) p.val
      (ofMat (zeropower h.steps h.useBaddbmm (toMat d rest.prod (direction h.momentum h.nesterov (newBuf h.momentum p.buf g) g))))

/-- Shapes and lengths fit. -/
structure Fits (p : Par) : Prop where
  two : 2 ≤ p.shape.length
  grad : ∀ g, p.grad = some g → g.length = p.shape.prod
  buf : ∀ b, p.buf = some b → b.length = p.shape.prod
  val : p.val.length = p.shape.prod

/-! ### Proof -/

/-- What one parameter becomes in its group. -/
noncomputable def one (h : Hyper) (p : Par) : Par :=
  let g := p.grad.getD []
  let b := lerp (1 - h.momentum) (p.buf.getD (List.replicate g.length 0)) g
  let gr := if h.nesterov then lerp h.momentum g b else b
  let u := ofMat (zeropower h.steps h.useBaddbmm (toMat (p.shape.headD 0) (p.shape.tail.prod) gr))
  let v := if h.wd > 0 then p.val.map fun x => (1 - h.lr * h.wd) * x else p.val
  { p with buf := some b, val := List.zipWith (fun x y => x + -h.lr * Real.sqrt (max (p.shape.headD 0) p.shape.tail.prod : Nat) * y) v u }

theorem zipWith_maps {α β γ δ : Type} (f : β → γ → δ) (g1 : α → β) (g2 : α → γ) (l : List α) :
    List.zipWith f (l.map g1) (l.map g2) = l.map fun x => f (g1 x) (g2 x) := by
  induction l with
  | nil => rfl
  | cons a l ih => simp [ih]

theorem ite_map {α β : Type} (c : Prop) [Decidable c] (f g : α → β) (l : List α) :
    (if c then l.map f else l.map g) = l.map fun x => if c then f x else g x := by
  by_cases h : c <;> simp [h]

theorem runGroup_eq (h : Hyper) (ps : List Par) (k : Key) (is : List Nat) (hk : 2 ≤ k.1.length)
    (hm : ∀ i ∈ is, ∀ p, ps[i]? = some p → p.shape = k.1) (hin : ∀ i ∈ is, i < ps.length) :
    runGroup h ps (k, is) = some (writeAll ps (is.map fun i => (i, one h (ps.getD i ⟨[], 0, 0, [], none, none⟩)))) := by
  obtain ⟨D, hD⟩ : ∃ D : Par, D = ⟨[], 0, 0, [], none, none⟩ := ⟨_, rfl⟩
  obtain ⟨d, r, rest, hshape⟩ : ∃ d r rest, k.1 = d :: r :: rest := by
    match hkk : k.1, hk with
    | [], hk => simp at hk
    | [_], hk => simp at hk
    | d :: r :: rest, _ => exact ⟨d, r, rest, rfl⟩
  have hmem : (is.filterMap fun i => ps[i]?) = is.map fun i => ps.getD i D := by
    clear hm
    induction is with
    | nil => rfl
    | cons i is ih =>
      have hi := hin i (List.mem_cons_self ..)
      rw [List.filterMap_cons, List.getElem?_eq_getElem hi]
      simp only [List.map_cons]
      rw [ih fun j hj => hin j (List.mem_cons_of_mem _ hj)]
      simp [List.getElem?_eq_getElem hi]
  have hsh : ∀ i ∈ is, (ps.getD i D).shape = d :: r :: rest := by
    intro i hi
    have hl := hin i hi
    rw [← hshape]
    apply hm i hi
    simp [List.getElem?_eq_getElem hl]
  rw [← hD]
  unfold runGroup
  simp only [hmem]
  have horth : ∀ gs : List (List ℝ), orth h k.1 gs
      = some (gs.map fun v => ofMat (zeropower h.steps h.useBaddbmm (toMat d (r :: rest).prod v)), max d (r :: rest).prod) := by
    intro gs; rw [hshape]; rfl
  simp only [horth, Option.map_some, List.map_map, zipWith_maps, ite_map, List.zip, Function.comp_def]
  congr 2
  rw [show List.zipWith Prod.mk is = List.zipWith Prod.mk (is.map fun i => i) by simp]
  simp only [zipWith_maps]
  apply List.map_congr_left
  intro i hi
  rw [Prod.mk.injEq]
  refine ⟨rfl, ?_⟩
  unfold one
  rw [hsh i hi]
  rfl

/-! The groups -/

theorem addTo_perm (k : Key) (i : Nat) : ∀ gs, ((addTo k i gs).map (·.2)).flatten.Perm ((gs.map (·.2)).flatten ++ [i])
  | [] => by simp [addTo]
  | (k', is) :: gs => by
    unfold addTo
    split_ifs
    · simp only [List.map_cons, List.flatten_cons, List.append_assoc]
      exact List.Perm.append_left _ List.perm_append_comm
    · simp only [List.map_cons, List.flatten_cons, List.append_assoc]
      exact List.Perm.append_left _ (addTo_perm k i gs)

theorem addTo_mem (k : Key) (i : Nat) : ∀ gs k' is' j, (k', is') ∈ addTo k i gs → j ∈ is' →
    (j = i ∧ k' = k) ∨ ∃ is, (k', is) ∈ gs ∧ j ∈ is
  | [], k', is', j, h, hj => by
    simp [addTo] at h
    obtain ⟨rfl, rfl⟩ := h
    exact Or.inl ⟨by simpa using hj, rfl⟩
  | (k0, is0) :: gs, k', is', j, h, hj => by
    unfold addTo at h
    split_ifs at h with hk
    · rcases List.mem_cons.mp h with h | h
      · cases h
        rcases List.mem_append.mp hj with hj | hj
        · exact Or.inr ⟨is0, List.mem_cons_self .., hj⟩
        · exact Or.inl ⟨by simpa using hj, hk⟩
      · exact Or.inr ⟨is', List.mem_cons_of_mem _ h, hj⟩
    · rcases List.mem_cons.mp h with h | h
      · cases h
        exact Or.inr ⟨is0, List.mem_cons_self .., hj⟩
      · rcases addTo_mem k i gs k' is' j h hj with h | ⟨is, h, hj⟩
        · exact Or.inl h
        · exact Or.inr ⟨is, List.mem_cons_of_mem _ h, hj⟩

/-- Indices with a gradient. -/
def withGrad (l : List (Par × Nat)) : List Nat := (l.filter fun pi => pi.1.grad.isSome).map (·.2)

theorem groups_fold : ∀ (l : List (Par × Nat)) (gs : List (Key × List Nat)),
    ((l.foldl (fun gs pi => if pi.1.grad.isSome then addTo pi.1.key pi.2 gs else gs) gs).map (·.2)).flatten.Perm ((gs.map (·.2)).flatten ++ withGrad l)
    ∧ ∀ k is j, (k, is) ∈ l.foldl (fun gs pi => if pi.1.grad.isSome then addTo pi.1.key pi.2 gs else gs) gs → j ∈ is →
      (∃ is', (k, is') ∈ gs ∧ j ∈ is') ∨ ∃ p, (p, j) ∈ l ∧ p.key = k ∧ p.grad.isSome
  | [], gs => by
    refine ⟨by simp [withGrad], fun k is j h hj => Or.inl ⟨is, h, hj⟩⟩
  | (p, i) :: l, gs => by
    rw [List.foldl_cons]
    by_cases hp : p.grad.isSome = true
    · simp only [hp, if_true]
      obtain ⟨h1, h2⟩ := groups_fold l (addTo p.key i gs)
      refine ⟨?_, ?_⟩
      · refine h1.trans ?_
        have : withGrad ((p, i) :: l) = [i] ++ withGrad l := by simp [withGrad, hp]
        rw [this, ← List.append_assoc]
        exact List.Perm.append_right _ (addTo_perm _ _ _)
      · intro k is j h hj
        rcases h2 k is j h hj with ⟨is', h3, h4⟩ | ⟨q, h3, h4⟩
        · rcases addTo_mem _ _ _ _ _ _ h3 h4 with ⟨rfl, rfl⟩ | ⟨is, h5, h6⟩
          · exact Or.inr ⟨p, List.mem_cons_self .., rfl, hp⟩
          · exact Or.inl ⟨is, h5, h6⟩
        · exact Or.inr ⟨q, List.mem_cons_of_mem _ h3, h4⟩
    · simp only [hp]
      obtain ⟨h1, h2⟩ := groups_fold l gs
      refine ⟨?_, ?_⟩
      · have : withGrad ((p, i) :: l) = withGrad l := by simp [withGrad, hp]
        rw [this]; exact h1
      · intro k is j h hj
        rcases h2 k is j h hj with h | ⟨q, h3, h4⟩
        · exact Or.inl h
        · exact Or.inr ⟨q, List.mem_cons_of_mem _ h3, h4⟩

theorem addTo_nonempty (k : Key) (i : Nat) : ∀ gs : List (Key × List Nat), (∀ k is, (k, is) ∈ gs → is ≠ []) →
    ∀ k' is', (k', is') ∈ addTo k i gs → is' ≠ []
  | [], _, k', is', h => by simp [addTo] at h; simp [h.2]
  | (k0, is0) :: gs, hne, k', is', h => by
    unfold addTo at h
    split_ifs at h
    · rcases List.mem_cons.mp h with h | h
      · cases h; simp
      · exact hne k' is' (List.mem_cons_of_mem _ h)
    · rcases List.mem_cons.mp h with h | h
      · cases h; exact hne _ _ (List.mem_cons_self ..)
      · exact addTo_nonempty k i gs (fun k is h => hne k is (List.mem_cons_of_mem _ h)) k' is' h

theorem groups_nonempty : ∀ (l : List (Par × Nat)) (gs : List (Key × List Nat)), (∀ k is, (k, is) ∈ gs → is ≠ []) →
    ∀ k is, (k, is) ∈ l.foldl (fun gs pi => if pi.1.grad.isSome then addTo pi.1.key pi.2 gs else gs) gs → is ≠ []
  | [], _, h => h
  | (p, i) :: l, gs, h => by
    rw [List.foldl_cons]
    apply groups_nonempty l
    by_cases hp : p.grad.isSome = true
    · simp only [hp, if_true]; exact addTo_nonempty _ _ gs h
    · simp only [hp]; exact h

theorem withGrad_nodup (ps : List Par) : (withGrad ps.zipIdx).Nodup := by
  unfold withGrad
  have h : (ps.zipIdx.map (·.2)).Nodup := by
    rw [List.zipIdx_map_snd]
    exact List.nodup_range'
  exact h.sublist ((List.filter_sublist).map _)

theorem mem_withGrad (ps : List Par) (i : Nat) : i ∈ withGrad ps.zipIdx ↔ ∃ p, ps[i]? = some p ∧ p.grad.isSome = true := by
  unfold withGrad
  simp only [List.mem_map, List.mem_filter, List.mem_zipIdx_iff_getElem?]
  constructor
  · rintro ⟨⟨p, j⟩, ⟨h1, h2⟩, rfl⟩
    exact ⟨p, h1, h2⟩
  · rintro ⟨p, h1, h2⟩
    exact ⟨(p, i), ⟨h1, h2⟩, rfl⟩

theorem writeAll_length : ∀ (l : List (Nat × Par)) (ps : List Par), (writeAll ps l).length = ps.length
  | [], _ => rfl
  | (i, p) :: l, ps => by rw [writeAll, writeAll_length l]; simp

theorem writeAll_get (f : Nat → Par) : ∀ (is : List Nat) (ps : List Par), is.Nodup → (∀ i ∈ is, i < ps.length) →
    ∀ j, (writeAll ps (is.map fun i => (i, f i)))[j]? = if j ∈ is then some (f j) else ps[j]?
  | [], ps, _, _, j => by simp [writeAll]
  | i :: is, ps, hn, hi, j => by
    rw [List.map_cons, writeAll, writeAll_get f is (ps.set i (f i)) (List.nodup_cons.mp hn).2
      (fun k hk => by simpa using hi k (List.mem_cons_of_mem _ hk)) j]
    have hni := (List.nodup_cons.mp hn).1
    by_cases hj : j ∈ is
    · simp [hj]
    · by_cases hji : j = i
      · subst hji
        rw [if_neg hj, if_pos (List.mem_cons_self ..), List.getElem?_set_self (hi j (List.mem_cons_self ..))]
      · rw [if_neg hj, if_neg (by simp [hji, hj]), List.getElem?_set_ne (Ne.symm hji)]

theorem run_fold (h : Hyper) : ∀ (gs : List (Key × List Nat)) (st : List Par), ((gs.map (·.2)).flatten).Nodup →
    (∀ k is, (k, is) ∈ gs → is ≠ []) →
    (∀ k is i, (k, is) ∈ gs → i ∈ is → 2 ≤ k.1.length ∧ ∃ p, st[i]? = some p ∧ p.shape = k.1) →
    ∃ qs, gs.foldlM (runGroup h) st = some qs ∧
      ∀ j, qs[j]? = if j ∈ (gs.map (·.2)).flatten then (st[j]?).map (one h) else st[j]?
  | [], st, _, _, _ => ⟨st, rfl, by simp⟩
  | (k, is) :: gs, st, hn, hne, hg => by
    rw [List.map_cons, List.flatten_cons] at hn
    obtain ⟨hn1, hn2, hdis⟩ := List.nodup_append.mp hn
    have hin : ∀ i ∈ is, i < st.length := by
      intro i hi
      obtain ⟨_, p, hp, _⟩ := hg k is i (List.mem_cons_self ..) hi
      exact (List.getElem?_eq_some_iff.mp hp).1
    have hrun : runGroup h st (k, is) = some (writeAll st (is.map fun i => (i, one h (st.getD i ⟨[], 0, 0, [], none, none⟩)))) := by
      cases is with
      | nil => exact absurd rfl (hne k [] (List.mem_cons_self ..))
      | cons i is =>
        refine runGroup_eq h st k (i :: is) (hg k _ i (List.mem_cons_self ..) (List.mem_cons_self ..)).1 ?_ hin
        intro j hj p hp
        obtain ⟨_, q, hq, hs⟩ := hg k _ j (List.mem_cons_self ..) hj
        rw [hp] at hq
        cases hq
        exact hs
    have hget := writeAll_get (fun i => one h (st.getD i ⟨[], 0, 0, [], none, none⟩)) is st hn1 hin
    obtain ⟨qs, h1, h2⟩ := run_fold h gs (writeAll st (is.map fun i => (i, one h (st.getD i ⟨[], 0, 0, [], none, none⟩)))) hn2
      (fun k' is' hk => hne k' is' (List.mem_cons_of_mem _ hk)) (by
      intro k' is' i hk hi
      obtain ⟨hl, p, hp, hs⟩ := hg k' is' i (List.mem_cons_of_mem _ hk) hi
      refine ⟨hl, p, ?_, hs⟩
      rw [hget, if_neg ?_, hp]
      intro hmem
      exact hdis i hmem i (List.mem_flatten.mpr ⟨is', List.mem_map.mpr ⟨(k', is'), hk, rfl⟩, hi⟩) rfl)
    refine ⟨qs, ?_, ?_⟩
    · rw [List.foldlM_cons, hrun]
      exact h1
    · intro j
      rw [h2, hget]
      rw [List.map_cons, List.flatten_cons]
      by_cases hj : j ∈ is
      · have hjn : j ∉ (gs.map (·.2)).flatten := fun hm => hdis j hj j hm rfl
        rw [if_neg hjn, if_pos hj, if_pos (List.mem_append_left _ hj), List.getElem?_eq_getElem (hin j hj)]
        simp [List.getElem?_eq_getElem (hin j hj)]
      · rw [if_neg hj]
        by_cases hjn : j ∈ (gs.map (·.2)).flatten
        · rw [if_pos hjn, if_pos (List.mem_append_right _ hjn)]
        · rw [if_neg hjn, if_neg (by simp [hj] at hjn ⊢; exact hjn)]

theorem one_updated (h : Hyper) (p : Par) (h2 : 2 ≤ p.shape.length) (hgs : p.grad.isSome = true) : Updated h p (one h p) := by
  obtain ⟨g, hg⟩ := Option.isSome_iff_exists.mp hgs
  clear hgs
  cases hs : p.shape with
  | nil => rw [hs] at h2; simp at h2
  | cons d rest =>
    have hbuf : lerp (1 - h.momentum) (p.buf.getD (List.replicate g.length 0)) g = newBuf h.momentum p.buf g := by
      unfold newBuf lerp
      cases hb : p.buf with
      | none =>
        simp only [Option.getD_none]
        clear hg hb
        induction g with
        | nil => rfl
        | cons x g ih => simp only [List.length_cons, List.replicate_succ, List.zipWith_cons_cons, List.map_cons, ih]; congr 1; ring
      | some b =>
        simp only [Option.getD_some]
        congr 1
        funext x y
        ring
    have hdir : ∀ b : List ℝ, (if h.nesterov = true then lerp h.momentum g b else b) = direction h.momentum h.nesterov b g := by
      intro b
      unfold direction lerp
      cases h.nesterov with
      | false => rfl
      | true =>
        simp only [if_true]
        rw [List.zipWith_comm]
        congr 1
        funext x y
        ring
    refine ⟨g, d, rest, hg, hs, ?_⟩
    obtain ⟨psh, pd, pt, pv, pg, pb⟩ := p
    simp only at hs hg hbuf
    subst hs
    subst hg
    unfold one
    simp only [Option.getD_some, hbuf, hdir, List.headD_cons, List.tail_cons, true_and]
    by_cases hw : h.wd > 0
    · simp only [if_pos hw]
      rw [List.zipWith_map_left]
      congr 1
      funext x y
      ring
    · simp only [if_neg hw]
      congr 1
      funext x y
      ring

/-- **C91.** One step gives every parameter that has a gradient exactly the update of its own gradient, momentum and
shape, and leaves the others as they are, whichever parameters share its shape. -/
theorem C91_step (h : Hyper) (ps : List Par) (hp : ∀ p ∈ ps, p.grad.isSome = true → 2 ≤ p.shape.length) :
    ∃ qs : List Par, step h ps = some qs ∧ qs.length = ps.length ∧
      ∀ (i : Nat) (p : Par), ps[i]? = some p → ∃ q, qs[i]? = some q ∧ (p.grad = none → q = p) ∧ (p.grad.isSome = true → Updated h p q) := by
  obtain ⟨hperm, hkeys⟩ := groups_fold ps.zipIdx []
  simp only [List.map_nil, List.flatten_nil, List.nil_append] at hperm
  have hmem : ∀ i, i ∈ ((groupsOf ps).map (·.2)).flatten ↔ ∃ p, ps[i]? = some p ∧ p.grad.isSome = true := by
    intro i
    rw [← mem_withGrad]
    exact hperm.mem_iff
  obtain ⟨qs, h1, h2⟩ := run_fold h (groupsOf ps) ps (hperm.nodup_iff.mpr (withGrad_nodup ps))
    (groups_nonempty _ _ (by simp)) (by
    intro k is i hk hi
    rcases hkeys k is i hk hi with ⟨is', h, _⟩ | ⟨p, hpm, hkey, hgr⟩
    · simp at h
    · rw [List.mem_zipIdx_iff_getElem?] at hpm
      have : p.shape = k.1 := by rw [← hkey]; rfl
      refine ⟨?_, p, hpm, this⟩
      rw [← this]
      exact hp p (List.mem_of_getElem? hpm) hgr)
  refine ⟨qs, h1, ?_, ?_⟩
  · apply Nat.le_antisymm
    · by_contra hlt
      have hlt : ps.length < qs.length := by omega
      have := h2 ps.length
      rw [List.getElem?_eq_getElem hlt, List.getElem?_eq_none (Nat.le_refl _)] at this
      split_ifs at this <;> simp at this
    · by_contra hlt
      have hlt : qs.length < ps.length := by omega
      have := h2 qs.length
      rw [List.getElem?_eq_getElem hlt, List.getElem?_eq_none (Nat.le_refl _)] at this
      split_ifs at this <;> simp at this
  · intro i p hpi
    have := h2 i
    by_cases hg : p.grad.isSome = true
    · rw [if_pos ((hmem i).mpr ⟨p, hpi, hg⟩), hpi, Option.map_some] at this
      exact ⟨_, this, fun hn => by rw [hn] at hg; simp at hg, fun _ => one_updated h p (hp p (List.mem_of_getElem? hpi) hg) hg⟩
    · rw [if_neg (fun hm => by
        obtain ⟨p', hp', hg'⟩ := (hmem i).mp hm
        rw [hpi] at hp'
        cases hp'
        exact hg hg'), hpi] at this
      exact ⟨p, this, fun _ => rfl, fun hg' => absurd hg' hg⟩

theorem ofMat_length {m n : Nat} (M : Matrix (Fin m) (Fin n) ℝ) : (ofMat M).length = m * n := by
  unfold ofMat
  rw [List.length_flatMap]
  simp

/-- **C91**, lengths keep fitting, so the statement applies to every later step. -/
theorem C91_fits (h : Hyper) (p q : Par) (hf : Fits p) (hu : Updated h p q) : Fits q := by
  obtain ⟨g, d, rest, hg, hs, e1, -, -, e2, e3, e4⟩ := hu
  have hgl := hf.grad g hg
  refine ⟨by rw [e1]; exact hf.two, ?_, ?_, ?_⟩
  · intro g' hg'
    rw [e2, hg] at hg'
    cases hg'
    rw [e1]; exact hgl
  · intro b hb
    rw [e3] at hb
    simp only [Option.some.injEq] at hb
    rw [← hb, e1]
    unfold newBuf
    cases hbo : p.buf with
    | none => simp [hgl]
    | some b0 => simp [hgl, hf.buf b0 hbo]
  · rw [e4, e1, List.length_zipWith, ofMat_length, hf.val, hs, List.prod_cons, Nat.min_self]

/-- **C91**, no weight moves by more than `1.2025 lr √(larger side)` beyond the decay. -/
theorem C91_step_size (h : Hyper) (p q : Par) (hu : Updated h p q) (hlr : 0 ≤ h.lr) (i : Nat) (x y : ℝ)
    (hx : p.val[i]? = some x) (hy : q.val[i]? = some y) :
    ∃ d rest, p.shape = d :: rest ∧
      |y - (if h.wd > 0 then (1 - h.lr * h.wd) * x else x)| ≤ 1.2025 * h.lr * Real.sqrt (max d rest.prod : Nat) := by
  obtain ⟨g, d, rest, hg, hs, -, -, -, -, -, e4⟩ := hu
  refine ⟨d, rest, hs, ?_⟩
  rw [e4, List.getElem?_zipWith, hx] at hy
  obtain ⟨u, hu, hy⟩ : ∃ u, (ofMat (zeropower h.steps h.useBaddbmm (toMat d rest.prod (direction h.momentum h.nesterov (newBuf h.momentum p.buf g) g))))[i]? = some u
      ∧ (if h.wd > 0 then (1 - h.lr * h.wd) * x else x) - h.lr * Real.sqrt (max d rest.prod : Nat) * u = y := by
    revert hy
    cases (ofMat (zeropower h.steps h.useBaddbmm (toMat d rest.prod (direction h.momentum h.nesterov (newBuf h.momentum p.buf g) g))))[i]? with
    | none => simp
    | some u => intro hy; exact ⟨u, rfl, by simpa using hy⟩
  have hmem := List.mem_of_getElem? hu
  unfold ofMat at hmem
  rw [List.mem_flatMap] at hmem
  obtain ⟨a, _, ha⟩ := hmem
  obtain ⟨b, _, rfl⟩ := List.mem_map.mp ha
  have hle := C92_entries h.steps h.useBaddbmm (toMat d rest.prod (direction h.momentum h.nesterov (newBuf h.momentum p.buf g) g)) a b
  rw [← hy, sub_sub_cancel_left, abs_neg, abs_mul, abs_mul, abs_of_nonneg hlr, abs_of_nonneg (Real.sqrt_nonneg _)]
  have hnn : 0 ≤ h.lr * Real.sqrt (max d rest.prod : Nat) := mul_nonneg hlr (Real.sqrt_nonneg _)
  calc _ ≤ h.lr * Real.sqrt (max d rest.prod : Nat) * 1.2025 := mul_le_mul_of_nonneg_left hle hnn
    _ = _ := by ring

/-! ### Finding -/

/-- **C91**, why two dimensions: vectors of one shape are stacked into one matrix, which `baddbmm` refuses. -/
theorem C91_vectors_refused (h : Hyper) (hb : h.useBaddbmm = true) (hs : 0 < h.steps) (ps : List Par) (d dev dt : Nat) (is : List Nat) :
    runGroup h ps (([d], dev, dt), is) = none := by
  unfold runGroup orth
  simp [hb, hs]

end Verif.Muon
