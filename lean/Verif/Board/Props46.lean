import Verif.Board.Props44
import Verif.Board.Sample
import Mathlib.Data.List.Forall2

/-!
# C46: post-processing keeps inputs, policy and moves aligned
-/
namespace Verif.Board

variable {α : Type _} [Zero α]

/-! ### Specification -/

/-- `g` is the image of the `bh × bw` board `f` under `sym`, inside an `H × W` array that is zero outside the board: what stood at a cell stands
at the cell the symmetry sends a move on that cell to. -/
structure Image (sym : Sym) (bh bw H W : Nat) (f g : Nat → Nat → α) : Prop where
  moved : ∀ x y, x < bw → y < bh → ∃ x' y', sym.applyMove bh bw (Move.at x y) = some (Move.at x' y') ∧ x' < bw ∧ y' < bh ∧ g y' x' = f y x
  outside : ∀ x y, x < W → y < H → ¬ (x < bw ∧ y < bh) → g y x = 0

/-- The same for policies; the flat form keeps its pass entry, which is the last one. -/
inductive PolicyImage (sym : Sym) (bh bw H W : Nat) : Policy α → Policy α → Prop
  | plane (p q : Grid α) : p.h = bh → p.w = bw → q.h = H → q.w = W → Image sym bh bw H W p.at' q.at' →
      PolicyImage sym bh bw H W (.plane p) (.plane q)
  | flat (p q : List α) : p.length = bh * bw + 1 → q.length = H * W + 1 →
      Image sym bh bw H W (fun y x => p.getD (y * bw + x) 0) (fun y x => q.getD (y * W + x) 0) → q.getD (H * W) 0 = p.getD (bh * bw) 0 →
      PolicyImage sym bh bw H W (.flat p) (.flat q)

/-- What the datasets hand over: all spatial fields have the size of the logical board; moves are on the board or passes. -/
structure WellFormed (s : Sample α) : Prop where
  h : s.h = s.bh
  w : s.w = s.bw
  policy : match s.policy with
    | .plane g => g.h = s.bh ∧ g.w = s.bw
    | .flat v => v.length = s.bh * s.bw + 1
  sparse : ∀ sp, s.sparse = some sp → ∀ g ∈ sp, g.h = s.bh ∧ g.w = s.bw
  position : ∀ p, s.position = some p → ∀ m ∈ p, m.isPass = true ∨ ∃ x y, m = Move.at x y ∧ x < s.bw ∧ y < s.bh

/-- `r` is the image of the whole sample `s`. -/
structure Aligned (sym : Sym) (H W : Nat) (s r : Sample α) : Prop where
  size : r.bh = s.bh ∧ r.bw = s.bw ∧ r.h = H ∧ r.w = W
  planes : List.Forall₂ (Image sym s.bh s.bw H W) s.planes r.planes
  policy : PolicyImage sym s.bh s.bw H W s.policy r.policy
  side : r.stm = s.stm ∧ r.value = s.value

/-- The optional fields, when they are not dropped. -/
structure ExtrasAligned (sym : Sym) (H W : Nat) (s r : Sample α) : Prop where
  sparse : match s.sparse, r.sparse with
    | none, none => True
    | some a, some b => List.Forall₂ (fun f g => g.h = H ∧ g.w = W ∧ Image sym s.bh s.bw H W f.at' g.at') a b
    | _, _ => False
  moves : ∀ p, s.position = some p → ∃ q, r.moves = some q ∧ List.Forall₂ (fun m m' => sym.applyMove s.bh s.bw m = some m') p q

/-! ### Proof -/

theorem mapM_forall₂ {β γ} (f : β → Option γ) (l : List β) (l' : List γ) : l.mapM f = some l' ↔ List.Forall₂ (fun a b => f a = some b) l l' := by
  induction l generalizing l' with
  | nil => cases l' <;> simp
  | cons a l ih =>
    rw [List.mapM_cons]
    cases hf : f a with
    | none => simp only [Option.bind_eq_bind, Option.bind_none]; constructor
              · intro h; cases h
              · intro h; cases h with | cons h _ => rw [hf] at h; cases h
    | some b =>
      cases hl : l.mapM f with
      | none =>
        simp only [Option.bind_eq_bind, Option.bind_none, Option.bind_some]; constructor
        · intro h; cases h
        · intro h; cases h with | cons _ h => rw [← ih, hl] at h; cases h
      | some bs =>
        simp only [Option.bind_eq_bind, Option.bind_some]
        constructor
        · intro h; cases h; exact .cons hf ((ih bs).mp hl)
        · intro h; cases h with
          | cons h1 h2 => rw [hf] at h1; cases h1; rw [← ih, hl] at h2; cases h2; rfl

theorem flat_length (g : Grid α) : (flat g).length = g.h * g.w := by simp [flat]

theorem idx_lt {y x h w : Nat} (hx : x < w) (hy : y < h) : y * w + x < h * w := by
  calc y * w + x < y * w + w := by omega
    _ = (y + 1) * w := by rw [Nat.succ_mul]
    _ ≤ h * w := Nat.mul_le_mul_right _ hy

theorem flat_getD (g : Grid α) (x y : Nat) (hx : x < g.w) (hy : y < g.h) : (flat g).getD (y * g.w + x) 0 = g.at' y x := by
  have hk : y * g.w + x < g.h * g.w := idx_lt hx hy
  have e1 : (y * g.w + x) / g.w = y := by
    rw [Nat.mul_comm, Nat.mul_add_div (by omega), Nat.div_eq_of_lt hx, Nat.add_zero]
  have e2 : (y * g.w + x) % g.w = x := by rw [Nat.mul_comm, Nat.mul_add_mod, Nat.mod_eq_of_lt hx]
  rw [List.getD_eq_getElem?_getD, flat, List.getElem?_map, List.getElem?_range hk]
  simp only [Option.map_some, Option.getD_some, e1, e2]

theorem flat_append_getD (g : Grid α) (l : List α) (x y : Nat) (hx : x < g.w) (hy : y < g.h) :
    (flat g ++ l).getD (y * g.w + x) 0 = g.at' y x := by
  rw [List.getD_eq_getElem?_getD, List.getElem?_append_left (by rw [flat_length]; exact idx_lt hx hy), ← List.getD_eq_getElem?_getD,
    flat_getD g x y hx hy]

theorem flat_last (g : Grid α) (v : List α) (n : Nat) (hn : v.length = n + 1) :
    (flat g ++ v.drop (v.length - 1)).length = g.h * g.w + 1 ∧ (flat g ++ v.drop (v.length - 1)).getD (g.h * g.w) 0 = v.getD n 0 := by
  constructor
  · rw [List.length_append, flat_length, List.length_drop]; omega
  · rw [List.getD_eq_getElem?_getD, List.getElem?_append_right (Nat.le_of_eq (flat_length g)), flat_length, List.getElem?_drop,
      List.getD_eq_getElem?_getD]
    congr 2; omega

theorem unflat_at (h w : Nat) (v : List α) (hv : v.length = h * w + 1) (x y : Nat) (hx : x < w) (hy : y < h) :
    (unflat h w v.dropLast).at' y x = v.getD (y * w + x) 0 := by
  have := idx_lt hx hy
  show v.dropLast.getD (y * w + x) 0 = _
  rw [List.getD_eq_getElem?_getD, List.getElem?_dropLast, if_pos (by omega), List.getD_eq_getElem?_getD]

/-- A symmetry of an array is an image without padding. -/
theorem image_sym (sym : Sym) (bh bw : Nat) (hs : sym.swaps = true → bh = bw) (f : Nat → Nat → α) (g : Grid α) (hh : g.h = bh) (hw : g.w = bw)
    (hf : ∀ x y, x < bw → y < bh → g.at' y x = f y x) : Image sym bh bw bh bw f (sym.applyArr g).at' := by
  subst hh; subst hw
  constructor
  · intro x y hx hy
    have hr := cell_range sym g.h g.w x y hx hy hs
    exact ⟨_, _, applyMove_cell sym g.h g.w x y hx hy hs, hr.1, hr.2, by rw [applyArr_cell sym g x y hx hy, hf x y hx hy]⟩
  · intro x y hx hy h; exact absurd ⟨hx, hy⟩ h

theorem dims_sym {β} (sym : Sym) (g : Grid β) (bh bw : Nat) (hs : sym.swaps = true → bh = bw) (hh : g.h = bh) (hw : g.w = bw) :
    (sym.applyArr g).h = bh ∧ (sym.applyArr g).w = bw := by
  have h := applyArr_dims sym g
  rw [Prod.mk.injEq] at h
  by_cases hb : sym.swaps = true
  · have e := hs hb
    rw [if_pos hb] at h
    simp only at h
    omega
  · rw [if_neg hb] at h
    simp only at h
    omega

theorem image_id (bh bw : Nat) (f : Nat → Nat → α) : Image .identity bh bw bh bw f f := by
  have := image_sym .identity bh bw (by intro h; cases h) f ⟨bh, bw, f⟩ rfl rfl (fun _ _ _ _ => rfl)
  exact this

/-- Padding an image. -/
theorem image_pad (sym : Sym) (bh bw H W : Nat) (f : Nat → Nat → α) (g g' : Grid α) (hg : Image sym bh bw bh bw f g.at') (hh : g.h = bh)
    (hw : g.w = bw) (hp : padGrid H W g = some g') : g'.h = H ∧ g'.w = W ∧ bh ≤ H ∧ bw ≤ W ∧ Image sym bh bw H W f g'.at' := by
  unfold padGrid at hp
  by_cases h : H < g.h ∨ W < g.w
  · rw [if_pos h] at hp; cases hp
  · rw [if_neg h] at hp
    cases hp
    subst hh; subst hw
    refine ⟨rfl, rfl, by omega, by omega, ?_, ?_⟩
    · intro x y hx hy
      obtain ⟨x', y', h1, h2, h3, h4⟩ := hg.moved x y hx hy
      exact ⟨x', y', h1, h2, h3, by show (if y' < g.h ∧ x' < g.w then g.at' y' x' else 0) = _; rw [if_pos ⟨h3, h2⟩, h4]⟩
    · intro x y _ _ hn
      show (if y < g.h ∧ x < g.w then g.at' y x else 0) = 0
      rw [if_neg (fun hc => hn ⟨hc.2, hc.1⟩)]

theorem image_congr (sym : Sym) (bh bw H W : Nat) (f g g' : Nat → Nat → α) (hg : Image sym bh bw H W f g) (hH : bh ≤ H) (hW : bw ≤ W)
    (he : ∀ x y, x < W → y < H → g' y x = g y x) : Image sym bh bw H W f g' := by
  constructor
  · intro x y hx hy
    obtain ⟨x', y', h1, h2, h3, h4⟩ := hg.moved x y hx hy
    exact ⟨x', y', h1, h2, h3, by rw [he x' y' (by omega) (by omega), h4]⟩
  · intro x y hx hy hn
    rw [he x y hx hy, hg.outside x y hx hy hn]

theorem policy_id (s : Sample α) (hw : WellFormed s) : PolicyImage .identity s.bh s.bw s.bh s.bw s.policy s.policy := by
  have h := hw.policy
  cases hp : s.policy with
  | plane g => rw [hp] at h; exact .plane g g h.1 h.2 h.1 h.2 (image_id _ _ _)
  | flat v => rw [hp] at h; exact .flat v v h h (image_id _ _ _) rfl

theorem policy_sym (sym : Sym) (s : Sample α) (hw : WellFormed s) (hs : sym.swaps = true → s.bh = s.bw) :
    ∃ q, symPolicy sym s = some q ∧ PolicyImage sym s.bh s.bw s.bh s.bw s.policy q := by
  have h := hw.policy
  unfold symPolicy
  cases hp : s.policy with
  | plane g =>
    rw [hp] at h
    have hd := dims_sym sym g s.bh s.bw hs h.1 h.2
    exact ⟨_, rfl, .plane _ _ h.1 h.2 hd.1 hd.2 (image_sym sym _ _ hs _ g h.1 h.2 (fun _ _ _ _ => rfl))⟩
  | flat v =>
    rw [hp] at h
    simp only at h ⊢
    rw [if_neg (by rw [not_not]; exact h)]
    refine ⟨_, rfl, ?_⟩
    have hd := dims_sym sym (unflat s.bh s.bw v.dropLast) s.bh s.bw hs rfl rfl
    have hl := flat_last (sym.applyArr (unflat s.bh s.bw v.dropLast)) v _ h
    rw [hd.1, hd.2] at hl
    refine .flat _ _ h hl.1 ?_ hl.2
    refine image_congr sym _ _ _ _ _ _ _ (image_sym sym s.bh s.bw hs _ (unflat s.bh s.bw v.dropLast) rfl rfl
      (fun x y hx hy => unflat_at s.bh s.bw v h x y hx hy)) (Nat.le_refl _) (Nat.le_refl _) ?_
    intro x y hx hy
    have := flat_append_getD (sym.applyArr (unflat s.bh s.bw v.dropLast)) (v.drop (v.length - 1)) x y (by rw [hd.2]; exact hx) (by rw [hd.1]; exact hy)
    rw [hd.2] at this
    exact this

theorem policy_pad (sym : Sym) (p : Policy α) (s : Sample α) (hwf : WellFormed s) (hp : PolicyImage sym s.bh s.bw s.bh s.bw p s.policy)
    (H W : Nat) (hH : s.bh ≤ H) (hW : s.bw ≤ W) : ∃ q, padPolicy H W s = some q ∧ PolicyImage sym s.bh s.bw H W p q := by
  unfold padPolicy
  cases hs : s.policy with
  | plane g =>
    rw [hs] at hp
    cases hp with
    | plane p _ h1 h2 h3 h4 h5 =>
      have : padGrid H W g = some ⟨H, W, fun y x => if y < g.h ∧ x < g.w then g.at' y x else 0⟩ := by
        unfold padGrid; rw [if_neg (by omega)]
      refine ⟨_, by simp only [this]; rfl, .plane _ _ h1 h2 rfl rfl (image_pad sym _ _ H W _ g _ h5 h3 h4 this).2.2.2.2⟩
  | flat v =>
    rw [hs] at hp
    cases hp with
    | flat p _ h1 h2 h3 h4 =>
      simp only
      rw [if_neg (by rw [not_not]; exact h2), hwf.h, hwf.w]
      have hg : padGrid H W (unflat s.bh s.bw v.dropLast) = some ⟨H, W, fun y x =>
          if y < s.bh ∧ x < s.bw then (unflat s.bh s.bw v.dropLast).at' y x else 0⟩ := by
        unfold padGrid; rw [if_neg (by show ¬ (H < s.bh ∨ W < s.bw); omega)]; rfl
      rw [hg]
      have hi := image_congr sym _ _ _ _ _ _ (unflat s.bh s.bw v.dropLast).at' h3 (Nat.le_refl _) (Nat.le_refl _)
        (fun x y hx hy => unflat_at s.bh s.bw v h2 x y hx hy)
      have hi' := (image_pad sym _ _ H W _ _ _ hi rfl rfl hg).2.2.2.2
      have hl := flat_last (⟨H, W, fun y x => if y < s.bh ∧ x < s.bw then (unflat s.bh s.bw v.dropLast).at' y x else 0⟩ : Grid α) v _ h2
      refine ⟨_, rfl, .flat _ _ h1 hl.1 ?_ (hl.2.trans h4)⟩
      exact image_congr sym _ _ _ _ _ _ _ hi' hH hW (fun x y hx hy => flat_append_getD
        (⟨H, W, fun y x => if y < s.bh ∧ x < s.bw then (unflat s.bh s.bw v.dropLast).at' y x else 0⟩ : Grid α) _ x y hx hy)

/-- The symmetry that an option and an index choose; without augmentation, the identity. -/
def Picked (k : Option Kind) (h w idx : Nat) (sym : Sym) : Prop :=
  match k with
  | none => sym = .identity
  | some k => ∃ syms, available h w k = some syms ∧ syms[idx]? = some sym

theorem picked_swaps {k h w idx sym} (hp : Picked k h w idx sym) : sym.swaps = true → h = w := by
  cases k with
  | none => cases hp; intro h; cases h
  | some k =>
    obtain ⟨syms, h1, h2⟩ := hp
    have hm := List.mem_of_getElem? h2
    intro hsw
    by_contra hne
    cases k <;> simp [available, hne] at h1
    subst h1
    simp at hm
    rcases hm with rfl | rfl | rfl | rfl <;> cases hsw

/-- A move of a well-formed sample. -/
def OnBoard (bh bw : Nat) (m : Move) : Prop := m.isPass = true ∨ ∃ x y, m = Move.at x y ∧ x < bw ∧ y < bh

theorem applyMove_onBoard (sym : Sym) (bh bw : Nat) (hs : sym.swaps = true → bh = bw) (m : Move) (hm : OnBoard bh bw m) :
    ∃ m', sym.applyMove bh bw m = some m' ∧ OnBoard bh bw m' := by
  rcases hm with h | ⟨x, y, rfl, hx, hy⟩
  · exact ⟨m, by unfold Sym.applyMove; rw [if_pos h], Or.inl h⟩
  · have hr := cell_range sym bh bw x y hx hy hs
    exact ⟨_, applyMove_cell sym bh bw x y hx hy hs, Or.inr ⟨_, _, rfl, hr.1, hr.2⟩⟩

theorem moves_image (sym : Sym) (bh bw : Nat) (hs : sym.swaps = true → bh = bw) (p : List Move) (hp : ∀ m ∈ p, OnBoard bh bw m) :
    ∃ q, p.mapM (sym.applyMove bh bw) = some q ∧ List.Forall₂ (fun m m' => sym.applyMove bh bw m = some m') p q ∧ ∀ m ∈ q, OnBoard bh bw m := by
  induction p with
  | nil => exact ⟨[], rfl, .nil, by simp⟩
  | cons m p ih =>
    obtain ⟨q, h1, h2, h3⟩ := ih (fun m' h => hp m' (by simp [h]))
    obtain ⟨m', h4, h5⟩ := applyMove_onBoard sym bh bw hs m (hp m (by simp))
    have h6 : List.Forall₂ (fun m m' => sym.applyMove bh bw m = some m') (m :: p) (m' :: q) := .cons h4 h2
    refine ⟨m' :: q, (mapM_forall₂ _ _ _).mpr h6, h6, ?_⟩
    intro a ha
    rcases List.mem_cons.mp ha with rfl | h
    · exact h5
    · exact h3 a h

theorem forall₂_map {β γ} (R : β → γ → Prop) (f : β → γ) (l : List β) (h : ∀ a ∈ l, R a (f a)) : List.Forall₂ R l (l.map f) := by
  induction l with
  | nil => exact .nil
  | cons a l ih => exact .cons (h a (by simp)) (ih fun b hb => h b (by simp [hb]))

theorem forall₂_same {β} (R : β → β → Prop) (l : List β) (h : ∀ a ∈ l, R a a) : List.Forall₂ R l l := by
  induction l with
  | nil => exact .nil
  | cons a l ih => exact .cons (h a (by simp)) (ih fun b hb => h b (by simp [hb]))

def SparseImage (sym : Sym) (bh bw H W : Nat) (a b : Option (List (Grid α))) : Prop :=
  match a, b with
  | none, none => True
  | some a, some b => List.Forall₂ (fun f g => g.h = H ∧ g.w = W ∧ Image sym bh bw H W f.at' g.at') a b
  | _, _ => False

/-- Result of `augment` on well-formed samples. -/
theorem augment_spec (k : Option Kind) (idx : Nat) (s : Sample α) (hw : WellFormed s) (sym : Sym) (hp : Picked k s.bh s.bw idx sym) :
    ∃ r, augment k idx s = some r ∧ WellFormed r ∧ Aligned sym s.bh s.bw s r ∧ SparseImage sym s.bh s.bw s.bh s.bw s.sparse r.sparse ∧
      (s.position = none → r.position = none) ∧ r.moves = s.moves ∧
      ∀ p, s.position = some p → ∃ q, r.position = some q ∧ List.Forall₂ (fun m m' => sym.applyMove s.bh s.bw m = some m') p q := by
  have hsw := picked_swaps hp
  cases k with
  | none =>
    cases hp
    refine ⟨s, rfl, hw, ⟨⟨rfl, rfl, hw.h, hw.w⟩, forall₂_same _ _ fun _ _ => image_id _ _ _, policy_id s hw, rfl, rfl⟩, ?_, id, rfl, ?_⟩
    · unfold SparseImage
      cases hsp : s.sparse with
      | none => trivial
      | some sp => exact forall₂_same _ _ fun g hg => ⟨(hw.sparse sp hsp g hg).1, (hw.sparse sp hsp g hg).2, image_id _ _ _⟩
    · intro p hpos
      refine ⟨p, hpos, forall₂_same _ _ fun m hm => ?_⟩
      rcases hw.position p hpos m hm with h | ⟨x, y, rfl, hx, hy⟩
      · unfold Sym.applyMove; rw [if_pos h]
      · exact applyMove_cell .identity s.bh s.bw x y hx hy hsw
  | some k =>
    obtain ⟨syms, h1, h2⟩ := hp
    obtain ⟨pol, hpol, hpi⟩ := policy_sym sym s hw hsw
    have hpos : ∃ pos, s.position.elim (some none) (fun p => (p.mapM (sym.applyMove s.bh s.bw)).map some) = some pos ∧
        (s.position = none → pos = none) ∧ ∀ p, s.position = some p → ∃ q, pos = some q ∧
          List.Forall₂ (fun m m' => sym.applyMove s.bh s.bw m = some m') p q ∧ ∀ m ∈ q, OnBoard s.bh s.bw m := by
      cases hps : s.position with
      | none => exact ⟨none, rfl, fun _ => rfl, by intro p h; cases h⟩
      | some p =>
        obtain ⟨q, h3, h4, h5⟩ := moves_image sym s.bh s.bw hsw p (hw.position p hps)
        refine ⟨some q, by simp only [Option.elim, h3]; rfl, (by intro h; cases h), ?_⟩
        intro p' h; cases h; exact ⟨q, rfl, h4, h5⟩
    obtain ⟨pos, hpos, hpn, hpm⟩ := hpos
    have hd := dims_sym sym (⟨s.h, s.w, fun _ _ => ()⟩ : Grid Unit) s.bh s.bw hsw hw.h hw.w
    unfold augment
    simp only [h1, Option.bind_some, h2, hpol, hpos]
    refine ⟨_, rfl, ?_, ⟨⟨rfl, rfl, hd.1, hd.2⟩, ?_, hpi, rfl, rfl⟩, ?_, hpn, rfl, ?_⟩
    · refine ⟨hd.1, hd.2, ?_, ?_, ?_⟩
      · clear hpol
        generalize s.policy = sp0 at hpi
        cases hpi with
        | plane _ q _ _ h3 h4 _ => exact ⟨h3, h4⟩
        | flat _ q _ h3 _ _ => exact h3
      · intro sp hsp g hg
        cases hs0 : s.sparse with
        | none => simp only [hs0] at hsp; cases hsp
        | some sp0 =>
          simp only [hs0] at hsp
          cases hsp
          obtain ⟨g0, hg0, rfl⟩ := List.mem_map.mp hg
          exact dims_sym sym g0 s.bh s.bw hsw (hw.sparse sp0 hs0 g0 hg0).1 (hw.sparse sp0 hs0 g0 hg0).2
      · intro p hp m hm
        simp only at hp
        cases hs0 : s.position with
        | none => rw [hpn hs0] at hp; cases hp
        | some p0 =>
          obtain ⟨q, h3, _, h5⟩ := hpm p0 hs0
          rw [h3] at hp; cases hp
          exact h5 m hm
    · refine forall₂_map _ _ _ fun f _ => ?_
      unfold applyPlane
      exact image_sym sym s.bh s.bw hsw f ⟨s.h, s.w, f⟩ hw.h hw.w (fun _ _ _ _ => rfl)
    · unfold SparseImage
      cases hs0 : s.sparse with
      | none => trivial
      | some sp =>
        refine forall₂_map _ _ _ fun g hg => ?_
        have hwg := hw.sparse sp hs0 g hg
        have hdg := dims_sym sym g s.bh s.bw hsw hwg.1 hwg.2
        exact ⟨hdg.1, hdg.2, image_sym sym _ _ hsw _ g hwg.1 hwg.2 (fun _ _ _ _ => rfl)⟩
    · intro p hp
      obtain ⟨q, h3, h4, _⟩ := hpm p hp
      exact ⟨q, h3, h4⟩

theorem mapM_pad {β γ} (f : β → Option γ) (l : List β) (h : ∀ a ∈ l, ∃ b, f a = some b) : ∃ l', l.mapM f = some l' := by
  induction l with
  | nil => exact ⟨[], rfl⟩
  | cons a l ih =>
    obtain ⟨l', hl⟩ := ih fun b hb => h b (by simp [hb])
    obtain ⟨b, hb⟩ := h a (by simp)
    exact ⟨b :: l', (mapM_forall₂ _ _ _).mpr (.cons hb ((mapM_forall₂ _ _ _).mp hl))⟩

theorem padGrid_some (H W : Nat) (g : Grid α) (h : g.h ≤ H) (w : g.w ≤ W) : ∃ g', padGrid H W g = some g' := by
  unfold padGrid; rw [if_neg (by omega)]; exact ⟨_, rfl⟩

theorem forall₂_comp {β γ δ} (R : β → γ → Prop) (S : γ → δ → Prop) (T : β → δ → Prop) (a : List β) (b : List γ) (c : List δ)
    (h : ∀ x y z, y ∈ b → R x y → S y z → T x z) (h1 : List.Forall₂ R a b) (h2 : List.Forall₂ S b c) : List.Forall₂ T a c := by
  induction h1 generalizing c with
  | nil => cases h2; exact .nil
  | cons hx _ ih => cases h2 with
    | cons hy hr => exact .cons (h _ _ _ (by simp) hx hy) (ih _ (fun x y z hm => h x y z (by simp [hm])) hr)

/-- Result of `pad`: from an aligned, unpadded sample. -/
theorem pad_spec (size : Option (Nat × Nat)) (sym : Sym) (s r : Sample α) (hr : WellFormed r) (ha : Aligned sym s.bh s.bw s r)
    (hsp : SparseImage sym s.bh s.bw s.bh s.bw s.sparse r.sparse) (hfit : ∀ H W, size = some (H, W) → s.bh ≤ H ∧ s.bw ≤ W) :
    ∃ t, pad size r = some t ∧ Aligned sym (size.getD (s.bh, s.bw)).1 (size.getD (s.bh, s.bw)).2 s t ∧
      SparseImage sym s.bh s.bw (size.getD (s.bh, s.bw)).1 (size.getD (s.bh, s.bw)).2 s.sparse t.sparse ∧
      t.position = r.position ∧ t.moves = r.moves := by
  cases size with
  | none => exact ⟨r, rfl, ha, hsp, rfl, rfl⟩
  | some sz =>
    obtain ⟨H, W⟩ := sz
    obtain ⟨hH, hW⟩ := hfit H W rfl
    have hb1 := ha.size.1
    have hb2 := ha.size.2.1
    have hh1 : r.h = s.bh := ha.size.2.2.1
    have hw1 : r.w = s.bw := ha.size.2.2.2
    obtain ⟨planes, hpl⟩ := mapM_pad (fun p => (padGrid H W (⟨r.h, r.w, p⟩ : Grid α)).map (·.at')) r.planes (by
      intro p _
      obtain ⟨g', hg⟩ := padGrid_some H W (⟨r.h, r.w, p⟩ : Grid α) (by show r.h ≤ H; omega) (by show r.w ≤ W; omega)
      exact ⟨_, by rw [hg]; rfl⟩)
    have hpi : PolicyImage sym r.bh r.bw r.bh r.bw s.policy r.policy := by rw [hb1, hb2]; exact ha.policy
    obtain ⟨pol, hpol, hpi'⟩ := policy_pad sym s.policy r hr hpi H W (by omega) (by omega)
    have hs : ∃ sp, r.sparse.elim (some none) (fun sp => (sp.mapM (padGrid H W)).map some) = some sp ∧
        SparseImage sym s.bh s.bw H W s.sparse sp := by
      unfold SparseImage at hsp ⊢
      cases h1 : s.sparse with
      | none =>
        cases h2 : r.sparse with
        | none => exact ⟨none, rfl, trivial⟩
        | some _ => rw [h1, h2] at hsp; exact hsp.elim
      | some a =>
        cases h2 : r.sparse with
        | none => rw [h1, h2] at hsp; exact hsp.elim
        | some b =>
          rw [h1, h2] at hsp
          simp only at hsp
          obtain ⟨c, hc⟩ := mapM_pad (padGrid H W) b (by
            intro g hg
            have := hr.sparse b h2 g hg
            exact padGrid_some H W g (by omega) (by omega))
          refine ⟨some c, by simp only [Option.elim, hc]; rfl, ?_⟩
          refine forall₂_comp _ _ _ _ _ _ ?_ hsp ((mapM_forall₂ _ _ _).mp hc)
          intro f g g' _ h3 h4
          have := image_pad sym s.bh s.bw H W _ g g' h3.2.2 h3.1 h3.2.1 h4
          exact ⟨this.1, this.2.1, this.2.2.2.2⟩
    obtain ⟨sp, hs1, hs2⟩ := hs
    unfold pad
    simp only [hpl, hpol, hs1]
    rw [if_neg (by omega)]
    refine ⟨_, rfl, ⟨⟨hb1, hb2, rfl, rfl⟩, ?_, ?_, ha.side⟩, hs2, rfl, rfl⟩
    · refine forall₂_comp _ _ _ _ _ _ ?_ ha.planes ((mapM_forall₂ _ _ _).mp hpl)
      intro f g g' _ h1 h2
      obtain ⟨gg, hgg, rfl⟩ := Option.map_eq_some_iff.mp h2
      exact (image_pad sym s.bh s.bw H W f ⟨r.h, r.w, g⟩ gg h1 hh1 hw1 hgg).2.2.2.2
    · show PolicyImage sym s.bh s.bw H W s.policy pol
      rw [← hb1, ← hb2]; exact hpi'

/-- **C46.** For every well-formed sample, every option and every index in range of the symmetry set: post-processing succeeds, and there is one
symmetry — the one chosen, the identity without augmentation — such that the result is the image of the side-normalised sample under it: all
input planes, the policy (including its pass entry) and the values agree cell by cell, everything outside the logical board is zero, and, unless
dropped, the sparse features and the recorded moves are transformed by the same symmetry. -/
theorem C46_process_sample (fixedSide : Bool) (size : Option (Nat × Nat)) (k : Option Kind) (idx : Nat) (dropExtra : Bool) (s0 s : Sample α)
    (hfix : fixSide fixedSide s0 = some s) (hw : WellFormed s) (hfit : ∀ H W, size = some (H, W) → s.bh ≤ H ∧ s.bw ≤ W)
    (hidx : ∀ kk, k = some kk → ∃ syms, available s.bh s.bw kk = some syms ∧ idx < syms.length) :
    ∃ sym r, process fixedSide size k idx dropExtra s0 = some r ∧ Picked k s.bh s.bw idx sym ∧
      Aligned sym (size.getD (s.bh, s.bw)).1 (size.getD (s.bh, s.bw)).2 s r ∧
      (dropExtra = false → ExtrasAligned sym (size.getD (s.bh, s.bw)).1 (size.getD (s.bh, s.bw)).2 s r) := by
  have hpk : ∃ sym, Picked k s.bh s.bw idx sym := by
    cases k with
    | none => exact ⟨.identity, rfl⟩
    | some kk =>
      obtain ⟨syms, h1, h2⟩ := hidx kk rfl
      exact ⟨syms[idx], syms, h1, List.getElem?_eq_getElem h2⟩
  obtain ⟨sym, hpk⟩ := hpk
  obtain ⟨r, h1, h2, h3, h4, h5, h6, h7⟩ := augment_spec k idx s hw sym hpk
  obtain ⟨t, h8, h9, h10, h11, h12⟩ := pad_spec size sym s r h2 h3 h4 hfit
  refine ⟨sym, finish dropExtra t, ?_, hpk, ?_, ?_⟩
  · unfold process
    rw [hfix, Option.bind_some, h1, Option.bind_some, h8, Option.map_some]
  · unfold finish
    by_cases hd : dropExtra = true
    · rw [if_pos hd]; exact ⟨h9.size, h9.planes, h9.policy, h9.side⟩
    · rw [if_neg hd]
      cases hp : t.position with
      | none => exact h9
      | some p => exact ⟨h9.size, h9.planes, h9.policy, h9.side⟩
  · intro hd
    unfold finish
    rw [if_neg (by rw [hd]; simp)]
    constructor
    · cases hp : t.position with
      | none => exact h10
      | some p => exact h10
    · intro p hp
      obtain ⟨q, h13, h14⟩ := h7 p hp
      rw [h11, h13]
      exact ⟨q, rfl, h14⟩

/-! The hypotheses are met: a 3 × 3 board with a black stone, a white stone, a flat policy with pass, and a move list, rotated by 90° into a
5 × 4 array; the stone of row 0, column 1 goes to row 1, column 0 and so does its policy entry and the last move. -/
def demo : Sample Nat :=
  { bh := 3, bw := 3, h := 3, w := 3, planes := [fun y x => if y = 0 ∧ x = 1 then 1 else 0, fun y x => if y = 2 ∧ x = 2 then 1 else 0],
    stm := -1, value := [1, 0, 0], policy := .flat [0, 7, 0, 0, 0, 0, 0, 0, 0, 9], sparse := none, position := some [Move.at 1 0, Move.pass],
    moves := none }

example : WellFormed demo := by
  refine ⟨rfl, rfl, rfl, (by intro sp h; cases h), ?_⟩
  intro p h m hm
  cases h
  simp only [List.mem_cons, List.not_mem_nil, or_false] at hm
  rcases hm with rfl | rfl
  · exact Or.inr ⟨1, 0, rfl, by decide, by decide⟩
  · exact Or.inl rfl

example : fixSide true demo = some demo ∧ available 3 3 .rotate = some [.identity, .rotate90, .rotate180, .rotate270] ∧
    ((process true (some (5, 4)) (some .rotate) 3 false demo).map fun r => (r.h, r.w, r.planes.map fun p => (List.range 5).map fun y => (List.range 4).map (p y))) =
      some (5, 4, [[[0, 0, 0, 0], [0, 0, 1, 0], [0, 0, 0, 0], [0, 0, 0, 0], [0, 0, 0, 0]],
                   [[0, 0, 0, 0], [0, 0, 0, 0], [1, 0, 0, 0], [0, 0, 0, 0], [0, 0, 0, 0]]]) ∧
    ((process true (some (5, 4)) (some .rotate) 3 false demo).bind fun r => r.moves) = some [Move.at 2 1, Move.pass] ∧
    ((process true (some (5, 4)) (some .rotate) 3 false demo).map fun r => match r.policy with | .flat v => v | .plane _ => []) =
      some [0, 0, 0, 0, 0, 0, 7, 0, 0, 0, 0, 0, 0, 0, 0, 0, 0, 0, 0, 0, 9] :=
  ⟨rfl, by decide, by decide +kernel, by decide +kernel, by decide +kernel⟩

/-! ## C70: augmentation as the binary datasets apply it -/

theorem image_of_id (sym : Sym) (bh bw H W : Nat) (f g h : Nat → Nat → α) (h1 : Image .identity bh bw bh bw f g) (h2 : Image sym bh bw H W g h) :
    Image sym bh bw H W f h := by
  refine ⟨fun x y hx hy => ?_, h2.outside⟩
  obtain ⟨x', y', h3, h4, h5, h6⟩ := h2.moved x y hx hy
  obtain ⟨x1, y1, h7, _, _, h8⟩ := h1.moved x y hx hy
  rw [applyMove_cell .identity bh bw x y hx hy (by intro h; cases h)] at h7
  simp only [Sym.cell, Option.some.injEq, Move.at, Move.mk.injEq] at h7
  have e1 : x1 = x := by omega
  have e2 : y1 = y := by omega
  subst e1; subst e2
  exact ⟨x', y', h3, h4, h5, h6.trans h8⟩

theorem policy_of_id (sym : Sym) (bh bw H W : Nat) (p q r : Policy α) (h1 : PolicyImage .identity bh bw bh bw p q)
    (h2 : PolicyImage sym bh bw H W q r) : PolicyImage sym bh bw H W p r := by
  cases h1 with
  | plane p q a1 a2 a3 a4 a5 => cases h2 with
    | plane _ r b1 b2 b3 b4 b5 => exact .plane _ _ a1 a2 b3 b4 (image_of_id sym _ _ _ _ _ _ _ a5 b5)
  | flat p q a1 a2 a3 a4 => cases h2 with
    | flat _ r b1 b2 b3 b4 => exact .flat _ _ a1 b2 (image_of_id sym _ _ _ _ _ _ _ a3 b3) (b4.trans a4)

theorem aligned_of_id (sym : Sym) (H W : Nat) (s r t : Sample α) (h1 : Aligned .identity s.bh s.bw s r) (h2 : Aligned sym H W r t) :
    Aligned sym H W s t := by
  have e1 := h1.size.1
  have e2 := h1.size.2.1
  have hp := h2.planes
  have hq := h2.policy
  rw [e1, e2] at hp hq
  refine ⟨⟨h2.size.1.trans e1, h2.size.2.1.trans e2, h2.size.2.2⟩, ?_, policy_of_id sym _ _ _ _ _ _ _ h1.policy hq,
    h2.side.1.trans h1.side.1, h2.side.2.trans h1.side.2⟩
  exact forall₂_comp _ _ _ _ _ _ (fun f g h _ a b => image_of_id sym _ _ _ _ f g h a b) h1.planes hp

omit [Zero α] in
theorem finish_position (d : Bool) (s : Sample α) : (finish d s).position = none := by
  unfold finish
  by_cases h : d = true
  · rw [if_pos h]
  · rw [if_neg h]
    cases hp : s.position with
    | none => exact hp
    | some p => rfl

/-- **C70 (partial).** When the arrays are not padded (no fixed board size, or one equal to the board), the two-step augmentation of the binary
datasets yields planes, policy and values that are the image of the side-normalised sample under the one symmetry chosen.  Missing, because it is
false of the code: the recorded moves (`C70_moves_not_transformed`) and larger fixed board sizes (`C70_padding_moved`). -/
theorem C70_two_step_partial (fixedSide : Bool) (size : Option (Nat × Nat)) (k : Kind) (idx : Nat) (dropExtra : Bool) (s0 s : Sample α)
    (hfix : fixSide fixedSide s0 = some s) (hw : WellFormed s) (hsize : size = none ∨ size = some (s.bh, s.bw))
    (hidx : ∃ syms, available s.bh s.bw k = some syms ∧ idx < syms.length) :
    ∃ sym r, materialize fixedSide size (some k) idx dropExtra s0 = some r ∧ Picked (some k) s.bh s.bw idx sym ∧ Aligned sym s.bh s.bw s r := by
  have hgd : size.getD (s.bh, s.bw) = (s.bh, s.bw) := by rcases hsize with rfl | rfl <;> rfl
  obtain ⟨sym1, r, h1, h2, h3, h4⟩ := C46_process_sample fixedSide size none 0 dropExtra s0 s hfix hw
    (by intro H W h; rcases hsize with rfl | rfl
        · cases h
        · cases h; exact ⟨Nat.le_refl _, Nat.le_refl _⟩) (by intro kk h; cases h)
  rw [hgd] at h3 h4
  cases (show sym1 = .identity from h2)
  have hrpos : r.position = none := by
    unfold process at h1
    rw [hfix, Option.bind_some] at h1
    simp only [augment, Option.bind_some] at h1
    obtain ⟨t, _, ht⟩ := Option.map_eq_some_iff.mp h1
    rw [← ht]; exact finish_position _ _
  have hrsp : dropExtra = true → r.sparse = none := by
    intro hd
    subst hd
    unfold process at h1
    rw [hfix, Option.bind_some] at h1
    simp only [augment, Option.bind_some] at h1
    obtain ⟨t, _, ht⟩ := Option.map_eq_some_iff.mp h1
    rw [← ht]; rfl
  have hb1 := h3.size.1
  have hb2 := h3.size.2.1
  have hwr : WellFormed r := by
    refine ⟨h3.size.2.2.1.trans hb1.symm, h3.size.2.2.2.trans hb2.symm, ?_, ?_, ?_⟩
    · have hp := h3.policy
      rw [← hb1, ← hb2] at hp
      generalize s.policy = p0 at hp
      generalize r.policy = p1 at hp
      cases hp with
      | plane _ q _ _ a b _ => exact ⟨a, b⟩
      | flat _ q _ a _ _ => exact a
    · intro sp hsp g hg
      cases hd : dropExtra with
      | true => rw [hrsp hd] at hsp; cases hsp
      | false =>
        have hx := (h4 hd).sparse
        cases hss : s.sparse with
        | none => rw [hss, hsp] at hx; exact hx.elim
        | some a =>
          rw [hss, hsp] at hx
          simp only at hx
          rw [hb1, hb2]
          clear hsp hss
          induction hx with
          | nil => cases hg
          | cons ha _ ih =>
            rcases List.mem_cons.mp hg with rfl | hm
            · exact ⟨ha.1, ha.2.1⟩
            · exact ih hm
    · intro p hp; rw [hrpos] at hp; cases hp
  obtain ⟨sym, t, h5, h6, h7, _⟩ := C46_process_sample false none (some k) idx false r r rfl hwr (by intro H W h; cases h)
    (by intro kk h; cases h; rw [hb1, hb2]; exact hidx)
  refine ⟨sym, t, ?_, ?_, ?_⟩
  · unfold materialize
    rw [h1, Option.bind_some, if_neg (by simp)]
    exact h5
  · rw [hb1, hb2] at h6; exact h6
  · refine aligned_of_id sym _ _ s r t h3 ?_
    have := h7
    simp only [Option.getD_none] at this
    rw [hb1, hb2] at this
    exact this

theorem pad_moves (size : Option (Nat × Nat)) (s t : Sample α) (h : pad size s = some t) : t.moves = s.moves ∧ t.position = s.position := by
  unfold pad at h
  cases size with
  | none => cases h; exact ⟨rfl, rfl⟩
  | some sz =>
    obtain ⟨H, W⟩ := sz
    simp only at h
    split at h
    · split at h
      · cases h
      · cases h; exact ⟨rfl, rfl⟩
    · cases h

theorem augment_moves (k : Option Kind) (idx : Nat) (s t : Sample α) (h : augment k idx s = some t) :
    t.moves = s.moves ∧ (s.position = none → t.position = none) := by
  unfold augment at h
  cases k with
  | none => cases h; exact ⟨rfl, id⟩
  | some k =>
    simp only at h
    split at h
    · cases h
    · split at h
      · rename_i pol pos h1 h2
        cases h
        refine ⟨rfl, fun hn => ?_⟩
        rw [hn] at h2
        cases h2; rfl
      · cases h

omit [Zero α] in
theorem fixSide_position (b : Bool) (s t : Sample α) (h : fixSide b s = some t) : t.position = s.position := by
  unfold fixSide at h
  split at h
  · unfold sideSwap at h
    split at h
    · cases hs : s.sparse with
      | none => rw [hs] at h; cases h; rfl
      | some sp =>
        rw [hs] at h
        obtain ⟨_, _, rfl⟩ := Option.map_eq_some_iff.mp h
        rfl
    · cases h
  · cases h; rfl

/-- **C70, finding.** In that two-step augmentation the recorded moves (from which `position_string` and `last_move` are computed) are never
transformed, whatever symmetry the board and the policy went through. -/
theorem C70_moves_not_transformed (fixedSide : Bool) (size : Option (Nat × Nat)) (k : Kind) (idx : Nat) (s r : Sample α) (p : List Move)
    (hp : s.position = some p) (h : materialize fixedSide size (some k) idx false s = some r) : r.moves = some p := by
  unfold materialize at h
  obtain ⟨t, h1, h2⟩ := Option.bind_eq_some_iff.mp h
  rw [if_neg (by simp)] at h2
  unfold process at h1 h2
  obtain ⟨a, ha, h1⟩ := Option.bind_eq_some_iff.mp h1
  simp only [augment, Option.bind_some] at h1
  obtain ⟨b, hb, rfl⟩ := Option.map_eq_some_iff.mp h1
  have e1 := (pad_moves size a b hb).2
  have e2 := fixSide_position _ _ _ ha
  have hm : (finish false b).moves = some p := by
    unfold finish
    rw [if_neg (by simp), e1, e2, hp]
  have hn := finish_position false b
  obtain ⟨c, hc, h2⟩ := Option.bind_eq_some_iff.mp h2
  have hcc : c = finish false b := by
    unfold fixSide at hc; rw [if_neg (by simp)] at hc; exact (Option.some.inj hc).symm
  subst hcc
  obtain ⟨d, hd, h2⟩ := Option.bind_eq_some_iff.mp h2
  obtain ⟨e, he, rfl⟩ := Option.map_eq_some_iff.mp h2
  have e3 := augment_moves _ _ _ _ hd
  have e4 := pad_moves _ _ _ he
  unfold finish
  rw [if_neg (by simp), e4.2, e3.2 hn]
  rw [e4.1, e3.1, hm]

/-- The sample `demo` of above: the first stone, recorded as the move to column 1 of row 0, is at column 2 of row 1 in the augmented planes, but
the recorded moves are unchanged. -/
example : ((materialize true none (some .rotate) 3 false demo).map fun r => (r.planes.map fun p => (List.range 3).map fun y => (List.range 3).map (p y), r.moves)) =
    some ([[[0, 0, 0], [0, 0, 1], [0, 0, 0]], [[0, 0, 0], [0, 0, 0], [1, 0, 0]]], some [Move.at 1 0, Move.pass]) := by decide +kernel

def corner : Sample Nat := ⟨2, 2, 2, 2, [fun y x => if y = 0 ∧ x = 0 then 1 else 0], -1, [1, 0, 0],
  .plane ⟨2, 2, fun y x => if y = 0 ∧ x = 0 then 1 else 0⟩, none, none, none⟩

/-- **C70, finding.** With a fixed board size larger than the board, the two-step augmentation transforms the padded array: a well-formed
sample with one stone, in the corner of a 2 × 2 board, ends with an empty logical board (the stone is in the padding), which is not the image of
the sample under any symmetry. -/
theorem C70_padding_moved : ∃ (s r : Sample Nat), WellFormed s ∧ materialize false (some (3, 3)) (some .default) 2 true s = some r ∧
    (∃ p ∈ s.planes, p 0 0 = 1) ∧ (∀ p ∈ r.planes, ∀ x y, x < s.bw → y < s.bh → p y x = 0) ∧ ∀ sym, ¬ Aligned sym 3 3 s r := by
  have hs : (materialize false (some (3, 3)) (some .default) 2 true corner).isSome = true := by decide +kernel
  obtain ⟨r, hr⟩ := Option.isSome_iff_exists.mp hs
  have hz : (materialize false (some (3, 3)) (some .default) 2 true corner).map (fun r => r.planes.map fun p => [p 0 0, p 0 1, p 1 0, p 1 1]) =
      some [[0, 0, 0, 0]] := by decide +kernel
  rw [hr, Option.map_some] at hz
  have hz' := Option.some.inj hz
  have hall : ∀ p ∈ r.planes, ∀ x y, x < 2 → y < 2 → p y x = 0 := by
    intro p hp x y hx hy
    have hm : [p 0 0, p 0 1, p 1 0, p 1 1] ∈ r.planes.map (fun p => [p 0 0, p 0 1, p 1 0, p 1 1]) := List.mem_map.mpr ⟨p, hp, rfl⟩
    rw [hz'] at hm
    simp only [List.mem_singleton, List.cons.injEq, and_true] at hm
    obtain ⟨h1, h2, h3, h4⟩ := hm
    have hx' : x = 0 ∨ x = 1 := by omega
    have hy' : y = 0 ∨ y = 1 := by omega
    rcases hx' with rfl | rfl <;> rcases hy' with rfl | rfl <;> assumption
  refine ⟨corner, r, ⟨rfl, rfl, ⟨rfl, rfl⟩, (by intro sp h; cases h), (by intro p h; cases h)⟩, hr, ⟨_, List.mem_cons_self, rfl⟩, hall, ?_⟩
  intro sym ha
  have hp := ha.planes
  generalize hrp : r.planes = ps at hp hall
  cases hp with
  | cons h1 _ =>
    obtain ⟨x', y', _, h2, h3, h4⟩ := h1.moved 0 0 (by decide) (by decide)
    rw [hall _ List.mem_cons_self x' y' h2 h3] at h4
    cases h4

end Verif.Board
