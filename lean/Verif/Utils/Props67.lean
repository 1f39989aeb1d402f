/-
C67: weight clipping enforces the configured bounds.
-/
import Verif.Utils.Clip
import Mathlib.Tactic.SplitIfs
import Mathlib.Tactic.Linarith
import Mathlib.Data.List.Forall2
import Mathlib.Order.Basic
import Mathlib.Order.MinMax
import Mathlib.Data.List.Nodup

namespace Verif.Utils

/-! ### Specification -/

/-- The virtual value added to entry `idx` of a parameter: the virtual parameter tiled over it. -/
def virtualAt (v : Tensor) (idx : List Nat) : ℚ := v.val (List.zipWith (· % ·) idx v.shape)

/-- The virtual parameter tiles the parameter: same number of dimensions, each positive and
dividing. -/
def Tiles (v p : List Nat) : Prop := List.Forall₂ (fun b a => 0 < b ∧ b ∣ a) v p

/-- Plain bounds on every entry. -/
def Within (t : Tensor) (lo hi : ℚ) : Prop := ∀ idx, InRange t.shape idx → lo ≤ t.val idx ∧ t.val idx ≤ hi

/-- Bounds on parameter plus virtual parameter. -/
def WithinV (t v : Tensor) (lo hi : ℚ) : Prop :=
  ∀ idx, InRange t.shape idx → lo ≤ t.val idx + virtualAt v idx ∧ t.val idx + virtualAt v idx ≤ hi

/-- Same shape and same entries. -/
def Same (t t' : Tensor) : Prop := t.shape = t'.shape ∧ ∀ idx, InRange t.shape idx → t.val idx = t'.val idx

/-- The parameters a list of groups writes. -/
def written (gs : List ClipCfg) : List String := gs.flatMap ClipCfg.params

/-- `P` satisfies a group's bounds. -/
def Satisfies (P : Params) (g : ClipCfg) : Prop :=
  match g.virtuals with
  | none => ∀ n ∈ g.params, ∃ t, P n = some t ∧ Within t g.minW g.maxW
  | some vs => ∀ x ∈ g.params.zip vs, ∃ t v, P x.1 = some t ∧ P x.2 = some v ∧
      Tiles v.shape t.shape ∧ WithinV t v g.minW g.maxW

/-- All names exist, the lists have equal lengths and virtual parameters tile their parameter. -/
def WellConfigured (P : Params) (g : ClipCfg) : Prop :=
  (∀ n ∈ g.params, ∃ t, P n = some t) ∧
  match g.virtuals with
  | none => True
  | some vs => vs.length = g.params.length ∧
      ∀ x ∈ g.params.zip vs, ∃ t v, P x.1 = some t ∧ P x.2 = some v ∧ Tiles v.shape t.shape

/-! ### Lemmas on one tensor -/

theorem tiles_repeats {v p : List Nat} (h : Tiles v p) :
    ∃ reps, repeats p v = some reps ∧ List.zipWith (· * ·) v reps = p := by
  induction h with
  | nil => exact ⟨[], rfl, rfl⟩
  | @cons b a v p hba h ih =>
    obtain ⟨r, h1, h2⟩ := ih
    refine ⟨a / b :: r, ?_, ?_⟩
    · simp only [repeats, if_neg (Nat.pos_iff_ne_zero.mp hba.1), h1]
    · simp [h2, Nat.mul_div_cancel' hba.2]

theorem broadcasts_self (s : List Nat) : broadcastsTo s s = true := by
  simp only [broadcastsTo, Nat.le_refl, decide_true, Nat.sub_self, List.drop_zero, Bool.true_and,
    List.zipWith_self, List.all_eq_true]
  simp

theorem inRange_length {s idx : List Nat} (h : InRange s idx) : s.length = idx.length :=
  List.Forall₂.length_eq h

theorem bidx_self {s idx : List Nat} (h : InRange s idx) :
    List.zipWith (fun a i => if a = 1 then 0 else i) s idx = idx := by
  induction h with
  | nil => rfl
  | @cons a i s idx hai h ih =>
    simp only [List.zipWith_cons_cons, ih, List.cons.injEq, and_true]
    split_ifs
    · omega
    · rfl

theorem clipVirtual_eq (p v : Tensor) (lo hi : ℚ) (h : Tiles v.shape p.shape) :
    ∃ t, clipVirtual p v lo hi = some t ∧ t.shape = p.shape ∧
      ∀ idx, InRange p.shape idx →
        t.val idx = min (max (p.val idx) (lo - virtualAt v idx)) (hi - virtualAt v idx) := by
  obtain ⟨reps, h1, h2⟩ := tiles_repeats h
  unfold clipVirtual
  have hs : (tile v reps).shape = p.shape := h2
  rw [h1]
  simp only [hs, broadcasts_self, if_true]
  refine ⟨_, rfl, rfl, ?_⟩
  intro idx hidx
  have hb : bval (tile v reps) idx = virtualAt v idx := by
    unfold bval virtualAt
    rw [hs, inRange_length hidx, Nat.sub_self, List.drop_zero, bidx_self hidx]
    rfl
  simp only [hb]

theorem clipVirtual_shape (p v : Tensor) (lo hi : ℚ) (t : Tensor)
    (h : clipVirtual p v lo hi = some t) : t.shape = p.shape := by
  unfold clipVirtual at h
  cases hr : repeats p.shape v.shape with
  | none => simp [hr] at h
  | some reps =>
    simp only [hr] at h
    split_ifs at h
    simp only [Option.some.injEq] at h
    subst h
    rfl

/-- With equal numbers of dimensions, the code accepts exactly the tiling shapes. -/
theorem clipVirtual_tiles (p v : Tensor) (lo hi : ℚ) (t : Tensor)
    (hd : v.shape.length = p.shape.length) (h : clipVirtual p v lo hi = some t) :
    Tiles v.shape p.shape := by
  unfold clipVirtual at h
  cases hr : repeats p.shape v.shape with
  | none => simp [hr] at h
  | some reps =>
    simp only [hr] at h
    split_ifs at h with hb
    have hlen : ∀ (a b r : List Nat), repeats a b = some r → r.length = b.length := by
      intro a b
      induction b generalizing a with
      | nil => intro r h; simp only [repeats, Option.some.injEq] at h; subst h; rfl
      | cons x b ih =>
        intro r h
        cases a with
        | nil => simp [repeats] at h
        | cons y a =>
          simp only [repeats] at h
          split_ifs at h
          cases hc : repeats a b with
          | none => simp [hc] at h
          | some r' =>
            simp only [hc, Option.some.injEq] at h
            subst h
            simp [ih a r' hc]
    have hsh : (tile v reps).shape.length = p.shape.length := by
      simp [tile, hlen _ _ _ hr, hd]
    simp only [broadcastsTo, hsh, Nat.le_refl, decide_true, Nat.sub_self, List.drop_zero,
      Bool.true_and] at hb
    clear h hlen hsh
    simp only [tile] at hb
    generalize p.shape = ps at *
    generalize v.shape = vs at *
    unfold Tiles
    induction vs generalizing ps reps with
    | nil =>
      cases ps with
      | nil => exact List.Forall₂.nil
      | cons _ _ => simp at hd
    | cons b vs ih =>
      cases ps with
      | nil => simp at hd
      | cons a ps =>
        simp only [repeats] at hr
        split_ifs at hr with hb0
        cases hc : repeats ps vs with
        | none => simp [hc] at hr
        | some r' =>
          simp only [hc, Option.some.injEq] at hr
          subst hr
          simp only [List.zipWith_cons_cons, List.all_cons, id_eq, Bool.and_eq_true,
            decide_eq_true_eq] at hb
          refine List.Forall₂.cons ⟨Nat.pos_of_ne_zero hb0, ?_⟩
            (ih r' ps (by simpa using hd) hc hb.2)
          rcases hb.1 with h1 | h1
          · exact ⟨a / b, h1.symm⟩
          · have : b = 1 := Nat.eq_one_of_mul_eq_one_right h1
            rw [this]
            exact Nat.one_dvd a

theorem clamp_bounds (x lo hi : ℚ) (h : lo ≤ hi) : lo ≤ clamp x lo hi ∧ clamp x lo hi ≤ hi := by
  unfold clamp
  exact ⟨le_min (le_max_right _ _) h, min_le_right _ _⟩

theorem clamp_id (x lo hi : ℚ) (h1 : lo ≤ x) (h2 : x ≤ hi) : clamp x lo hi = x := by
  unfold clamp
  rw [max_eq_left h1, min_eq_left h2]

/-! ### Frame lemmas -/

theorem setParam_ne (P : Params) (n m : String) (t : Tensor) (h : m ≠ n) : setParam P n t m = P m := by
  simp [setParam, h]

theorem setParam_eq (P : Params) (n : String) (t : Tensor) : setParam P n t n = some t := by
  simp [setParam]

theorem applyPlain_frame (lo hi : ℚ) (ns : List String) (P P' : Params)
    (h : applyPlain lo hi ns P = some P') (m : String) (hm : m ∉ ns) : P' m = P m := by
  induction ns generalizing P with
  | nil =>
    simp only [applyPlain, Option.some.injEq] at h
    rw [h]
  | cons n ns ih =>
    simp only [applyPlain] at h
    simp only [List.mem_cons, not_or] at hm
    cases hn : P n with
    | none => simp [hn] at h
    | some t =>
      simp only [hn] at h
      rw [ih _ h hm.2, setParam_ne _ _ _ _ hm.1]

theorem applyVirtual_frame (lo hi : ℚ) (ns : List (String × String)) (P P' : Params)
    (h : applyVirtual lo hi ns P = some P') (m : String) (hm : m ∉ ns.map Prod.fst) :
    P' m = P m := by
  induction ns generalizing P with
  | nil =>
    simp only [applyVirtual, Option.some.injEq] at h
    rw [h]
  | cons x ns ih =>
    obtain ⟨n, vn⟩ := x
    simp only [applyVirtual] at h
    simp only [List.map_cons, List.mem_cons, not_or] at hm
    cases hn : P n with
    | none => simp [hn] at h
    | some t =>
      cases hv : P vn with
      | none => simp [hn, hv] at h
      | some v =>
        cases hc : clipVirtual t v lo hi with
        | none => simp [hn, hv, hc] at h
        | some t' =>
          simp only [hn, hv, hc] at h
          rw [ih _ h hm.2, setParam_ne _ _ _ _ hm.1]

theorem zip_fst_mem {a b : List String} {m : String} (h : m ∈ (a.zip b).map Prod.fst) : m ∈ a := by
  obtain ⟨x, hx, rfl⟩ := List.mem_map.mp h
  exact (List.of_mem_zip hx).1

theorem applyGroup_frame (g : ClipCfg) (P P' : Params) (h : applyGroup g P = some P')
    (m : String) (hm : m ∉ g.params) : P' m = P m := by
  unfold applyGroup at h
  cases hv : g.virtuals with
  | none =>
    simp only [hv] at h
    exact applyPlain_frame _ _ _ _ _ h m hm
  | some vs =>
    simp only [hv] at h
    exact applyVirtual_frame _ _ _ _ _ h m (fun hc => hm (zip_fst_mem hc))

/-- **C67 (nothing else changes).** Parameters not listed in any group are untouched. -/
theorem C67_frame (gs : List ClipCfg) (P P' : Params) (h : applyClipping gs P = some P')
    (m : String) (hm : m ∉ written gs) : P' m = P m := by
  induction gs generalizing P with
  | nil =>
    simp only [applyClipping, Option.some.injEq] at h
    rw [h]
  | cons g gs ih =>
    simp only [applyClipping] at h
    simp only [written, List.flatMap_cons, List.mem_append, not_or] at hm
    cases hg : applyGroup g P with
    | none => simp [hg] at h
    | some P1 =>
      simp only [hg] at h
      rw [ih P1 h hm.2, applyGroup_frame g P P1 hg m hm.1]

theorem applyClipping_append (a b : List ClipCfg) (P : Params) :
    applyClipping (a ++ b) P = match applyClipping a P with
      | none => none
      | some P1 => applyClipping b P1 := by
  induction a generalizing P with
  | nil => rfl
  | cons g a ih =>
    simp only [List.cons_append, applyClipping]
    cases applyGroup g P with
    | none => rfl
    | some P1 => exact ih P1

/-! ### Bounds -/

theorem applyPlain_bounds (lo hi : ℚ) (hle : lo ≤ hi) (ns : List String) (P P' : Params)
    (h : applyPlain lo hi ns P = some P') (n : String)
    (hn : n ∈ ns ∨ ∃ t, P n = some t ∧ ∀ idx, lo ≤ t.val idx ∧ t.val idx ≤ hi) :
    ∃ t, P' n = some t ∧ ∀ idx, lo ≤ t.val idx ∧ t.val idx ≤ hi := by
  induction ns generalizing P with
  | nil =>
    simp only [applyPlain, Option.some.injEq] at h
    subst h
    simpa using hn
  | cons m ns ih =>
    simp only [applyPlain] at h
    cases hm : P m with
    | none => simp [hm] at h
    | some t =>
      simp only [hm] at h
      apply ih _ h
      by_cases hnm : n = m
      · right
        subst hnm
        exact ⟨_, setParam_eq _ _ _, fun idx => clamp_bounds _ _ _ hle⟩
      · rcases hn with hn | ⟨t', ht', hb⟩
        · rcases List.mem_cons.mp hn with rfl | hn
          · exact absurd rfl hnm
          · exact Or.inl hn
        · exact Or.inr ⟨t', by rw [setParam_ne _ _ _ _ hnm]; exact ht', hb⟩

/-- **C67 (bounds, plain groups).** After clipping, every entry of a parameter of a plain group
that no later group writes lies in `[min_weight, max_weight]`. -/
theorem C67_bounds (pre post : List ClipCfg) (g : ClipCfg) (P P' : Params)
    (hplain : g.virtuals = none) (hle : g.minW ≤ g.maxW)
    (h : applyClipping (pre ++ g :: post) P = some P') (n : String) (hn : n ∈ g.params)
    (hlast : n ∉ written post) : ∃ t, P' n = some t ∧ Within t g.minW g.maxW := by
  rw [applyClipping_append] at h
  cases h1 : applyClipping pre P with
  | none => simp [h1] at h
  | some P1 =>
    simp only [h1, applyClipping] at h
    cases h2 : applyGroup g P1 with
    | none => simp [h2] at h
    | some P2 =>
      simp only [h2] at h
      have h3 := h2
      simp only [applyGroup, hplain] at h3
      obtain ⟨t, ht, hb⟩ := applyPlain_bounds _ _ hle _ _ _ h3 n (Or.inl hn)
      exact ⟨t, by rw [C67_frame post P2 P' h n hlast]; exact ht, fun idx _ => hb idx⟩

theorem applyVirtual_split (lo hi : ℚ) (a b : List (String × String)) (P : Params) :
    applyVirtual lo hi (a ++ b) P = match applyVirtual lo hi a P with
      | none => none
      | some P1 => applyVirtual lo hi b P1 := by
  induction a generalizing P with
  | nil => rfl
  | cons x a ih =>
    obtain ⟨n, vn⟩ := x
    simp only [List.cons_append, applyVirtual]
    cases P n with
    | none => rfl
    | some t =>
      cases P vn with
      | none => rfl
      | some v =>
        simp only
        cases clipVirtual t v lo hi with
        | none => rfl
        | some t' => exact ih _

theorem max_min_bounds (x a lo hi : ℚ) (hle : lo ≤ hi) :
    lo ≤ min (max x (lo - a)) (hi - a) + a ∧ min (max x (lo - a)) (hi - a) + a ≤ hi := by
  constructor
  · rcases min_choice (max x (lo - a)) (hi - a) with h | h <;> rw [h]
    · have := le_max_right x (lo - a)
      linarith
    · linarith
  · have := min_le_right (max x (lo - a)) (hi - a)
    linarith

/-- **C67 (bounds, virtual groups).** After clipping, for a parameter whose group has virtual
parameters of the same number of dimensions: provided that neither it nor its virtual parameter is
written later (in this group or a later one), the virtual parameter tiles it and every entry plus
its virtual value lies in `[min_weight, max_weight]`. -/
theorem C67_bounds_virtual (pre post : List ClipCfg) (g : ClipCfg) (vs : List String)
    (P P' : Params) (hv : g.virtuals = some vs) (hle : g.minW ≤ g.maxW)
    (h : applyClipping (pre ++ g :: post) P = some P')
    (a b : List (String × String)) (n vn : String) (hz : g.params.zip vs = a ++ (n, vn) :: b)
    (hn : n ∉ b.map Prod.fst ∧ n ∉ written post)
    (hvn : vn ≠ n ∧ vn ∉ b.map Prod.fst ∧ vn ∉ written post) :
    ∃ t v, P' n = some t ∧ P' vn = some v ∧
      (v.shape.length = t.shape.length → Tiles v.shape t.shape ∧ WithinV t v g.minW g.maxW) := by
  rw [applyClipping_append] at h
  cases h1 : applyClipping pre P with
  | none => simp [h1] at h
  | some P1 =>
    simp only [h1, applyClipping] at h
    cases h2 : applyGroup g P1 with
    | none => simp [h2] at h
    | some P2 =>
      simp only [h2] at h
      have h3 := h2
      simp only [applyGroup, hv, hz] at h3
      rw [applyVirtual_split] at h3
      cases h4 : applyVirtual g.minW g.maxW a P1 with
      | none => simp [h4] at h3
      | some P3 =>
        simp only [h4, applyVirtual] at h3
        cases h5 : P3 n with
        | none => simp [h5] at h3
        | some t =>
          cases h6 : P3 vn with
          | none => simp [h5, h6] at h3
          | some v =>
            cases h7 : clipVirtual t v g.minW g.maxW with
            | none => simp [h5, h6, h7] at h3
            | some t' =>
              simp only [h5, h6, h7] at h3
              refine ⟨t', v, ?_, ?_, ?_⟩
              · rw [C67_frame post P2 P' h n hn.2, applyVirtual_frame _ _ _ _ _ h3 n hn.1,
                  setParam_eq]
              · rw [C67_frame post P2 P' h vn hvn.2.2, applyVirtual_frame _ _ _ _ _ h3 vn hvn.2.1,
                  setParam_ne _ _ _ _ hvn.1, h6]
              · intro hd
                have hsh := clipVirtual_shape t v _ _ t' h7
                rw [hsh] at hd
                have htl := clipVirtual_tiles t v _ _ t' hd h7
                refine ⟨by rw [hsh]; exact htl, ?_⟩
                intro idx hidx
                rw [hsh] at hidx
                obtain ⟨t2, e1, -, e3⟩ := clipVirtual_eq t v g.minW g.maxW htl
                rw [h7] at e1
                simp only [Option.some.injEq] at e1
                subst e1
                rw [e3 idx hidx]
                exact max_min_bounds _ _ _ _ hle

/-! ### Values already inside are unchanged; total on well-configured input -/

theorem same_refl (t : Tensor) : Same t t := ⟨rfl, fun _ _ => rfl⟩

theorem same_trans {a b c : Tensor} (h1 : Same a b) (h2 : Same b c) : Same a c :=
  ⟨h1.1.trans h2.1, fun idx h => (h1.2 idx h).trans (h2.2 idx (by rw [← h1.1]; exact h))⟩

/-- Same parameters up to unobservable (out-of-range) entries. -/
def SameP (P Q : Params) : Prop := ∀ n, (P n = none ∧ Q n = none) ∨
  ∃ t t', P n = some t ∧ Q n = some t' ∧ Same t t'

theorem sameP_refl (P : Params) : SameP P P := by
  intro n
  cases h : P n with
  | none => exact Or.inl ⟨rfl, rfl⟩
  | some t => exact Or.inr ⟨t, t, rfl, rfl, same_refl t⟩

theorem sameP_some {P Q : Params} (h : SameP P Q) {n : String} {t : Tensor} (hq : Q n = some t) :
    ∃ t', P n = some t' ∧ Same t' t := by
  rcases h n with ⟨-, h2⟩ | ⟨t1, t2, h1, h2, h3⟩
  · rw [hq] at h2
    simp at h2
  · rw [hq] at h2
    simp only [Option.some.injEq] at h2
    subst h2
    exact ⟨t1, h1, h3⟩

theorem virtIdx_inRange {v p idx : List Nat} (h : Tiles v p) (hi : InRange p idx) :
    InRange v (List.zipWith (· % ·) idx v) := by
  unfold InRange at *
  induction h generalizing idx with
  | nil =>
    cases hi
    exact List.Forall₂.nil
  | @cons b a v p hba h ih =>
    cases hi with
    | cons hai hi =>
      simp only [List.zipWith_cons_cons]
      exact List.Forall₂.cons (Nat.mod_lt _ hba.1) (ih hi)

theorem sameP_set {P Q : Params} (h : SameP P Q) {n : String} {t t' : Tensor} (hq : Q n = some t)
    (hs : Same t' t) : SameP (setParam P n t') Q := by
  intro m
  by_cases hm : m = n
  · subst hm
    exact Or.inr ⟨t', t, setParam_eq _ _ _, hq, hs⟩
  · rw [setParam_ne _ _ _ _ hm]
    exact h m

theorem plain_unchanged (lo hi : ℚ) (ns : List String) (Q : Params)
    (hsat : ∀ n ∈ ns, ∃ t, Q n = some t ∧ Within t lo hi) (P : Params) (hP : SameP P Q) :
    ∃ P', applyPlain lo hi ns P = some P' ∧ SameP P' Q := by
  induction ns generalizing P with
  | nil => exact ⟨P, rfl, hP⟩
  | cons n ns ih =>
    obtain ⟨t, ht, hw⟩ := hsat n List.mem_cons_self
    obtain ⟨t', ht', hs⟩ := sameP_some hP ht
    simp only [applyPlain, ht']
    apply ih (fun m hm => hsat m (List.mem_cons_of_mem _ hm))
    apply sameP_set hP ht
    refine ⟨hs.1, ?_⟩
    intro idx hidx
    have hidx' : InRange t'.shape idx := hidx
    have e := hs.2 idx hidx'
    have := hw idx (by rw [← hs.1]; exact hidx')
    show clamp (t'.val idx) lo hi = t.val idx
    rw [e, clamp_id _ _ _ this.1 this.2]

theorem virtual_unchanged (lo hi : ℚ) (ns : List (String × String)) (Q : Params)
    (hsat : ∀ x ∈ ns, ∃ t v, Q x.1 = some t ∧ Q x.2 = some v ∧ Tiles v.shape t.shape ∧
      WithinV t v lo hi) (P : Params) (hP : SameP P Q) :
    ∃ P', applyVirtual lo hi ns P = some P' ∧ SameP P' Q := by
  induction ns generalizing P with
  | nil => exact ⟨P, rfl, hP⟩
  | cons x ns ih =>
    obtain ⟨n, vn⟩ := x
    obtain ⟨t, v, ht, hv, htl, hw⟩ := hsat (n, vn) List.mem_cons_self
    obtain ⟨t', ht', hs⟩ := sameP_some hP ht
    obtain ⟨v', hv', hsv⟩ := sameP_some hP hv
    obtain ⟨r, hr, hrs, hrv⟩ := clipVirtual_eq t' v' lo hi (by rw [hs.1, hsv.1]; exact htl)
    simp only [applyVirtual, ht', hv', hr]
    apply ih (fun m hm => hsat m (List.mem_cons_of_mem _ hm))
    apply sameP_set hP ht
    refine ⟨hrs.trans hs.1, ?_⟩
    intro idx hidx
    rw [hrs] at hidx
    have hidx2 : InRange t.shape idx := by rw [← hs.1]; exact hidx
    rw [hrv idx hidx]
    have e := hs.2 idx hidx
    have ev : virtualAt v' idx = virtualAt v idx := by
      unfold virtualAt
      have hir := virtIdx_inRange htl hidx2
      rw [hsv.1]
      exact hsv.2 _ (by rw [hsv.1]; exact hir)
    obtain ⟨b1, b2⟩ := hw idx hidx2
    rw [e, ev, max_eq_left (by linarith), min_eq_left (by linarith)]

/-- **C67 (inside stays).** If the parameters already satisfy every group's bounds, clipping
succeeds and changes no entry of any parameter. -/
theorem C67_inside_unchanged (gs : List ClipCfg) (P : Params) (h : ∀ g ∈ gs, Satisfies P g) :
    ∃ P', applyClipping gs P = some P' ∧ SameP P' P := by
  have main : ∀ (gs : List ClipCfg) (Q : Params), SameP Q P → (∀ g ∈ gs, Satisfies P g) →
      ∃ P', applyClipping gs Q = some P' ∧ SameP P' P := by
    intro gs
    induction gs with
    | nil => intro Q hQ _; exact ⟨Q, rfl, hQ⟩
    | cons g gs ih =>
      intro Q hQ h
      have hg := h g List.mem_cons_self
      unfold Satisfies at hg
      have : ∃ Q1, applyGroup g Q = some Q1 ∧ SameP Q1 P := by
        unfold applyGroup
        cases hv : g.virtuals with
        | none =>
          simp only [hv] at hg ⊢
          exact plain_unchanged _ _ _ P hg Q hQ
        | some vs =>
          simp only [hv] at hg ⊢
          exact virtual_unchanged _ _ _ P hg Q hQ
      obtain ⟨Q1, h1, h2⟩ := this
      simp only [applyClipping, h1]
      exact ih Q1 h2 (fun g' hg' => h g' (List.mem_cons_of_mem _ hg'))
  exact main gs P (sameP_refl P) h

/-- Shapes never change. -/
def ShapeP (P Q : Params) : Prop := ∀ n, (P n).map Tensor.shape = (Q n).map Tensor.shape

theorem shape_set {P : Params} {n : String} {t t' : Tensor} (h : P n = some t)
    (hs : t'.shape = t.shape) : ShapeP (setParam P n t') P := by
  intro m
  by_cases hm : m = n
  · subst hm
    rw [setParam_eq, h]
    simp [hs]
  · rw [setParam_ne _ _ _ _ hm]

theorem shapeP_trans {A B C : Params} (h1 : ShapeP A B) (h2 : ShapeP B C) : ShapeP A C :=
  fun n => (h1 n).trans (h2 n)

theorem shape_some {P Q : Params} (h : ShapeP P Q) {n : String} {t : Tensor} (hq : Q n = some t) :
    ∃ t', P n = some t' ∧ t'.shape = t.shape := by
  have := h n
  rw [hq] at this
  cases hp : P n with
  | none => simp [hp] at this
  | some t' => exact ⟨t', rfl, by simpa [hp] using this⟩

theorem plain_total (lo hi : ℚ) (ns : List String) (Q : Params)
    (hq : ∀ n ∈ ns, ∃ t, Q n = some t) (P : Params) (hP : ShapeP P Q) :
    ∃ P', applyPlain lo hi ns P = some P' ∧ ShapeP P' Q := by
  induction ns generalizing P with
  | nil => exact ⟨P, rfl, hP⟩
  | cons n ns ih =>
    obtain ⟨t, ht⟩ := hq n List.mem_cons_self
    obtain ⟨t', ht', hs⟩ := shape_some hP ht
    simp only [applyPlain, ht']
    exact ih (fun m hm => hq m (List.mem_cons_of_mem _ hm)) _
      (shapeP_trans (shape_set ht' rfl) hP)

theorem virtual_total (lo hi : ℚ) (ns : List (String × String)) (Q : Params)
    (hq : ∀ x ∈ ns, ∃ t v, Q x.1 = some t ∧ Q x.2 = some v ∧ Tiles v.shape t.shape)
    (P : Params) (hP : ShapeP P Q) :
    ∃ P', applyVirtual lo hi ns P = some P' ∧ ShapeP P' Q := by
  induction ns generalizing P with
  | nil => exact ⟨P, rfl, hP⟩
  | cons x ns ih =>
    obtain ⟨n, vn⟩ := x
    obtain ⟨t, v, ht, hv, htl⟩ := hq (n, vn) List.mem_cons_self
    obtain ⟨t', ht', hs⟩ := shape_some hP ht
    obtain ⟨v', hv', hsv⟩ := shape_some hP hv
    obtain ⟨r, hr, hrs, -⟩ := clipVirtual_eq t' v' lo hi (by rw [hs, hsv]; exact htl)
    simp only [applyVirtual, ht', hv', hr]
    exact ih (fun m hm => hq m (List.mem_cons_of_mem _ hm)) _
      (shapeP_trans (shape_set ht' hrs) hP)

/-- **C67 (never fails on a good configuration).** With all names present and virtual parameters
tiling theirs, clipping succeeds and keeps every shape. -/
theorem C67_total (gs : List ClipCfg) (P : Params) (h : ∀ g ∈ gs, WellConfigured P g) :
    ∃ P', applyClipping gs P = some P' ∧ ShapeP P' P := by
  have main : ∀ (gs : List ClipCfg) (Q : Params), ShapeP Q P → (∀ g ∈ gs, WellConfigured P g) →
      ∃ P', applyClipping gs Q = some P' ∧ ShapeP P' P := by
    intro gs
    induction gs with
    | nil => intro Q hQ _; exact ⟨Q, rfl, hQ⟩
    | cons g gs ih =>
      intro Q hQ h
      obtain ⟨hg1, hg2⟩ := h g List.mem_cons_self
      have : ∃ Q1, applyGroup g Q = some Q1 ∧ ShapeP Q1 P := by
        unfold applyGroup
        cases hv : g.virtuals with
        | none => exact plain_total _ _ _ P hg1 Q hQ
        | some vs =>
          simp only [hv] at hg2
          exact virtual_total _ _ _ P hg2.2 Q hQ
      obtain ⟨Q1, h1, h2⟩ := this
      simp only [applyClipping, h1]
      exact ih Q1 h2 (fun g' hg' => h g' (List.mem_cons_of_mem _ hg'))
  exact main gs P (fun _ => rfl) h

/-- No parameter is written twice and no virtual parameter is written. -/
def Independent (gs : List ClipCfg) : Prop :=
  (written gs).Nodup ∧ ∀ g ∈ gs, ∀ vs, g.virtuals = some vs → ∀ vn ∈ vs, vn ∉ written gs

/-- **C67 (all bounds at once, and idempotent).** For a well-configured, independent list of
groups with `min ≤ max`, one call establishes every group's bounds and a second call changes
nothing. -/
theorem C67_enforced (gs : List ClipCfg) (P : Params) (hw : ∀ g ∈ gs, WellConfigured P g)
    (hi : Independent gs) (hle : ∀ g ∈ gs, g.minW ≤ g.maxW) :
    ∃ P', applyClipping gs P = some P' ∧ (∀ g ∈ gs, Satisfies P' g) ∧
      ∃ P2, applyClipping gs P' = some P2 ∧ SameP P2 P' := by
  obtain ⟨P', hP', hsh⟩ := C67_total gs P hw
  have hsat : ∀ g ∈ gs, Satisfies P' g := by
    intro g hg
    obtain ⟨pre, post, rfl⟩ := List.append_of_mem hg
    have hnd := hi.1
    simp only [written, List.flatMap_append, List.flatMap_cons] at hnd
    have hnd2 := (List.nodup_append.mp hnd).2.1
    obtain ⟨hgn, -, hdis⟩ := List.nodup_append.mp hnd2
    have hlater : ∀ n ∈ g.params, n ∉ written post := fun n hn hc => hdis n hn n hc rfl
    unfold Satisfies
    cases hv : g.virtuals with
    | none =>
      simp only
      intro n hn
      exact C67_bounds pre post g P P' hv (hle g hg) hP' n hn (hlater n hn)
    | some vs =>
      simp only
      rintro ⟨n, vn⟩ hx
      obtain ⟨a, b, hab⟩ := List.append_of_mem hx
      obtain ⟨hnp, hvp⟩ := List.of_mem_zip hx
      have hvw : vn ∉ written (pre ++ g :: post) := hi.2 g hg vs hv vn hvp
      have hvw' : vn ∉ written pre ∧ vn ∉ g.params ∧ vn ∉ written post := by
        simpa [written, List.flatMap_append, not_or] using hvw
      obtain ⟨h1, h2⟩ := hw g hg
      simp only [hv] at h2
      have hzip : (g.params.zip vs).map Prod.fst = g.params := by
        rw [List.map_fst_zip]
        omega
      have hnb : n ∉ b.map Prod.fst := by
        have hz := hzip
        rw [hab, List.map_append, List.map_cons] at hz
        rw [← hz] at hgn
        have := (List.nodup_append.mp hgn).2.1
        exact (List.nodup_cons.mp this).1
      have hvb : vn ∉ b.map Prod.fst := by
        intro hc
        apply hvw'.2.1
        rw [← hzip, hab, List.map_append, List.map_cons]
        exact List.mem_append_right _ (List.mem_cons_of_mem _ hc)
      obtain ⟨t, v, e1, e2, e3⟩ := C67_bounds_virtual pre post g vs P P' hv (hle g hg) hP' a b n vn
        hab ⟨hnb, hlater n hnp⟩
        ⟨fun hc => hvw'.2.1 (hc ▸ hnp), hvb, hvw'.2.2⟩
      obtain ⟨t0, v0, f1, f2, f3⟩ := h2.2 (n, vn) hx
      have g1 := hsh n
      have g2 := hsh vn
      simp only [e1, e2, f1, f2, Option.map_some, Option.some.injEq] at g1 g2
      have hlen : v.shape.length = t.shape.length := by
        rw [g1, g2]
        exact List.Forall₂.length_eq f3
      exact ⟨t, v, e1, e2, (e3 hlen).1, (e3 hlen).2⟩
  obtain ⟨P2, h1, h2⟩ := C67_inside_unchanged gs P' hsat
  exact ⟨P', hP', hsat, P2, h1, h2⟩

/-! ### Configuration errors -/

theorem lookupAll_none (P : Params) (ns : List String) :
    lookupAll P ns = none ↔ ∀ n ∈ ns, ∃ t, P n = some t := by
  induction ns with
  | nil => simp [lookupAll]
  | cons n ns ih =>
    simp only [lookupAll]
    cases h : P n with
    | none => simp [h]
    | some t => simp [h, ih]

/-- **C67 (configuration errors).** Resolution succeeds exactly when every name exists and every
virtual list is as long as its parameter list. -/
theorem C67_resolve_iff (P : Params) (gs : List ClipCfg) :
    resolve P gs = none ↔ ∀ g ∈ gs, (∀ n ∈ g.params, ∃ t, P n = some t) ∧
      ∀ vs, g.virtuals = some vs → (∀ n ∈ vs, ∃ t, P n = some t) ∧ vs.length = g.params.length := by
  have hg : ∀ g, resolveGroup P g = none ↔ (∀ n ∈ g.params, ∃ t, P n = some t) ∧
      ∀ vs, g.virtuals = some vs → (∀ n ∈ vs, ∃ t, P n = some t) ∧ vs.length = g.params.length := by
    intro g
    unfold resolveGroup
    rw [← lookupAll_none]
    cases h1 : lookupAll P g.params with
    | some e => simp
    | none =>
      cases h2 : g.virtuals with
      | none => simp
      | some vs =>
        simp only [Option.some.injEq, forall_eq', true_and, ← lookupAll_none P]
        cases h3 : lookupAll P vs with
        | some e => simp
        | none =>
          simp only [true_and]
          split_ifs with h4
          · simp [h4]
          · simpa using h4
  induction gs with
  | nil => simp [resolve]
  | cons g gs ih =>
    simp only [resolve, List.mem_cons, forall_eq_or_imp]
    cases hr : resolveGroup P g with
    | none => exact ⟨fun h => ⟨(hg g).mp hr, ih.mp h⟩, fun h => ih.mpr h.2⟩
    | some e =>
      refine ⟨fun h => by simp at h, fun h => ?_⟩
      have := (hg g).mpr h.1
      rw [hr] at this
      simp at this

/-- **C67 (inverted bounds).** With `min_weight > max_weight` every entry becomes `max_weight`
(minus the virtual value): no error is reported. -/
theorem C67_inverted (x lo hi a : ℚ) (h : hi < lo) :
    clamp x lo hi = hi ∧ min (max x (lo - a)) (hi - a) = hi - a := by
  constructor
  · exact min_eq_right (le_trans (le_of_lt h) (le_max_right _ _))
  · exact min_eq_right (le_trans (by linarith) (le_max_right _ _))

/-! ### Non-vacuity -/

/-- A 4×2 weight with a 2×2 virtual weight tiled twice, and a bias. -/
def exParams : Params := fun n =>
  if n = "w" then some ⟨[4, 2], fun idx => match idx with | [i, j] => 3 * i - 5 * j | _ => 0⟩
  else if n = "v" then some ⟨[2, 2], fun idx => match idx with | [i, j] => i - j / 2 | _ => 0⟩
  else if n = "b" then some ⟨[3], fun idx => match idx with | [i] => 7 * i | _ => 0⟩
  else none

def exGroups : List ClipCfg := [⟨-2, 2, ["w"], some ["v"]⟩, ⟨-1, 4, ["b"], none⟩]

example : (∀ g ∈ exGroups, WellConfigured exParams g) ∧ Independent exGroups ∧
    resolve exParams exGroups = none := by
  refine ⟨?_, ?_, by decide +kernel⟩
  · intro g hg
    simp only [exGroups, List.mem_cons, List.not_mem_nil, or_false] at hg
    rcases hg with rfl | rfl
    · refine ⟨?_, ?_⟩
      · intro n hn
        simp only [List.mem_cons, List.not_mem_nil, or_false] at hn
        subst hn
        exact ⟨_, rfl⟩
      · refine ⟨rfl, ?_⟩
        intro x hx
        simp only [List.zip_cons_cons, List.zip_nil_right, List.mem_cons, List.not_mem_nil,
          or_false] at hx
        subst hx
        refine ⟨_, _, rfl, rfl, ?_⟩
        exact List.Forall₂.cons ⟨by decide, by decide⟩
          (List.Forall₂.cons ⟨by decide, by decide⟩ List.Forall₂.nil)
    · refine ⟨?_, trivial⟩
      intro n hn
      simp only [List.mem_cons, List.not_mem_nil, or_false] at hn
      subst hn
      exact ⟨_, rfl⟩
  · unfold Independent
    constructor
    · decide +kernel
    · intro g hg vs hvs vn hvn
      simp only [exGroups, List.mem_cons, List.not_mem_nil, or_false] at hg
      rcases hg with rfl | rfl
      · simp only [Option.some.injEq] at hvs
        subst hvs
        simp only [List.mem_cons, List.not_mem_nil, or_false] at hvn
        subst hvn
        decide +kernel
      · simp at hvs

example : ((applyClipping exGroups exParams).bind fun P => (P "w").map fun t =>
    [[0, 0], [0, 1], [2, 0], [3, 1]].map t.val) = some [0, -3/2, 2, 3/2] := by
  decide +kernel

end Verif.Utils
