import Verif.Collate.Props104b
import Mathlib.Data.List.GetD

/-!
# C104: what collation accepts and returns
-/
namespace Verif.Collate
open Verif.Pipe (Spec Collate Transform)

variable {A : Type}

/-! ## Specification -/

/-- A policy target is a plane of exactly the board's size, or flat with one entry per point of the board or of the physical input, with or
without one more entry for the pass. -/
def PolicyOk (x : Lib A) (sample : Dict A) (v : Val A) : Prop :=
  ∃ b, get sample "board_size" = some b ∧
    ((v.shape.length = 2 ∧ v.shape.map (fun k => (k : Int)) = x.ints b.body)
      ∨ ∃ n r c rest i pre h w, v.shape = [n] ∧ x.ints b.body = r :: c :: rest ∧ get sample "board_input" = some i
          ∧ i.shape = pre ++ [h, w] ∧ ((n : Int) = r * c ∨ (n : Int) = r * c + 1 ∨ n = h * w ∨ n = h * w + 1))

/-- A value that collation accepts for a declared field. -/
structure ValueOk (x : Lib A) (s : Spec) (sample : Dict A) (v : Val A) : Prop where
  kind : v.arrayKind ∈ s.kinds
  spatial : ∀ p q, s.spatial = some (p, q) → AxisOk v.shape.length p ∧ AxisOk v.shape.length q
    ∧ ∃ b, get sample "board_size" = some b ∧ Covers v.shape p q (x.ints b.body)
  policy : s.transform = .boardPolicy → PolicyOk x sample v
  side : ∀ a, s.side = some a → AxisOk v.shape.length a

/-- `v` is the stack of `vs`. -/
structure IsStack (x : Lib A) (c : Cls) (vs : List (Val A)) (v : Val A) : Prop where
  cls : v.cls = c
  kind : v.kind = x.promote (vs.map Val.kind)
  arrayKind : v.arrayKind = x.promote (vs.map Val.arrayKind)
  shape : ∃ sh, (∀ w ∈ vs, w.shape = sh) ∧ v.shape = vs.length :: sh
  body : v.body = x.stack (vs.map Val.body)

/-- All values are tensors, or all are arrays and numbers. -/
def Uniform (vs : List (Val A)) (c : Cls) : Prop := (c = .tensor ∨ c = .numeric) ∧ ∀ w ∈ vs, w.cls = c

/-- A field of the batch: uniform values are stacked, others are kept as a list. -/
def Assembled (x : Lib A) (vs : List (Val A)) (o : Out A) : Prop :=
  (∃ c v, Uniform vs c ∧ o = .stacked v ∧ IsStack x c vs v) ∨ ((¬ ∃ c, Uniform vs c) ∧ o = .listed vs)

/-- A field of the batch is made of the samples' values, in order; a declared field has acceptable values, equal ones if it is shared. -/
structure FieldOf (x : Lib A) (specs : List Spec) (samples : List (Dict A)) (k : String) (o : Out A) : Prop where
  values : ∃ vs, List.Forall₂ (fun s w => get s k = some w) samples vs ∧ Assembled x vs o
    ∧ ∀ t, specOf specs k = some t →
        (t.shared = true → ∀ w0 ∈ vs.head?, ∀ w ∈ vs.tail, w0.shape = w.shape ∧ x.eq w0.body w.body = true)
          ∧ List.Forall₂ (ValueOk x t) samples vs

/-! ## Proofs -/

theorem collateSpatial_iff (x : Lib A) (s : Spec) (sample : Dict A) (v : Val A) : collateSpatial x s sample v = .ok () ↔
    ∀ p q, s.spatial = some (p, q) → AxisOk v.shape.length p ∧ AxisOk v.shape.length q
      ∧ ∃ b, get sample "board_size" = some b ∧ Covers v.shape p q (x.ints b.body) := by
  unfold collateSpatial
  cases hs : s.spatial with
  | none => simp
  | some pq =>
    obtain ⟨p, q⟩ := pq
    simp only [Option.some.injEq, Prod.mk.injEq]
    by_cases h1 : (inRange v.shape.length (axisSample v.shape.length p) && inRange v.shape.length (axisSample v.shape.length q)) = false
    · rw [if_pos h1]
      refine ⟨fun h => by simp at h, fun h => ?_⟩
      obtain ⟨a, b, _⟩ := h p q ⟨rfl, rfl⟩
      rw [(inRange_sample _ _).mpr a, (inRange_sample _ _).mpr b] at h1
      exact absurd h1 (by decide)
    · rw [if_neg h1]
      rw [Bool.not_eq_false, Bool.and_eq_true, inRange_sample, inRange_sample] at h1
      rw [dim_sample _ _ h1.1, dim_sample _ _ h1.2]
      cases hb : get sample "board_size" with
      | none =>
        refine ⟨fun h => by simp at h, fun h => ?_⟩
        obtain ⟨_, _, b, h2, _⟩ := h p q ⟨rfl, rfl⟩
        cases h2
      | some b =>
        simp only [Option.some.injEq, exists_eq_left']
        by_cases h2 : smaller [sizeAt v.shape p, sizeAt v.shape q] (x.ints b.body) = true
        · rw [if_pos h2]
          refine ⟨fun h => by simp at h, fun h => ?_⟩
          obtain ⟨_, _, c⟩ := h p q ⟨rfl, rfl⟩
          rw [(smaller_false _ _).mpr c] at h2
          exact absurd h2 (by decide)
        · rw [if_neg h2]
          rw [Bool.not_eq_true, smaller_false] at h2
          simp only [true_iff]
          rintro p' q' ⟨rfl, rfl⟩
          exact ⟨h1.1, h1.2, h2⟩

theorem last_two (l : List Nat) (h : ¬ l.length < 2) : ∃ pre, l = pre ++ [l.getD (l.length - 2) 0, l.getD (l.length - 1) 0] := by
  refine ⟨l.take (l.length - 2), ?_⟩
  have e : l.drop (l.length - 2) = [l.getD (l.length - 2) 0, l.getD (l.length - 1) 0] := by
    rw [List.drop_eq_getElem_cons (by omega), List.drop_eq_getElem_cons (by omega), List.drop_of_length_le (by omega)]
    rw [List.getD_eq_getElem _ _ (by omega), List.getD_eq_getElem _ _ (by omega)]
    congr 2
    congr 1
    omega
  rw [← e, List.take_append_drop]

theorem getD_last (pre : List Nat) (h w : Nat) : (pre ++ [h, w]).getD ((pre ++ [h, w]).length - 2) 0 = h
    ∧ (pre ++ [h, w]).getD ((pre ++ [h, w]).length - 1) 0 = w := by
  constructor
  · rw [List.getD_eq_getElem?_getD, List.getElem?_append_right (by simp)]
    simp
  · rw [List.getD_eq_getElem?_getD, List.getElem?_append_right (by simp)]
    simp

theorem collatePolicy_iff (x : Lib A) (s : Spec) (sample : Dict A) (v : Val A) : collatePolicy x s sample v = .ok () ↔
    (s.transform = .boardPolicy → PolicyOk x sample v) := by
  unfold collatePolicy
  by_cases ht : s.transform = .boardPolicy
  swap
  · rw [if_pos ht]
    exact ⟨fun _ h => absurd h ht, fun _ => rfl⟩
  rw [if_neg (not_not.mpr ht)]
  simp only [ht, true_implies]
  unfold PolicyOk
  cases hb : get sample "board_size" with
  | none => simp
  | some b =>
    simp only [Option.some.injEq, exists_eq_left']
    by_cases h2 : v.shape.length = 2 ∧ v.shape.map (fun k => (k : Int)) = x.ints b.body
    · rw [if_pos h2]
      exact ⟨fun _ => Or.inl h2, fun _ => rfl⟩
    · rw [if_neg h2]
      by_cases h1 : v.shape.length = 1
      swap
      · rw [if_neg h1]
        refine ⟨fun h => by simp at h, fun h => ?_⟩
        rcases h with h | ⟨n, _, _, _, _, _, _, _, h, _⟩
        · exact absurd h h2
        · rw [h] at h1; exact absurd rfl h1
      · rw [if_pos h1]
        obtain ⟨n, hn⟩ := List.length_eq_one_iff.mp h1
        have no2 : (v.shape.length = 2 ∧ v.shape.map (fun k => (k : Int)) = x.ints b.body) = False := eq_false h2
        rw [no2, false_or]
        cases hi : x.ints b.body with
        | nil => simp
        | cons r l =>
          cases l with
          | nil => simp
          | cons c rest =>
            cases hbi : get sample "board_input" with
            | none => simp
            | some i =>
              simp only
              by_cases h3 : i.shape.length < 2
              · rw [if_pos h3]
                refine ⟨fun h => by simp at h, fun h => ?_⟩
                obtain ⟨_, _, _, _, i', pre, h', w', _, _, hi', hp, _⟩ := h
                cases hi'
                rw [hp] at h3
                simp at h3
                omega
              · rw [if_neg h3]
                obtain ⟨pre, hp⟩ := last_two i.shape h3
                simp only [List.contains_iff_mem, List.mem_cons, List.not_mem_nil, or_false]
                constructor
                · intro h
                  by_cases h4 : ((v.shape.headD 0 : Nat) : Int) = r * c ∨ ((v.shape.headD 0 : Nat) : Int) = r * c + 1
                      ∨ ((v.shape.headD 0 : Nat) : Int) = ((i.shape.getD (i.shape.length - 2) 0 : Nat) : Int) * ((i.shape.getD (i.shape.length - 1) 0 : Nat) : Int)
                      ∨ ((v.shape.headD 0 : Nat) : Int) = ((i.shape.getD (i.shape.length - 2) 0 : Nat) : Int) * ((i.shape.getD (i.shape.length - 1) 0 : Nat) : Int) + 1
                  · refine ⟨n, r, c, rest, i, pre, _, _, hn, rfl, rfl, hp, ?_⟩
                    rw [hn] at h4
                    simp only [List.headD_cons] at h4
                    rcases h4 with h4 | h4 | h4 | h4
                    · exact Or.inl h4
                    · exact Or.inr (Or.inl h4)
                    · exact Or.inr (Or.inr (Or.inl (by exact_mod_cast h4)))
                    · exact Or.inr (Or.inr (Or.inr (by exact_mod_cast h4)))
                  · rw [if_neg h4] at h
                    simp at h
                · rintro ⟨n', r', c', rest', i', pre', h', w', e1, e2, e3, e4, e5⟩
                  cases e2
                  cases e3
                  rw [if_pos]
                  rw [e1, e4, (getD_last pre' h' w').1, (getD_last pre' h' w').2]
                  simp only [List.headD_cons]
                  rcases e5 with e5 | e5 | e5 | e5
                  · exact Or.inl e5
                  · exact Or.inr (Or.inl e5)
                  · exact Or.inr (Or.inr (Or.inl (by exact_mod_cast e5)))
                  · exact Or.inr (Or.inr (Or.inr (by exact_mod_cast e5)))

theorem collateSide_eq (s : Spec) (v : Val A) : collateSide s v = .ok () ↔ ∀ a, s.side = some a → AxisOk v.shape.length a := by
  unfold collateSide
  cases hs : s.side with
  | none => simp
  | some a =>
    simp only [Option.some.injEq, forall_eq']
    by_cases h : inRange v.shape.length (axisSample v.shape.length a) = false
    · rw [if_pos h]
      refine ⟨fun h => by simp at h, fun h' => ?_⟩
      rw [(inRange_sample _ _).mpr h'] at h
      exact absurd h (by decide)
    · rw [if_neg h, Bool.not_eq_false, inRange_sample] at *
      simp [h]

theorem collateCheck_iff (x : Lib A) (s : Spec) (sample : Dict A) (v : Val A) : collateCheck x s sample v = .ok () ↔ ValueOk x s sample v := by
  unfold collateCheck
  by_cases h : s.kinds.contains v.arrayKind = false
  · rw [if_pos h]
    refine ⟨fun h => by simp at h, fun h' => ?_⟩
    rw [List.contains_iff_mem.mpr h'.kind] at h
    exact absurd h (by decide)
  · rw [if_neg h, seq_ok, seq_ok, collateSpatial_iff, collatePolicy_iff, collateSide_eq]
    rw [Bool.not_eq_false, List.contains_iff_mem] at h
    exact ⟨fun h' => ⟨h, h'.1, h'.2.1, h'.2.2⟩, fun h' => ⟨h'.spatial, h'.policy, h'.side⟩⟩

theorem collateChecks_iff (x : Lib A) (s : Spec) (samples : List (Dict A)) (vs : List (Val A)) (hl : samples.length = vs.length) :
    collateChecks x s (samples.zip vs) = .ok () ↔ List.Forall₂ (ValueOk x s) samples vs := by
  induction samples generalizing vs with
  | nil =>
    cases vs with
    | nil => simp [collateChecks]
    | cons _ _ => simp at hl
  | cons d l ih =>
    cases vs with
    | nil => simp at hl
    | cons v vs =>
      rw [List.zip_cons_cons, collateChecks, seq_ok, collateCheck_iff, ih vs (by simpa using hl), List.forall₂_cons]

theorem valuesOf_iff (k : String) (samples : List (Dict A)) (vs : List (Val A)) : valuesOf k samples = some vs ↔
    List.Forall₂ (fun s w => get s k = some w) samples vs := by
  induction samples generalizing vs with
  | nil =>
    cases vs <;> simp [valuesOf]
  | cons d l ih =>
    rw [valuesOf]
    cases hg : get d k with
    | none =>
      simp only
      refine ⟨fun h => by simp at h, fun h => ?_⟩
      cases h with
      | cons hr _ => rw [hg] at hr; cases hr
    | some v =>
      cases hv : valuesOf k l with
      | none =>
        simp only
        refine ⟨fun h => by simp at h, fun h => ?_⟩
        cases h with
        | cons _ ht => rw [← ih] at ht; rw [hv] at ht; cases ht
      | some ws =>
        simp only [Option.some.injEq]
        constructor
        · intro h
          subst h
          exact List.Forall₂.cons hg ((ih ws).mp hv)
        · intro h
          cases h with
          | cons hr ht =>
            rw [hg] at hr
            rw [← ih, hv] at ht
            cases hr
            cases ht
            rfl

theorem stackValues_iff (x : Lib A) (c : Cls) (vs : List (Val A)) (hne : vs ≠ []) (o : Out A) :
    stackValues x c vs = .ok o ↔ ∃ v, o = .stacked v ∧ IsStack x c vs v := by
  unfold stackValues
  cases vs with
  | nil => exact absurd rfl hne
  | cons v0 ws =>
    simp only
    by_cases h : ws.any (fun w => decide (w.shape ≠ v0.shape)) = true
    · rw [if_pos h]
      refine ⟨fun h => by simp at h, ?_⟩
      rintro ⟨v, _, hv⟩
      obtain ⟨sh, hall, _⟩ := hv.shape
      obtain ⟨w, hw, hne⟩ := List.any_eq_true.mp h
      simp only [decide_eq_true_eq] at hne
      exact absurd ((hall w (List.mem_cons_of_mem _ hw)).trans (hall v0 List.mem_cons_self).symm) hne
    · rw [if_neg h]
      have hall : ∀ w ∈ v0 :: ws, w.shape = v0.shape := by
        intro w hw
        rcases List.mem_cons.mp hw with e | e
        · rw [e]
        · by_contra hc
          exact h (List.any_eq_true.mpr ⟨w, e, by simpa using hc⟩)
      simp only [Except.ok.injEq]
      constructor
      · intro ho
        exact ⟨_, ho.symm, rfl, rfl, rfl, ⟨v0.shape, hall, rfl⟩, rfl⟩
      · rintro ⟨v, ho, hv⟩
        rw [ho]
        congr 1
        obtain ⟨sh, h1, h2⟩ := hv.shape
        cases v
        have e1 := hv.cls
        have e2 := hv.kind
        have e3 := hv.arrayKind
        have e4 := hv.body
        simp only at e1 e2 e3 e4 h2
        rw [e1, e2, e3, e4, h2, h1 v0 List.mem_cons_self]

theorem assemble_iff (x : Lib A) (vs : List (Val A)) (hne : vs ≠ []) (o : Out A) : assemble x vs = .ok o ↔ Assembled x vs o := by
  obtain ⟨w0, hw0⟩ := List.exists_mem_of_ne_nil _ hne
  unfold assemble Assembled
  by_cases h1 : vs.all (fun v => decide (v.cls = .tensor)) = true
  · rw [if_pos h1, stackValues_iff x _ vs hne]
    rw [List.all_eq_true] at h1
    simp only [decide_eq_true_eq] at h1
    constructor
    · rintro ⟨v, ho, hv⟩
      exact Or.inl ⟨.tensor, v, ⟨Or.inl rfl, h1⟩, ho, hv⟩
    · rintro (⟨c, v, hu, ho, hv⟩ | ⟨hn, _⟩)
      · have : c = .tensor := (hu.2 w0 hw0).symm.trans (h1 w0 hw0)
        subst this
        exact ⟨v, ho, hv⟩
      · exact absurd ⟨.tensor, Or.inl rfl, h1⟩ hn
  · rw [if_neg h1]
    by_cases h2 : vs.all (fun v => decide (v.cls = .numeric)) = true
    · rw [if_pos h2, stackValues_iff x _ vs hne]
      rw [List.all_eq_true] at h2
      simp only [decide_eq_true_eq] at h2
      constructor
      · rintro ⟨v, ho, hv⟩
        exact Or.inl ⟨.numeric, v, ⟨Or.inr rfl, h2⟩, ho, hv⟩
      · rintro (⟨c, v, hu, ho, hv⟩ | ⟨hn, _⟩)
        · have : c = .numeric := (hu.2 w0 hw0).symm.trans (h2 w0 hw0)
          subst this
          exact ⟨v, ho, hv⟩
        · exact absurd ⟨.numeric, Or.inr rfl, h2⟩ hn
    · rw [if_neg h2]
      have hn : ¬ ∃ c, Uniform vs c := by
        rintro ⟨c, hc | hc, hall⟩
        · exact h1 (List.all_eq_true.mpr fun w hw => by rw [hall w hw, hc]; rfl)
        · exact h2 (List.all_eq_true.mpr fun w hw => by rw [hall w hw, hc]; rfl)
      simp only [Except.ok.injEq]
      constructor
      · intro h
        exact Or.inr ⟨hn, h.symm⟩
      · rintro (⟨c, v, hu, _⟩ | ⟨_, h⟩)
        · exact absurd ⟨c, hu⟩ hn
        · exact h.symm

theorem differs_iff (x : Lib A) (vs : List (Val A)) : differs x vs = false ↔
    ∀ w0 ∈ vs.head?, ∀ w ∈ vs.tail, w0.shape = w.shape ∧ x.eq w0.body w.body = true := by
  cases vs with
  | nil => simp [differs]
  | cons v ws => simp [differs, arrayEqual, List.any_eq_false]

theorem collateField_iff (x : Lib A) (specs : List Spec) (samples : List (Dict A)) (hne : samples ≠ []) (k : String) (o : Out A) :
    collateField x specs samples k = .ok o ↔ FieldOf x specs samples k o := by
  unfold collateField
  cases hv : valuesOf k samples with
  | none =>
    refine ⟨fun h => by simp at h, fun h => ?_⟩
    obtain ⟨vs, hf, _⟩ := h.values
    rw [← valuesOf_iff, hv] at hf
    cases hf
  | some vs =>
    have hf := (valuesOf_iff k samples vs).mp hv
    have hlen := forall2_length hf
    have hvne : vs ≠ [] := by
      intro h
      rw [h] at hlen
      exact hne (List.length_eq_zero_iff.mp hlen)
    have uniq : ∀ vs', List.Forall₂ (fun s w => get s k = some w) samples vs' → vs' = vs := by
      intro vs' h'
      rw [← valuesOf_iff, hv] at h'
      cases h'
      rfl
    simp only
    cases hs : specOf specs k with
    | none =>
      simp only
      rw [assemble_iff x vs hvne]
      constructor
      · intro h
        exact ⟨vs, hf, h, fun t ht => by rw [hs] at ht; cases ht⟩
      · rintro ⟨vs', h1, h2, _⟩
        rw [uniq vs' h1] at h2
        exact h2
    | some t =>
      simp only
      by_cases hd : (t.shared && differs x vs) = true
      · rw [if_pos hd]
        refine ⟨fun h => by simp at h, ?_⟩
        rintro ⟨vs', h1, _, h3⟩
        rw [uniq vs' h1] at h3
        rw [Bool.and_eq_true] at hd
        have := (differs_iff x vs).mpr ((h3 t hs).1 hd.1)
        rw [this] at hd
        exact absurd hd.2 (by decide)
      · rw [if_neg hd, seq_ok, collateChecks_iff x t samples vs hlen, assemble_iff x vs hvne]
        rw [Bool.not_eq_true, Bool.and_eq_false_iff] at hd
        constructor
        · rintro ⟨h1, h2⟩
          refine ⟨vs, hf, h2, fun t' ht' => ?_⟩
          rw [hs] at ht'
          cases ht'
          refine ⟨fun hsh => ?_, h1⟩
          rcases hd with hd | hd
          · rw [hsh] at hd; cases hd
          · exact (differs_iff x vs).mp hd
        · rintro ⟨vs', h1, h2, h3⟩
          rw [uniq vs' h1] at h2 h3
          exact ⟨(h3 t hs).2, h2⟩

theorem collateKeys_iff (x : Lib A) (specs : List Spec) (samples : List (Dict A)) (hne : samples ≠ []) (ks : List String)
    (out : List (String × Out A)) : collateKeys x specs samples ks = .ok out ↔
      List.Forall₂ (fun k e => e.1 = k ∧ FieldOf x specs samples k e.2) ks out := by
  induction ks generalizing out with
  | nil => cases out <;> simp [collateKeys]
  | cons k ks ih =>
    rw [collateKeys]
    cases hk : collateField x specs samples k with
    | error e =>
      simp only
      refine ⟨fun h => by simp at h, fun h => ?_⟩
      cases h with
      | cons hr _ => rw [← collateField_iff x specs samples hne, hk] at hr; simp at hr
    | ok o =>
      cases hks : collateKeys x specs samples ks with
      | error e =>
        simp only
        refine ⟨fun h => by simp at h, fun h => ?_⟩
        cases h with
        | cons _ ht => rw [← ih, hks] at ht; cases ht
      | ok l =>
        simp only [Except.ok.injEq]
        constructor
        · intro h
          subst h
          exact List.Forall₂.cons ⟨rfl, (collateField_iff x specs samples hne k o).mp hk⟩ ((ih l).mp hks)
        · intro h
          cases h with
          | cons hr ht =>
            rw [← ih, hks] at ht
            rw [← collateField_iff x specs samples hne, hk] at hr
            obtain ⟨h1, h2⟩ := hr
            cases ht
            cases h2
            rw [← h1]

theorem validateAll_iff (x : Lib A) (specs : List Spec) (samples : List (Dict A)) : validateAll x specs samples = .ok () ↔
    ∀ d ∈ samples, SampleOk x specs d := by
  induction samples with
  | nil => simp [validateAll]
  | cons d l ih =>
    rw [validateAll, seq_ok, C104_sample_iff, ih]
    simp

theorem sameKeys_iff (d e : Dict A) : sameKeys d e = true ↔ ∀ k, k ∈ names d ↔ k ∈ names e := by
  unfold sameKeys
  rw [Bool.and_eq_true, List.all_eq_true, List.all_eq_true]
  simp only [List.contains_iff_mem]
  exact ⟨fun h k => ⟨h.1 k, h.2 k⟩, fun h => ⟨fun k hk => (h k).mp hk, fun k hk => (h k).mpr hk⟩⟩

/-- **C104** (collation).  A batch is returned exactly when there is a first sample, every sample has its fields (in any order), the samples
are valid (when asked for), and every field can be made from the samples' values; the batch then has exactly these fields, in the order of
the first sample, each made of the samples' values in order. -/
theorem C104_collate_iff (x : Lib A) (specs : List Spec) (validate : Bool) (samples : List (Dict A)) (out : List (String × Out A)) :
    collate x specs validate samples = .ok out ↔
      ∃ first rest, samples = first :: rest ∧ (∀ d ∈ rest, ∀ k, k ∈ names d ↔ k ∈ names first)
        ∧ (validate = true → ∀ d ∈ samples, SampleOk x specs d)
        ∧ List.Forall₂ (fun k e => e.1 = k ∧ FieldOf x specs samples k e.2) (names first) out := by
  unfold collate
  cases samples with
  | nil => simp
  | cons s rest =>
    simp only [List.cons.injEq]
    by_cases h : rest.any (fun d => !sameKeys d s) = true
    · rw [if_pos h]
      refine ⟨fun h => by simp at h, ?_⟩
      rintro ⟨f, r, ⟨rfl, rfl⟩, hk, _⟩
      obtain ⟨d, hd, hn⟩ := List.any_eq_true.mp h
      rw [(sameKeys_iff d _).mpr (hk d hd)] at hn
      exact absurd hn (by decide)
    · rw [if_neg h]
      have hk : ∀ d ∈ rest, ∀ k, k ∈ names d ↔ k ∈ names s := by
        intro d hd
        rw [← sameKeys_iff]
        by_contra hc
        exact h (List.any_eq_true.mpr ⟨d, hd, by simpa using hc⟩)
      rw [seq_ok, seq_ok, collateKeys_iff x specs (s :: rest) (by simp)]
      cases validate with
      | false =>
        simp only [Bool.false_eq_true, if_false, true_and, false_implies]
        exact ⟨fun h => ⟨s, rest, ⟨rfl, rfl⟩, hk, h⟩, by rintro ⟨f, r, ⟨rfl, rfl⟩, _, h⟩; exact h⟩
      | true =>
        simp only [if_true, true_implies]
        rw [validateAll_iff, checkNames_iff]
        constructor
        · rintro ⟨h1, _, h3⟩
          exact ⟨s, rest, ⟨rfl, rfl⟩, hk, h1, h3⟩
        · rintro ⟨f, r, ⟨rfl, rfl⟩, _, h1, h3⟩
          exact ⟨h1, (h1 _ List.mem_cons_self).names, h3⟩

/-- What rows and stacks have to do with each other, and the kind of a stack of values of one kind. -/
structure Laws (x : Lib A) : Prop where
  rows_stack : ∀ l, x.rows (x.stack l) = l
  promote_same : ∀ k l, l ≠ [] → (∀ c ∈ l, c = k) → x.promote l = k
  symm : ∀ a b, x.eq a b = x.eq b a

/-- The fields of a batch as values, when all of them were stacked. -/
def stackedDict : List (String × Out A) → Option (Dict A)
  | [] => some []
  | (k, .stacked v) :: l => (stackedDict l).map fun d => (k, v) :: d
  | (_, .listed _) :: _ => none

theorem stackedDict_forall2 (out : List (String × Out A)) (d : Dict A) (h : stackedDict out = some d) :
    List.Forall₂ (fun e f => e.1 = f.1 ∧ e.2 = .stacked f.2) out d := by
  induction out generalizing d with
  | nil => simp [stackedDict] at h; subst h; exact List.Forall₂.nil
  | cons e l ih =>
    obtain ⟨k, o⟩ := e
    cases o with
    | listed vs => simp [stackedDict] at h
    | stacked v =>
      rw [stackedDict, Option.map_eq_some_iff] at h
      obtain ⟨d', h1, h2⟩ := h
      subst h2
      exact List.Forall₂.cons ⟨rfl, rfl⟩ (ih d' h1)

theorem names_eq (ks : List String) (out : List (String × Out A)) (P : String → Out A → Prop)
    (h : List.Forall₂ (fun k e => e.1 = k ∧ P k e.2) ks out) (d : Dict A)
    (hd : List.Forall₂ (fun e f => e.1 = f.1 ∧ e.2 = Out.stacked f.2) out d) :
    names d = ks ∧ ∀ k v, (k, v) ∈ d → P k (.stacked v) := by
  induction h generalizing d with
  | nil => cases hd; exact ⟨rfl, by simp⟩
  | cons hr _ ih =>
    cases hd with
    | cons h1 h2 =>
      obtain ⟨i1, i2⟩ := ih _ h2
      refine ⟨by simp only [names, List.map_cons] at *; rw [i1, ← h1.1, hr.1], ?_⟩
      intro k v hm
      rcases List.mem_cons.mp hm with e | e
      · rw [← e] at h1
        have := hr.2
        rw [h1.2, ← hr.1, h1.1] at this
        exact this
      · exact i2 k v e

/-- **C104** (from samples to a valid batch).  When collation succeeds and every field was stacked from values of one kind, the batch is the
batch of the samples: row `i` of every field is sample `i`'s value. If the samples were validated, the batch validator accepts it. -/
theorem C104_collated (x : Lib A) (hx : Laws x) (specs : List Spec) (hp : Plain specs)
    (hbs : ∃ s ∈ specs, s.name = "board_size" ∧ s.required = true) (samples : List (Dict A)) (hnd : ∀ s ∈ samples, (names s).Nodup)
    (out : List (String × Out A)) (h : collate x specs true samples = .ok out) (d : Dict A) (hd : stackedDict out = some d)
    (hk : ∀ k, ∀ s ∈ samples, ∀ t ∈ samples, ∀ v w, get s k = some v → get t k = some w → v.kind = w.kind)
    (hrefl : ∀ k t, specOf specs k = some t → t.shared = true → ∀ s ∈ samples, ∀ v, get s k = some v → x.eq v.body v.body = true) :
    BatchOf x samples d ∧ validateBatch x specs d = .ok () := by
  obtain ⟨first, rest, hs, hkeys, hval, hf⟩ := (C104_collate_iff x specs true samples out).mp h
  have hfm : first ∈ samples := by rw [hs]; exact List.mem_cons_self
  have hne : samples ≠ [] := by rw [hs]; simp
  obtain ⟨hn, hfields⟩ := names_eq _ _ _ hf d (stackedDict_forall2 out d hd)
  have hb : BatchOf x samples d := by
    refine ⟨by rw [hn]; exact hnd first hfm, hnd, ?_, ?_⟩
    · intro s hsm k
      rw [hn]
      rw [hs] at hsm
      rcases List.mem_cons.mp hsm with e | e
      · rw [e]
      · exact hkeys s e k
    · intro k v hm
      obtain ⟨vs, h1, h2, _⟩ := (hfields k v hm).values
      rcases h2 with ⟨c, v', _, ho, hstack⟩ | ⟨_, ho⟩
      · cases ho
        obtain ⟨sh, hall, hshape⟩ := hstack.shape
        have hvne : vs ≠ [] := by
          intro e
          have := forall2_length h1
          rw [e] at this
          exact hne (List.length_eq_zero_iff.mp this)
        refine ⟨sh, vs, h1, fun w hw => ⟨hall w hw, ?_⟩, by rw [hshape, forall2_length h1], by rw [hstack.body, hx.rows_stack]⟩
        rw [hstack.kind]
        refine (hx.promote_same w.kind _ (by simpa using hvne) fun c hc => ?_).symm
        obtain ⟨w', hw', rfl⟩ := List.mem_map.mp hc
        obtain ⟨s, hsm, g1⟩ := forall2_mem_right _ _ _ h1 w hw
        obtain ⟨t, htm, g2⟩ := forall2_mem_right _ _ _ h1 w' hw'
        exact hk k t htm s hsm w' w g2 g1
      · cases ho
  refine ⟨hb, ?_⟩
  rw [C104_batch_iff x specs hp hbs samples hne d hb]
  refine ⟨fun s hsm => (C104_sample_iff x specs s).mpr (hval rfl s hsm), ?_⟩
  intro k t ht hsh e he f hfh v w hv hw
  rw [hs] at hfh
  simp only [List.head?_cons, Option.mem_def, Option.some.injEq] at hfh
  subst hfh
  obtain ⟨V, hV⟩ := (mem_names d k).mp ((hb.keys first hfm k).mp (get_names _ _ _ hw))
  obtain ⟨vs, h1, _, h3⟩ := (hfields k V hV).values
  have hagree := (h3 t ht).1 hsh
  obtain ⟨c, hc, hg⟩ := forall2_mem_left _ _ _ h1 e he
  rw [hv] at hg
  cases hg
  rw [hs] at h1
  cases h1 with
  | cons hr _ =>
    rw [hw] at hr
    cases hr
    rcases List.mem_cons.mp hc with e' | e'
    · rw [e']
      exact hrefl k t ht hsh first hfm w hw
    · rw [hx.symm]
      exact (hagree w (by simp) v (by simpa using e')).2

/-! ### Files -/

theorem addAlias_mem (t : List (Identity × List String)) (i : Identity) (p : String) :
    (t.map Prod.fst).Nodup → ((addAlias t i p).map Prod.fst).Nodup := by
  have hfst : ∀ t : List (Identity × List String), ∀ j ∈ (addAlias t i p).map Prod.fst, j = i ∨ j ∈ t.map Prod.fst := by
    intro t
    induction t with
    | nil => simp [addAlias]
    | cons e t ih =>
      intro j hj
      rw [addAlias] at hj
      split_ifs at hj with h
      · exact Or.inr hj
      · simp only [List.map_cons, List.mem_cons] at hj ⊢
        rcases hj with hj | hj
        · exact Or.inr (Or.inl hj)
        · rcases ih j hj with h' | h'
          · exact Or.inl h'
          · exact Or.inr (Or.inr h')
  induction t with
  | nil => simp [addAlias]
  | cons e t ih =>
    intro hn
    rw [List.map_cons, List.nodup_cons] at hn
    rw [addAlias]
    split_ifs with h
    · rw [List.map_cons, List.nodup_cons]
      exact hn
    · rw [List.map_cons, List.nodup_cons]
      refine ⟨fun hm => ?_, ih hn.2⟩
      rcases hfst t _ hm with h' | h'
      · exact h h'
      · exact hn.1 h'

/-- The spellings recorded for an identity. -/
def aliases (t : List (Identity × List String)) (i : Identity) : List String := ((t.find? fun e => decide (e.1 = i)).map Prod.snd).getD []

theorem aliases_add (t : List (Identity × List String)) (i j : Identity) (p : String) :
    aliases (addAlias t i p) j = if i = j then aliases t j ++ [p] else aliases t j := by
  induction t with
  | nil =>
    unfold addAlias aliases
    by_cases h : i = j <;> simp [h]
  | cons e t ih =>
    rw [addAlias]
    by_cases he : e.1 = i
    · rw [if_pos he]
      unfold aliases
      by_cases h : i = j
      · simp [he, h]
      · simp [he, h]
    · rw [if_neg he]
      unfold aliases at ih ⊢
      by_cases h2 : e.1 = j
      · have : i ≠ j := fun h => he (h2.trans h.symm)
        simp [h2, this]
      · rw [List.find?_cons_of_neg (by simpa using h2), List.find?_cons_of_neg (by simpa using h2)]
        exact ih

/-- What the loop leaves behind. -/
theorem scanFiles_ok (fs : Fs) (ps normalized : List String) (t : List (Identity × List String)) (n' : List String)
    (t' : List (Identity × List String)) (hn : (t.map Prod.fst).Nodup) (h : scanFiles fs ps normalized t = .ok (n', t')) :
    n' = normalized ++ ps.map fs.real ∧ (t'.map Prod.fst).Nodup ∧ (∀ p ∈ ps, (identity fs p).isSome)
      ∧ ∀ i, aliases t' i = aliases t i ++ ps.filter fun p => decide (identity fs p = some i) := by
  induction ps generalizing normalized t with
  | nil =>
    simp only [scanFiles, Except.ok.injEq, Prod.mk.injEq] at h
    obtain ⟨rfl, rfl⟩ := h
    simp [hn]
  | cons p ps ih =>
    rw [scanFiles] at h
    cases hi : identity fs p with
    | none => rw [hi] at h; simp at h
    | some i =>
      rw [hi] at h
      simp only at h
      obtain ⟨h1, h2, h3, h4⟩ := ih _ _ (addAlias_mem t i p hn) h
      refine ⟨by rw [h1]; simp, h2, ?_, ?_⟩
      · intro q hq
        rcases List.mem_cons.mp hq with e | e
        · rw [e, hi]; rfl
        · exact h3 q e
      · intro j
        rw [h4, aliases_add]
        by_cases hij : i = j
        · subst hij
          rw [if_pos rfl, List.filter_cons_of_pos (by simp [hi])]
          simp
        · rw [if_neg hij, List.filter_cons_of_neg (by simp [hi, hij])]

theorem scanFiles_error (fs : Fs) (ps normalized : List String) (t : List (Identity × List String)) (e : String)
    (h : scanFiles fs ps normalized t = .error e) : ∃ p ∈ ps, identity fs p = none := by
  induction ps generalizing normalized t with
  | nil => simp [scanFiles] at h
  | cons p ps ih =>
    rw [scanFiles] at h
    cases hi : identity fs p with
    | none => exact ⟨p, List.mem_cons_self, hi⟩
    | some i =>
      rw [hi] at h
      obtain ⟨q, hq, hq2⟩ := ih _ _ h
      exact ⟨q, List.mem_cons_of_mem _ hq, hq2⟩

theorem filter_le_one {B : Type} (l : List B) (f : B → Option Identity) :
    (∀ i, (l.filter fun p => decide (f p = some i)).length ≤ 1) ↔ l.Pairwise fun p q => ∀ i, f p = some i → f q ≠ some i := by
  induction l with
  | nil => simp
  | cons p l ih =>
    rw [List.pairwise_cons, ← ih]
    constructor
    · intro h
      constructor
      · intro q hq i hp hqi
        have := h i
        rw [List.filter_cons_of_pos (by simp [hp])] at this
        have hm : q ∈ l.filter fun p => decide (f p = some i) := List.mem_filter.mpr ⟨hq, by simp [hqi]⟩
        have := List.length_pos_of_mem hm
        simp only [List.length_cons] at *
        omega
      · intro i
        refine le_trans (List.Sublist.length_le ?_) (h i)
        exact List.Sublist.filter _ (List.sublist_cons_self _ _)
    · rintro ⟨h1, h2⟩ i
      by_cases hp : f p = some i
      · rw [List.filter_cons_of_pos (by simp [hp])]
        have : (l.filter fun p => decide (f p = some i)) = [] := by
          rw [List.filter_eq_nil_iff]
          intro q hq
          simpa using h1 q hq i hp
        rw [this]
        simp
      · rw [List.filter_cons_of_neg (by simp [hp])]
        exact h2 i

theorem mem_of_aliases (t : List (Identity × List String)) (i : Identity) (h : aliases t i ≠ []) : (i, aliases t i) ∈ t := by
  unfold aliases at h ⊢
  cases hf : t.find? fun e => decide (e.1 = i) with
  | none => rw [hf] at h; simp at h
  | some e =>
    have h1 := List.mem_of_find?_eq_some hf
    have h2 := List.find?_some hf
    simp only [decide_eq_true_eq] at h2
    simp only [Option.map_some, Option.getD_some]
    rw [← h2]
    exact h1

theorem aliases_of_mem (t : List (Identity × List String)) (hn : (t.map Prod.fst).Nodup) (i : Identity) (g : List String) (h : (i, g) ∈ t) :
    aliases t i = g := by
  induction t with
  | nil => simp at h
  | cons e t ih =>
    rw [List.map_cons, List.nodup_cons] at hn
    unfold aliases
    rcases List.mem_cons.mp h with h | h
    · subst h; simp
    · have hne : e.1 ≠ i := fun he => hn.1 (List.mem_map.mpr ⟨(i, g), h, he.symm⟩)
      rw [List.find?_cons_of_neg (by simpa using hne)]
      exact ih hn.2 h

/-- **C104** (physical files).  A list of files is accepted exactly when all exist and no two are the same physical file, however they are
spelled; the result is the real path of every file, in order. -/
theorem C104_files_iff (fs : Fs) (paths result : List String) : rejectDuplicates fs paths = .ok result ↔
    result = paths.map fs.real ∧ (∀ p ∈ paths, (identity fs p).isSome) ∧ paths.Pairwise fun p q => identity fs p ≠ identity fs q := by
  have pw : (∀ p ∈ paths, (identity fs p).isSome) → ((paths.Pairwise fun p q => ∀ i, identity fs p = some i → identity fs q ≠ some i) ↔
      paths.Pairwise fun p q => identity fs p ≠ identity fs q) := by
    intro hall
    constructor
    · intro h
      refine h.imp_of_mem fun {p q} hp _ hpq he => ?_
      obtain ⟨i, hi⟩ := Option.isSome_iff_exists.mp (hall p hp)
      exact hpq i hi (he ▸ hi)
    · intro h
      exact h.imp fun {p q} hpq i h1 h2 => hpq (h1.trans h2.symm)
  unfold rejectDuplicates
  cases hs : scanFiles fs paths [] [] with
  | error e =>
    simp only
    refine ⟨fun h => by simp at h, fun h => ?_⟩
    obtain ⟨p, hp, hi⟩ := scanFiles_error fs paths _ _ _ hs
    have := h.2.1 p hp
    rw [hi] at this
    cases this
  | ok r =>
    obtain ⟨n', t'⟩ := r
    obtain ⟨h1, h2, h3, h4⟩ := scanFiles_ok fs paths [] [] n' t' (by simp) hs
    simp only [List.nil_append] at h1
    have h4' : ∀ i, aliases t' i = paths.filter fun p => decide (identity fs p = some i) := by
      intro i
      rw [h4]
      rfl
    have hg : (t'.map Prod.snd).filter (fun g => decide (1 < g.length)) = [] ↔ paths.Pairwise fun p q => identity fs p ≠ identity fs q := by
      rw [← pw h3, ← filter_le_one]
      rw [List.filter_eq_nil_iff]
      constructor
      · intro h i
        by_contra hc
        have hne : aliases t' i ≠ [] := by
          rw [h4']
          intro e
          rw [e] at hc
          simp at hc
        have := h _ (List.mem_map.mpr ⟨_, mem_of_aliases t' i hne, rfl⟩)
        simp only [decide_eq_true_eq] at this
        rw [h4'] at this
        omega
      · intro h g hgm
        obtain ⟨⟨i, g'⟩, he, rfl⟩ := List.mem_map.mp hgm
        have := h i
        rw [← h4', aliases_of_mem t' h2 i g' he] at this
        simp
        omega
    simp only
    by_cases hgr : (t'.map Prod.snd).filter (fun g => decide (1 < g.length)) = []
    · rw [if_neg (not_not.mpr hgr)]
      simp only [Except.ok.injEq]
      rw [hg] at hgr
      exact ⟨fun h => ⟨h ▸ h1, h3, hgr⟩, fun h => h1.trans h.1.symm⟩
    · rw [if_pos hgr]
      refine ⟨fun h => by simp at h, fun h => ?_⟩
      exact absurd (hg.mpr h.2.2) hgr

/-- **C104** (physical files, the message).  When existing files are refused, the groups in the message are exactly the sets of two or more
configured spellings of one physical file, each in the configured order. -/
theorem C104_files_groups (fs : Fs) (paths : List String) (groups : List (List String))
    (h : rejectDuplicates fs paths = .error (.duplicates groups)) (g : List String) :
    g ∈ groups ↔ ∃ i, g = (paths.filter fun p => decide (identity fs p = some i)) ∧ 2 ≤ g.length := by
  unfold rejectDuplicates at h
  cases hs : scanFiles fs paths [] [] with
  | error e => rw [hs] at h; simp at h
  | ok r =>
    obtain ⟨n', t'⟩ := r
    rw [hs] at h
    obtain ⟨h1, h2, h3, h4⟩ := scanFiles_ok fs paths [] [] n' t' (by simp) hs
    have h4' : ∀ i, aliases t' i = paths.filter fun p => decide (identity fs p = some i) := by
      intro i
      rw [h4]
      rfl
    simp only at h
    by_cases hgr : (t'.map Prod.snd).filter (fun g => decide (1 < g.length)) = []
    · rw [if_neg (not_not.mpr hgr)] at h; simp at h
    · rw [if_pos hgr] at h
      simp only [Except.error.injEq, Rejected.duplicates.injEq] at h
      rw [← h, List.mem_filter]
      simp only [decide_eq_true_eq]
      constructor
      · rintro ⟨hm, hl⟩
        obtain ⟨⟨i, g'⟩, he, rfl⟩ := List.mem_map.mp hm
        exact ⟨i, by rw [← h4', aliases_of_mem t' h2 i g' he], hl⟩
      · rintro ⟨i, he, hl⟩
        refine ⟨?_, hl⟩
        have hne : aliases t' i ≠ [] := by
          rw [h4', ← he]
          intro e
          rw [e] at hl
          simp at hl
        have := mem_of_aliases t' i hne
        rw [h4', ← he] at this
        exact List.mem_map.mpr ⟨_, this, rfl⟩

/-- Two paths name one physical file: the same device and inode, or, on a file system without inodes, the same resolved path up to case. -/
def SameFile (fs : Fs) (p q : String) : Prop :=
  ∃ d i e j, fs.stat (fs.real p) = some (d, i) ∧ fs.stat (fs.real q) = some (e, j)
    ∧ ((i ≠ 0 ∧ d = e ∧ i = j) ∨ (i = 0 ∧ j = 0 ∧ fs.fold (fs.real p) = fs.fold (fs.real q)))

/-- **C104.** A list of configured paths is accepted exactly when every file exists and no two entries name one physical file; the result is
the list of resolved paths, in order. -/
theorem C104_files_same (fs : Fs) (paths result : List String) : rejectDuplicates fs paths = .ok result ↔
    result = paths.map fs.real ∧ (∀ p ∈ paths, ∃ f, fs.stat (fs.real p) = some f) ∧ paths.Pairwise fun p q => ¬ SameFile fs p q := by
  have hs : ∀ p, (identity fs p).isSome ↔ ∃ f, fs.stat (fs.real p) = some f := by
    intro p
    unfold identity
    cases fs.stat (fs.real p) <;> simp
  have hid : ∀ p q, (identity fs p).isSome → (identity fs p = identity fs q ↔ SameFile fs p q) := by
    intro p q hp
    obtain ⟨⟨d, i⟩, hf⟩ := (hs p).mp hp
    unfold SameFile identity
    rw [hf]
    cases hq : fs.stat (fs.real q) with
    | none => simp
    | some g =>
      obtain ⟨e, j⟩ := g
      by_cases h1 : i = 0 <;> by_cases h2 : j = 0
      · subst h1 h2; simp
      · subst h1; simp [h2]
      · subst h2; simp [h1]
      · simp [h1, h2]
  rw [C104_files_iff]
  constructor
  · rintro ⟨h1, h2, h3⟩
    refine ⟨h1, fun p hp => (hs p).mp (h2 p hp), h3.imp_of_mem fun {p q} hp _ hn hc => hn ((hid p q (h2 p hp)).mpr hc)⟩
  · rintro ⟨h1, h2, h3⟩
    refine ⟨h1, fun p hp => (hs p).mpr (h2 p hp), h3.imp_of_mem fun {p q} hp _ hn hc => hn ((hid p q ((hs p).mpr (h2 p hp))).mp hc)⟩

end Verif.Collate
