import Verif.Collate.Model
import Mathlib.Tactic.ByContra
import Mathlib.Tactic.SplitIfs
import Mathlib.Data.List.Forall2
import Mathlib.Data.List.Nodup

/-!
# C104: samples and batches of samples
-/
namespace Verif.Collate
open Verif.Pipe (Spec Collate Transform)

variable {A : Type}

/-! ## Specification -/

/-- `a` is an axis of an array of rank `ndim` (negative axes count from the end). -/
def AxisOk (ndim : Nat) (a : Int) : Prop := -(ndim : Int) ≤ a ∧ a < ndim

/-- The size of an axis. -/
def sizeAt (shape : List Nat) (a : Int) : Int := shape.getD (if 0 ≤ a then a.toNat else shape.length - (-a).toNat) 0

/-- The two axes cover a board. -/
def Covers (shape : List Nat) (p q : Int) (size : List Int) : Prop := ∀ e ∈ [sizeAt shape p, sizeAt shape q].zip size, e.2 ≤ e.1

/-- A sample's value fits the declaration of its field. -/
structure FieldOk (size : List Int) (s : Spec) (v : Val A) : Prop where
  kind : v.kind ∈ s.kinds
  spatial : ∀ p q, s.spatial = some (p, q) → AxisOk v.shape.length p ∧ AxisOk v.shape.length q ∧ Covers v.shape p q size
  side : ∀ a, s.side = some a → AxisOk v.shape.length a

/-- The fields of a dictionary are declared, and nothing required is missing. -/
structure NamesOk {B : Type} (specs : List Spec) (d : List (String × B)) : Prop where
  declared : ∀ k ∈ names d, ∃ s ∈ specs, s.name = k
  required : ∀ s ∈ specs, s.required = true → s.name ∈ names d

/-- A valid sample. -/
structure SampleOk (x : Lib A) (specs : List Spec) (d : Dict A) : Prop where
  names : NamesOk specs d
  fields : ∃ b, get d "board_size" = some b ∧ b.shape = [2]
    ∧ ∀ k v s, (k, v) ∈ d → specOf specs k = some s → FieldOk (x.ints b.body) s v

/-- `d` is the batch of `samples`: the same fields; every field has one row per sample, in order, with that sample's contents, and the
values of a field have one shape and one kind. -/
structure BatchOf (x : Lib A) (samples : List (Dict A)) (d : Dict A) : Prop where
  nodup : (names d).Nodup
  nodups : ∀ s ∈ samples, (names s).Nodup
  keys : ∀ s ∈ samples, ∀ k, k ∈ names s ↔ k ∈ names d
  values : ∀ k v, (k, v) ∈ d → ∃ sh vs, List.Forall₂ (fun s w => get s k = some w) samples vs
    ∧ (∀ w ∈ vs, w.shape = sh ∧ w.kind = v.kind) ∧ v.shape = samples.length :: sh ∧ x.rows v.body = vs.map Val.body

/-- All samples have the same value in a shared field. -/
def SharedAgree (x : Lib A) (specs : List Spec) (samples : List (Dict A)) : Prop :=
  ∀ k s, specOf specs k = some s → s.shared = true → ∀ d ∈ samples, ∀ e ∈ samples.head?, ∀ v w, get d k = some v → get e k = some w →
    x.eq v.body w.body = true

/-- What the declarations must satisfy (the core ones do): shared fields have no axes, side axes count from the front. -/
def Plain (specs : List Spec) : Prop :=
  ∀ s ∈ specs, (s.shared = true → s.spatial = none ∧ s.side = none) ∧ ∀ a, s.side = some a → 0 ≤ a

/-! ## Lemmas -/

theorem inRange_sample (n : Nat) (a : Int) : inRange n (axisSample n a) = true ↔ AxisOk n a := by
  unfold inRange axisSample AxisOk
  split_ifs <;> simp <;> omega

theorem dim_sample (shape : List Nat) (a : Int) (h : AxisOk shape.length a) : dim shape (axisSample shape.length a) = sizeAt shape a := by
  unfold dim axisSample sizeAt AxisOk at *
  split_ifs with h0
  · rfl
  · congr 2
    omega

theorem smaller_false (p l : List Int) : smaller p l = false ↔ ∀ e ∈ p.zip l, e.2 ≤ e.1 := by
  unfold smaller
  rw [List.any_eq_false]
  constructor
  · intro h e he
    have := h e he
    simpa using this
  · intro h e he
    have := h e he
    simpa using this

theorem spatialSample_iff (size : List Int) (s : Spec) (v : Val A) : spatialSample size s v = .ok () ↔
    ∀ p q, s.spatial = some (p, q) → AxisOk v.shape.length p ∧ AxisOk v.shape.length q ∧ Covers v.shape p q size := by
  unfold spatialSample
  cases hs : s.spatial with
  | none => simp
  | some pq =>
    obtain ⟨p, q⟩ := pq
    simp only [Option.some.injEq, Prod.mk.injEq]
    by_cases h1 : (inRange v.shape.length (axisSample v.shape.length p) && inRange v.shape.length (axisSample v.shape.length q)) = false
    · rw [if_pos h1]
      refine ⟨fun h => by simp at h, fun h => ?_⟩
      obtain ⟨a, b, _⟩ := h p q ⟨rfl, rfl⟩
      rw [(inRange_sample _ _).mpr a, (inRange_sample _ _).mpr b] at h1
      exact absurd h1 (by decide)
    · rw [if_neg h1]
      rw [Bool.not_eq_false, Bool.and_eq_true, inRange_sample, inRange_sample] at h1
      rw [dim_sample _ _ h1.1, dim_sample _ _ h1.2]
      by_cases h2 : smaller [sizeAt v.shape p, sizeAt v.shape q] size = true
      · rw [if_pos h2]
        refine ⟨fun h => by simp at h, fun h => ?_⟩
        obtain ⟨_, _, c⟩ := h p q ⟨rfl, rfl⟩
        rw [(smaller_false _ _).mpr c] at h2
        exact absurd h2 (by decide)
      · rw [if_neg h2]
        rw [Bool.not_eq_true, smaller_false] at h2
        simp only [true_iff]
        rintro p' q' ⟨rfl, rfl⟩
        exact ⟨h1.1, h1.2, h2⟩

theorem sideSample_iff (s : Spec) (v : Val A) : sideSample s v = .ok () ↔ ∀ a, s.side = some a → AxisOk v.shape.length a := by
  unfold sideSample
  cases hs : s.side with
  | none => simp
  | some a =>
    simp only [Option.some.injEq, forall_eq']
    by_cases h : inRange v.shape.length (axisSample v.shape.length a) = false
    · rw [if_pos h]
      refine ⟨fun h => by simp at h, fun h' => ?_⟩
      rw [(inRange_sample _ _).mpr h'] at h
      exact absurd h (by decide)
    · rw [if_neg h, Bool.not_eq_false, inRange_sample] at *
      simp [h]

theorem ok_unit (e : Except String Unit) : (∃ u, e = .ok u) ↔ e = .ok () := by
  constructor
  · rintro ⟨⟨⟩, h⟩; exact h
  · intro h; exact ⟨(), h⟩

theorem seq_ok {B : Type} (e : Except String Unit) (f : Except String B) (b : B) :
    andThen e f = .ok b ↔ e = .ok () ∧ f = .ok b := by
  unfold andThen
  cases e with
  | error m => simp
  | ok u => cases u; simp

theorem validateSampleField_iff (size : List Int) (s : Spec) (v : Val A) : validateSampleField size s v = .ok () ↔ FieldOk size s v := by
  unfold validateSampleField
  by_cases h : s.kinds.contains v.kind = false
  · rw [if_pos h]
    refine ⟨fun h => by simp at h, fun h' => ?_⟩
    rw [List.contains_iff_mem.mpr h'.kind] at h
    exact absurd h (by decide)
  · rw [if_neg h, seq_ok, spatialSample_iff, sideSample_iff]
    rw [Bool.not_eq_false, List.contains_iff_mem] at h
    exact ⟨fun h' => ⟨h, h'.1, h'.2⟩, fun h' => ⟨h'.spatial, h'.side⟩⟩

theorem specOf_some (specs : List Spec) (k : String) (s : Spec) (h : specOf specs k = some s) : s ∈ specs ∧ s.name = k := by
  unfold specOf at h
  exact ⟨List.mem_of_find?_eq_some h, by simpa using List.find?_some h⟩

theorem specOf_isNone (specs : List Spec) (k : String) : (specOf specs k).isNone = true ↔ ¬ ∃ s ∈ specs, s.name = k := by
  unfold specOf
  rw [Option.isNone_iff_eq_none, List.find?_eq_none]
  simp

theorem checkNames_iff {B : Type} (specs : List Spec) (d : List (String × B)) : checkNames specs d = .ok () ↔ NamesOk specs d := by
  unfold checkNames
  by_cases h1 : (names d).any (fun k => (specOf specs k).isNone) = true
  · rw [if_pos h1]
    refine ⟨fun h => by simp at h, fun h => ?_⟩
    obtain ⟨k, hk, hn⟩ := List.any_eq_true.mp h1
    exact absurd (h.declared k hk) ((specOf_isNone _ _).mp hn)
  · rw [if_neg h1]
    by_cases h2 : specs.any (fun s => s.required && !(names d).contains s.name) = true
    · rw [if_pos h2]
      refine ⟨fun h => by simp at h, fun h => ?_⟩
      obtain ⟨s, hs, hn⟩ := List.any_eq_true.mp h2
      rw [Bool.and_eq_true] at hn
      have := h.required s hs hn.1
      rw [List.contains_iff_mem.mpr this] at hn
      exact absurd hn.2 (by decide)
    · rw [if_neg h2]
      simp only [true_iff]
      constructor
      · intro k hk
        by_contra hc
        exact h1 (List.any_eq_true.mpr ⟨k, hk, (specOf_isNone _ _).mpr hc⟩)
      · intro s hs hr
        by_contra hc
        refine h2 (List.any_eq_true.mpr ⟨s, hs, ?_⟩)
        rw [hr, Bool.true_and]
        simpa [List.contains_iff_mem] using hc

theorem validateSampleFields_iff (specs : List Spec) (size : List Int) (d : Dict A) (hd : ∀ k ∈ names d, ∃ s ∈ specs, s.name = k) :
    validateSampleFields specs size d = .ok () ↔ ∀ k v s, (k, v) ∈ d → specOf specs k = some s → FieldOk size s v := by
  induction d with
  | nil => simp [validateSampleFields]
  | cons e d ih =>
    obtain ⟨k, v⟩ := e
    rw [validateSampleFields]
    cases hs : specOf specs k with
    | none =>
      have := (specOf_isNone specs k).mp (by rw [hs]; rfl)
      exact absurd (hd k (by simp [names])) this
    | some s =>
      simp only
      rw [seq_ok, validateSampleField_iff, ih fun k hk => hd k (by simp only [names, List.map_cons, List.mem_cons] at *; exact Or.inr hk)]
      constructor
      · rintro ⟨h1, h2⟩ k' v' s' hm hs'
        rcases List.mem_cons.mp hm with h | h
        · cases h
          rw [hs] at hs'
          cases hs'
          exact h1
        · exact h2 k' v' s' h hs'
      · intro h
        exact ⟨h k v s List.mem_cons_self hs, fun k' v' s' hm hs' => h k' v' s' (List.mem_cons_of_mem _ hm) hs'⟩

/-- **C104** (samples).  The sample validator accepts exactly the valid samples. -/
theorem C104_sample_iff (x : Lib A) (specs : List Spec) (d : Dict A) : validateSample x specs d = .ok () ↔ SampleOk x specs d := by
  unfold validateSample
  rw [seq_ok, checkNames_iff]
  constructor
  · rintro ⟨hn, h⟩
    refine ⟨hn, ?_⟩
    cases hb : get d "board_size" with
    | none => rw [hb] at h; simp at h
    | some b =>
      rw [hb] at h
      simp only at h
      by_cases h2 : b.shape = [2]
      · rw [if_neg (not_not.mpr h2), validateSampleFields_iff _ _ _ hn.declared] at h
        exact ⟨b, rfl, h2, h⟩
      · rw [if_pos h2] at h
        simp at h
  · rintro ⟨hn, b, hb, h2, h⟩
    refine ⟨hn, ?_⟩
    rw [hb]
    simp only
    rw [if_neg (not_not.mpr h2), validateSampleFields_iff _ _ _ hn.declared]
    exact h

/-! ### Batches -/

theorem axisBatch_succ (m : Nat) (a : Int) : axisBatch false (m + 1) a = axisSample m a + 1 := by
  unfold axisBatch axisSample
  split_ifs <;> first | contradiction | (push_cast; omega)

theorem dim_succ (n : Nat) (sh : List Nat) (a : Int) (h : 0 ≤ a) : dim (n :: sh) (a + 1) = dim sh a := by
  unfold dim
  have : (a + 1).toNat = a.toNat + 1 := by omega
  rw [this, List.getD_cons_succ]

theorem spatialBatch_iff (sizes : List (List Int)) (hne : sizes ≠ []) (s : Spec) (hs : s.shared = true → s.spatial = none) (v : Val A)
    (n : Nat) (sh : List Nat) (hv : v.shape = n :: sh) : spatialBatch sizes s v = .ok () ↔
      ∀ size ∈ sizes, ∀ p q, s.spatial = some (p, q) → AxisOk sh.length p ∧ AxisOk sh.length q ∧ Covers sh p q size := by
  unfold spatialBatch
  cases hsp : s.spatial with
  | none => simp
  | some pq =>
    obtain ⟨p, q⟩ := pq
    have hsf : s.shared = false := by
      cases h : s.shared with
      | false => rfl
      | true => rw [hs h] at hsp; cases hsp
    simp only [Option.some.injEq, Prod.mk.injEq]
    rw [hv, hsf, List.length_cons, axisBatch_succ, axisBatch_succ]
    have key : ∀ a, (inRange (sh.length + 1) (axisSample sh.length a + 1) = true ∧ axisSample sh.length a + 1 ≠ 0)
        ↔ AxisOk sh.length a := by
      intro a
      rw [← inRange_sample]
      unfold inRange axisSample
      split_ifs <;> simp <;> omega
    obtain ⟨s0, hs0⟩ := List.exists_mem_of_ne_nil _ hne
    by_cases h1 : (inRange (sh.length + 1) (axisSample sh.length p + 1) && inRange (sh.length + 1) (axisSample sh.length q + 1)) = false
    · rw [if_pos h1]
      refine ⟨fun h => by simp at h, fun h => ?_⟩
      obtain ⟨a, b, _⟩ := h s0 hs0 p q ⟨rfl, rfl⟩
      rw [((key p).mpr a).1, ((key q).mpr b).1] at h1
      exact absurd h1 (by decide)
    · rw [if_neg h1]
      rw [Bool.not_eq_false, Bool.and_eq_true] at h1
      by_cases h2 : False = False ∧ (axisSample sh.length p + 1 = 0 ∨ axisSample sh.length q + 1 = 0)
      · rw [if_pos ⟨rfl, h2.2⟩]
        refine ⟨fun h => by simp at h, fun h => ?_⟩
        obtain ⟨a, b, _⟩ := h s0 hs0 p q ⟨rfl, rfl⟩
        rcases h2.2 with e | e
        · exact absurd e ((key p).mpr a).2
        · exact absurd e ((key q).mpr b).2
      · rw [if_neg fun h => h2 ⟨rfl, h.2⟩]
        have h3 : axisSample sh.length p + 1 ≠ 0 ∧ axisSample sh.length q + 1 ≠ 0 := by
          constructor <;> intro e <;> exact h2 ⟨rfl, by simp [e]⟩
        have ap := (key p).mp ⟨h1.1, h3.1⟩
        have aq := (key q).mp ⟨h1.2, h3.2⟩
        have pp : 0 ≤ axisSample sh.length p := by
          have := (inRange_sample _ _).mpr ap
          unfold inRange at this
          simp at this
          exact this.1
        have pq : 0 ≤ axisSample sh.length q := by
          have := (inRange_sample _ _).mpr aq
          unfold inRange at this
          simp at this
          exact this.1
        rw [dim_succ _ _ _ pp, dim_succ _ _ _ pq, dim_sample _ _ ap, dim_sample _ _ aq]
        by_cases h4 : sizes.any (smaller [sizeAt sh p, sizeAt sh q]) = true
        · rw [if_pos h4]
          refine ⟨fun h => by simp at h, fun h => ?_⟩
          obtain ⟨size, hm, hc⟩ := List.any_eq_true.mp h4
          obtain ⟨_, _, c⟩ := h size hm p q ⟨rfl, rfl⟩
          rw [(smaller_false _ _).mpr c] at hc
          exact absurd hc (by decide)
        · rw [if_neg h4]
          rw [Bool.not_eq_true, List.any_eq_false] at h4
          simp only [true_iff]
          rintro size hm p' q' ⟨rfl, rfl⟩
          refine ⟨ap, aq, ?_⟩
          have := h4 size hm
          rw [Bool.not_eq_true, smaller_false] at this
          exact this

theorem sideBatch_iff (s : Spec) (hs : s.shared = true → s.side = none) (h0 : ∀ a, s.side = some a → 0 ≤ a) (v : Val A) (n : Nat)
    (sh : List Nat) (hv : v.shape = n :: sh) : sideBatch s v = .ok () ↔ ∀ a, s.side = some a → AxisOk sh.length a := by
  unfold sideBatch
  cases hsd : s.side with
  | none => simp
  | some a =>
    have hsf : s.shared = false := by
      cases h : s.shared with
      | false => rfl
      | true => rw [hs h] at hsd; cases hsd
    have ha := h0 a hsd
    simp only [Option.some.injEq, forall_eq']
    rw [hv, hsf, List.length_cons, axisBatch_succ]
    have key : inRange (sh.length + 1) (axisSample sh.length a + 1) = true ↔ AxisOk sh.length a := by
      rw [← inRange_sample]
      unfold inRange axisSample
      rw [if_pos ha]
      simp
      omega
    by_cases h : inRange (sh.length + 1) (axisSample sh.length a + 1) = false
    · rw [if_pos h]
      refine ⟨fun h => by simp at h, fun h' => ?_⟩
      rw [key.mpr h'] at h
      exact absurd h (by decide)
    · rw [if_neg h]
      rw [Bool.not_eq_false, key] at h
      simp [h]

theorem checkRows_iff (x : Lib A) (n : Nat) (s : Spec) (v : Val A) (sh : List Nat) (hv : v.shape = n :: sh) (r : A) (rs : List A)
    (hr : x.rows v.body = r :: rs) : checkRows x n s v = .ok () ↔ (s.shared = true → ∀ y ∈ r :: rs, x.eq y r = true) := by
  unfold checkRows
  rw [hv, if_neg (by simp)]
  cases s.shared with
  | false => simp
  | true =>
    rw [if_neg (by decide), hr]
    simp only [true_implies, List.all_eq_true]
    by_cases h : ∀ y ∈ r :: rs, x.eq y r = true
    · rw [if_pos h]
      exact ⟨fun _ => h, fun _ => rfl⟩
    · rw [if_neg h]
      exact ⟨fun h' => by simp at h', fun h' => absurd h' h⟩

end Verif.Collate
