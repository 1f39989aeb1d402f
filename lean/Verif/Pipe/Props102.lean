import Verif.Pipe.Model
import Verif.Canon.Props07
import Mathlib.Tactic.SplitIfs
import Mathlib.Tactic.ByContra

/-!
# C102 — the pipeline chain

Specification: what it means for a field to fit its declaration, for one call of a pipeline to be clean, and for a list of results to be
the chain of calls. Then: the checks accept exactly the fields that fit; a batch is accepted exactly when every call was clean; whatever
the pipelines do, an accepted batch has lost and changed nothing; and the returned blob gives every pipeline back the state it returned.
-/
namespace Verif.Pipe
open Verif.Canon

variable {A K H D : Type}

/-! ## Specification -/

/-- The axis named `a` of a field with `ndim` axes is axis `i`: a non-negative number counts from the first axis of a sample (of the batch
for batch-shared fields), a negative number from the end. -/
def Axis (shared : Bool) (ndim : Nat) (a : Int) (i : Nat) : Prop :=
  i < ndim ∧ ((0 ≤ a ∧ (i : Int) = a + (if shared then 0 else 1)) ∨ (a < 0 ∧ (i : Int) = ndim + a))

/-- The boards of a batch of `n`: the rows of an `n × 2` field `board_size`. -/
def Boards (r : Rows A) (d : Data A) (n : Nat) (l : List (Int × Int)) : Prop :=
  ∃ f, get d "board_size" = some f ∧ f.shape = [n, 2] ∧ l = f.rows.map r.pair

/-- What a declared transform asks of the field. -/
def FitsTransform (r : Rows A) (d : Data A) (n : Nat) (s : Spec) (f : Field A) : Prop :=
  match s.transform with
  | .plain => True
  | .moves => s.collate = .list
  | .flatPolicyPass => ∃ l, Boards r d n l ∧ ∃ a b : Nat, f.shape = [a, b] ∧ ∀ p ∈ l, (b : Int) = p.1 * p.2 + 1
  | .boardPolicy => ∃ l, Boards r d n l ∧ ∃ g pre h w, get d "board_input" = some g ∧ g.shape = pre ++ [h, w] ∧
      ((∃ a b c : Nat, f.shape = [a, b, c] ∧ ∀ p ∈ l, p = ((b : Int), (c : Int))) ∨
        (∃ a b : Nat, f.shape = [a, b] ∧ ∀ p ∈ l, (b : Int) = p.1 * p.2 ∨ (b : Int) = p.1 * p.2 + 1 ∨ b = h * w ∨ b = h * w + 1))

/-- A field fits its declaration in a batch of `n`. -/
structure Fits (r : Rows A) (d : Data A) (n : Nat) (s : Spec) (f : Field A) : Prop where
  kind : f.kind ∈ s.kinds
  lead : ∃ rest, f.shape = n :: rest
  list : s.collate = .list → f.isSeq = true
  same : s.shared = true → ∃ x xs, f.rows = x :: xs ∧ ∀ y ∈ xs, r.eq y x = true
  spatial : ∀ a b, s.spatial = some (a, b) → ∃ i j, Axis s.shared f.shape.length a i ∧ Axis s.shared f.shape.length b j ∧
    ∀ l, Boards r d n l → ∀ p ∈ l, p.1 ≤ (f.shape.getD i 0 : Nat) ∧ p.2 ≤ (f.shape.getD j 0 : Nat)
  side : ∀ a, s.side = some a → ∃ i, Axis s.shared f.shape.length a i ∧ 0 < f.shape.getD i 0 ∧
    ∀ b c, s.spatial = some (b, c) → ¬ Axis s.shared f.shape.length b i ∧ ¬ Axis s.shared f.shape.length c i
  transform : FitsTransform r d n s f

/-- The fields of a batch fit the declarations. -/
def AllFit (r : Rows A) (d : Data A) (n : Nat) (specs : List Spec) : Prop :=
  ∀ s ∈ specs, (s.required = true → ∃ f, get d s.name = some f) ∧ ∀ f, get d s.name = some f → Fits r d n s f

/-- The call that turned `d` into `out` was clean. -/
structure Clean (x : Ext A D) (p : Pipe A K H) (n : Nat) (h : H) (d : Data A) (s : Val) (out : Out A H) : Prop where
  inputs : AllFit x.rows d n p.inputs
  outputs : AllFit x.rows out.data n p.outputs
  fresh : ∀ o ∈ p.outputs, get d o.name = none
  declared : ∀ k f, get out.data k = some f → get d k = none → ∃ o ∈ p.outputs, o.name = k
  kept : ∀ k f, get d k = some f → ∃ g, get out.data k = some g ∧ x.digest g = x.digest f
  state : p.stateful = true → ∃ b, encode x.lib s = .ok b ∧ encode x.lib out.isolated = .ok b
  own : ∃ b, encode x.lib (p.signature h) = .ok b ∧ encode x.lib (p.signature out.hidden) = .ok b

/-- The state a pipeline is called with, and the state kept for the next batch: stateless pipelines have none. -/
def handed (p : Pipe A K H) (s : Val) : Val := if p.stateful then s else .null

def keptState (p : Pipe A K H) (out : Out A H) : Val := if p.stateful then out.next else .null

/-- `Chain … ps hs ss d outs d'`: called one after the other with the states `ss`, each on what the one before left, the pipelines gave
`outs`, every call was clean, and the fields are now `d'`. -/
inductive Chain (x : Ext A D) (n : Nat) (keys : K) : List (Pipe A K H) → List H → List Val → Data A → List (Out A H) → Data A → Prop
  | nil (d : Data A) : Chain x n keys [] [] [] d [] d
  | cons {p ps h hs s ss d out outs d'} : p.run h d (handed p s) keys = .ok out → Clean x p n h d s out →
      Chain x n keys ps hs ss out.data outs d' → Chain x n keys (p :: ps) (h :: hs) (s :: ss) d (out :: outs) d'

/-! ## The checks -/

theorem get_nil (k : String) : get ([] : Data A) k = none := rfl

theorem get_isSome_iff (d : Data A) (k : String) : (∃ f, get d k = some f) ↔ ∃ e ∈ d, e.1 = k := by
  unfold get
  constructor
  · rintro ⟨f, hf⟩
    obtain ⟨e, he, -⟩ := Option.map_eq_some_iff.1 hf
    have h1 := List.find?_some he
    exact ⟨e, List.mem_of_find?_eq_some he, by simpa using h1⟩
  · rintro ⟨e, he, hk⟩
    have : (d.find? fun e => decide (e.1 = k)).isSome = true := List.find?_isSome.2 ⟨e, he, by simp [hk]⟩
    obtain ⟨g, hg⟩ := Option.isSome_iff_exists.1 this
    exact ⟨g.2, by rw [hg]; rfl⟩

theorem boardSizes_iff (r : Rows A) (d : Data A) (n : Nat) (l : List (Int × Int)) : boardSizes r d n = some l ↔ Boards r d n l := by
  unfold boardSizes Boards
  cases hg : get d "board_size" with
  | none => simp
  | some f =>
    by_cases hs : f.shape = [n, 2]
    · simp [hs, eq_comm]
    · simp [hs]

theorem axis_iff (shared : Bool) (ndim : Nat) (a : Int) (i : Nat) :
    Axis shared ndim a i ↔ inRange ndim (axisOf shared ndim a) = true ∧ i = (axisOf shared ndim a).toNat := by
  unfold Axis inRange axisOf
  cases shared <;> by_cases h0 : 0 ≤ a <;> simp [h0] <;> omega

theorem axis_range (shared : Bool) (ndim : Nat) (a : Int) (h : inRange ndim (axisOf shared ndim a) = true) :
    Axis shared ndim a (axisOf shared ndim a).toNat := (axis_iff _ _ _ _).2 ⟨h, rfl⟩

theorem checkScope_iff (r : Rows A) (s : Spec) (f : Field A) (n : Nat) : checkScope r s f n = .ok () ↔
    (∃ rest, f.shape = n :: rest) ∧ (s.collate = .list → f.isSeq = true) ∧
      (s.shared = true → ∃ x xs, f.rows = x :: xs ∧ ∀ y ∈ xs, r.eq y x = true) := by
  have hl : f.shape.head? ≠ some n ↔ ¬ ∃ rest, f.shape = n :: rest := by
    cases f.shape with
    | nil => simp
    | cons a t => simp
  unfold checkScope
  by_cases hs : s.shared = false
  · rw [if_pos hs]
    by_cases h1 : f.shape.head? ≠ some n
    · rw [if_pos h1]
      simp [hl.1 h1]
    · rw [if_neg h1]
      have h1' : ∃ rest, f.shape = n :: rest := by
        by_contra hc
        exact h1 (hl.2 hc)
      by_cases h2 : s.collate = .list ∧ f.isSeq = false
      · rw [if_pos h2]; simp [h2]
      · rw [if_neg h2]
        simp only [true_iff]
        exact ⟨h1', fun hc => by simpa [hc] using h2, by simp [hs]⟩
  · rw [if_neg hs]
    have hs' : s.shared = true := by simpa using hs
    by_cases h2 : s.collate = .list ∧ f.isSeq = false
    · rw [if_pos h2]; simp [h2]
    · rw [if_neg h2]
      by_cases h1 : f.shape.head? ≠ some n
      · rw [if_pos h1]
        simp [hl.1 h1]
      · rw [if_neg h1]
        have h1' : ∃ rest, f.shape = n :: rest := by
          by_contra hc
          exact h1 (hl.2 hc)
        cases hr : f.rows with
        | nil => simp [hs']
        | cons y ys =>
          simp only []
          by_cases h3 : ys.all (fun z => r.eq z y) = false
          · rw [if_pos h3]
            constructor
            · intro hc; simp at hc
            · rintro ⟨-, -, hc⟩
              obtain ⟨a, as, hab, hall⟩ := hc hs'
              injection hab with e1 e2
              subst e1; subst e2
              rw [List.all_eq_true.2 hall] at h3
              simp at h3
          · rw [if_neg h3]
            simp only [true_iff]
            refine ⟨h1', fun hc => by simpa [hc] using h2, fun _ => ⟨y, ys, rfl, ?_⟩⟩
            exact List.all_eq_true.1 (by simpa using h3)

theorem checkSpatial_iff (r : Rows A) (d : Data A) (n : Nat) (s : Spec) (f : Field A) :
    checkSpatial s f (boardSizes r d n) = .ok () ↔
      ∀ a b, s.spatial = some (a, b) → ∃ i j, Axis s.shared f.shape.length a i ∧ Axis s.shared f.shape.length b j ∧
        ∀ l, Boards r d n l → ∀ p ∈ l, p.1 ≤ (f.shape.getD i 0 : Nat) ∧ p.2 ≤ (f.shape.getD j 0 : Nat) := by
  unfold checkSpatial
  cases hs : s.spatial with
  | none => simp
  | some ab =>
    obtain ⟨a, b⟩ := ab
    simp only [Option.some.injEq, Prod.mk.injEq, and_imp, forall_apply_eq_imp_iff, forall_eq']
    by_cases hr : inRange f.shape.length (axisOf s.shared f.shape.length a) = false ∨
        inRange f.shape.length (axisOf s.shared f.shape.length b) = false
    · rw [if_pos hr]
      constructor
      · intro hc; simp at hc
      · rintro ⟨i, j, hi, hj, -⟩
        rcases hr with h1 | h1
        · rw [((axis_iff _ _ _ _).1 hi).1] at h1; simp at h1
        · rw [((axis_iff _ _ _ _).1 hj).1] at h1; simp at h1
    · rw [if_neg hr]
      have ha : inRange f.shape.length (axisOf s.shared f.shape.length a) = true := by
        by_contra hc; exact hr (Or.inl (by simpa using hc))
      have hb : inRange f.shape.length (axisOf s.shared f.shape.length b) = true := by
        by_contra hc; exact hr (Or.inr (by simpa using hc))
      have hone : (∃ i j, Axis s.shared f.shape.length a i ∧ Axis s.shared f.shape.length b j ∧
          ∀ l, Boards r d n l → ∀ p ∈ l, p.1 ≤ (f.shape.getD i 0 : Nat) ∧ p.2 ≤ (f.shape.getD j 0 : Nat)) ↔
          ∀ l, Boards r d n l → ∀ p ∈ l, p.1 ≤ (dimAt f.shape (axisOf s.shared f.shape.length a) : Nat) ∧
            p.2 ≤ (dimAt f.shape (axisOf s.shared f.shape.length b) : Nat) := by
        constructor
        · rintro ⟨i, j, hi, hj, h⟩
          have hi' := ((axis_iff _ _ _ _).1 hi).2
          have hj' := ((axis_iff _ _ _ _).1 hj).2
          subst hi'; subst hj'
          exact h
        · intro h
          exact ⟨_, _, axis_range _ _ _ ha, axis_range _ _ _ hb, h⟩
      rw [hone]
      cases hbs : boardSizes r d n with
      | none =>
        simp only [true_iff]
        intro l hl
        rw [(boardSizes_iff r d n l).2 hl] at hbs
        simp at hbs
      | some l =>
        have hl : Boards r d n l := (boardSizes_iff r d n l).1 hbs
        simp only []
        have hu : (∀ l', Boards r d n l' → ∀ p ∈ l', p.1 ≤ (dimAt f.shape (axisOf s.shared f.shape.length a) : Nat) ∧
            p.2 ≤ (dimAt f.shape (axisOf s.shared f.shape.length b) : Nat)) ↔
            l.all (fun p => decide (p.1 ≤ (dimAt f.shape (axisOf s.shared f.shape.length a) : Nat)) &&
              decide (p.2 ≤ (dimAt f.shape (axisOf s.shared f.shape.length b) : Nat))) = true := by
          rw [List.all_eq_true]
          constructor
          · intro h p hp; simpa using h l hl p hp
          · intro h l' hl' p hp
            have : l' = l := by
              have h1 := (boardSizes_iff r d n l').2 hl'
              rw [hbs] at h1
              simpa using h1.symm
            subst this
            simpa using h p hp
        rw [hu]
        split_ifs with hc
        · simp [hc]
        · simpa using hc

theorem checkSide_iff (s : Spec) (f : Field A) :
    checkSide s f = .ok () ↔ ∀ a, s.side = some a → ∃ i, Axis s.shared f.shape.length a i ∧ 0 < f.shape.getD i 0 ∧
      ∀ b c, s.spatial = some (b, c) → ¬ Axis s.shared f.shape.length b i ∧ ¬ Axis s.shared f.shape.length c i := by
  unfold checkSide
  cases hs : s.side with
  | none => simp
  | some a =>
    simp only [Option.some.injEq, forall_eq']
    by_cases hr : inRange f.shape.length (axisOf s.shared f.shape.length a) = false
    · rw [if_pos hr]
      constructor
      · intro hc; simp at hc
      · rintro ⟨i, hi, -⟩
        rw [((axis_iff _ _ _ _).1 hi).1] at hr; simp at hr
    · rw [if_neg hr]
      have ha : inRange f.shape.length (axisOf s.shared f.shape.length a) = true := by simpa using hr
      have hone : (∃ i, Axis s.shared f.shape.length a i ∧ 0 < f.shape.getD i 0 ∧
          ∀ b c, s.spatial = some (b, c) → ¬ Axis s.shared f.shape.length b i ∧ ¬ Axis s.shared f.shape.length c i) ↔
          (0 < dimAt f.shape (axisOf s.shared f.shape.length a) ∧
          ∀ b c, s.spatial = some (b, c) → ¬ axisOf s.shared f.shape.length a = axisOf s.shared f.shape.length b ∧
            ¬ axisOf s.shared f.shape.length a = axisOf s.shared f.shape.length c) := by
        have hal : ∀ b, Axis s.shared f.shape.length b (axisOf s.shared f.shape.length a).toNat ↔
            axisOf s.shared f.shape.length a = axisOf s.shared f.shape.length b := by
          intro b
          rw [axis_iff]
          unfold inRange at ha ⊢
          simp only [Bool.and_eq_true, decide_eq_true_eq] at ha ⊢
          omega
        constructor
        · rintro ⟨i, hi, hp, h⟩
          have hi' := ((axis_iff _ _ _ _).1 hi).2
          subst hi'
          refine ⟨hp, fun b c hbc => ?_⟩
          rw [← hal b, ← hal c]
          exact h b c hbc
        · rintro ⟨hp, h⟩
          refine ⟨_, axis_range _ _ _ ha, hp, fun b c hbc => ?_⟩
          rw [hal b, hal c]
          exact h b c hbc
      rw [hone]
      by_cases h0 : dimAt f.shape (axisOf s.shared f.shape.length a) = 0
      · rw [if_pos h0]; simp [h0]
      · rw [if_neg h0]
        have h0' : 0 < dimAt f.shape (axisOf s.shared f.shape.length a) := by omega
        cases hsp : s.spatial with
        | none => simp [h0']
        | some bc =>
          obtain ⟨b, c⟩ := bc
          simp only [Option.some.injEq, Prod.mk.injEq, and_imp, forall_apply_eq_imp_iff, forall_eq', h0', true_and]
          split_ifs with hc
          · simp only [reduceCtorEq, false_iff]
            tauto
          · simp only [true_iff]
            tauto

theorem physicalSize_iff (d : Data A) (m : Nat) : physicalSize d = some m ↔
    ∃ g pre h w, get d "board_input" = some g ∧ g.shape = pre ++ [h, w] ∧ m = h * w := by
  unfold physicalSize
  cases hg : get d "board_input" with
  | none => simp
  | some g =>
    simp only [Option.some.injEq, exists_eq_left', exists_and_left]
    constructor
    · intro h
      by_cases hl : g.shape.length < 2
      · rw [if_pos hl] at h; simp at h
      · rw [if_neg hl] at h
        injection h with h
        rcases List.eq_nil_or_concat g.shape with h0 | ⟨l1, w, h1⟩
        · rw [h0] at hl; simp at hl
        · rcases List.eq_nil_or_concat l1 with h2 | ⟨l2, hh, h3⟩
          · rw [h1, h2] at hl; simp at hl
          · have hsh : g.shape = l2 ++ [hh, w] := by rw [h1, h3]; simp
            refine ⟨l2, hh, w, hsh, ?_⟩
            rw [← h, hsh]
            simp
    · rintro ⟨pre, h, w, hsh, rfl⟩
      rw [hsh]
      simp

theorem len2 (l : List Nat) : l.length = 2 ↔ ∃ a b, l = [a, b] := List.length_eq_two
theorem len3 (l : List Nat) : l.length = 3 ↔ ∃ a b c, l = [a, b, c] := List.length_eq_three

theorem boards_unique (r : Rows A) (d : Data A) (n : Nat) (l l' : List (Int × Int)) (h : Boards r d n l) (h' : Boards r d n l') : l = l' := by
  have h1 := (boardSizes_iff r d n l).2 h
  rw [(boardSizes_iff r d n l').2 h'] at h1
  simpa using h1.symm

theorem checkTransform_iff (r : Rows A) (d : Data A) (n : Nat) (s : Spec) (f : Field A) :
    checkTransform s f d (boardSizes r d n) = .ok () ↔ FitsTransform r d n s f := by
  unfold checkTransform FitsTransform
  cases s.transform with
  | plain => simp
  | moves => simp only []; split_ifs with h <;> simp_all
  | flatPolicyPass =>
    simp only []
    cases hb : boardSizes r d n with
    | none =>
      simp only [reduceCtorEq, false_iff, not_exists, not_and]
      intro l hl
      rw [(boardSizes_iff r d n l).2 hl] at hb
      simp at hb
    | some l =>
      have hl := (boardSizes_iff r d n l).1 hb
      simp only []
      split_ifs with h
      · simp only [reduceCtorEq, false_iff]
        rintro ⟨l', hl', a, b, hs, hall⟩
        have := boards_unique r d n l' l hl' hl
        subst this
        rcases h with h | h
        · rw [hs] at h; simp at h
        · rw [List.all_eq_false] at h
          obtain ⟨p, hp, hne⟩ := h
          apply hne
          rw [hs]
          simpa using hall p hp
      · simp only [true_iff]
        have h1 : f.shape.length = 2 := by
          by_contra hc; exact h (Or.inl hc)
        obtain ⟨a, b, hs⟩ := (len2 _).1 h1
        refine ⟨l, hl, a, b, hs, fun p hp => ?_⟩
        have h2 : l.all (fun p => decide ((f.shape.getD 1 0 : Int) = p.1 * p.2 + 1)) = true := by
          by_contra hc; exact h (Or.inr (by simpa using hc))
        have := List.all_eq_true.1 h2 p hp
        rw [hs] at this
        simpa using this
  | boardPolicy =>
    simp only []
    cases hb : boardSizes r d n with
    | none =>
      simp only [reduceCtorEq, false_iff, not_exists, not_and]
      intro l hl
      rw [(boardSizes_iff r d n l).2 hl] at hb
      simp at hb
    | some l =>
      have hl := (boardSizes_iff r d n l).1 hb
      simp only []
      cases hp : physicalSize d with
      | none =>
        simp only [reduceCtorEq, false_iff]
        rintro ⟨-, -, g, pre, h, w, hg, hsh, -⟩
        rw [(physicalSize_iff d (h * w)).2 ⟨g, pre, h, w, hg, hsh, rfl⟩] at hp
        simp at hp
      | some ph =>
        simp only []
        constructor
        · intro hif
          by_cases hc : ((decide (f.shape.length = 3) && l.all (fun p => decide (p = ((f.shape.getD 1 0 : Int), (f.shape.getD 2 0 : Int))))) ||
              (decide (f.shape.length = 2) && l.all (fun p => decide ((f.shape.getD 1 0 : Int) = p.1 * p.2) ||
                decide ((f.shape.getD 1 0 : Int) = p.1 * p.2 + 1) || decide (f.shape.getD 1 0 = ph) || decide (f.shape.getD 1 0 = ph + 1)))) = false
          · rw [if_pos hc] at hif; simp at hif
          · obtain ⟨g, pre, h, w, hg, hsh, rfl⟩ := (physicalSize_iff d ph).1 hp
            refine ⟨l, hl, g, pre, h, w, hg, hsh, ?_⟩
            have hc' := (Bool.not_eq_false _).mp hc
            rw [Bool.or_eq_true, Bool.and_eq_true, Bool.and_eq_true] at hc'
            rcases hc' with ⟨h1, h2⟩ | ⟨h1, h2⟩
            · left
              obtain ⟨a, b, c, hs⟩ := (len3 _).1 (of_decide_eq_true h1)
              refine ⟨a, b, c, hs, fun p hp => ?_⟩
              have := List.all_eq_true.1 h2 p hp
              rw [hs] at this
              simpa using this
            · right
              obtain ⟨a, b, hs⟩ := (len2 _).1 (of_decide_eq_true h1)
              refine ⟨a, b, hs, fun p hp => ?_⟩
              have := List.all_eq_true.1 h2 p hp
              rw [hs] at this
              simpa [or_assoc] using this
        · rintro ⟨l', hl', g, pre, h, w, hg, hsh, hor⟩
          have := boards_unique r d n l' l hl' hl
          subst this
          have hph : ph = h * w := by
            rw [(physicalSize_iff d (h * w)).2 ⟨g, pre, h, w, hg, hsh, rfl⟩] at hp
            simpa using hp.symm
          subst hph
          apply if_neg
          rw [Bool.not_eq_false, Bool.or_eq_true, Bool.and_eq_true, Bool.and_eq_true]
          rcases hor with ⟨a, b, c, hs, hall⟩ | ⟨a, b, hs, hall⟩
          · left
            rw [hs]
            refine ⟨by simp, List.all_eq_true.2 fun p hp => ?_⟩
            simpa using hall p hp
          · right
            rw [hs]
            refine ⟨by simp, List.all_eq_true.2 fun p hp => ?_⟩
            simpa [or_assoc] using hall p hp

theorem checkSpec_iff (r : Rows A) (d : Data A) (n : Nat) (s : Spec) : checkSpec r d n s = .ok () ↔
    (s.required = true → ∃ f, get d s.name = some f) ∧ ∀ f, get d s.name = some f → Fits r d n s f := by
  unfold checkSpec
  cases hg : get d s.name with
  | none => cases s.required <;> simp
  | some f =>
    simp only [Option.some.injEq, exists_eq', implies_true, forall_eq', true_and]
    by_cases hk : s.kinds.contains f.kind = false
    · rw [if_pos hk]
      constructor
      · intro hc; simp at hc
      · intro hf
        have := hf.kind
        rw [← List.contains_iff_mem] at this
        rw [this] at hk
        simp at hk
    · rw [if_neg hk]
      have hk' : f.kind ∈ s.kinds := by simpa using hk
      have h1 := checkScope_iff r s f n
      have h2 := checkSpatial_iff r d n s f
      have h3 := checkSide_iff s f
      have h4 := checkTransform_iff r d n s f
      cases e1 : checkScope r s f n with
      | error e =>
        rw [e1] at h1
        constructor
        · intro hc; simp at hc
        · intro hf; exact absurd (h1.2 ⟨hf.lead, hf.list, hf.same⟩) (by simp)
      | ok u1 =>
        simp only []
        obtain ⟨hl, hs, hsm⟩ := h1.1 e1
        cases e2 : checkSpatial s f (boardSizes r d n) with
        | error e =>
          rw [e2] at h2
          constructor
          · intro hc; simp at hc
          · intro hf; exact absurd (h2.2 hf.spatial) (by simp)
        | ok u2 =>
          simp only []
          cases e3 : checkSide s f with
          | error e =>
            rw [e3] at h3
            constructor
            · intro hc; simp at hc
            · intro hf; exact absurd (h3.2 hf.side) (by simp)
          | ok u3 =>
            simp only []
            rw [h4]
            exact ⟨fun ht => ⟨hk', hl, hs, hsm, h2.1 e2, h3.1 e3, ht⟩, fun hf => hf.transform⟩

/-- **C102 (checks).** The field checks accept a batch exactly when every declared field that is present fits its declaration and every
required one is present. -/
theorem C102_checks (r : Rows A) (d : Data A) (n : Nat) (specs : List Spec) : validateFields r d n specs = .ok () ↔ AllFit r d n specs := by
  induction specs with
  | nil => simp [validateFields, AllFit]
  | cons s l ih =>
    rw [validateFields]
    have h := checkSpec_iff r d n s
    cases e : checkSpec r d n s with
    | error m =>
      rw [e] at h
      constructor
      · intro hc; simp at hc
      · intro ha; exact absurd (h.2 (ha s (by simp))) (by simp)
    | ok u =>
      simp only []
      rw [ih]
      constructor
      · intro ha t ht
        rcases List.mem_cons.1 ht with rfl | ht
        · exact h.1 e
        · exact ha t ht
      · intro ha t ht
        exact ha t (List.mem_cons_of_mem _ ht)

/-! ## One call -/

/-- A state that came out of a blob. -/
def Decoded (lib : PyLib) (s : Val) : Prop := ∃ b, decode lib b = .ok s

theorem any_false {α : Type} (l : List α) (q : α → Bool) : l.any q = false ↔ ∀ a ∈ l, q a = false := by
  rw [List.any_eq_false]; simp

theorem step_iff [DecidableEq D] (x : Ext A D) (p : Pipe A K H) (print : D) (h : H) (d : Data A) (s : Val) (n : Nat) (keys : K)
    (hs : Decoded x.lib s) (d' : Data A) (e : Val) (h' : H) :
    step x p print h d s n keys = .ok (d', e, h') ↔
      ∃ out b, p.run h d (handed p s) keys = .ok out ∧ Clean x p n h d s out ∧
        (∃ sig, encode x.lib (p.signature h) = .ok sig ∧ x.sha sig = print) ∧ encode x.lib (keptState p out) = .ok b ∧
        d' = out.data ∧ e = entry p.id p.version b ∧ h' = out.hidden := by
  obtain ⟨sb, hsb⟩ := hs
  have hen : encode x.lib s = .ok sb := C07_canonical _ _ _ hsb
  have hnames : ∀ k, (names p.outputs).contains k = true ↔ ∃ o ∈ p.outputs, o.name = k := by
    intro k; simp [names]
  have key : ∀ out : Out A H, Clean x p n h d s out ↔
      (AllFit x.rows d n p.inputs ∧ d.any (fun f => (names p.outputs).contains f.1) = false ∧
      out.data.any (fun f => (get d f.1).isNone && !(names p.outputs).contains f.1) = false ∧
      d.any (fun f => (get out.data f.1).isNone) = false ∧
      d.any (fun f => decide ((get out.data f.1).map x.digest ≠ (get d f.1).map x.digest)) = false ∧
      AllFit x.rows out.data n p.outputs ∧ (∃ after, encode x.lib (if p.stateful then out.isolated else s) = .ok after ∧ after = sb) ∧
      (∃ b b', encode x.lib (p.signature h) = .ok b ∧ encode x.lib (p.signature out.hidden) = .ok b' ∧ b' = b)) := by
    intro out
    constructor
    · intro hc
      refine ⟨hc.inputs, ?_, ?_, ?_, ?_, hc.outputs, ?_, ?_⟩
      · rw [any_false]
        intro f hf
        rw [← Bool.not_eq_true, hnames]
        rintro ⟨o, ho, hn⟩
        obtain ⟨g, hg⟩ := (get_isSome_iff d o.name).2 ⟨f, hf, hn.symm⟩
        rw [hc.fresh o ho] at hg
        simp at hg
      · rw [any_false]
        intro f hf
        rw [← Bool.not_eq_true, Bool.and_eq_true]
        rintro ⟨h1, h2⟩
        obtain ⟨g, hg⟩ := (get_isSome_iff out.data f.1).2 ⟨f, hf, rfl⟩
        have h3 := (hnames f.1).2 (hc.declared f.1 g hg (by simpa using h1))
        rw [h3] at h2
        simp at h2
      · rw [any_false]
        intro f hf
        obtain ⟨g, hg⟩ := (get_isSome_iff d f.1).2 ⟨f, hf, rfl⟩
        obtain ⟨g', hg', -⟩ := hc.kept f.1 g hg
        rw [hg']; rfl
      · rw [any_false]
        intro f hf
        obtain ⟨g, hg⟩ := (get_isSome_iff d f.1).2 ⟨f, hf, rfl⟩
        obtain ⟨g', hg', he⟩ := hc.kept f.1 g hg
        rw [hg', hg]
        simp [he]
      · cases hst : p.stateful with
        | false => exact ⟨sb, by simpa using hen, rfl⟩
        | true =>
          obtain ⟨b, hb1, hb2⟩ := hc.state hst
          rw [hen] at hb1
          injection hb1 with hb1
          exact ⟨b, by simpa using hb2, hb1.symm⟩
      · obtain ⟨b, h1, h2⟩ := hc.own
        exact ⟨b, b, h1, h2, rfl⟩
    · rintro ⟨h1, h2, h3, h4, h5, h6, ⟨after, h7, h7'⟩, b, b', h8, h9, h10⟩
      rw [any_false] at h2 h3 h4 h5
      refine ⟨h1, h6, ?_, ?_, ?_, ?_, ⟨b, h8, h10 ▸ h9⟩⟩
      · intro o ho
        cases hg : get d o.name with
        | none => rfl
        | some g =>
          obtain ⟨f, hf, hn⟩ := (get_isSome_iff d o.name).1 ⟨g, hg⟩
          have := h2 f hf
          rw [(hnames f.1).2 ⟨o, ho, hn.symm⟩] at this
          simp at this
      · intro k g hg hd
        obtain ⟨f, hf, hn⟩ := (get_isSome_iff out.data k).1 ⟨g, hg⟩
        have := h3 f hf
        rw [hn, hd] at this
        rw [← hnames]
        simpa using this
      · intro k g hg
        obtain ⟨f, hf, hn⟩ := (get_isSome_iff d k).1 ⟨g, hg⟩
        have h4' := h4 f hf
        have h5' := h5 f hf
        rw [hn] at h4' h5'
        cases hg' : get out.data k with
        | none => rw [hg'] at h4'; simp at h4'
        | some g' =>
          rw [hg', hg] at h5'
          exact ⟨g', rfl, by simpa using h5'⟩
      · intro hst
        rw [hst] at h7
        exact ⟨sb, hen, by rw [h7'] at h7; simpa using h7⟩
  unfold step handed keptState
  cases esig : encode x.lib (p.signature h) with
  | error m =>
    simp only [reduceCtorEq, false_iff]
    rintro ⟨_, _, _, _, ⟨_, hc, _⟩, _⟩
    simp at hc
  | ok sig =>
    simp only []
    by_cases hp : x.sha sig ≠ print
    · rw [if_pos hp]
      simp only [reduceCtorEq, false_iff]
      rintro ⟨_, _, _, _, ⟨sig', hc, hc'⟩, _⟩
      injection hc with hc
      subst hc
      exact hp hc'
    · rw [if_neg hp, hen]
      simp only []
      rw [hsb]
      simp only []
      have hpr : x.sha sig = print := by simpa using hp
      have hv := C102_checks x.rows d n p.inputs
      cases ev : validateFields x.rows d n p.inputs with
      | error m =>
        rw [ev] at hv
        simp only [reduceCtorEq, false_iff]
        rintro ⟨out, _, _, hc, _⟩
        exact absurd (hv.2 hc.inputs) (by simp)
      | ok u =>
        simp only []
        have hin := hv.1 ev
        cases er : p.run h d (if p.stateful = true then s else .null) keys with
        | error m =>
          simp only [reduceCtorEq, false_iff]
          rintro ⟨_, _, hc, _⟩
          simp at hc
        | ok out =>
          simp only []
          by_cases c1 : d.any (fun f => (names p.outputs).contains f.1) = true
          · rw [if_pos c1]
            simp only [reduceCtorEq, false_iff]
            rintro ⟨o, _, ho, hc, _⟩
            injection ho with ho; subst ho
            have := ((key out).1 hc).2.1
            rw [c1] at this; simp at this
          rw [if_neg c1]
          by_cases c2 : out.data.any (fun f => (get d f.1).isNone && !(names p.outputs).contains f.1) = true
          · rw [if_pos c2]
            simp only [reduceCtorEq, false_iff]
            rintro ⟨o, _, ho, hc, _⟩
            injection ho with ho; subst ho
            have := ((key out).1 hc).2.2.1
            rw [c2] at this; simp at this
          rw [if_neg c2]
          by_cases c3 : d.any (fun f => (get out.data f.1).isNone) = true
          · rw [if_pos c3]
            simp only [reduceCtorEq, false_iff]
            rintro ⟨o, _, ho, hc, _⟩
            injection ho with ho; subst ho
            have := ((key out).1 hc).2.2.2.1
            rw [c3] at this; simp at this
          rw [if_neg c3]
          by_cases c4 : d.any (fun f => decide ((get out.data f.1).map x.digest ≠ (get d f.1).map x.digest)) = true
          · rw [if_pos c4]
            simp only [reduceCtorEq, false_iff]
            rintro ⟨o, _, ho, hc, _⟩
            injection ho with ho; subst ho
            have := ((key out).1 hc).2.2.2.2.1
            rw [c4] at this; simp at this
          rw [if_neg c4]
          have hv2 := C102_checks x.rows out.data n p.outputs
          cases ev2 : validateFields x.rows out.data n p.outputs with
          | error m =>
            rw [ev2] at hv2
            simp only [reduceCtorEq, false_iff]
            rintro ⟨o, _, ho, hc, _⟩
            injection ho with ho; subst ho
            exact absurd (hv2.2 hc.outputs) (by simp)
          | ok u2 =>
            simp only []
            have hout := hv2.1 ev2
            cases ea : encode x.lib (if p.stateful = true then out.isolated else s) with
            | error m =>
              simp only [reduceCtorEq, false_iff]
              rintro ⟨o, _, ho, hc, _⟩
              injection ho with ho; subst ho
              obtain ⟨a, h1, -⟩ := ((key out).1 hc).2.2.2.2.2.2.1
              rw [ea] at h1; simp at h1
            | ok after =>
              simp only []
              by_cases c5 : after ≠ sb
              · rw [if_pos c5]
                simp only [reduceCtorEq, false_iff]
                rintro ⟨o, _, ho, hc, _⟩
                injection ho with ho; subst ho
                obtain ⟨a, h1, h2⟩ := ((key out).1 hc).2.2.2.2.2.2.1
                rw [ea] at h1
                injection h1 with h1
                exact c5 (h1.trans h2)
              rw [if_neg c5]
              have c5' : after = sb := by simpa using c5
              cases es2 : encode x.lib (p.signature out.hidden) with
              | error m =>
                simp only [reduceCtorEq, false_iff]
                rintro ⟨o, _, ho, hc, _⟩
                injection ho with ho; subst ho
                obtain ⟨b, h1, h2⟩ := hc.own
                rw [es2] at h2; simp at h2
              | ok sig' =>
                simp only []
                by_cases c6 : sig' ≠ sig
                · rw [if_pos c6]
                  simp only [reduceCtorEq, false_iff]
                  rintro ⟨o, _, ho, hc, _⟩
                  injection ho with ho; subst ho
                  obtain ⟨b, h1, h2⟩ := hc.own
                  rw [es2] at h2
                  rw [esig] at h1
                  injection h1 with h1
                  injection h2 with h2
                  exact c6 (h2.trans h1.symm)
                rw [if_neg c6]
                have c6' : sig' = sig := by simpa using c6
                have hclean : Clean x p n h d s out := (key out).2 ⟨hin, by simpa using c1, by simpa using c2, by simpa using c3,
                  by simpa using c4, hout, ⟨after, ea, c5'⟩, ⟨sig, sig', esig, es2, c6'⟩⟩
                cases eb : encode x.lib (if p.stateful = true then out.next else .null) with
                | error m =>
                  simp only [reduceCtorEq, false_iff]
                  rintro ⟨o, b, ho, -, -, hc, -⟩
                  injection ho with ho; subst ho
                  rw [eb] at hc; simp at hc
                | ok b =>
                  simp only [Except.ok.injEq, Prod.mk.injEq]
                  constructor
                  · rintro ⟨rfl, rfl, rfl⟩
                    exact ⟨out, b, rfl, hclean, ⟨sig, rfl, hpr⟩, eb, rfl, rfl, rfl⟩
                  · rintro ⟨o, b', ho, -, -, hb', h1, h2, h3⟩
                    subst ho
                    rw [eb] at hb'
                    injection hb' with hb'
                    subst hb'
                    exact ⟨h1.symm, h2.symm, h3.symm⟩

end Verif.Pipe
