/-
Flat traversal: what `_flat_layout` guarantees.
-/
import Verif.Adam.Model
import Mathlib.Data.List.Perm.Subperm
import Mathlib.Data.List.Nodup
import Mathlib.Data.List.Range
import Mathlib.Tactic.Ring
import Mathlib.Tactic.Linarith
import Mathlib.Algebra.BigOperators.Group.List.Basic
import Mathlib.Algebra.Group.Action.Defs

namespace Verif.Adam

/-- `idx` is a multi-index of `shape`. -/
def InShape : List Nat → List Nat → Prop
  | [], [] => True
  | n :: s, i :: r => i < n ∧ InShape s r
  | _, _ => False

theorem mem_indices : ∀ (s idx : List Nat), idx ∈ indices s ↔ InShape s idx
  | [], [] => by simp [indices, InShape]
  | [], _ :: _ => by simp [indices, InShape]
  | n :: s, [] => by simp [indices, InShape]
  | n :: s, i :: r => by
    simp only [indices, List.mem_flatMap, List.mem_range, List.mem_map, InShape]
    constructor
    · rintro ⟨j, hj, r', hr, h⟩
      cases h
      exact ⟨hj, (mem_indices s r).mp hr⟩
    · rintro ⟨h1, h2⟩
      exact ⟨i, h1, r, (mem_indices s r).mpr h2, rfl⟩

theorem length_indices : ∀ s : List Nat, (indices s).length = s.prod
  | [] => rfl
  | n :: s => by
    simp only [indices, List.length_flatMap, List.length_map, length_indices s, List.map_const',
      List.length_range, List.sum_replicate, List.prod_cons, smul_eq_mul]

theorem nodup_indices : ∀ s : List Nat, (indices s).Nodup
  | [] => by simp [indices]
  | n :: s => by
    rw [indices, List.nodup_flatMap]
    refine ⟨fun i _ => (nodup_indices s).map fun a b h => (List.cons.inj h).2, ?_⟩
    refine (List.nodup_range (n := n)).imp ?_
    intro i j hij
    rw [Function.onFun, List.disjoint_left]
    intro x hx hy
    simp only [List.mem_map] at hx hy
    obtain ⟨_, _, rfl⟩ := hx
    obtain ⟨_, _, h⟩ := hy
    exact hij (List.cons.inj h).1.symm

/-- Dimensions as `(stride, size)` with two digits each. -/
abbrev Quad := (Nat × Nat) × (Nat × Nat)

def quads : List Nat → List Nat → List Nat → List Nat → List Quad
  | n :: s, t :: st, i :: r, j :: r' => ((t, n), (i, j)) :: quads s st r r'
  | _, _, _, _ => []

theorem quads_spec : ∀ (s st r r' : List Nat), s.length = st.length → InShape s r → InShape s r' →
    (quads s st r r').map (·.1) = (s.zip st).map (fun e => (e.2, e.1))
    ∧ (∀ q ∈ quads s st r r', q.2.1 < q.1.2 ∧ q.2.2 < q.1.2)
    ∧ offset st r = ((quads s st r r').map fun q => q.1.1 * q.2.1).sum
    ∧ offset st r' = ((quads s st r r').map fun q => q.1.1 * q.2.2).sum
    ∧ ((∀ q ∈ quads s st r r', q.2.1 = q.2.2) → r = r')
  | [], [], [], [], _, _, _ => by simp [quads, offset]
  | n :: s, t :: st, i :: r, j :: r', hl, h1, h2 => by
    obtain ⟨a1, a2, a3, a4, a5⟩ := quads_spec s st r r' (by simpa using hl) h1.2 h2.2
    refine ⟨?_, ?_, ?_, ?_, ?_⟩
    · simp only [quads, List.map_cons, List.zip_cons_cons, a1]
    · intro q hq
      simp only [quads, List.mem_cons] at hq
      rcases hq with rfl | hq
      · exact ⟨h1.1, h2.1⟩
      · exact a2 q hq
    · simp only [quads, offset, List.zipWith_cons_cons, List.sum_cons, List.map_cons] at a3 ⊢
      rw [a3]
    · simp only [quads, offset, List.zipWith_cons_cons, List.sum_cons, List.map_cons] at a4 ⊢
      rw [a4]
    · intro h
      simp only [quads, List.mem_cons, forall_eq_or_imp] at h
      rw [h.1, a5 h.2]
  | [], _, _ :: _, _, _, h, _ => h.elim
  | [], _, [], _ :: _, _, _, h => h.elim
  | [], _ :: _, [], [], hl, _, _ => by simp at hl
  | _ :: _, _, [], _, _, h, _ => h.elim
  | _ :: _, _, _ :: _, [], _, _, h => h.elim
  | _ :: _, [], _ :: _, _ :: _, hl, _, _ => by simp at hl

/-- Mixed radix numbers. -/
theorem walk_radix : ∀ (Q : List Quad) (c : Nat), walk c (Q.map (·.1)) = true →
    (∀ q ∈ Q, q.2.1 < q.1.2 ∧ q.2.2 < q.1.2) →
    ∃ a b, (Q.map fun q => q.1.1 * q.2.1).sum = c * a ∧ (Q.map fun q => q.1.1 * q.2.2).sum = c * b
      ∧ a < (Q.map (·.1.2)).prod ∧ (a = b → ∀ q ∈ Q, q.2.1 = q.2.2)
  | [], c, _, _ => ⟨0, 0, by simp⟩
  | ((t, n), (i, j)) :: Q, c, hw, hd => by
    simp only [List.map_cons, walk] at hw
    by_cases ht : t = c
    · rw [if_pos ht] at hw
      obtain ⟨a, b, h1, h2, h3, h4⟩ := walk_radix Q (c * n) hw fun q hq => hd q (List.mem_cons_of_mem _ hq)
      have hi := hd _ (List.mem_cons_self)
      simp only at hi
      refine ⟨i + n * a, j + n * b, ?_, ?_, ?_, ?_⟩
      · simp only [List.map_cons, List.sum_cons, h1, ht]; ring
      · simp only [List.map_cons, List.sum_cons, h2, ht]; ring
      · simp only [List.map_cons, List.prod_cons]
        calc i + n * a < n + n * a := by omega
          _ = n * (a + 1) := by ring
          _ ≤ _ := Nat.mul_le_mul_left _ h3
      · intro e
        have hn : 0 < n := by omega
        have e1 : i = j := by
          have := congrArg (· % n) e
          simp only [Nat.add_mul_mod_self_left, Nat.mod_eq_of_lt hi.1, Nat.mod_eq_of_lt hi.2] at this
          exact this
        have e2 : a = b := by
          rw [e1] at e
          exact Nat.eq_of_mul_eq_mul_left hn (Nat.add_left_cancel e)
        intro q hq
        rcases List.mem_cons.mp hq with rfl | hq
        · exact e1
        · exact h4 e2 q hq
    · rw [if_neg ht] at hw; exact absurd hw (by simp)

theorem sum_filter_zero {α : Type} (f : α → Nat) (p : α → Bool) : ∀ l : List α,
    (∀ a ∈ l, p a = false → f a = 0) → ((l.filter p).map f).sum = (l.map f).sum
  | [], _ => rfl
  | a :: l, h => by
    have ih := sum_filter_zero f p l fun b hb => h b (List.mem_cons_of_mem _ hb)
    cases hp : p a with
    | true => rw [List.filter_cons_of_pos hp, List.map_cons, List.sum_cons, ih, List.map_cons, List.sum_cons]
    | false =>
      rw [List.filter_cons_of_neg (by simp [hp]), ih, List.map_cons, List.sum_cons,
        h a List.mem_cons_self hp, Nat.zero_add]

theorem prod_filter_one {α : Type} (f : α → Nat) (p : α → Bool) : ∀ l : List α,
    (∀ a ∈ l, p a = false → f a = 1) → ((l.filter p).map f).prod = (l.map f).prod
  | [], _ => rfl
  | a :: l, h => by
    have ih := prod_filter_one f p l fun b hb => h b (List.mem_cons_of_mem _ hb)
    cases hp : p a with
    | true => rw [List.filter_cons_of_pos hp, List.map_cons, List.prod_cons, ih, List.map_cons, List.prod_cons]
    | false =>
      rw [List.filter_cons_of_neg (by simp [hp]), ih, List.map_cons, List.prod_cons,
        h a List.mem_cons_self hp, Nat.one_mul]

/-- Two multi-indices of a flat tensor: in range, and equal when their offsets are. -/
theorem flat_pair (b : Buf) (hl : b.shape.length = b.stride.length) (hf : (flatLayout b).isSome)
    (r r' : List Nat) (h1 : InShape b.shape r) (h2 : InShape b.shape r') :
    offset b.stride r < b.numel ∧ (offset b.stride r = offset b.stride r' → r = r') := by
  obtain ⟨a1, a2, a3, a4, a5⟩ := quads_spec b.shape b.stride r r' hl h1 h2
  obtain ⟨Q, hQ⟩ : ∃ Q, Q = quads b.shape b.stride r r' := ⟨_, rfl⟩
  rw [← hQ] at a1 a2 a3 a4 a5
  obtain ⟨F, hF⟩ : ∃ F, F = Q.filter fun q => decide (q.1.2 ≠ 1) := ⟨_, rfl⟩
  obtain ⟨S, hS⟩ : ∃ S, S = F.insertionSort fun x y => lexLe x.1 y.1 := ⟨_, rfl⟩
  have hperm : S.Perm F := by rw [hS]; exact List.perm_insertionSort _ _
  have hkey : S.map (·.1) = ((extents b).map fun e => (e.2, e.1)).insertionSort lexLe := by
    rw [hS, List.map_insertionSort (s := lexLe) (hl := fun _ _ _ _ => Iff.rfl)]
    congr 1
    have e : (extents b).map (fun e => (e.2, e.1))
        = (Q.map (·.1)).filter fun e => decide (e.2 ≠ 1) := by
      rw [a1, extents, List.filter_map]
      rfl
    rw [e, hF, List.filter_map]
    rfl
  have hw : walk 1 (S.map (·.1)) = true := by
    rw [hkey]
    unfold flatLayout at hf
    split at hf
    · assumption
    · simp at hf
  have hmem : ∀ q ∈ S, q ∈ Q := by
    intro q hq
    have := hperm.mem_iff.mp hq
    rw [hF] at this
    exact (List.mem_filter.mp this).1
  obtain ⟨a, c, e1, e2, e3, e4⟩ := walk_radix S 1 hw fun q hq => a2 q (hmem q hq)
  have z1 : (S.map fun q => q.1.1 * q.2.1).sum = offset b.stride r := by
    rw [(hperm.map _).sum_eq, hF, sum_filter_zero, a3]
    intro q hq hp
    have h := (a2 q hq).1
    have : q.1.2 = 1 := by simpa using hp
    rw [this] at h
    rw [show q.2.1 = 0 by omega, Nat.mul_zero]
  have z2 : (S.map fun q => q.1.1 * q.2.2).sum = offset b.stride r' := by
    rw [(hperm.map _).sum_eq, hF, sum_filter_zero, a4]
    intro q hq hp
    have h := (a2 q hq).2
    have : q.1.2 = 1 := by simpa using hp
    rw [this] at h
    rw [show q.2.2 = 0 by omega, Nat.mul_zero]
  have z3 : (S.map (·.1.2)).prod = b.numel := by
    rw [(hperm.map _).prod_eq, hF, prod_filter_one]
    · have : Q.map (fun q => q.1.2) = (Q.map (·.1)).map (·.2) := by rw [List.map_map]; rfl
      rw [this, a1, List.map_map]
      show ((b.shape.zip b.stride).map fun e => e.1).prod = _
      rw [List.map_fst_zip (by omega)]
      rfl
    · intro q _ hp
      simpa using hp
  rw [z1, Nat.one_mul] at e1
  rw [z2, Nat.one_mul] at e2
  rw [z3] at e3
  refine ⟨by omega, fun he => a5 ?_⟩
  have hall := e4 (by omega)
  intro q hq
  by_cases h1 : q.1.2 = 1
  · have := a2 q hq
    rw [h1] at this
    omega
  · refine hall q (hperm.mem_iff.mpr ?_)
    rw [hF]
    exact List.mem_filter.mpr ⟨hq, by simp [h1]⟩

/-- Equal shapes and equal `(size, stride)` pairs: equal offsets of every element. -/
theorem offset_of_extents : ∀ (s st st' r : List Nat), s.length = st.length → s.length = st'.length →
    ((s.zip st).filter fun e => decide (e.1 ≠ 1)) = ((s.zip st').filter fun e => decide (e.1 ≠ 1)) →
    InShape s r → offset st r = offset st' r
  | [], [], [], [], _, _, _, _ => rfl
  | n :: s, t :: st, t' :: st', i :: r, h1, h2, he, hr => by
    simp only [offset, List.zipWith_cons_cons, List.sum_cons]
    simp only [List.zip_cons_cons] at he
    by_cases hn : n = 1
    · have hi : i = 0 := by have := hr.1; omega
      rw [List.filter_cons_of_neg (by simp [hn]), List.filter_cons_of_neg (by simp [hn])] at he
      have := offset_of_extents s st st' r (by simpa using h1) (by simpa using h2) he hr.2
      simp only [offset] at this
      rw [hi, this, Nat.mul_zero, Nat.mul_zero]
    · rw [List.filter_cons_of_pos (by simp [hn]), List.filter_cons_of_pos (by simp [hn])] at he
      obtain ⟨ha, hb⟩ := List.cons.inj he
      have := offset_of_extents s st st' r (by simpa using h1) (by simpa using h2) hb hr.2
      simp only [offset] at this
      rw [this, (Prod.mk.inj ha).2]
  | [], _, _, _ :: _, _, _, _, h => h.elim
  | _ :: _, _, _, [], _, _, _, h => h.elim
  | [], _ :: _, _, [], h, _, _, _ => by simp at h
  | [], [], _ :: _, [], _, h, _, _ => by simp at h
  | _ :: _, [], _, _ :: _, h, _, _, _ => by simp at h
  | _ :: _, _ :: _, [], _ :: _, _, h, _, _ => by simp at h

theorem flatLayout_some {b : Buf} {e} (h : flatLayout b = some e) : e = extents b := by
  unfold flatLayout at h
  split at h
  · exact (Option.some.inj h).symm
  · cases h

/-- Flat tensors of the same shape with equal layout keys have their elements at the same offsets. -/
theorem offset_of_layout (b c : Buf) (hs : b.shape = c.shape) (hb : b.shape.length = b.stride.length)
    (hc : c.shape.length = c.stride.length) (hf : (flatLayout b).isSome) (h : flatLayout c = flatLayout b)
    (r : List Nat) (hr : InShape b.shape r) : offset c.stride r = offset b.stride r := by
  obtain ⟨e, he⟩ := Option.isSome_iff_exists.mp hf
  have h1 := flatLayout_some he
  have h2 := flatLayout_some (h.trans he)
  rw [h1] at h2
  unfold extents at h2
  rw [← hs] at h2 hc
  exact (offset_of_extents b.shape b.stride c.stride r hb hc h2 hr).symm

/-- A flat tensor occupies exactly the offsets `0 … numel-1`, each once. -/
theorem flat_perm (b : Buf) (hl : b.shape.length = b.stride.length) (hf : (flatLayout b).isSome) :
    ((indices b.shape).map (offset b.stride)).Perm (List.range b.numel) := by
  have hn : ((indices b.shape).map (offset b.stride)).Nodup := by
    refine (List.nodup_map_iff_inj_on (nodup_indices _)).mpr ?_
    intro x hx y hy hxy
    exact (flat_pair b hl hf x y ((mem_indices _ _).mp hx) ((mem_indices _ _).mp hy)).2 hxy
  refine (hn.subperm ?_).perm_of_length_le ?_
  · intro x hx
    obtain ⟨r, hr, rfl⟩ := List.mem_map.mp hx
    have := (mem_indices _ _).mp hr
    exact List.mem_range.mpr (flat_pair b hl hf r r this this).1
  · rw [List.length_range, List.length_map, length_indices]
    exact Nat.le_refl _

theorem inShape_zero : ∀ s : List Nat, (∀ n ∈ s, 0 < n) → InShape s (s.map fun _ => 0)
  | [], _ => trivial
  | n :: s, h => ⟨h n List.mem_cons_self, inShape_zero s fun m hm => h m (List.mem_cons_of_mem _ hm)⟩

theorem offset_zero : ∀ s st : List Nat, offset st (s.map fun _ => 0) = 0
  | [], st => by simp [offset]
  | _ :: s, [] => by simp [offset]
  | _ :: s, t :: st => by
    have := offset_zero s st
    simp only [offset, List.map_cons, List.zipWith_cons_cons, List.sum_cons, Nat.mul_zero, Nat.zero_add] at this ⊢
    exact this

/-- Conversely equal offsets of all elements of a non-empty tensor give equal `(size, stride)` pairs. -/
theorem extents_of_offset : ∀ (s st st' : List Nat), s.length = st.length → s.length = st'.length →
    (∀ n ∈ s, 0 < n) → (∀ r, InShape s r → offset st r = offset st' r) →
    ((s.zip st).filter fun e => decide (e.1 ≠ 1)) = ((s.zip st').filter fun e => decide (e.1 ≠ 1))
  | [], _, _, _, _, _, _ => rfl
  | n :: s, t :: st, t' :: st', h1, h2, hp, h => by
    have hp' : ∀ m ∈ s, 0 < m := fun m hm => hp m (List.mem_cons_of_mem _ hm)
    have hn := hp n List.mem_cons_self
    have ih := extents_of_offset s st st' (by simpa using h1) (by simpa using h2) hp' (by
      intro r hr
      have := h (0 :: r) ⟨hn, hr⟩
      simpa only [offset, List.zipWith_cons_cons, List.sum_cons, Nat.mul_zero, Nat.zero_add] using this)
    simp only [List.zip_cons_cons]
    by_cases h3 : n = 1
    · rw [List.filter_cons_of_neg (by simp [h3]), List.filter_cons_of_neg (by simp [h3]), ih]
    · rw [List.filter_cons_of_pos (by simp [h3]), List.filter_cons_of_pos (by simp [h3]), ih]
      have := h (1 :: s.map fun _ => 0) ⟨by omega, inShape_zero s hp'⟩
      have z1 := offset_zero s st
      have z2 := offset_zero s st'
      simp only [offset, List.zipWith_cons_cons, List.sum_cons, Nat.mul_one] at this z1 z2
      rw [z1, z2, Nat.add_zero, Nat.add_zero] at this
      rw [this]
  | _ :: _, [], _, h, _, _, _ => by simp at h
  | _ :: _, _ :: _, [], _, h, _, _ => by simp at h

end Verif.Adam
