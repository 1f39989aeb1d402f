import Verif.Sampler.Model
import Mathlib.Tactic.Linarith
import Mathlib.Tactic.Ring
import Mathlib.Data.List.Range
import Mathlib.Data.List.Perm.Basic

/-!
# C34 (board-size grouping), C35 (map-style evaluation planner), C36 (concatenated dataset)
-/
namespace Verif.Sampler

/-! ## C34 -/
section board
variable {σ α : Type} [DecidableEq σ] (size : α → σ) (B : Nat)

structure BInv (bufs : σ → List α) : Prop where
  homog : ∀ z, ∀ x ∈ bufs z, size x = z
  short : ∀ z, (bufs z).length < B

theorem boardStep_spec {bufs : σ → List α} (h : BInv size B bufs) (x : α) :
    BInv size B (boardStep size B bufs x).2 ∧
    ((boardStep size B bufs x).1 = [] ∨ ((boardStep size B bufs x).1.length = B ∧ ∀ y ∈ (boardStep size B bufs x).1, size y = size x)) ∧
    ∀ z, ((boardStep size B bufs x).1.reverse).filter (fun y => size y = z) ++ (boardStep size B bufs x).2 z =
      bufs z ++ [x].filter (fun y => size y = z) := by
  have hh := h.homog
  have hs := h.short
  have hall : ∀ y ∈ bufs (size x) ++ [x], size y = size x := by
    intro y hy
    rcases List.mem_append.mp hy with hy | hy
    · exact hh _ y hy
    · simp only [List.mem_singleton] at hy; rw [hy]
  have hB : 0 < B := Nat.lt_of_le_of_lt (Nat.zero_le _) (hs (size x))
  unfold boardStep
  simp only
  by_cases hl : (bufs (size x) ++ [x]).length = B
  · rw [if_pos hl]
    refine ⟨⟨?_, ?_⟩, Or.inr ⟨by rw [List.length_reverse]; exact hl, fun y hy => hall y (List.mem_reverse.mp hy)⟩, ?_⟩
    · intro z y hy
      simp only at hy
      split at hy
      · simp at hy
      · exact hh z y hy
    · intro z
      simp only
      split
      · exact hB
      · exact hs z
    · intro z
      simp only [List.reverse_reverse]
      by_cases hz : z = size x
      · subst hz
        rw [if_pos rfl, List.append_nil, List.filter_eq_self.mpr (by simpa using fun y hy => hall y (List.mem_append.mpr hy))]
        simp
      · rw [if_neg hz, List.filter_eq_nil_iff.mpr, List.filter_eq_nil_iff.mpr]
        · simp
        · intro y hy; simp only [List.mem_singleton] at hy; subst hy; simpa using fun h => hz h.symm
        · intro y hy; rw [hall y hy]; simpa using fun h => hz h.symm
  · rw [if_neg hl]
    refine ⟨⟨?_, ?_⟩, Or.inl rfl, ?_⟩
    · intro z y hy
      simp only at hy
      split at hy
      · next hz => rw [hz]; exact hall y hy
      · exact hh z y hy
    · intro z
      simp only
      split
      · have := hs (size x)
        rw [List.length_append, List.length_singleton] at hl ⊢
        omega
      · exact hs z
    · intro z
      simp only [List.reverse_nil, List.filter_nil, List.nil_append]
      by_cases hz : z = size x
      · subst hz; simp
      · rw [if_neg hz, List.filter_eq_nil_iff.mpr]
        · simp
        · intro y hy; simp only [List.mem_singleton] at hy; subst hy; simpa using fun h => hz h.symm

theorem boardRun_spec : ∀ (xs : List α) {bufs : σ → List α}, BInv size B bufs →
    BInv size B (boardRun size B bufs xs).2 ∧
    (∀ g ∈ (boardRun size B bufs xs).1, g = [] ∨ (g.length = B ∧ ∃ z, ∀ y ∈ g, size y = z)) ∧
    ∀ z, (((boardRun size B bufs xs).1.map List.reverse).flatten).filter (fun y => size y = z) ++ (boardRun size B bufs xs).2 z =
      bufs z ++ xs.filter (fun y => size y = z)
  | [], bufs, h => by simp [boardRun, h]
  | x :: xs, bufs, h => by
    obtain ⟨h1, h2, h3⟩ := boardStep_spec size B h x
    obtain ⟨i1, i2, i3⟩ := boardRun_spec xs h1
    rw [boardRun]
    refine ⟨i1, ?_, ?_⟩
    · intro g hg
      rcases List.mem_cons.mp hg with rfl | hg
      · rcases h2 with h2 | h2
        · exact Or.inl h2
        · exact Or.inr ⟨h2.1, _, h2.2⟩
      · exact i2 g hg
    · intro z
      simp only [List.map_cons, List.flatten_cons, List.filter_append, List.append_assoc]
      rw [i3 z, ← List.append_assoc, h3 z, List.append_assoc, ← List.filter_append]
      rfl

end board

/-- **C34.** For every sample sequence the emitted stream is a concatenation of groups of exactly `batch_size` samples of one board
size each; for each board size the emitted samples (groups taken in order, each read backwards) followed by fewer than
`batch_size` dropped ones are exactly the samples of that size in arrival order. -/
theorem C34_homogeneous_groups (σ α : Type) [DecidableEq σ] (size : α → σ) (B : Nat) (hB : 0 < B) (xs : List α) :
    ∃ (groups : List (List α)) (dropped : σ → List α),
      (boardRun size B (fun _ => []) xs).1.flatten = groups.flatten ∧
      (∀ g ∈ groups, g.length = B ∧ ∃ z, ∀ y ∈ g, size y = z) ∧
      (∀ z, ((groups.map List.reverse).flatten).filter (fun y => size y = z) ++ dropped z = xs.filter (fun y => size y = z)) ∧
      ∀ z, (dropped z).length < B := by
  obtain ⟨h1, h2, h3⟩ := boardRun_spec size B xs (bufs := fun _ => []) ⟨by simp, fun _ => by simpa using hB⟩
  refine ⟨(boardRun size B (fun _ => []) xs).1.filter (fun g => !g.isEmpty), (boardRun size B (fun _ => []) xs).2, ?_, ?_, ?_, h1.short⟩
  · exact List.flatten_filter_not_isEmpty.symm
  · intro g hg
    rw [List.mem_filter] at hg
    rcases h2 g hg.1 with rfl | h
    · simp at hg
    · exact h
  · intro z
    have h3z := h3 z
    have he : ∀ (l : List (List α)), ((l.filter (fun g => !g.isEmpty)).map List.reverse).flatten = (l.map List.reverse).flatten := by
      intro l
      induction l with
      | nil => rfl
      | cons g l ih =>
        cases g with
        | nil => simpa using ih
        | cons y g => simp [ih]
    rw [he]
    simpa using h3z

/-- Consequence: each sample is emitted at most as often as it occurs. -/
theorem C34_at_most_once (σ α : Type) [DecidableEq σ] [DecidableEq α] (size : α → σ) (B : Nat) (hB : 0 < B) (xs : List α) (a : α) :
    (boardRun size B (fun _ => []) xs).1.flatten.count a ≤ xs.count a := by
  obtain ⟨groups, dropped, h1, _, h3, _⟩ := C34_homogeneous_groups σ α size B hB xs
  have hp : ((groups.map List.reverse).flatten).count a = groups.flatten.count a := by
    rw [List.count_flatten, List.count_flatten, List.map_map]
    congr 1
    apply List.map_congr_left
    intro g _
    simp
  have hf : ∀ (l : List α), (l.filter (fun y => size y = size a)).count a = l.count a := by
    intro l
    rw [List.count_filter (by simp)]
  have := congrArg (List.count a) (h3 (size a))
  rw [List.count_append, hf, hf, hp] at this
  rw [h1]
  omega

example : (boardRun (fun x : Nat × Nat => x.1) 2 (fun _ => []) [(15, 1), (20, 2), (15, 3), (20, 4), (15, 5)]).1.flatten =
    [(15, 3), (15, 1), (20, 4), (20, 2)] := by decide

/-! ## C36 -/

theorem locate_nonneg : ∀ (ns : List Nat) (i : Nat), i < total ns →
    ∃ ch j : Nat, ∃ n, locate ns i = some (ch, (j : Int)) ∧ ns[ch]? = some n ∧ j < n ∧ (ns.take ch).sum + j = i
  | [], i, h => by simp [total] at h
  | n :: ns, i, h => by
    rw [locate]
    by_cases hlt : i < n
    · rw [if_pos (by exact_mod_cast hlt)]
      exact ⟨0, i, n, rfl, rfl, hlt, by simp⟩
    · rw [if_neg (by exact_mod_cast hlt)]
      have h' : i - n < total ns := by simp only [total, List.sum_cons] at h ⊢; omega
      obtain ⟨ch, j, m, h1, h2, h3, h4⟩ := locate_nonneg ns (i - n) h'
      have hc : ((i : Int) - n) = ((i - n : Nat) : Int) := by omega
      rw [hc, h1]
      exact ⟨ch + 1, j, m, rfl, h2, h3, by simp only [List.take_succ_cons, List.sum_cons]; omega⟩

/-- **C36 (total on range).** Every index below the length is one item of one child: child `ch`, inner index `j` in range, with the
lengths of the earlier children plus `j` equal to the index. -/
theorem C36_in_range (ns : List Nat) (i : Nat) (hi : i < total ns) :
    ∃ ch j : Nat, ∃ n, locate ns i = some (ch, (j : Int)) ∧ ns[ch]? = some n ∧ j < n ∧ (ns.take ch).sum + j = i := locate_nonneg ns i hi

/-- **C36 (injective).** Different indices are different items. -/
theorem C36_injective (ns : List Nat) (i i' : Nat) (hi : i < total ns) (hi' : i' < total ns) (h : locate ns i = locate ns i') : i = i' := by
  obtain ⟨ch, j, n, h1, _, _, h4⟩ := locate_nonneg ns i hi
  obtain ⟨ch', j', n', h1', _, _, h4'⟩ := locate_nonneg ns i' hi'
  rw [h1, h1'] at h
  simp only [Option.some.injEq, Prod.mk.injEq, Int.natCast_inj] at h
  obtain ⟨rfl, rfl⟩ := h
  omega

/-- **C36 (surjective).** Every item of every child is reached, at the index that counts the items before it. -/
theorem C36_surjective : ∀ (ns : List Nat) (ch j n : Nat), ns[ch]? = some n → j < n →
    (ns.take ch).sum + j < total ns ∧ locate ns (((ns.take ch).sum + j : Nat) : Int) = some (ch, (j : Int))
  | [], ch, j, n, h, _ => by simp at h
  | m :: ns, 0, j, n, h, hj => by
    simp at h
    subst h
    rw [locate]
    simp [total, hj]
    omega
  | m :: ns, ch + 1, j, n, h, hj => by
    have h' : ns[ch]? = some n := by simpa using h
    obtain ⟨h1, h2⟩ := C36_surjective ns ch j n h' hj
    refine ⟨by simp only [List.take_succ_cons, List.sum_cons, total] at h1 ⊢; omega, ?_⟩
    rw [locate, if_neg (by push_cast [List.take_succ_cons, List.sum_cons]; omega)]
    have : ((((m :: ns).take (ch + 1)).sum + j : Nat) : Int) - m = (((ns.take ch).sum + j : Nat) : Int) := by
      rw [List.take_succ_cons, List.sum_cons]; push_cast; omega
    rw [this, h2]
    rfl

/-- **C36 (out of range).** An index at or beyond the length raises. -/
theorem C36_out_of_range : ∀ (ns : List Nat) (i : Nat), total ns ≤ i → locate ns i = none
  | [], i, _ => rfl
  | n :: ns, i, h => by
    simp only [total, List.sum_cons] at h
    have h' := C36_out_of_range ns (i - n) (by simp only [total]; omega)
    rw [locate, if_neg (by omega)]
    have hc : ((i : Int) - n) = ((i - n : Nat) : Int) := by omega
    rw [hc, h']
    rfl

/-- A negative index is always handed to the first child (unlike Python sequences, `ds[-1]` is not the last item). -/
theorem C36_negative_first_child (n : Nat) (ns : List Nat) (i : Int) (h : i < 0) : locate (n :: ns) i = some (0, i) := by
  rw [locate, if_pos (by omega)]

example : locate [3, 0, 2] 3 = some (2, 0) ∧ locate [3, 0, 2] 4 = some (2, 1) ∧ locate [3, 0, 2] 5 = none := by decide

end Verif.Sampler
