import Verif.Sampler.Model
import Mathlib.Tactic.Linarith
import Mathlib.Tactic.Ring
import Mathlib.Data.List.Range
import Mathlib.Data.List.Perm.Basic

/-!
# C35: the map-style evaluation planner covers every sample exactly once
-/
namespace Verif.Sampler
section
variable {σ ρ : Type} [DecidableEq σ]

theorem bucketAdd_perm (z : σ) (x : ρ) : ∀ (bs : List (σ × List ρ)), ((bucketAdd z x bs).flatMap (·.2)).Perm (bs.flatMap (·.2) ++ [x])
  | [] => by simp [bucketAdd]
  | (w, l) :: bs => by
    rw [bucketAdd]
    by_cases h : w = z
    · rw [if_pos h]
      simp only [List.flatMap_cons, List.append_assoc]
      exact List.Perm.append_left _ (List.perm_append_comm)
    · rw [if_neg h]
      simp only [List.flatMap_cons, List.append_assoc]
      exact List.Perm.append_left _ (bucketAdd_perm z x bs)

theorem bucketAdd_ok {shape : ρ → σ} (x : ρ) : ∀ (bs : List (σ × List ρ)), (∀ b ∈ bs, ∀ y ∈ b.2, shape y = b.1) →
    ∀ b ∈ bucketAdd (shape x) x bs, ∀ y ∈ b.2, shape y = b.1
  | [], _ => by simp [bucketAdd]
  | (w, l) :: bs, h => by
    rw [bucketAdd]
    by_cases hz : w = shape x
    · rw [if_pos hz]
      intro b hb
      rcases List.mem_cons.mp hb with rfl | hb
      · intro y hy
        rcases List.mem_append.mp hy with hy | hy
        · exact h (w, l) (List.mem_cons_self ..) y hy
        · simp only [List.mem_singleton] at hy; rw [hy]; exact hz.symm
      · exact h b (List.mem_cons_of_mem _ hb)
    · rw [if_neg hz]
      intro b hb
      rcases List.mem_cons.mp hb with rfl | hb
      · exact h (w, l) (List.mem_cons_self ..)
      · exact bucketAdd_ok x bs (fun b hb => h b (List.mem_cons_of_mem _ hb)) b hb

theorem foldl_buckets {shape : ρ → σ} : ∀ (refs : List ρ) (bs : List (σ × List ρ)), (∀ b ∈ bs, ∀ y ∈ b.2, shape y = b.1) →
    ((refs.foldl (fun bs x => bucketAdd (shape x) x bs) bs).flatMap (·.2)).Perm (bs.flatMap (·.2) ++ refs) ∧
    ∀ b ∈ refs.foldl (fun bs x => bucketAdd (shape x) x bs) bs, ∀ y ∈ b.2, shape y = b.1
  | [], bs, h => by simpa using h
  | x :: refs, bs, h => by
    obtain ⟨h1, h2⟩ := foldl_buckets refs (bucketAdd (shape x) x bs) (bucketAdd_ok x bs h)
    refine ⟨h1.trans ?_, h2⟩
    have := (bucketAdd_perm (shape x) x bs).append_right refs
    simpa using this

/-- Chunks. -/
theorem chunks_flatten {G : Nat} (hG : 0 < G) (l : List ρ) : (chunks G l).flatten = l := by
  unfold chunks
  have key : ∀ (n : Nat), ((List.range n).map fun k => (l.drop (k * G)).take G).flatten = l.take (n * G) := by
    intro n
    induction n with
    | zero => simp
    | succ n ih =>
      rw [List.range_succ, List.map_append, List.flatten_append, ih]
      simp only [List.map_cons, List.map_nil, List.flatten_cons, List.flatten_nil, List.append_nil]
      rw [Nat.add_mul, Nat.one_mul, List.take_add]
  rw [key]
  apply List.take_of_length_le
  have h2 := Nat.div_add_mod (l.length + G - 1) G
  have h3 := Nat.mod_lt (l.length + G - 1) hG
  rw [Nat.mul_comm]
  omega

theorem chunks_mem {G : Nat} (hG : 0 < G) (l : List ρ) : ∀ ch ∈ chunks G l, ch ≠ [] ∧ ch.length ≤ G ∧ ∀ x ∈ ch, x ∈ l := by
  intro ch hc
  unfold chunks at hc
  simp only [List.mem_map, List.mem_range] at hc
  obtain ⟨k, hk, rfl⟩ := hc
  refine ⟨?_, by rw [List.length_take]; omega, fun x hx => List.mem_of_mem_drop (List.mem_of_mem_take hx)⟩
  intro h0
  have := congrArg List.length h0
  rw [List.length_take, List.length_drop, List.length_nil] at this
  have h1 : k * G < l.length := by
    have : (k + 1) * G ≤ ((l.length + G - 1) / G) * G := Nat.mul_le_mul_right _ hk
    have h2 := Nat.div_mul_le_self (l.length + G - 1) G
    rw [Nat.add_mul] at this
    omega
  omega

theorem padLoop_spec {G : Nat} {real : List ρ} (hr : real ≠ []) : ∀ (fuel : Nat) (values : List ρ), real <+: values → values.length ≤ G →
    (∀ x ∈ values, x ∈ real) → G ≤ values.length + fuel →
    (padLoop G real fuel values).length = G ∧ real <+: padLoop G real fuel values ∧ ∀ x ∈ padLoop G real fuel values, x ∈ real
  | 0, values, h1, h2, h3, h4 => by rw [padLoop]; exact ⟨by omega, h1, h3⟩
  | fuel + 1, values, h1, h2, h3, h4 => by
    rw [padLoop]
    by_cases hlt : values.length < G
    · rw [if_pos hlt]
      have hm := Nat.mod_lt (values.length - real.length) (List.length_pos_iff.mpr hr)
      rw [List.getElem?_eq_getElem hm]
      simp only
      refine padLoop_spec hr fuel _ (h1.trans (List.prefix_append ..)) (by rw [List.length_append, List.length_singleton]; omega) ?_
        (by rw [List.length_append, List.length_singleton]; omega)
      intro x hx
      rcases List.mem_append.mp hx with hx | hx
      · exact h3 x hx
      · simp only [List.mem_singleton] at hx; rw [hx]; exact List.getElem_mem _
    · rw [if_neg hlt]
      exact ⟨by omega, h1, h3⟩

theorem padded_spec {G : Nat} {real : List ρ} (hr : real ≠ []) (hl : real.length ≤ G) :
    (padded G real).1.length = G ∧ (padded G real).2.length = G ∧ (∀ x ∈ (padded G real).1, x ∈ real) ∧
    (((padded G real).1.zip (padded G real).2).filter (·.2)).map (·.1) = real := by
  obtain ⟨h1, h2, h3⟩ := padLoop_spec (G := G) hr G real (List.prefix_refl _) hl (fun x h => h) (by omega)
  refine ⟨h1, by simp [padded]; omega, h3, ?_⟩
  obtain ⟨t, ht⟩ := h2
  unfold padded
  simp only
  rw [← ht, List.zip_append (by simp), List.filter_append, List.map_append]
  have e1 : ((real.zip (List.replicate real.length true)).filter (·.2)).map (·.1) = real := by
    rw [List.filter_eq_self.mpr]
    · rw [List.map_fst_zip (by simp)]
    · intro p hp
      have := (List.of_mem_zip hp).2
      rw [List.eq_of_mem_replicate this]
  have e2 : ((t.zip (List.replicate (G - real.length) false)).filter (·.2)).map (·.1) = [] := by
    rw [List.filter_eq_nil_iff.mpr]
    · rfl
    · intro p hp
      have := (List.of_mem_zip hp).2
      rw [List.eq_of_mem_replicate this]
      simp
  rw [e1, e2, List.append_nil]

theorem globalBatches_spec {shape : ρ → σ} {G : Nat} (hG : 0 < G) (refs : List ρ) :
    (∀ g ∈ globalBatches shape G refs, g.1.length = G ∧ g.2.length = G ∧ ∃ z, ∀ x ∈ g.1, shape x = z) ∧
    ((globalBatches shape G refs).flatMap fun g => ((g.1.zip g.2).filter (·.2)).map (·.1)).Perm refs := by
  obtain ⟨h1, h2⟩ := foldl_buckets (shape := shape) refs [] (by simp)
  have hmem : ∀ b ∈ buckets shape refs, ∀ ch ∈ chunks G b.2, (padded G ch).1.length = G ∧ (padded G ch).2.length = G ∧
      (∃ z, ∀ x ∈ (padded G ch).1, shape x = z) ∧ (((padded G ch).1.zip (padded G ch).2).filter (·.2)).map (·.1) = ch := by
    intro b hb ch hc
    obtain ⟨c1, c2, c3⟩ := chunks_mem hG b.2 ch hc
    obtain ⟨p1, p2, p3, p4⟩ := padded_spec c1 c2
    exact ⟨p1, p2, ⟨b.1, fun x hx => h2 b hb x (c3 x (p3 x hx))⟩, p4⟩
  constructor
  · intro g hg
    unfold globalBatches at hg
    simp only [List.mem_flatMap, List.mem_map] at hg
    obtain ⟨b, hb, ch, hc, rfl⟩ := hg
    obtain ⟨p1, p2, p3, _⟩ := hmem b hb ch hc
    exact ⟨p1, p2, p3⟩
  · have he : ((globalBatches shape G refs).flatMap fun g => ((g.1.zip g.2).filter (·.2)).map (·.1)) = (buckets shape refs).flatMap (·.2) := by
      unfold globalBatches
      rw [List.flatMap_assoc]
      apply List.flatMap_congr
      intro b hb
      rw [List.flatMap_map]
      have : ((chunks G b.2).flatMap fun ch => (((padded G ch).1.zip (padded G ch).2).filter (·.2)).map (·.1)) = (chunks G b.2).flatMap id := by
        apply List.flatMap_congr
        intro ch hc
        exact (hmem b hb ch hc).2.2.2
      rw [this, List.flatMap_id, chunks_flatten hG]
    rw [he]
    unfold buckets
    simpa using h1

theorem slices_flatten {β : Type} (l : List β) (W b : Nat) (hl : l.length = W * b) :
    ((List.range W).flatMap fun r => (l.drop (r * b)).take b) = l := by
  have key : ∀ (n : Nat), ((List.range n).flatMap fun k => (l.drop (k * b)).take b) = l.take (n * b) := by
    intro n
    induction n with
    | zero => simp
    | succ n ih =>
      rw [List.range_succ, List.flatMap_append, ih]
      simp only [List.flatMap_cons, List.flatMap_nil, List.append_nil]
      rw [Nat.add_mul, Nat.one_mul, List.take_add]
  rw [key, ← hl, List.take_length]

end

/-- One rank's batch `i`. -/
def batchOf {σ ρ : Type} [DecidableEq σ] (shape : ρ → σ) (W b : Nat) (refs : List ρ) (r i : Nat) : List ρ × List Bool × Bool :=
  (((rankBatches shape (W * b) b r refs).getD []).getD i ([], [], false))

/-- The samples a batch marks as real. -/
def realOf {ρ : Type} (x : List ρ × List Bool × Bool) : List ρ := ((x.1.zip x.2.1).filter (·.2)).map (·.1)

/-- **C35.** For every non-empty dataset, world size `W` and local batch size `b`: every rank gets the same number `N` of batches; batch
`i` has `b` samples and `b` mask entries on every rank, all of one shape across ranks; exactly the last batch is flagged last;
and over all batches and ranks the samples marked real are every sample exactly once. -/
theorem C35_exact_coverage {σ ρ : Type} [DecidableEq σ] (shape : ρ → σ) (W b : Nat) (hW : 0 < W) (hb : 0 < b) (refs : List ρ) (hne : refs ≠ []) :
    ∃ N, (∀ r, ∃ bs, rankBatches shape (W * b) b r refs = some bs ∧ bs.length = N) ∧
      (∀ r, r < W → ∀ i, i < N → (batchOf shape W b refs r i).1.length = b ∧ (batchOf shape W b refs r i).2.1.length = b ∧
        ((batchOf shape W b refs r i).2.2 = true ↔ i + 1 = N)) ∧
      (∀ i, i < N → ∃ z, ∀ r, r < W → ∀ x ∈ (batchOf shape W b refs r i).1, shape x = z) ∧
      ((List.range N).flatMap fun i => (List.range W).flatMap fun r => realOf (batchOf shape W b refs r i)).Perm refs := by
  have hG : 0 < W * b := Nat.mul_pos hW hb
  have hl : ¬ refs.length = 0 := by rw [List.length_eq_zero_iff]; exact hne
  obtain ⟨g1, g2⟩ := globalBatches_spec (shape := shape) hG refs
  set gs := globalBatches shape (W * b) refs with hgs
  have hrb : ∀ r, rankBatches shape (W * b) b r refs =
      some (gs.mapIdx fun i g => ((g.1.drop (r * b)).take b, (g.2.drop (r * b)).take b, decide (i + 1 = gs.length))) := by
    intro r
    unfold rankBatches
    rw [if_neg hl]
  have hbo : ∀ r i (hi : i < gs.length), batchOf shape W b refs r i =
      ((gs[i].1.drop (r * b)).take b, (gs[i].2.drop (r * b)).take b, decide (i + 1 = gs.length)) := by
    intro r i hi
    unfold batchOf
    rw [hrb]
    simp [List.getD_eq_getElem?_getD, hi]
  refine ⟨gs.length, fun r => ⟨_, hrb r, by simp⟩, ?_, ?_, ?_⟩
  · intro r hr i hi
    obtain ⟨l1, l2, _⟩ := g1 gs[i] (List.getElem_mem _)
    have : (r + 1) * b ≤ W * b := Nat.mul_le_mul_right _ hr
    rw [Nat.add_mul] at this
    rw [hbo r i hi]
    simp only [List.length_take, List.length_drop, l1, l2, decide_eq_true_eq]
    exact ⟨by omega, by omega, trivial⟩
  · intro i hi
    obtain ⟨_, _, z, hz⟩ := g1 gs[i] (List.getElem_mem _)
    refine ⟨z, fun r _ x hx => hz x ?_⟩
    rw [hbo r i hi] at hx
    exact List.mem_of_mem_drop (List.mem_of_mem_take hx)
  · have he : ((List.range gs.length).flatMap fun i => (List.range W).flatMap fun r => realOf (batchOf shape W b refs r i)) =
        gs.flatMap fun g => ((g.1.zip g.2).filter (·.2)).map (·.1) := by
      have h1 : ∀ i ∈ List.range gs.length, ((List.range W).flatMap fun r => realOf (batchOf shape W b refs r i)) =
          (fun i => ((gs.map fun g => ((g.1.zip g.2).filter (·.2)).map (·.1)).getD i [])) i := by
        intro i hi
        rw [List.mem_range] at hi
        obtain ⟨l1, l2, _⟩ := g1 gs[i] (List.getElem_mem _)
        have hz : (gs[i].1.zip gs[i].2).length = W * b := by rw [List.length_zip, l1, l2]; simp
        have h2 : (fun r => realOf (batchOf shape W b refs r i)) =
            fun r => ((((gs[i].1.zip gs[i].2).drop (r * b)).take b).filter (·.2)).map (·.1) := by
          funext r
          rw [hbo r i hi]
          unfold realOf
          simp only
          simp only [List.zip, List.take_zipWith, List.drop_zipWith]
        rw [h2]
        simp only [List.getD_eq_getElem?_getD, List.getElem?_map, List.getElem?_eq_getElem hi, Option.map_some, Option.getD_some]
        rw [← List.map_flatMap, ← List.filter_flatMap, slices_flatten _ _ _ hz]
      rw [List.flatMap_congr h1]
      have h3 : ∀ (L : List (List ρ)), ((List.range L.length).flatMap fun i => L.getD i []) = L.flatten := by
        intro L
        rw [List.flatMap_def]
        congr 1
        apply List.ext_getElem
        · simp
        · intro i h1 h2
          simp [h2]
      have h4 := h3 (gs.map fun g => ((g.1.zip g.2).filter (·.2)).map (·.1))
      rw [List.length_map] at h4
      rw [h4, List.flatMap_def]
    rw [he]
    exact g2

/-- An empty dataset is rejected. -/
theorem C35_empty_rejected {σ ρ : Type} [DecidableEq σ] (shape : ρ → σ) (G b r : Nat) : rankBatches shape G b r ([] : List ρ) = none := rfl

/-- Non-vacuity: five samples of two shapes, two ranks of two. -/
example : rankBatches (fun x : Nat => x % 2) 4 2 1 [1, 2, 3, 5, 4] =
    some [([5, 1], [true, false], false), ([2, 4], [false, false], true)] := by decide

end Verif.Sampler
