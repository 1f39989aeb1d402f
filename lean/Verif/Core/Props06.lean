import Verif.Core.Model
import Mathlib.Tactic.Linarith
import Mathlib.Tactic.SplitIfs
import Mathlib.Tactic.Ring
import Mathlib.Logic.Basic
import Mathlib.Data.List.Basic

/-!
C06: for a valid runtime context the slices taken by ranks `0 .. world-1` are disjoint, each has
`local_batch_size` rows and together they are exactly the global batch, in order.
-/

namespace Verif.Core

/-- What a valid topology is, in words of the user. -/
def ValidTopology (gbs lbs world rank seed : Int) (mode : String) : Prop :=
  1 ≤ world ∧ 0 ≤ rank ∧ rank < world ∧ 0 < lbs ∧ lbs * world = gbs ∧
  (mode = "train" ∨ mode = "validate" ∨ mode = "test" ∨ mode = "export" ∨ mode = "visualize") ∧
  -9223372036854775808 ≤ seed ∧ seed ≤ 9223372036854775807

/-- A context is accepted exactly when the topology is valid, and is then unchanged. -/
theorem C06_accepts (gbs lbs world rank seed : Int) (mode : String) :
    (mkCtx ⟨gbs, lbs, world, rank, seed, mode⟩ = .ok ⟨gbs, lbs, world, rank, seed, mode⟩ ↔
      ValidTopology gbs lbs world rank seed mode) ∧
    ∀ c, mkCtx ⟨gbs, lbs, world, rank, seed, mode⟩ = .ok c →
      c = ⟨gbs, lbs, world, rank, seed, mode⟩ := by
  have hm : modes.contains mode = true ↔ (mode = "train" ∨ mode = "validate" ∨ mode = "test" ∨
      mode = "export" ∨ mode = "visualize") := by
    simp [modes]
  have hpos : 1 ≤ world → 0 < lbs → lbs * world = gbs → 0 < gbs := by
    intro h1 h2 h3; rw [← h3]; exact Int.mul_pos h2 (by omega)
  constructor
  · unfold mkCtx ValidTopology
    dsimp only
    rw [← hm]
    split_ifs with h1 h2 h3 h4 h5 h6 <;> simp_all
    all_goals first | omega | skip
  · intro c
    unfold mkCtx
    dsimp only
    split_ifs <;> simp_all

theorem sliceBound_nonneg (n : Nat) (i : Int) (h : 0 ≤ i) : sliceBound n i = min i n := by
  unfold sliceBound; rw [if_neg (by omega)]

theorem pySlice_nat {α : Type} (xs : List α) (a n : Nat) (h : a + n ≤ xs.length) :
    pySlice xs a (a + n) = (xs.drop a).take n := by
  unfold pySlice
  rw [sliceBound_nonneg _ _ (by omega), sliceBound_nonneg _ _ (by omega)]
  have h1 : (min (a : Int) xs.length).toNat = a := by omega
  have h2 : (min ((a : Int) + n) xs.length).toNat = a + n := by omega
  rw [h1, h2, Nat.add_sub_cancel_left]

theorem flatMap_chunks {α : Type} (l : Nat) : ∀ (w : Nat) (xs : List α), xs.length = l * w →
    (List.range w).flatMap (fun r => (xs.drop (r * l)).take l) = xs
  | 0, xs, h => by
      have : xs = [] := List.eq_nil_of_length_eq_zero (by simpa using h)
      simp [this]
  | w + 1, xs, h => by
      rw [List.range_succ_eq_map, List.flatMap_cons, List.flatMap_map]
      have h' : (xs.drop l).length = l * w := by
        rw [List.length_drop, h, Nat.mul_succ]; omega
      have ih := flatMap_chunks l w (xs.drop l) h'
      have he : (fun r => List.take l (List.drop (r.succ * l) xs)) =
          (fun r => List.take l (List.drop (r * l) (xs.drop l))) := by
        funext r
        rw [List.drop_drop]
        congr 2
        rw [Nat.succ_mul]; omega
      simp only [Function.comp_def, he]
      rw [ih]
      simp

/-- The rows handed to the ranks of one valid topology: every rank's slice succeeds, has
`local_batch_size` rows and its own flags, and the concatenation in rank order is the global batch
(rows and flags), for every global batch of `global_batch_size` rows. -/
theorem C06_partition {α : Type} (gbs lbs seed : Int) (world : Nat) (mode : String)
    (hvalid : ∀ r : Nat, r < world → ValidTopology gbs lbs world r seed mode)
    (hw : 0 < world) (rows : List α) (real : List Bool)
    (hrows : (rows.length : Int) = gbs) (hreal : real.length = rows.length) :
    ∃ part : Nat → List α × List Bool,
      (∀ r, r < world → localSlice ⟨gbs, lbs, world, r, seed, mode⟩ false rows real = .ok (part r) ∧
        ((part r).1.length : Int) = lbs ∧ (part r).2.length = (part r).1.length) ∧
      (List.range world).flatMap (fun r => (part r).1) = rows ∧
      (List.range world).flatMap (fun r => (part r).2) = real := by
  obtain ⟨-, -, -, hl, hm, -⟩ := hvalid 0 hw
  obtain ⟨l, rfl⟩ : ∃ l : Nat, lbs = l := ⟨lbs.toNat, by omega⟩
  subst hm
  have hlen : rows.length = l * world := by exact_mod_cast hrows
  have key : ∀ r, r < world → r * l + l ≤ rows.length := by
    intro r hr
    rw [hlen]
    calc r * l + l = l * (r + 1) := by ring
      _ ≤ l * world := Nat.mul_le_mul_left _ hr
  refine ⟨fun r => ((rows.drop (r * l)).take l, (real.drop (r * l)).take l), ?_, ?_, ?_⟩
  · intro r hr
    have hk := key r hr
    have e1 : pySlice rows ((r:Int) * l) ((r:Int) * l + l) = (rows.drop (r * l)).take l := by
      have := pySlice_nat rows (r * l) l hk
      push_cast at this
      exact this
    have e2 : pySlice real ((r:Int) * l) ((r:Int) * l + l) = (real.drop (r * l)).take l := by
      have := pySlice_nat real (r * l) l (by omega)
      push_cast at this
      exact this
    refine ⟨?_, ?_, ?_⟩
    · unfold localSlice Ctx.slice
      simp only [e1, e2, Bool.false_eq_true, if_false]
      rw [if_neg]
      simp only [List.length_take, List.length_drop, ne_eq, not_not]
      omega
    · simp only [List.length_take, List.length_drop]; omega
    · simp only [List.length_take, List.length_drop]; omega
  · exact flatMap_chunks l world rows hlen
  · exact flatMap_chunks l world real (by omega)

/-- Disjointness and cover, in terms of row positions: each position of the global batch lies in the
slice of exactly one rank, and every slice lies inside the global batch. -/
theorem C06_disjoint_cover (gbs lbs seed : Int) (world : Nat) (mode : String) (hw : 0 < world)
    (hvalid : ∀ r : Nat, r < world → ValidTopology gbs lbs world r seed mode) :
    (∀ i : Int, 0 ≤ i → i < gbs →
      ∃ r : Nat, (r < world ∧ (Ctx.slice ⟨gbs, lbs, world, r, seed, mode⟩).1 ≤ i ∧
          i < (Ctx.slice ⟨gbs, lbs, world, r, seed, mode⟩).2) ∧
        ∀ s : Nat, s < world → (Ctx.slice ⟨gbs, lbs, world, s, seed, mode⟩).1 ≤ i →
          i < (Ctx.slice ⟨gbs, lbs, world, s, seed, mode⟩).2 → s = r) ∧
    ∀ r : Nat, r < world → 0 ≤ (Ctx.slice ⟨gbs, lbs, world, r, seed, mode⟩).1 ∧
      (Ctx.slice ⟨gbs, lbs, world, r, seed, mode⟩).2 ≤ gbs ∧
      (Ctx.slice ⟨gbs, lbs, world, r, seed, mode⟩).2 =
        (Ctx.slice ⟨gbs, lbs, world, r, seed, mode⟩).1 + lbs := by
  obtain ⟨-, -, -, hl, hm, -⟩ := hvalid 0 hw
  obtain ⟨l, rfl⟩ : ∃ l : Nat, lbs = l := ⟨lbs.toNat, by omega⟩
  have hl0 : 0 < l := by omega
  subst hm
  unfold Ctx.slice
  dsimp only
  constructor
  · intro i h0 hi
    obtain ⟨k, rfl⟩ : ∃ k : Nat, i = k := ⟨i.toNat, by omega⟩
    have hk : k < l * world := by exact_mod_cast hi
    have hd := Nat.div_add_mod k l
    have hmod := Nat.mod_lt k hl0
    refine ⟨k / l, ⟨Nat.div_lt_of_lt_mul hk, ?_, ?_⟩, ?_⟩
    · have : k / l * l ≤ k := by rw [Nat.mul_comm]; omega
      exact_mod_cast this
    · have : k < k / l * l + l := by rw [Nat.mul_comm (k / l) l]; omega
      exact_mod_cast this
    · intro s _ h1 h2
      have h1' : s * l ≤ k := by exact_mod_cast h1
      have h2' : k < s * l + l := by exact_mod_cast h2
      symm
      apply Nat.div_eq_of_lt_le h1'
      rw [Nat.succ_mul]; exact h2'
  · intro r hr
    refine ⟨by positivity, ?_, rfl⟩
    have : r * l + l ≤ l * world := by
      calc r * l + l = l * (r + 1) := by ring
        _ ≤ l * world := Nat.mul_le_mul_left _ hr
    exact_mod_cast this

/-- A planned batch with too few rows is never silently consumed: the last rank raises. -/
theorem C06_short_batch {α : Type} (gbs lbs seed : Int) (world : Nat) (mode : String) (hw : 0 < world)
    (hvalid : ∀ r : Nat, r < world → ValidTopology gbs lbs world r seed mode)
    (rows : List α) (real : List Bool) (hshort : (rows.length : Int) < gbs) :
    ∃ e, localSlice ⟨gbs, lbs, world, ((world - 1 : Nat) : Int), seed, mode⟩ false rows real =
      .error e := by
  obtain ⟨-, -, -, hl, hm, -⟩ := hvalid 0 hw
  obtain ⟨w, rfl⟩ : ∃ w, world = w + 1 := ⟨world - 1, by omega⟩
  refine ⟨"planner produced wrong number of local rows", ?_⟩
  unfold localSlice Ctx.slice
  simp only [Bool.false_eq_true, if_false]
  rw [if_pos]
  intro hc
  have hw' : ((w + 1 - 1 : Nat) : Int) = (w : Int) := by simp
  rw [hw'] at hc
  have hstart : 0 ≤ (w : Int) * lbs := Int.mul_nonneg (by omega) (by omega)
  have hend : (w : Int) * lbs + lbs = gbs := by rw [← hm]; push_cast; ring
  generalize (w : Int) * lbs = a at hc hstart hend
  unfold pySlice at hc
  rw [sliceBound_nonneg _ _ hstart, sliceBound_nonneg _ _ (by omega)] at hc
  simp only [List.length_take, List.length_drop] at hc
  omega

/-- Rank-sharded planners plan the local rows already: the batch is taken as it is. -/
theorem C06_sharded {α : Type} (c : Ctx) (rows : List α) (real : List Bool) :
    (∃ p, localSlice c true rows real = .ok p) ↔ (rows.length : Int) = c.localBatch := by
  unfold localSlice
  simp only [if_true]
  split_ifs with h
  · simp [h]
  · simp only [ne_eq, not_not] at h; simp [h]

/-- The single-process context is valid for every positive batch size. -/
theorem C06_single (batch seed : Int) (mode : String) :
    (∃ c, singleProcess batch seed mode = .ok c) ↔ ValidTopology batch batch 1 0 seed mode := by
  obtain ⟨h1, h2⟩ := C06_accepts batch batch 1 0 seed mode
  unfold singleProcess
  constructor
  · rintro ⟨c, hc⟩
    rw [← h1]; rw [h2 c hc] at hc; exact hc
  · intro h; exact ⟨_, h1.mpr h⟩

/-- Non-vacuity: 3 ranks, 2 rows each. -/
example : ∀ r : Nat, r < 3 → ValidTopology 6 2 3 r 7 "train" := by
  intro r hr
  refine ⟨by decide, by omega, by omega, by decide, by decide, Or.inl rfl, by decide, by decide⟩

example : (List.range 3).map (fun r => (localSlice ⟨6, 2, 3, r, 7, "train"⟩ false
      [10, 11, 12, 13, 14, 15] [true, true, true, true, true, false]).toOption) =
    [some ([10, 11], [true, true]), some ([12, 13], [true, true]), some ([14, 15], [true, false])] := by
  decide

end Verif.Core
