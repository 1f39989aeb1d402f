import Verif.Vq.Props78b
import Verif.Vq.Props79b
import Mathlib.Tactic.NormNum

/-! Non-vacuity of C78, C79, C80: three codes of one feature, and the numbers the model computes. -/

set_option synthInstance.maxHeartbeats 400000
set_option synthInstance.maxSize 1000

namespace Verif.Vq.Examples80

/-- which of the three codes an entry is given to -/
def near (_ : List Vec) (x : Vec) : Nat := if x.getD 0 0 ≤ 0 then 0 else if x.getD 0 0 ≤ 10 then 1 else 2

/-- three codes; the generator counts its calls and shuffles by reversing -/
def cfg : Cfg Nat where
  size := 3
  dim := 1
  decay := 1 / 2
  threshold := 1 / 4
  reset := 1 / 2
  emaUpdate := true
  cosine := false
  normalise := id
  search g e xs := (xs.map (near e), g)
  gen := ⟨fun g n => ((List.range n).reverse, g + 1), fun g _ k => (List.replicate k 0, g + 1)⟩

theorem near_lt (e : List Vec) (x : Vec) : near e x < 3 := by
  unfold near
  split
  · omega
  · split <;> omega

theorem cfg_valid : cfg.Valid where
  decay0 := by norm_num [cfg]
  decay1 := by norm_num [cfg]
  threshold0 := by norm_num [cfg]
  reset0 := by norm_num [cfg]
  search_length g e xs := by simp [cfg]
  search_range g e xs i hi := by
    obtain ⟨x, -, rfl⟩ := List.mem_map.1 hi
    exact near_lt e x
  randperm_perm g n := List.reverse_perm _
  randint_length g n k _ := by simp [cfg]
  randint_range g n k hn i hi := by
    have := List.eq_of_mem_replicate hi
    omega

/-! ### C78 -/

/-- a history: four batches; the third code is not used; a load; another batch -/
def events : List Event :=
  [.forward [[0], [5], [20]], .forward [[0], [5], [-1], [7]], .forward [[0], [5], [-1], [7]], .forward [[0], [5], [-1], [7]],
    .optimise [[1], [2], [3]], .load [1, 0, 8] [[0], [1], [2]] [[0], [1], [2]], .forward [[30], [31]]]

example : GoodSizes cfg.size [1, 1, 1] := by refine ⟨rfl, ?_, ?_⟩ <;> decide +kernel

example : ∀ e ∈ events, e.Valid cfg.size := by
  intro e he
  simp only [events, List.mem_cons, List.not_mem_nil, or_false] at he
  rcases he with rfl | rfl | rfl | rfl | rfl | rfl | rfl
  all_goals first
    | exact List.cons_ne_nil _ _
    | trivial
    | (refine ⟨rfl, ?_, ?_⟩ <;> decide +kernel)

def outcome (c : Cfg Nat) (b : Book) (es : List Event) : Option (List ℚ × List Vec × List Vec × Nat × List (Option Nat)) :=
  match history c ⟨b, 0⟩ es with
  | .error _ => none
  | .ok (r, outs) => some (r.book.sizes, r.book.embed, r.book.avg, r.rng, outs)

/-- four steps without dead codes (in three of them the bounds decide), one in which the unused code is replaced, a load with an unused
code, one in which that is replaced -/
example : outcome cfg (loadBook [1, 1, 1] [[0], [5], [20]] [[0], [5], [20]]) events =
    some ([1 / 2, 1 / 4, 5], [[0], [17825093 / 575023], [24150126 / 3833341]], [[0], [31 / 4], [63 / 2]], 2,
      [none, none, none, some 1, some 1]) := by decide +kernel

/-- the bounds are set after the first step and only advanced by the second -/
example : (history cfg ⟨loadBook [1, 1, 1] [[0], [5], [20]] [[0], [5], [20]], 0⟩ (events.take 2)).toOption.map
    (fun r => r.1.book.cache) = some (some (999998000001 / 2000000000000, 7000010000003 / 2000000000000)) := by
  decide +kernel

/-! ### C80 -/

def replica (rng : Nat) : Rank Nat := ⟨loadBook [1, 1, 1 / 16] [[0], [5], [20]] [[0], [5], [20]], rng⟩

/-- the last code is dead and replaced by an entry of the first rank; then both ranks' batches move the codes -/
example : (trainStep cfg [(replica 0, [[3], [4]]), (replica 7, [[-2], [44]])]).toOption.map
      (fun r => (r.1.map (fun x => (x.book.data, x.rng)), r.2)) = some
    ([(([1, 3 / 2, 3 / 4], [[-1300012 / 1300013], [7800072 / 1950013], [29900276 / 975013]], [[-1], [6], [23]]), 1),
      (([1, 3 / 2, 3 / 4], [[-1300012 / 1300013], [7800072 / 1950013], [29900276 / 975013]], [[-1], [6], [23]]), 8)],
      [some 1, some 1]) := by decide +kernel

example : ∃ rs outs d', trainSteps cfg [replica 0, replica 7] [[[[3], [4]], [[-2], [44]]], [[[1]], [[2], [3]]]] = .ok (rs, outs) ∧
    rs.length = 2 ∧ (∀ r ∈ rs, r.book.data = d') ∧ ∀ o ∈ outs, ∃ n, o = List.replicate 2 n :=
  C80_replicas cfg cfg_valid _ ([1, 1, 1 / 16], [[0], [5], [20]], [[0], [5], [20]])
    (by refine ⟨rfl, ?_, ?_⟩ <;> decide +kernel) _ (by decide) (by
      intro r hr
      simp only [List.mem_cons, List.not_mem_nil, or_false] at hr
      rcases hr with rfl | rfl <;> rfl) (by decide +kernel)

/-- the hypotheses of the comparison with a single process -/
example : ∃ rs outs one', trainStep cfg [(⟨loadBook [1, 1, 1] [[0], [5], [20]] [[0], [5], [20]], 0⟩, [[3], [4]]),
      (⟨loadBook [1, 1, 1] [[0], [5], [20]] [[0], [5], [20]], 1⟩, [[-2], [44]])] = .ok (rs, outs) ∧ (∀ o ∈ outs, o = none) ∧
    trainStep cfg [(⟨loadBook [1, 1, 1] [[0], [5], [20]] [[0], [5], [20]], 2⟩, [[3], [4], [-2], [44]])] = .ok ([one'], [none]) ∧
    rs.length = 2 ∧ ∀ r ∈ rs, r.book.data = one'.book.data :=
  C80_single_process cfg cfg_valid near (fun _ _ _ => rfl) ([1, 1, 1], [[0], [5], [20]], [[0], [5], [20]])
    (by refine ⟨rfl, ?_, ?_⟩ <;> decide +kernel) (by decide +kernel) _ (by simp)
    (by
      intro r hr
      simp only [List.mem_cons, List.not_mem_nil, or_false] at hr
      rcases hr with rfl | rfl <;> rfl)
    (by decide) (by intro h; simp at h) ⟨loadBook [1, 1, 1] [[0], [5], [20]] [[0], [5], [20]], 2⟩ rfl
    (by
      intro _ r hr p hp
      simp only [List.flatMap_cons, List.flatMap_nil, List.mem_cons, List.not_mem_nil, or_false] at hr
      rw [hr] at hp
      cases hp)

/-! ### C79 -/

/-- six inputs, three per rank, two iterations of k-means -/
def icfg : InitCfg Nat := ⟨cfg, 2, 2, fun m x => near m x⟩

theorem icfg_valid : icfg.Valid := ⟨cfg_valid, by decide, by decide, by decide, fun m x => near_lt m x⟩

/-- inputs are collected, the processes restart, the inputs suffice, restart, two training steps with a restart between -/
def lifeEvents : List LifeEvent :=
  [.forward [[[1], [2]], [[3]]], .restart, .forward [[[4], [-5]], [[6], [20]]], .restart, .forward [[[1]], [[-7], [100]]], .restart,
    .forward [[[1]], [[2]]]]

example : ∀ e ∈ lifeEvents, e.Valid icfg 2 := by
  intro e he
  simp only [lifeEvents, List.mem_cons, List.not_mem_nil, or_false] at he
  rcases he with rfl | rfl | rfl | rfl | rfl | rfl | rfl
  all_goals first
    | trivial
    | (refine ⟨rfl, ?_, ?_⟩ <;> decide +kernel)

/-- after the first restart the inputs seen so far are pending -/
example : (life icfg () ([0, 10].map (freshRank icfg 2)) (lifeEvents.take 2)).toOption.map
      (fun r => (r.1.map (fun x => (x.inited, x.pending.map Pending.batches)), r.2)) =
    some ([(false, some [[[1], [2]]]), (false, some [[[3]]])], [none]) := by decide +kernel

example : (life icfg () ([0, 10].map (freshRank icfg 2)) (lifeEvents.take 3)).toOption.map
      (fun r => (r.1.map (fun x => x.book.data))) =
    some [([0, 5, 1], [[4], [16 / 5], [20]], [[0], [16], [20]]), ([0, 5, 1], [[4], [16 / 5], [20]], [[0], [16], [20]])] := by
  decide +kernel

example : (life icfg () ([0, 10].map (freshRank icfg 2)) lifeEvents).toOption.map
      (fun r => (r.1.map (fun x => (x.book.data, x.rng)), r.2)) = some
    ([(([3 / 8, 5 / 2, 1 / 2], [[-1462513 / 337509], [5175046 / 2250009], [9000080 / 150003]],
        [[-13 / 8], [23 / 4], [30]]), 2),
      (([3 / 8, 5 / 2, 1 / 2], [[-1462513 / 337509], [5175046 / 2250009], [9000080 / 150003]],
        [[-13 / 8], [23 / 4], [30]]), 12)], [none, none, some [some 1, some 1], some [none, none]]) := by decide +kernel

end Verif.Vq.Examples80
