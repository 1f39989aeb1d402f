import Verif.Decode.One

/-! # C74: concrete cases and the two limits of the fast paths -/
namespace Verif.Decode
open Verif.Board Verif.Rng

/-- A digest that depends on its input. -/
def sumDigest : Digest := fun l => l.foldl (fun acc b => acc * 31 + b.toUInt64) 7

def fileA : Arrays Int where
  h := 2
  w := 2
  bf := [[fun y x => 10 * y + x, fun _ _ => 1], [fun y x => 20 * y + x, fun _ _ => 2], [fun y x => 30 * y + x, fun _ _ => 3]]
  gf := some [[1], [-1], [1]]
  vt := [[1, 0, 0], [0, 1, 0], [0, 0, 1]]
  pt := some [.flat [1, 2, 3, 4, 5], .flat [5, 4, 3, 2, 1], .flat [0, 0, 1, 0, 0]]

def fileB : Arrays Int where
  h := 2
  w := 2
  bf := [[fun y x => 40 * y + x, fun _ _ => 4], [fun y x => 50 * y + x, fun _ _ => 5]]
  gf := none
  vt := [[1, 0, 0], [0, 1, 0]]
  pt := none

/-- Three planes instead of two. -/
def fileC : Arrays Int where
  h := 2
  w := 2
  bf := [[fun y x => 40 * y + x, fun _ _ => 4, fun _ _ => 6]]
  gf := none
  vt := [[1, 0, 0]]
  pt := none

def cfg (hasPass : Bool) : Cfg Int where
  fixedSide := true
  fixedSize := none
  hasPass := hasPass
  kind := some .default
  seed := 3
  epoch := 1
  H := sumDigest
  gt0 := fun x => decide (0 < x)
  load := fun p => if p = "a" then some fileA else if p = "b" then some fileB else if p = "c" then some fileC else none

def key (d : List UInt8) (r : Nat) : SampleKey := ⟨"root", d, "npz-row", [(r : Int)]⟩
def refA (r : Nat) : Ref := ⟨"a", r, 2, 2, key [1] r⟩
def refB (r : Nat) : Ref := ⟨"b", r, 2, 2, key [2] r⟩
def refC (r : Nat) : Ref := ⟨"c", r, 2, 2, key [3] r⟩

theorem wellFormedA : WellFormed fileA := by
  refine ⟨⟨2, ?_⟩, ?_, ⟨rfl, 3, ?_⟩, ?_⟩
  · simp [fileA]
  · intro g hg; cases hg; exact ⟨rfl, 1, by simp⟩
  · simp [fileA]
  · intro p hp; cases hp; exact ⟨rfl, ⟨.flat 5, by simp [policyShape]⟩, by simp⟩

theorem wellFormedB : WellFormed fileB := by
  refine ⟨⟨2, by simp [fileB]⟩, ?_, ⟨rfl, 3, by simp [fileB]⟩, ?_⟩
  · intro g hg; cases hg
  · intro p hp; cases hp

theorem wellFormedC : WellFormed fileC := by
  refine ⟨⟨3, by simp [fileC]⟩, ?_, ⟨rfl, 3, by simp [fileC]⟩, ?_⟩
  · intro g hg; cases hg
  · intro p hp; cases hp

theorem refsOk (b : Bool) (refs : List Ref) (h : ∀ r ∈ refs, (r.path = "a" ∧ r.bh = 2 ∧ r.bw = 2) ∨ (r.path = "b" ∧ r.bh = 2 ∧ r.bw = 2) ∨
    (r.path = "c" ∧ r.bh = 2 ∧ r.bw = 2)) : RefsOk (cfg b) refs := by
  intro r hr a ha
  rcases h r hr with ⟨hp, h1, h2⟩ | ⟨hp, h1, h2⟩ | ⟨hp, h1, h2⟩
  · simp [cfg, hp] at ha; subst ha; exact ⟨wellFormedA, h1, h2⟩
  · simp [cfg, hp] at ha; subst ha; exact ⟨wellFormedB, h1, h2⟩
  · simp [cfg, hp] at ha; subst ha; exact ⟨wellFormedC, h1, h2⟩

theorem validSeed (b : Bool) : ValidSeed (cfg b) := by unfold ValidSeed cfg; simp

/-- Two files interleaved, rows out of order, white and black to move, flat policies with the pass move: the hypotheses of `C74_materialize` hold and the batch decodes. -/
example : RefsOk (cfg true) [refA 2, refB 1, refA 0, refB 0, refA 1] := refsOk _ _ (by simp [refA, refB])
example : ValidSeed (cfg true) := validSeed true
example : (materializeRefs (cfg true) [refA 0, refA 1, refA 2]).isSome = true := by decide +kernel
example : (materializeRefs (cfg true) [refA 2, refA 1]).isSome = true := by decide +kernel

/-- The symmetries drawn for the rows differ. -/
example : pickOne (cfg true) 2 2 (key [1] 0) ≠ pickOne (cfg true) 2 2 (key [1] 2) := by decide +kernel

/-- A chunk with one board size. -/
example : (decodeBatches (cfg false) [[refA 2, refA 0], [refA 1]]).isSome = true := by decide +kernel

/-- A packed request over file `a` meets the hypotheses of `C74_packed` and decodes. -/
def reqA : Request := ⟨[("a", [1])], [(0, 2), (0, 0)], 2, 2⟩
theorem reqA_ok : RequestOk (cfg false) reqA (fun _ => (2, 2)) where
  idx := by simp [reqA]
  first := by simp [reqA]
  refs := refsOk _ _ (by simp [reqA, Request.ref])
example : (decodePacked (cfg false) reqA).isSome = true := by decide +kernel
example : SamePolicyLayout (cfg false) reqA (fun _ => (2, 2)) := by
  intro r _ r' _ a a' p p' ha ha' hp hp'
  simp [reqA, Request.ref] at *
  have e : ∀ n : Nat, ([(("a" : String), ([1] : List UInt8))][n]?.getD ("", [])).1 = "a" ∨ ([(("a" : String), ([1] : List UInt8))][n]?.getD ("", [])).1 = "" := by
    intro n; cases n <;> simp
  have key : ∀ {n : Nat} {a : Arrays Int}, (cfg false).load ([(("a" : String), ([1] : List UInt8))][n]?.getD ("", [])).1 = some a → a = fileA := by
    intro n a h
    rcases e n with h' | h' <;> simp [h', cfg] at h
    exact h.symm
  have e1 := key ha; have e2 := key ha'; subst e1 e2
  left
  have hl : ∀ {i : Nat} {p : Policy Int}, ptAt (cfg false) fileA fileA.h fileA.w i = some p → policyShape p = .flat 5 := by
    intro i p h
    have := List.mem_of_getElem? (show ([.flat [1, 2, 3, 4, 5], .flat [5, 4, 3, 2, 1], .flat [0, 0, 1, 0, 0]] : List (Policy Int))[i]? = some p from h)
    simp at this
    rcases this with rfl | rfl | rfl <;> rfl
  rw [hl hp, hl hp']

/-- `C74_row_content`: a plain configuration decodes row 2 of file `a`, a flat policy on a board without pass. -/
def plain : Cfg Int := { cfg false with fixedSide := false, kind := none }
example : (decodeOne plain (refA 2)).isSome = true ∧ ((decodeOne plain (refA 2)).map fun x => match x.policy with | .plane g => g.at' 1 0 | .flat _ => 7) = some 1 := by
  decide +kernel

/-- **Limit of the chunk decoder**: two batches that each decode alone fail together when their files have different layouts. -/
theorem C74_chunk_layout_limit :
    ([[refB 0], [refC 0]].mapM (decodeBatch (cfg false))).isSome = true ∧ (decodeBatches (cfg false) [[refB 0], [refC 0]]).isNone = true := by
  decide +kernel

/-- **Limit of the packed path** (finding): files with a flat `pt` and files without `pt` decode together on the unpacked path (the pass entry is dropped
per file) but are refused by the packed path, which compares layouts before dropping it. -/
def reqAB : Request := ⟨[("a", [1]), ("b", [2])], [(0, 0), (1, 0)], 2, 2⟩
theorem C74_packed_layout_limit :
    (materializeRefs (cfg false) (reqAB.rows.map (reqAB.ref fun _ => (2, 2)))).isSome = true ∧ (decodePacked (cfg false) reqAB).isNone = true := by
  decide +kernel

end Verif.Decode
