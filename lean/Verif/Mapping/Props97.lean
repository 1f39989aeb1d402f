/-
C97: the exported line table holds the features the trained mapping network computes on boards.
-/
import Verif.Mapping.Lemmas
import Verif.Quant.Props85
import Mathlib.Data.List.GetD

set_option linter.dupNamespace false

namespace Verif.Mapping

open Finset
open Verif.LineEnc

variable {R : Type} [CommRing R]

/-- Every cell holds at most one stone. -/
def NoOverlap (b : Board) : Prop := ∀ y x, ¬ (b.self y x = true ∧ b.oppo y x = true)

/-- Input planes of a cell with content `v` (own stone 1, opponent stone 2). -/
def planesOf (v : Nat) : Nat → R := fun c =>
  if c = 0 then (if v = 1 then 1 else 0) else (if v = 2 then 1 else 0)

theorem see_board (b : Board) (hb : NoOverlap b) (fix : Bool) (d y x : Nat) (k : Int) :
    (⟨b.H, b.W, d, y, x⟩ : Place R).see fix (boardPlanes b) k =
      (boardAt b (y + (dirVec fix d).1 * k) (x + (dirVec fix d).2 * k)).map planesOf := by
  unfold Place.see cell boardAt
  simp only
  by_cases h : 0 ≤ (y : Int) + (dirVec fix d).1 * k ∧ (y : Int) + (dirVec fix d).1 * k < b.H ∧
      0 ≤ (x : Int) + (dirVec fix d).2 * k ∧ (x : Int) + (dirVec fix d).2 * k < b.W
  · rw [if_pos h, if_pos h]
    simp only [Option.map_some]
    congr 1
    funext c
    unfold boardPlanes planesOf
    have := hb ((y : Int) + (dirVec fix d).1 * k).toNat ((x : Int) + (dirVec fix d).2 * k).toNat
    cases h1 : b.self ((y : Int) + (dirVec fix d).1 * k).toNat ((x : Int) + (dirVec fix d).2 * k).toNat <;>
      cases h2 : b.oppo ((y : Int) + (dirVec fix d).1 * k).toNat ((x : Int) + (dirVec fix d).2 * k).toNat <;>
      simp_all
  · rw [if_neg h, if_neg h]; rfl

theorem see_line (fix : Bool) (lines : List (List Nat)) (len : Nat) (hlen : ∀ l ∈ lines, l.length = len)
    (r x : Nat) (hr : r < lines.length) (k : Int) :
    (⟨lines.length, len, 0, r, x⟩ : Place R).see fix (linePlanes lines) k =
      (lineAt (lines.getD r []) (x + k)).map planesOf := by
  have hl : (lines.getD r []).length = len := by
    rw [List.getD_eq_getElem _ _ hr]; exact hlen _ (List.getElem_mem hr)
  unfold Place.see cell lineAt
  simp only [dirVec, if_true]
  rw [hl]
  by_cases h : 0 ≤ (x : Int) + k ∧ (x : Int) + k < len
  · rw [if_pos (by constructor <;> omega), if_pos h]
    simp only [Option.map_some]
    congr 1
    funext c
    unfold linePlanes planesOf stoneOf
    have e1 : ((r : Int) + 0 * k).toNat = r := by omega
    have e2 : ((x : Int) + 1 * k).toNat = ((x : Int) + k).toNat := by rw [one_mul]
    rw [e1, e2]
    by_cases h1 : (lines.getD r []).getD ((x : Int) + k).toNat 0 = 1
    · simp only [h1]; simp
    · by_cases h2 : (lines.getD r []).getD ((x : Int) + k).toNat 0 = 2
      · simp only [h2]; simp
      · simp only [h1, h2]; simp
  · rw [if_neg (by omega), if_neg h]; rfl

/-- The feature the network computes for position `x` of a line given alone. -/
def lineFeature (m : Mapping R) (line : List Nat) (x : Nat) : List R :=
  (List.range m.dimOut).map fun c => m.run 1 line.length 0 (linePlanes [line]) c 0 x

theorem window (L : Nat) (hL : L % 2 = 1) (n : Nat) (hn : n = L / 2) (f g : Int → Option Nat)
    (h : ∀ k, k < L → f ((k : Int) - (L / 2 : Nat)) = g ((k : Int) - (L / 2 : Nat))) (k : Int)
    (hk : |k| ≤ n) : f k = g k := by
  rw [abs_le] at hk
  have := h (k + (L / 2 : Nat)).toNat (by omega)
  have e : (((k + ((L / 2 : Nat) : Int)).toNat : Int)) - ((L / 2 : Nat) : Int) = k := by omega
  rw [e] at this
  exact this

/-- Depth of a mapping built for windows of length `L` (model/mixnet_components.py:84-97). -/
def Mapping.FieldOf (m : Mapping R) (L : Nat) : Prop := L % 2 = 1 ∧ 3 ≤ L ∧ m.blocks.length = L / 2 - 1

theorem lineFeature_view (m : Mapping R) (L : Nat) (hm : m.FieldOf L) (l l' : List Nat) (x x' : Nat)
    (hx : (Spot.line l x).Valid) (hx' : (Spot.line l' x').Valid)
    (h : ∀ k, k < L → (Spot.line l x).view L k = (Spot.line l' x').view L k) :
    lineFeature m l x = lineFeature m l' x' := by
  unfold lineFeature
  apply List.map_congr_left
  intro c _
  apply run_eq m ⟨1, l.length, 0, 0, x⟩ ⟨1, l'.length, 0, 0, x'⟩ _ _ (by simp) hx (by simp) hx'
  intro k hk
  have e1 := see_line (R := R) m.fix [l] l.length (by simp) 0 x (by simp) k
  have e2 := see_line (R := R) m.fix [l'] l'.length (by simp) 0 x' (by simp) k
  simp only [List.length_singleton] at e1 e2
  rw [e1, e2]
  congr 1
  have h1 := hm.1
  have h2 := hm.2.1
  have h3 := hm.2.2
  exact window L hm.1 _ (by omega) (fun k => lineAt l (x + k)) (fun k => lineAt l' (x' + k)) h k hk

/-- Lines evaluated together do not influence each other. -/
theorem mapTable_row (m : Mapping R) (lines : List (List Nat)) (len : Nat) (hlen : ∀ l ∈ lines, l.length = len)
    (r x : Nat) (hr : r < lines.length) (hx : x < len) :
    (List.range m.dimOut).map (fun c => m.run lines.length len 0 (linePlanes lines) c r x)
      = lineFeature m (lines.getD r []) x := by
  have hl : (lines.getD r []).length = len := by
    rw [List.getD_eq_getElem _ _ hr]; exact hlen _ (List.getElem_mem hr)
  unfold lineFeature
  apply List.map_congr_left
  intro c _
  apply run_eq m ⟨lines.length, len, 0, r, x⟩ ⟨1, (lines.getD r []).length, 0, 0, x⟩ _ _ hr hx (by simp)
    (by simpa only [hl] using hx)
  intro k _
  have e2 := see_line (R := R) m.fix [lines.getD r []] (lines.getD r []).length (by simp) 0 x (by simp) k
  simp only [List.length_singleton] at e2
  rw [see_line m.fix lines len hlen r x hr k, e2]
  rfl

theorem chunks_concat {α : Type} (l : List α) (b : Nat) (n : Nat) :
    (List.range n).flatMap (fun i => (l.drop (i * b)).take (min ((i + 1) * b) l.length - i * b))
      = l.take (n * b) := by
  induction n with
  | zero => simp
  | succ n ih =>
    rw [List.range_succ, List.flatMap_append, ih, List.flatMap_singleton]
    have e : l.take ((n + 1) * b) = l.take (n * b) ++ (l.drop (n * b)).take b := by
      rw [Nat.succ_mul, List.take_add]
    rw [e]
    congr 1
    by_cases h : (n + 1) * b ≤ l.length
    · rw [Nat.min_eq_left h, Nat.succ_mul, Nat.add_sub_cancel_left]
    · have h' : l.length ≤ (n + 1) * b := by omega
      rw [Nat.min_eq_right h']
      rw [List.take_of_length_le (by simp), List.take_of_length_le]
      rw [List.length_drop]
      rw [Nat.succ_mul] at h'
      omega

theorem mapTable_eq (m : Mapping R) (batch len : Nat) (hb : 0 < batch) (lines : List (List Nat))
    (hlen : ∀ l ∈ lines, l.length = len) :
    mapTable m batch len lines = lines.map fun line => (List.range len).map (lineFeature m line) := by
  obtain ⟨g, hg⟩ : ∃ g : List Nat → List (List R), g = fun line => (List.range len).map (lineFeature m line) :=
    ⟨_, rfl⟩
  unfold mapTable
  simp only
  have hpart : ∀ i, (List.range ((lines.drop (i * batch)).take
      (min ((i + 1) * batch) lines.length - i * batch)).length).map (fun r => (List.range len).map fun x =>
        (List.range m.dimOut).map fun c => ((m.forward [0] ((lines.drop (i * batch)).take
          (min ((i + 1) * batch) lines.length - i * batch)).length len (linePlanes ((lines.drop (i * batch)).take
          (min ((i + 1) * batch) lines.length - i * batch)))).getD 0 (fun _ _ _ => 0)) c r x)
      = ((lines.drop (i * batch)).take (min ((i + 1) * batch) lines.length - i * batch)).map g := by
    intro i
    obtain ⟨part, hp⟩ : ∃ part, part = (lines.drop (i * batch)).take
      (min ((i + 1) * batch) lines.length - i * batch) := ⟨_, rfl⟩
    rw [← hp]
    have hpl : ∀ l ∈ part, l.length = len := fun l hl => hlen l (by
      rw [hp] at hl
      exact List.mem_of_mem_drop (List.mem_of_mem_take hl))
    apply List.ext_getElem
    · simp
    · intro r h1 h2
      rw [List.length_map, List.length_range] at h1
      simp only [List.getElem_map, List.getElem_range]
      have hgr : g part[r] = (List.range len).map (lineFeature m part[r]) := by rw [hg]
      rw [hgr]
      apply List.map_congr_left
      intro x hx
      rw [List.mem_range] at hx
      have := mapTable_row m part len hpl r x h1 hx
      rw [List.getD_eq_getElem _ _ h1] at this
      exact this
  simp only [hpart]
  rw [← List.map_flatMap, chunks_concat, List.take_of_length_le, hg]
  rcases Nat.eq_zero_or_pos lines.length with h | h
  · omega
  · have h1 := Nat.div_add_mod (lines.length - 1) batch
    have h2 := Nat.mod_lt (lines.length - 1) hb
    have e : (1 + (lines.length - 1) / batch) * batch = batch + batch * ((lines.length - 1) / batch) := by ring
    rw [e]
    omega

theorem tableWrites_eq (m : Mapping R) (batch L : Nat) (hb : 0 < batch) :
    tableWrites m batch L = (featureWrites L).map fun w => (w.1, lineFeature m w.2.1 w.2.2) := by
  unfold tableWrites featureWrites
  rw [List.map_flatMap]
  simp only [List.flatMap_def]
  congr 1
  apply List.map_congr_left
  intro l _
  have hlen : ∀ line ∈ Export.base3Permutation l, line.length = l := fun line h => by
    rw [Export.mem_base3] at h; exact h.1
  rw [List.map_flatten, List.map_map]
  congr 1
  apply List.ext_getElem
  · simp
  · intro i h1 h2
    have hi : i < (Export.base3Permutation l).length := by simpa using h1
    simp only [List.getElem_map, List.getElem_zipIdx, Function.comp_apply, zero_add]
    rw [List.map_map]
    apply List.map_congr_left
    intro cx hcx
    have hx : cx.2 < l := by
      rw [List.mem_zipIdx_iff_getElem?] at hcx
      have hlt := (List.getElem?_eq_some_iff.1 hcx).1
      have hll := hlen _ (List.getElem_mem hi)
      cases ht : transformLine L (Export.base3Permutation l)[i] with
      | none => rw [ht] at hlt; simp at hlt
      | some codes =>
        rw [ht] at hlt
        simp only [Option.getD_some] at hlt
        unfold transformLine at ht
        split_ifs at ht
        simp only [Option.some.injEq] at ht
        rw [← ht] at hlt
        simpa [hll] using hlt
    simp only [Function.comp_apply]
    rw [mapTable_eq m batch l hb _ hlen]
    have e1 : ((Export.base3Permutation l).map fun line => (List.range l).map (lineFeature m line)).getD i []
        = (List.range l).map (lineFeature m (Export.base3Permutation l)[i]) := by
      rw [List.getD_eq_getElem _ _ (by simpa using hi)]
      simp
    rw [e1, List.getD_eq_getElem _ _ (by simpa using hx)]
    simp

theorem exportTable_eq (m : Mapping R) (batch L : Nat) (hb : 0 < batch) :
    exportTable m batch L = featureTable L (lineFeature m) (List.replicate m.dimOut 0) := by
  unfold exportTable featureTable
  rw [tableWrites_eq m batch L hb, List.foldl_map]

/-- The direction the network walks when the line encoder walks direction `d`: the same with
`fix_direction_order`, the two diagonals exchanged without it. -/
def netDir (fix : Bool) (d : Nat) : Nat :=
  if fix then d else if d = 2 then 3 else if d = 3 then 2 else d

theorem dirVec_netDir (fix : Bool) (d : Nat) (hd : d < 4) : dirVec fix (netDir fix d) = direction d := by
  cases fix <;> (have : d = 0 ∨ d = 1 ∨ d = 2 ∨ d = 3 := by omega) <;>
    rcases this with rfl | rfl | rfl | rfl <;> rfl

/-- the feature of a board cell, as a row -/
def boardFeature (m : Mapping R) (b : Board) (d y x : Nat) : List R :=
  (List.range m.dimOut).map fun c => m.run b.H b.W d (boardPlanes b) c y x

theorem boardFeature_line (m : Mapping R) (L : Nat) (hm : m.FieldOf L) (b : Board) (hb : NoOverlap b)
    (d y x : Nat) (hd : d < 4) (hy : y < b.H) (hx : x < b.W) (line : List Nat) (p : Nat)
    (hp : (Spot.line line p).Valid)
    (h : ∀ k, k < L → (Spot.line line p).view L k = (Spot.board b d y x).view L k) :
    lineFeature m line p = boardFeature m b (netDir m.fix d) y x := by
  unfold lineFeature boardFeature
  apply List.map_congr_left
  intro c _
  apply run_eq m ⟨1, line.length, 0, 0, p⟩ ⟨b.H, b.W, netDir m.fix d, y, x⟩ _ _ (by simp) hp hy hx
  intro k hk
  have e1 := see_line (R := R) m.fix [line] line.length (by simp) 0 p (by simp) k
  simp only [List.length_singleton] at e1
  rw [e1, see_board b hb, dirVec_netDir _ _ hd]
  congr 1
  have h1 := hm.1
  have h2 := hm.2.1
  have h3 := hm.2.2
  exact window L hm.1 _ (by omega) (fun k => lineAt line (p + k))
    (fun k => boardAt b (y + (direction d).1 * k) (x + (direction d).2 * k)) h k hk

/-- **C97** (one table).  The row of the exported table at the line code of any cell and direction of any
board is the feature the mapping network computes on that board, for that cell, along that direction. -/
theorem C97_row (m : Mapping R) (batch L : Nat) (hbatch : 0 < batch) (hm : m.FieldOf L) (b : Board)
    (hb : NoOverlap b) (d y x : Nat) (hd : d < 4) (hy : y < b.H) (hx : x < b.W) (v : Nat)
    (hv : (Spot.board b d y x).code L = some v) :
    exportTable m batch L v = boardFeature m b (netDir m.fix d) y x := by
  rw [exportTable_eq m batch L hbatch]
  obtain ⟨h1, line, p, hp, hview⟩ := C56_feature_map L (lineFeature m) (List.replicate m.dimOut 0)
    (fun l l' x x' hx hx' h => lineFeature_view m L hm l l' x x' hx hx' h)
    (Spot.board b d y x) ⟨hd, hy, hx⟩ v hv
  rw [h1 line p hp hview]
  exact boardFeature_line m L hm b hb d y x hd hy hx line p hp hview

/-- **C97** (one code, one feature).  Cells of any boards, in any directions, that have the same line code
get the same feature from the network: the quantiser may look at one representative per code. -/
theorem C97_same_code_same_feature (m : Mapping R) (L : Nat) (hm : m.FieldOf L) (b b' : Board)
    (hb : NoOverlap b) (hb' : NoOverlap b') (d d' y y' x x' : Nat) (hd : d < 4) (hd' : d' < 4)
    (hy : y < b.H) (hy' : y' < b'.H) (hx : x < b.W) (hx' : x' < b'.W) (v : Nat)
    (hv : (Spot.board b d y x).code L = some v) (hv' : (Spot.board b' d' y' x').code L = some v) :
    boardFeature m b (netDir m.fix d) y x = boardFeature m b' (netDir m.fix d') y' x' := by
  rw [← C97_row m 1 L Nat.one_pos hm b hb d y x hd hy hx v hv,
    ← C97_row m 1 L Nat.one_pos hm b' hb' d' y' x' hd' hy' hx' v hv']

/-! ### The network -/

/-- The mappings are built for windows of length `L` with one `fix_direction_order` and one output size. -/
def Mappings.FieldOf (ms : Mappings R) (L : Nat) (fix : Bool) (dim : Nat) : Prop :=
  match ms with
  | .one m => m.FieldOf L ∧ m.fix = fix ∧ m.dimOut = dim
  | .two m1 m2 => (m1.FieldOf L ∧ m1.fix = fix ∧ m1.dimOut = dim) ∧ m2.FieldOf L ∧ m2.fix = fix ∧ m2.dimOut = dim

/-- feature `c` of direction `d` at `(y, x)` (the tensor `feature` of `get_feature`) -/
def Mappings.feature (ms : Mappings R) (b : Board) (d c y x : Nat) : R :=
  ((ms.features b.H b.W (boardPlanes b)).getD d (fun _ _ _ => 0)) c y x

/-- **C97** (the network's tables).  What the engine reads for direction `d` of a cell — the row of the table
of that direction at the cell's line code — is the network's feature of that cell; of the same direction with
`fix_direction_order` (Mix9s, Mix9s-VQ, Mix10), of the other diagonal without it (Mix9). -/
theorem C97_lookup (ms : Mappings R) (batch L : Nat) (fix : Bool) (dim : Nat) (hbatch : 0 < batch)
    (hm : ms.FieldOf L fix dim) (b : Board) (hb : NoOverlap b) (d y x : Nat) (hd : d < 4) (hy : y < b.H)
    (hx : x < b.W) (v : Nat) (hv : (Spot.board b d y x).code L = some v) :
    ms.table batch L d v = (List.range dim).map fun c => ms.feature b (netDir fix d) c y x := by
  cases ms with
  | one m =>
    obtain ⟨h1, h2, h3⟩ := hm
    show exportTable m batch L v = _
    rw [C97_row m batch L hbatch h1 b hb d y x hd hy hx v hv, h2]
    unfold boardFeature
    rw [h3]
    apply List.map_congr_left
    intro c _
    cases fix <;> (have : d = 0 ∨ d = 1 ∨ d = 2 ∨ d = 3 := by omega) <;>
      rcases this with rfl | rfl | rfl | rfl <;> rfl
  | two m1 m2 =>
    obtain ⟨⟨h1, h2, h3⟩, h4, h5, h6⟩ := hm
    show (if d < 2 then exportTable m1 batch L else exportTable m2 batch L) v = _
    by_cases h : d < 2
    · rw [if_pos h, C97_row m1 batch L hbatch h1 b hb d y x hd hy hx v hv, h2]
      unfold boardFeature
      rw [h3]
      apply List.map_congr_left
      intro c _
      cases fix <;> (have : d = 0 ∨ d = 1 := by omega) <;> rcases this with rfl | rfl <;> rfl
    · rw [if_neg h, C97_row m2 batch L hbatch h4 b hb d y x hd hy hx v hv, h5]
      unfold boardFeature
      rw [h6]
      apply List.map_congr_left
      intro c _
      cases fix <;> (have : d = 2 ∨ d = 3 := by omega) <;> rcases this with rfl | rfl <;> rfl

/-! ### The whole network, from the board -/

open Verif.Quant (FMap forward exportNet Net C85_forward getFeature)
open Verif.Export (quantFeature)

/-- `feature` as the array `[4, dim, H, W]` (zero outside it). -/
def featureArray (ms : Mappings ℚ) (dim : Nat) (b : Board) : Nat → FMap := fun d c y x =>
  if d < 4 ∧ c < dim ∧ y < b.H ∧ x < b.W then ms.feature b d c y x else 0

/-- What the engine reads from the exported tables: the quantised entry `c` of the row of the line code. -/
def lookupArray (ms : Mappings ℚ) (batch L dim : Nat) (codes : Nat → Nat → Nat → Nat) (b : Board) :
    Nat → Nat → Nat → Nat → Int := fun d c y x =>
  if d < 4 ∧ c < dim ∧ y < b.H ∧ x < b.W then quantFeature ((ms.table batch L d (codes d y x)).getD c 0)
  else 0

theorem forward_swap (N : Net) (H W : Nat) (m : Nat → FMap) (s : Bool) :
    forward N H W (fun d => m (netDir s d)) = forward N H W m := by
  cases s with
  | true => rfl
  | false =>
    have : getFeature N H W (fun d => m (netDir false d)) = getFeature N H W m := by
      unfold getFeature
      have e : ∀ c y x,
          (∑ d ∈ range 4, Quant.fakeQuant (Quant.clampQ (m (netDir false d) c y x) (-16) (511 / 32))
            (scale := 32) (numBits := some 16))
          = ∑ d ∈ range 4, Quant.fakeQuant (Quant.clampQ (m d c y x) (-16) (511 / 32))
            (scale := 32) (numBits := some 16) := by
        intro c y x
        simp only [sum_range_succ, range_zero, sum_empty, netDir]
        simp
        ring
      simp only [e]
    unfold forward
    rw [this]

/-- **C97** (end to end).  For every board and every Mix9-family network, integer inference that starts from
the exported tables, indexed by the line codes of the board, gives exactly the policy and the value of the
trained (fake-quantised) network evaluated on that board. -/
theorem C97_end_to_end (ms : Mappings ℚ) (batch L : Nat) (fix : Bool) (N : Net) (hbatch : 0 < batch)
    (hm : ms.FieldOf L fix N.dimFeature) (b : Board) (hb : NoOverlap b) (codes : Nat → Nat → Nat → Nat)
    (hcodes : transformBoard L false b = some codes) (hHW : b.H * b.W ≤ 65536)
    (hbias : ∀ c < N.dimDw, -64 ≤ N.dwB c ∧ N.dwB c ≤ 64) :
    let out := forward N b.H b.W (featureArray ms N.dimFeature b)
    let eng := Quant.Engine.run (exportNet N) b.H b.W (lookupArray ms batch L N.dimFeature codes b)
    (∀ y x, out.policy y x = eng.policy y x) ∧ ∀ o, out.value o = (eng.value o : ℚ) / (128 * 128) := by
  simp only
  have hlook : lookupArray ms batch L N.dimFeature codes b
      = fun d c y x => quantFeature (featureArray ms N.dimFeature b (netDir fix d) c y x) := by
    funext d c y x
    unfold lookupArray featureArray
    by_cases h : d < 4 ∧ c < N.dimFeature ∧ y < b.H ∧ x < b.W
    · have hn : netDir fix d < 4 := by unfold netDir; split_ifs <;> omega
      rw [if_pos h, if_pos ⟨hn, h.2⟩]
      have hv : (Spot.board b d y x).code L = some (codes d y x) := by
        show (transformBoard L false b).map (fun f => f d y x) = _
        rw [hcodes]; rfl
      rw [C97_lookup ms batch L fix N.dimFeature hbatch hm b hb d y x h.1 h.2.2.1 h.2.2.2 _ hv,
        List.getD_eq_getElem _ _ (by simpa using h.2.1)]
      simp
    · rw [if_neg h, if_neg]
      · decide +kernel
      · intro h'
        apply h
        refine ⟨?_, h'.2⟩
        have := h'.1
        unfold netDir at this
        split_ifs at this <;> omega
  rw [hlook, ← forward_swap N b.H b.W (featureArray ms N.dimFeature b) fix]
  exact C85_forward N b.H b.W (fun d => featureArray ms N.dimFeature b (netDir fix d)) hHW hbias

end Verif.Mapping
