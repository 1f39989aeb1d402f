/-
C103: the exported flat networks compute the trained networks.
-/
import Verif.Flat.Lemmas

namespace Verif.Flat

open Verif.Export (roundEven)
open Verif.Quant (clampQ clampZ fakeQuant Vec Lin ILin linear clampZ_eq_sat fakeQuant_round
  fakeQuant_floor floor_clamp clampQ_scale roundEven_clamp sat_clampZ floor_div_mul floor_scale)
open Verif.Quant.Engine (sat affine)
open Finset

/-! ### Quantisation of features -/

theorem feat8_eq (x : ℚ) : feat8 x = (table8 x : ℚ) / 128 := by
  unfold feat8 table8
  rw [fakeQuant_round _ _ _ (by norm_num)]
  have := clampZ_eq_sat (roundEven (clampQ x (-1) (127 / 128) * 128)) 8
  norm_num at this
  rw [this]

theorem feat4_eq (x : ℚ) : feat4 x = (table4 x : ℚ) / 8 := by
  unfold feat4 table4
  rw [fakeQuant_round _ _ _ (by norm_num)]
  have := clampZ_eq_sat (roundEven (clampQ x (-1) (7 / 8) * 8)) 4
  norm_num at this
  rw [this]

theorem fq8 (x : ℚ) : fakeQuant x (scale := 128) = (tableV4 x : ℚ) / 128 := by
  unfold tableV4
  rw [fakeQuant_round _ _ _ (by norm_num)]
  have := clampZ_eq_sat (roundEven (x * 128)) 8
  norm_num at this
  rw [this]

theorem tableV4_clamp (x : ℚ) : tableV4 (clampQ x (-1) (127 / 128)) = tableV4 x := by
  have e : clampQ x (-1) (127 / 128) * 128 = clampQ (x * 128) ((-128 : Int) : ℚ) ((127 : Int) : ℚ) := by
    rw [← clampQ_scale x _ _ 128 (by norm_num)]; norm_num
  unfold tableV4
  rw [e, roundEven_clamp _ _ _ (by norm_num)]
  unfold clampZ; omega

theorem tableCode_eq (x : ℚ) : tableCode x = tableV4 x := by
  unfold tableCode
  rw [fq8, div_mul_cancel₀ _ (by norm_num), Verif.Quant.roundEven_int]
  unfold tableV4 clampZ; omega

/-! ### The value head -/

theorem exportLin_sat (s : ℚ) (L : Lin) (o i : Nat) :
    (exportLin s L).w o i = sat 8 (roundEven (L.w o i * s)) ∧
      (exportLin s L).b o = sat 32 (roundEven (L.b o * (s * 128))) := by
  unfold exportLin
  have h1 := clampZ_eq_sat (roundEven (L.w o i * s)) 8
  have h2 := clampZ_eq_sat (roundEven (L.b o * s * 128)) 32
  norm_num at h1 h2
  simp only [← mul_assoc]
  norm_num
  exact ⟨h1, h2⟩

theorem quantLinear_eq (s : ℚ) (hs : 0 < s) (n : Nat) (L : Lin) (x : Vec) (o : Nat) :
    quantLinear s n L x o =
      (affine n (exportLin s L) (fun i => sat 8 ⌊x i * 128⌋) o : ℚ) / (s * 128) := by
  unfold quantLinear linear affine
  simp only
  push_cast
  rw [add_div, sum_div]
  congr 1
  · refine sum_congr rfl fun i _ => ?_
    rw [fakeQuant_floor _ _ _ (by norm_num), fakeQuant_round _ _ _ hs, (exportLin_sat s L o i).1]
    field_simp
  · rw [fakeQuant_round _ _ _ (by positivity), (exportLin_sat s L o 0).2]

theorem sat_clip (v : ℚ) (lo : Int) (h1 : -128 ≤ lo) (h2 : lo ≤ 127) :
    sat 8 ⌊clampQ v ((lo : ℚ) / 128) (127 / 128) * 128⌋ = Engine.clip lo ⌊v * 128⌋ := by
  have e : clampQ v ((lo : ℚ) / 128) (127 / 128) * 128 = clampQ (v * 128) (lo : ℚ) ((127 : Int) : ℚ) := by
    rw [clampQ_scale _ _ _ _ (by norm_num)]; norm_num
  rw [e, floor_clamp]
  unfold clampZ sat Engine.clip
  norm_num
  omega

/-- One layer of the value head. -/
theorem layer_eq (s : ℚ) (hs : 0 < s) (n : Nat) (L : Lin) (lo : Int) (h1 : -128 ≤ lo) (h2 : lo ≤ 127)
    (v : Vec) (o : Nat) :
    quantLinear s n L (fun i => clampQ (v i) ((lo : ℚ) / 128) (127 / 128)) o =
      (affine n (exportLin s L) (fun i => Engine.clip lo ⌊v i * 128⌋) o : ℚ) / (s * 128) := by
  rw [quantLinear_eq s hs]
  simp only [sat_clip _ lo h1 h2]

theorem floor_acc (z : Int) (s : Nat) (hs : 0 < s) : ⌊(z : ℚ) / ((s : ℚ) * 128) * 128⌋ = z / (s : Int) := by
  have := floor_div_mul z 128 s (by norm_num) hs
  push_cast at this
  rw [← this, mul_comm (s : ℚ)]

theorem floor_acc7 (z : Int) : ⌊(z : ℚ) / (128 * 128) * 128⌋ = z / 2 ^ 7 := by
  have := floor_acc z 128 (by norm_num)
  norm_num at this ⊢
  exact this

theorem floor_acc8 (z : Int) : ⌊(z : ℚ) / (256 * 128) * 128⌋ = z / 2 ^ 8 := by
  have := floor_acc z 256 (by norm_num)
  norm_num at this ⊢
  exact this

theorem ladderValue_eq (V : Nat) (l1 l2 l3 l4 : Lin) (f : Vec) (z : Nat → Int)
    (hz : ∀ i < V, f i = (z i : ℚ) / 128) (o : Nat) :
    ladderValue V l1 l2 l3 l4 f o =
      (Engine.ladderHead V (exportLin 128 l1) (exportLin 128 l2) (exportLin 128 l3) (exportLin 128 l4) z o : ℚ)
        / 2 ^ 14 := by
  unfold ladderValue
  simp only [valueLinears]
  have L := fun n L v o => layer_eq 128 (by norm_num) n L 0 (by norm_num) (by norm_num) v o
  simp only [Int.cast_zero, zero_div] at L
  rw [L]
  simp only [L, floor_acc7]
  unfold Engine.ladderHead
  have e : ∀ j, affine V (exportLin 128 l1) (fun i => Engine.clip 0 ⌊f i * 128⌋) j
      = affine V (exportLin 128 l1) (fun i => Engine.clip 0 (z i)) j := fun j =>
    Verif.Quant.affine_congr _ _ _ _ _ fun i hi => by
      rw [hz i hi, floor_scale _ _ (by norm_num)]
  simp only [e]
  norm_num

theorem squareValue_eq (n h : Nat) (l1 l2 l3 : Lin) (f : Vec) (z : Nat → Int)
    (hz : ∀ i < n, f i = (z i : ℚ) / 128) (o : Nat) :
    squareValue n h l1 l2 l3 f o =
      (Engine.squareHead n h (exportLin 256 l1) (exportLin 128 l2) (exportLin 128 l3) z o : ℚ) / 2 ^ 14 := by
  unfold squareValue
  simp only [valueLinears]
  have L := fun n L v o => layer_eq 128 (by norm_num) n L 0 (by norm_num) (by norm_num) v o
  have L1 := fun n L v o => layer_eq 256 (by norm_num) n L (-128) (by norm_num) (by norm_num) v o
  have e1 : ((-128 : Int) : ℚ) / 128 = -1 := by norm_num
  simp only [Int.cast_zero, zero_div] at L
  simp only [e1] at L1
  rw [L]
  simp only [L, L1, floor_acc7, floor_acc8]
  unfold Engine.squareHead
  have e : ∀ j, affine n (exportLin 256 l1) (fun i => Engine.clip (-128) ⌊f i * 128⌋) j
      = affine n (exportLin 256 l1) (fun i => Engine.clip (-128) (z i)) j := fun j =>
    Verif.Quant.affine_congr _ _ _ _ _ fun i hi => by
      rw [hz i hi, floor_scale _ _ (by norm_num)]
  simp only [e]
  norm_num

/-! ### Boards -/

/-- Every cell of the 7x7 board is empty (0) or holds a stone (1 or 2). -/
def Valid (b : Board) : Prop := ∀ y < 7, ∀ x < 7, b y x < 3

theorem valid_turn (b : Board) (h : Valid b) : Valid (Engine.turn b) := fun y _ x hx =>
  h x hx (6 - y) (by omega)

theorem valid_turned (k : Nat) (b : Board) (h : Valid b) : Valid (Engine.turned k b) := by
  unfold Engine.turned
  induction k generalizing b with
  | zero => exact h
  | succ k ih => rw [Function.iterate_succ_apply]; exact ih _ (valid_turn b h)

theorem valid_tri (b : Board) (h : Valid b) : TriCells b := fun y hy x hx => h y (by omega) x (by omega)

theorem valid_mirror (b : Board) (h : Valid b) : Valid (Engine.mirror b) := fun y hy x hx => h x hx y hy

theorem valid_part (b : Board) (hb : Valid b) (y0 x0 h w : Nat) (h1 : y0 + h ≤ 7) (h2 : x0 + w ≤ 7) :
    Cells h w (Engine.part y0 x0 b) := fun y hy x hx => hb (y0 + y) (by omega) (x0 + x) (by omega)

theorem valid_rect (b : Board) (hb : Valid b) (h w : Nat) (h1 : h ≤ 7) (h2 : w ≤ 7) : Cells h w b :=
  fun y hy x hx => hb y (by omega) x (by omega)

theorem part_tri (b : Board) (hb : Valid b) : TriCells (Engine.part 3 0 b) := fun y hy x hx =>
  hb (3 + y) (by omega) (0 + x) (by omega)

theorem mirror_cells (b : Board) (n : Nat) (h : Cells n n b) : Cells n n (Engine.mirror b) :=
  fun y hy x hx => h x hx y hy

/-! ### Ladder networks -/

theorem ladder_lookup (l1 l2 l3 : Ladder) (hin : l1.dimIn ≤ 2) (b : Board) (hb : TriCells b) (g : Grid)
    (hg : ∀ y < 4, ∀ x < 4, ∀ c, g.at_ y x c = boardGrid b y x c) (c : Nat) :
    feat8 (featureOf (ladderMapping l1 l2 l3) g c)
      = (ladderRow (ladderMapping l1 l2 l3) (Engine.triNumber b) c : ℚ) / 128 := by
  rw [feat8_eq]
  unfold ladderRow
  rw [ladder_local l1 l2 l3 hin g (ladderMappingInput (indexToLadderChunk (Engine.triNumber b)))
    fun y hy x hx c _ => (hg y hy x (by omega) c).trans (ladderInput_at b hb y x c hy hx).symm]

theorem ladderSum1_eq (l1 l2 l3 : Ladder) (hin : l1.dimIn ≤ 2) (b : Board) (hb : Valid b) (c : Nat) :
    ladderSum1 (ladderMapping l1 l2 l3) b c
      = (Engine.ladder1 (ladderRow (ladderMapping l1 l2 l3)) b c : ℚ) / 128 := by
  have L := fun b' hb' v hg => ladder_lookup l1 l2 l3 hin b' hb' (ladderChunk b v) hg c
  have V := fun k => valid_turned k b hb
  unfold ladderSum1 ladderIndex
  simp only [List.map_cons, List.map_nil, List.sum_cons, List.sum_nil]
  rw [L (Engine.turned 0 b) (valid_tri _ (V 0)) (0, 4, 0, 4, 0, false)
      (fun y hy x hx c => by interval_cases y <;> interval_cases x <;> rfl),
    L (Engine.mirror (Engine.turned 0 b)) (valid_tri _ (valid_mirror _ (V 0))) (0, 4, 0, 4, 0, true)
      (fun y hy x hx c => by interval_cases y <;> interval_cases x <;> rfl),
    L (Engine.turned 1 b) (valid_tri _ (V 1)) (0, 4, 3, 7, 1, false)
      (fun y hy x hx c => by interval_cases y <;> interval_cases x <;> rfl),
    L (Engine.mirror (Engine.turned 1 b)) (valid_tri _ (valid_mirror _ (V 1))) (0, 4, 3, 7, -1, true)
      (fun y hy x hx c => by interval_cases y <;> interval_cases x <;> rfl),
    L (Engine.turned 2 b) (valid_tri _ (V 2)) (3, 7, 3, 7, 2, false)
      (fun y hy x hx c => by interval_cases y <;> interval_cases x <;> rfl),
    L (Engine.mirror (Engine.turned 2 b)) (valid_tri _ (valid_mirror _ (V 2))) (3, 7, 3, 7, 2, true)
      (fun y hy x hx c => by interval_cases y <;> interval_cases x <;> rfl),
    L (Engine.turned 3 b) (valid_tri _ (V 3)) (3, 7, 0, 4, -1, false)
      (fun y hy x hx c => by interval_cases y <;> interval_cases x <;> rfl),
    L (Engine.mirror (Engine.turned 3 b)) (valid_tri _ (valid_mirror _ (V 3))) (3, 7, 0, 4, 1, true)
      (fun y hy x hx c => by interval_cases y <;> interval_cases x <;> rfl)]
  unfold Engine.ladder1
  simp only [sum_range_succ, sum_range_zero]
  push_cast
  ring

/-- **C103** (ladder v1).  For every board, the value output of the trained network is the integer
computed from the exported table and layers, over 2^14. -/
theorem C103_ladder_v1 (l1 l2 l3 : Ladder) (hin : l1.dimIn ≤ 2) (P V : Nat) (v1 v2 v3 v4 : Lin)
    (b : Board) (hb : Valid b) (o : Nat) :
    ladderForward1 (ladderMapping l1 l2 l3) P V v1 v2 v3 v4 b o =
      (Engine.ladderHead V (exportLin 128 v1) (exportLin 128 v2) (exportLin 128 v3) (exportLin 128 v4)
        (fun c => Engine.ladder1 (ladderRow (ladderMapping l1 l2 l3)) b (P + c)) o : ℚ) / 2 ^ 14 := by
  unfold ladderForward1
  exact ladderValue_eq V v1 v2 v3 v4 _ _ (fun i _ => ladderSum1_eq l1 l2 l3 hin b hb (P + i)) o

theorem ladderSum2_eq (l1 l2 l3 k1 k2 k3 : Ladder) (hl : l1.dimIn ≤ 2) (hk : k1.dimIn ≤ 2) (b : Board)
    (hb : Valid b) (c : Nat) :
    ladderSum2 (ladderMapping l1 l2 l3) (ladderMapping k1 k2 k3) b c
      = (Engine.ladder2 (ladderRow (ladderMapping l1 l2 l3)) (ladderRow (ladderMapping k1 k2 k3)) b c : ℚ)
          / 128 := by
  have h1 := ladderSum1_eq l1 l2 l3 hl b hb c
  unfold ladderSum1 at h1
  have L := fun b' hb' v hg => ladder_lookup k1 k2 k3 hk b' hb' (rotChunk b v) hg c
  have V := fun k => part_tri _ (valid_turned k b hb)
  unfold ladderSum2
  rw [List.sum_append, h1]
  unfold ladderIndex2
  simp only [List.map_cons, List.map_nil, List.sum_cons, List.sum_nil]
  rw [L (Engine.part 3 0 (Engine.turned 1 b)) (V 1) (0, 4, 0, 4, 1)
      (fun y hy x hx c => by interval_cases y <;> interval_cases x <;> rfl),
    L (Engine.part 3 0 (Engine.turned 2 b)) (V 2) (0, 4, 3, 7, 2)
      (fun y hy x hx c => by interval_cases y <;> interval_cases x <;> rfl),
    L (Engine.part 3 0 (Engine.turned 3 b)) (V 3) (3, 7, 3, 7, -1)
      (fun y hy x hx c => by interval_cases y <;> interval_cases x <;> rfl),
    L (Engine.part 3 0 (Engine.turned 0 b)) (V 0) (3, 7, 0, 4, 0)
      (fun y hy x hx c => by interval_cases y <;> interval_cases x <;> rfl)]
  unfold Engine.ladder2
  simp only [sum_range_succ, sum_range_zero]
  push_cast
  ring

/-- **C103** (ladder v2). -/
theorem C103_ladder_v2 (l1 l2 l3 k1 k2 k3 : Ladder) (hl : l1.dimIn ≤ 2) (hk : k1.dimIn ≤ 2) (P V : Nat)
    (v1 v2 v3 v4 : Lin) (b : Board) (hb : Valid b) (o : Nat) :
    ladderForward2 (ladderMapping l1 l2 l3) (ladderMapping k1 k2 k3) P V v1 v2 v3 v4 b o =
      (Engine.ladderHead V (exportLin 128 v1) (exportLin 128 v2) (exportLin 128 v3) (exportLin 128 v4)
        (fun c => Engine.ladder2 (ladderRow (ladderMapping l1 l2 l3)) (ladderRow (ladderMapping k1 k2 k3)) b
          (P + c)) o : ℚ) / 2 ^ 14 := by
  unfold ladderForward2
  exact ladderValue_eq V v1 v2 v3 v4 _ _
    (fun i _ => ladderSum2_eq l1 l2 l3 k1 k2 k3 hl hk b hb (P + i)) o

/-! ### Square networks -/

/-- A mapping network of the square networks: convolutions without padding that shrink an `h` by `w`
input to one point, the first of them reading at most the two stone planes. -/
structure Mapping (h w : Nat) (m : List Conv) : Prop where
  some_layer : m ≠ []
  shrinks : field m = (h, w)
  stones : ∀ l ∈ m.head?, l.dimIn ≤ 2

theorem square_lookup (h w : Nat) (m : List Conv) (hm : Mapping h w m) (b : Board) (hb : Cells h w b)
    (g : Grid) (hg : ∀ y < h, ∀ x < w, ∀ c, g.at_ y x c = boardGrid b y x c) :
    featureOf m g = featureOf m (base3Input h w (Engine.rectNumber h w b)) :=
  featureOf_local m h w hm.some_layer hm.shrinks hm.stones g _ fun y hy x hx c _ => by
    rw [hg y hy x hx c, base3Input_at h w b hb y x c hy hx]

/-- What a table entry is worth in units of 1/128. -/
def unit (int4 : Bool) : Int := if int4 then 16 else 1

theorem feat48_eq (int4 : Bool) (x : ℚ) :
    feat48 int4 x = ((unit int4 * table48 int4 x : Int) : ℚ) / 128 := by
  cases int4
  · show feat8 x = ((1 * table8 x : Int) : ℚ) / 128
    rw [feat8_eq, one_mul]
  · show feat4 x = ((16 * table4 x : Int) : ℚ) / 128
    rw [feat4_eq]; push_cast; ring

theorem four (j : Nat) (h : j < 4) : j = 0 ∨ j = 1 ∨ j = 2 ∨ j = 3 := by omega

theorem squareFeature2_eq (int4 : Bool) (F : Nat) (m44 m43 : List Conv) (h44 : Mapping 4 4 m44)
    (h43 : Mapping 4 3 m43) (b : Board) (hb : Valid b) (c : Nat) (hc : c < F * 4) :
    squareFeature2 int4 F m44 m43 b c =
      (Engine.square2 (unit int4) F (squareRow (table48 int4) 4 4 m44) (squareRow table8 4 3 m43) b c : ℚ)
        / 128 := by
  have hj : c / F < 4 := Nat.div_lt_of_lt_mul hc
  have V := fun k => valid_turned k b hb
  have L1 := fun k v hg => square_lookup 4 4 m44 h44 (Engine.turned k b)
    (valid_rect _ (V k) 4 4 (by norm_num) (by norm_num)) (rotChunk b v) hg
  have L2 := fun k v hg => square_lookup 4 3 m43 h43 (Engine.part 0 2 (Engine.turned k b))
    (valid_part _ (V k) 0 2 4 3 (by norm_num) (by norm_num)) (rotChunk b v) hg
  unfold squareFeature2 Engine.square2 cat squareRow
  rcases four _ hj with h | h | h | h <;> rw [h] <;> simp only [cornerIndex, middleIndex, List.map_cons,
    List.map_nil, List.getD_cons_zero, List.getD_cons_succ] <;> rw [feat48_eq, feat8_eq]
  · rw [L1 0 (0, 4, 0, 4, 0) (fun y hy x hx c => by interval_cases y <;> interval_cases x <;> rfl),
      L2 0 (0, 4, 2, 5, 0) (fun y hy x hx c => by interval_cases y <;> interval_cases x <;> rfl)]
    push_cast; ring
  · rw [L1 1 (0, 4, 3, 7, 1) (fun y hy x hx c => by interval_cases y <;> interval_cases x <;> rfl),
      L2 1 (2, 5, 3, 7, 1) (fun y hy x hx c => by interval_cases y <;> interval_cases x <;> rfl)]
    push_cast; ring
  · rw [L1 2 (3, 7, 3, 7, 2) (fun y hy x hx c => by interval_cases y <;> interval_cases x <;> rfl),
      L2 2 (3, 7, 2, 5, 2) (fun y hy x hx c => by interval_cases y <;> interval_cases x <;> rfl)]
    push_cast; ring
  · rw [L1 3 (3, 7, 0, 4, 3) (fun y hy x hx c => by interval_cases y <;> interval_cases x <;> rfl),
      L2 3 (2, 5, 0, 4, -1) (fun y hy x hx c => by interval_cases y <;> interval_cases x <;> rfl)]
    push_cast; ring

/-- **C103** (square v2, int8 and int4 tables). -/
theorem C103_square_v2 (int4 : Bool) (F : Nat) (m44 m43 : List Conv) (h44 : Mapping 4 4 m44)
    (h43 : Mapping 4 3 m43) (l1 l2 l3 : Lin) (b : Board) (hb : Valid b) (o : Nat) :
    squareForward2 int4 F m44 m43 l1 l2 l3 b o =
      (Engine.squareHead (F * 4) 32 (exportLin 256 l1) (exportLin 128 l2) (exportLin 128 l3)
        (Engine.square2 (unit int4) F (squareRow (table48 int4) 4 4 m44) (squareRow table8 4 3 m43) b) o : ℚ)
        / 2 ^ 14 := by
  unfold squareForward2
  exact squareValue_eq _ _ l1 l2 l3 _ _ (fun i hi => squareFeature2_eq int4 F m44 m43 h44 h43 b hb i hi) o

theorem table48_range (int4 : Bool) (x : ℚ) :
    -128 ≤ unit int4 * table48 int4 x ∧ unit int4 * table48 int4 x ≤ 127 := by
  cases int4
  · show -128 ≤ 1 * table8 x ∧ 1 * table8 x ≤ 127
    unfold table8 clampZ; omega
  · show -128 ≤ 16 * table4 x ∧ 16 * table4 x ≤ 127
    unfold table4 clampZ; omega

theorem squareFeature3_eq (int4 : Bool) (F : Nat) (mc1 mc2 mm : List Conv) (h1 : Mapping 3 4 mc1)
    (h2 : Mapping 3 4 mc2) (hm : Mapping 3 4 mm) (b : Board) (hb : Valid b) (c : Nat) (hc : c < F * 4) :
    squareFeature3 int4 F mc1 mc2 mm b c =
      (Engine.square3 (unit int4) F (squareRow (table48 int4) 3 4 mc1) (squareRow (table48 int4) 3 4 mc2)
        (squareRow (table48 int4) 3 4 mm) b c : ℚ) / 128 := by
  have hj : c / F < 4 := Nat.div_lt_of_lt_mul hc
  have V := fun k => valid_turned k b hb
  have L1 := fun k v hg => square_lookup 3 4 mc1 h1 (Engine.turned k b)
    (valid_rect _ (V k) 3 4 (by norm_num) (by norm_num)) (rotChunk b v) hg
  have L2 := fun k v hg => square_lookup 3 4 mc2 h2 (Engine.part 0 3 (Engine.turned k b))
    (valid_part _ (V k) 0 3 3 4 (by norm_num) (by norm_num)) (rotChunk b v) hg
  have L3 := fun k v hg => square_lookup 3 4 mm hm (Engine.part 2 3 (Engine.turned k b))
    (valid_part _ (V k) 2 3 3 4 (by norm_num) (by norm_num)) (rotChunk b v) hg
  have A : ∀ x y z : ℚ, fakeQuant ((feat48 int4 x + feat48 int4 y + 1 / 128) / 2) (floor := true)
        + feat48 int4 z
      = (((unit int4 * table48 int4 x + unit int4 * table48 int4 y + 1) / 2
          + unit int4 * table48 int4 z : Int) : ℚ) / 128 := by
    intro x y z
    rw [feat48_eq, feat48_eq, feat48_eq, Verif.Quant.fq_avg _ _ (table48_range _ x) (table48_range _ y)]
    rw [← add_div]
    norm_cast
  unfold squareFeature3 Engine.square3 cat squareRow
  simp only
  rcases four _ hj with h | h | h | h <;> rw [h] <;> simp only [v3Corner1, v3Corner2, v3Middle,
    List.map_cons, List.map_nil, List.getD_cons_zero, List.getD_cons_succ] <;> rw [A]
  · rw [L1 0 (0, 3, 0, 4, 0) (fun y hy x hx c => by interval_cases y <;> interval_cases x <;> rfl),
      L2 3 (0, 4, 0, 3, 3) (fun y hy x hx c => by interval_cases y <;> interval_cases x <;> rfl),
      L3 3 (0, 4, 2, 5, 3) (fun y hy x hx c => by interval_cases y <;> interval_cases x <;> rfl)]
  · rw [L1 1 (0, 4, 4, 7, 1) (fun y hy x hx c => by interval_cases y <;> interval_cases x <;> rfl),
      L2 0 (0, 3, 3, 7, 0) (fun y hy x hx c => by interval_cases y <;> interval_cases x <;> rfl),
      L3 0 (2, 5, 3, 7, 0) (fun y hy x hx c => by interval_cases y <;> interval_cases x <;> rfl)]
  · rw [L1 2 (4, 7, 3, 7, 2) (fun y hy x hx c => by interval_cases y <;> interval_cases x <;> rfl),
      L2 1 (3, 7, 4, 7, 1) (fun y hy x hx c => by interval_cases y <;> interval_cases x <;> rfl),
      L3 1 (3, 7, 2, 5, 1) (fun y hy x hx c => by interval_cases y <;> interval_cases x <;> rfl)]
  · rw [L1 3 (3, 7, 0, 3, 3) (fun y hy x hx c => by interval_cases y <;> interval_cases x <;> rfl),
      L2 2 (4, 7, 0, 4, 2) (fun y hy x hx c => by interval_cases y <;> interval_cases x <;> rfl),
      L3 2 (2, 5, 0, 4, 2) (fun y hy x hx c => by interval_cases y <;> interval_cases x <;> rfl)]

/-- **C103** (square v3, int8 and int4 tables). -/
theorem C103_square_v3 (int4 : Bool) (F : Nat) (mc1 mc2 mm : List Conv) (h1 : Mapping 3 4 mc1)
    (h2 : Mapping 3 4 mc2) (hm : Mapping 3 4 mm) (l1 l2 l3 : Lin) (b : Board) (hb : Valid b) (o : Nat) :
    squareForward3 int4 F mc1 mc2 mm l1 l2 l3 b o =
      (Engine.squareHead (F * 4) 64 (exportLin 256 l1) (exportLin 128 l2) (exportLin 128 l3)
        (Engine.square3 (unit int4) F (squareRow (table48 int4) 3 4 mc1) (squareRow (table48 int4) 3 4 mc2)
          (squareRow (table48 int4) 3 4 mm) b) o : ℚ) / 2 ^ 14 := by
  unfold squareForward3
  exact squareValue_eq _ _ l1 l2 l3 _ _
    (fun i hi => squareFeature3_eq int4 F mc1 mc2 mm h1 h2 hm b hb i hi) o

/-- The feature sum of v4 for any vector quantiser that depends on the feature vector only. -/
theorem squareFeature4_eq (vq : Nat → Vec → Vec) (m : Nat → List Conv) (hm : ∀ j < 3, Mapping 4 4 (m j))
    (T : Nat → Engine.Table)
    (hT : ∀ j < 3, ∀ i c, fakeQuant (vq j (fun c => clampQ (featureOf (m j) (base3Input 4 4 i) c) (-1)
      (127 / 128)) c) (scale := 128) = (T j i c : ℚ) / 128)
    (b : Board) (hb : Valid b) (c : Nat) :
    squareFeature4 vq m b c = (Engine.square4 (T 0) (T 1) (T 2) b c : ℚ) / 128 := by
  have V := fun k => valid_turned k b hb
  have L : ∀ j < 3, ∀ b', Cells 4 4 b' → ∀ v,
      (∀ y < 4, ∀ x < 4, ∀ c, (v4Chunk b v).at_ y x c = boardGrid b' y x c) →
      fakeQuant (vq j (v4Vector m b j v) c) (scale := 128)
        = (T j (Engine.rectNumber 4 4 b') c : ℚ) / 128 := by
    intro j hj b' hb' v hg
    unfold v4Vector
    rw [square_lookup 4 4 (m j) (hm j hj) b' hb' (v4Chunk b v) hg, hT j hj]
  have C0 : ∀ k, Cells 4 4 (Engine.turned k b) := fun k =>
    valid_rect _ (V k) 4 4 (by norm_num) (by norm_num)
  have C1 : ∀ k, Cells 4 4 (Engine.part 0 1 (Engine.turned k b)) := fun k =>
    valid_part _ (V k) 0 1 4 4 (by norm_num) (by norm_num)
  have C2 : ∀ k, Cells 4 4 (Engine.mirror (Engine.part 1 0 (Engine.turned k b))) := fun k =>
    mirror_cells _ 4 (valid_part _ (V k) 1 0 4 4 (by norm_num) (by norm_num))
  have C3 : ∀ k, Cells 4 4 (Engine.part 1 1 (Engine.turned k b)) := fun k =>
    valid_part _ (V k) 1 1 4 4 (by norm_num) (by norm_num)
  have r3 : List.range 3 = [0, 1, 2] := rfl
  unfold squareFeature4
  rw [r3]
  simp only [v4Index, List.flatMap_cons, List.flatMap_nil, List.getD_cons_zero, List.getD_cons_succ,
    List.map_cons, List.map_nil, List.append_nil, List.sum_append, List.sum_cons, List.sum_nil]
  rw [L 0 (by norm_num) _ (C0 0) (0, 4, 0, 4, 0, false)
      (fun y hy x hx c => by interval_cases y <;> interval_cases x <;> rfl),
    L 0 (by norm_num) _ (C0 1) (0, 4, 3, 7, 1, false)
      (fun y hy x hx c => by interval_cases y <;> interval_cases x <;> rfl),
    L 0 (by norm_num) _ (C0 2) (3, 7, 3, 7, 2, false)
      (fun y hy x hx c => by interval_cases y <;> interval_cases x <;> rfl),
    L 0 (by norm_num) _ (C0 3) (3, 7, 0, 4, 3, false)
      (fun y hy x hx c => by interval_cases y <;> interval_cases x <;> rfl),
    L 1 (by norm_num) _ (C1 0) (0, 4, 1, 5, 0, false)
      (fun y hy x hx c => by interval_cases y <;> interval_cases x <;> rfl),
    L 1 (by norm_num) _ (C1 1) (1, 5, 3, 7, 1, false)
      (fun y hy x hx c => by interval_cases y <;> interval_cases x <;> rfl),
    L 1 (by norm_num) _ (C1 2) (3, 7, 2, 6, 2, false)
      (fun y hy x hx c => by interval_cases y <;> interval_cases x <;> rfl),
    L 1 (by norm_num) _ (C1 3) (2, 6, 0, 4, 3, false)
      (fun y hy x hx c => by interval_cases y <;> interval_cases x <;> rfl),
    L 1 (by norm_num) _ (C2 0) (1, 5, 0, 4, 0, true)
      (fun y hy x hx c => by interval_cases y <;> interval_cases x <;> rfl),
    L 1 (by norm_num) _ (C2 1) (0, 4, 2, 6, 1, true)
      (fun y hy x hx c => by interval_cases y <;> interval_cases x <;> rfl),
    L 1 (by norm_num) _ (C2 2) (2, 6, 3, 7, 2, true)
      (fun y hy x hx c => by interval_cases y <;> interval_cases x <;> rfl),
    L 1 (by norm_num) _ (C2 3) (3, 7, 1, 5, 3, true)
      (fun y hy x hx c => by interval_cases y <;> interval_cases x <;> rfl),
    L 2 (by norm_num) _ (C3 0) (1, 5, 1, 5, 0, false)
      (fun y hy x hx c => by interval_cases y <;> interval_cases x <;> rfl),
    L 2 (by norm_num) _ (C3 1) (1, 5, 2, 6, 1, false)
      (fun y hy x hx c => by interval_cases y <;> interval_cases x <;> rfl),
    L 2 (by norm_num) _ (C3 2) (2, 6, 2, 6, 2, false)
      (fun y hy x hx c => by interval_cases y <;> interval_cases x <;> rfl),
    L 2 (by norm_num) _ (C3 3) (2, 6, 1, 5, 3, false)
      (fun y hy x hx c => by interval_cases y <;> interval_cases x <;> rfl)]
  unfold Engine.square4
  simp only [sum_range_succ, sum_range_zero]
  push_cast
  ring

/-- **C103** (square v4). -/
theorem C103_square_v4 (F : Nat) (m : Nat → List Conv) (hm : ∀ j < 3, Mapping 4 4 (m j)) (l1 l2 l3 : Lin)
    (b : Board) (hb : Valid b) (o : Nat) :
    squareForward4 (fun _ x => x) F m l1 l2 l3 b o =
      (Engine.squareHead F 32 (exportLin 256 l1) (exportLin 128 l2) (exportLin 128 l3)
        (Engine.square4 (squareRow tableV4 4 4 (m 0)) (squareRow tableV4 4 4 (m 1))
          (squareRow tableV4 4 4 (m 2)) b) o : ℚ) / 2 ^ 14 := by
  unfold squareForward4
  refine squareValue_eq _ _ l1 l2 l3 _ _ (fun i _ => ?_) o
  refine squareFeature4_eq _ m hm (fun j => squareRow tableV4 4 4 (m j)) ?_ b hb i
  intro j _ k c
  rw [fq8, tableV4_clamp]
  rfl

/-- **C103** (square v4 with vector quantisation): two tables, the code number of every chunk and the
integers of every code.  `pick j` is the codebook search of layer `j`. -/
theorem C103_square_v4_vq (pick : Nat → Vec → Nat) (code : Nat → Nat → Vec) (F : Nat)
    (m : Nat → List Conv) (hm : ∀ j < 3, Mapping 4 4 (m j)) (l1 l2 l3 : Lin) (b : Board) (hb : Valid b)
    (o : Nat) :
    squareForward4 (fun j => vqOut (pick j) (code j)) F m l1 l2 l3 b o =
      (Engine.squareHead F 32 (exportLin 256 l1) (exportLin 128 l2) (exportLin 128 l3)
        (Engine.square4 (fun i c => tableCode (code 0 (codeRow (pick 0) (m 0) i) c))
          (fun i c => tableCode (code 1 (codeRow (pick 1) (m 1) i) c))
          (fun i c => tableCode (code 2 (codeRow (pick 2) (m 2) i) c)) b) o : ℚ) / 2 ^ 14 := by
  unfold squareForward4
  refine squareValue_eq _ _ l1 l2 l3 _ _ (fun i _ => ?_) o
  refine squareFeature4_eq _ m hm (fun j i c => tableCode (code j (codeRow (pick j) (m j) i) c)) ?_ b hb i
  intro j _ k c
  rw [fq8, tableCode_eq]
  unfold vqOut codeRow
  rw [add_sub_cancel]

end Verif.Flat
