/-
C103: symmetries of the flat networks, which trained networks are accepted, and the ranges of the
integers an engine meets.
-/
import Verif.Flat.Props103c

namespace Verif.Flat

open Verif.Export (roundEven)
open Verif.Quant (clampQ clampZ Vec Lin ILin)
open Finset

/-! ### Symmetries -/

theorem tri_four (b : Board) : Engine.triNumber (Engine.turned 4 b) = Engine.triNumber b := rfl

theorem tri_mirror_four (b : Board) :
    Engine.triNumber (Engine.mirror (Engine.turned 4 b)) = Engine.triNumber (Engine.mirror b) := rfl

theorem turned_turn (k : Nat) (b : Board) : Engine.turned k (Engine.turn b) = Engine.turned (k + 1) b := rfl

theorem ladder1_turn (T : Engine.Table) (b : Board) (c : Nat) :
    Engine.ladder1 T (Engine.turn b) c = Engine.ladder1 T b c := by
  unfold Engine.ladder1
  simp only [sum_range_succ, sum_range_zero, turned_turn]
  rw [tri_four, tri_mirror_four]
  show _ = 0 + (T (Engine.triNumber b) c + T (Engine.triNumber (Engine.mirror b)) c) + _ + _ + _
  ring

theorem ladder1_mirror (T : Engine.Table) (b : Board) (c : Nat) :
    Engine.ladder1 T (Engine.mirror b) c = Engine.ladder1 T b c := by
  unfold Engine.ladder1
  simp only [sum_range_succ, sum_range_zero]
  have e0 : Engine.triNumber (Engine.turned 0 (Engine.mirror b))
      = Engine.triNumber (Engine.mirror (Engine.turned 0 b)) := rfl
  have e0' : Engine.triNumber (Engine.mirror (Engine.turned 0 (Engine.mirror b)))
      = Engine.triNumber (Engine.turned 0 b) := rfl
  have e1 : Engine.triNumber (Engine.turned 1 (Engine.mirror b))
      = Engine.triNumber (Engine.mirror (Engine.turned 3 b)) := rfl
  have e1' : Engine.triNumber (Engine.mirror (Engine.turned 1 (Engine.mirror b)))
      = Engine.triNumber (Engine.turned 3 b) := rfl
  have e2 : Engine.triNumber (Engine.turned 2 (Engine.mirror b))
      = Engine.triNumber (Engine.mirror (Engine.turned 2 b)) := rfl
  have e2' : Engine.triNumber (Engine.mirror (Engine.turned 2 (Engine.mirror b)))
      = Engine.triNumber (Engine.turned 2 b) := rfl
  have e3 : Engine.triNumber (Engine.turned 3 (Engine.mirror b))
      = Engine.triNumber (Engine.mirror (Engine.turned 1 b)) := rfl
  have e3' : Engine.triNumber (Engine.mirror (Engine.turned 3 (Engine.mirror b)))
      = Engine.triNumber (Engine.turned 1 b) := rfl
  rw [e0, e0', e1, e1', e2, e2', e3, e3']
  ring

/-- **C103** (symmetry, ladder v1).  The value of a position does not depend on how the board is turned
or reflected: all eight symmetries of the square are generated by a quarter turn and the reflection. -/
theorem C103_ladder_v1_symmetric (l1 l2 l3 : Ladder) (hin : l1.dimIn ≤ 2) (P V : Nat) (v1 v2 v3 v4 : Lin)
    (b : Board) (hb : Valid b) :
    ladderForward1 (ladderMapping l1 l2 l3) P V v1 v2 v3 v4 (Engine.turn b)
        = ladderForward1 (ladderMapping l1 l2 l3) P V v1 v2 v3 v4 b
      ∧ ladderForward1 (ladderMapping l1 l2 l3) P V v1 v2 v3 v4 (Engine.mirror b)
        = ladderForward1 (ladderMapping l1 l2 l3) P V v1 v2 v3 v4 b := by
  constructor <;> funext o
  · rw [C103_ladder_v1 l1 l2 l3 hin P V v1 v2 v3 v4 _ (valid_turn b hb),
      C103_ladder_v1 l1 l2 l3 hin P V v1 v2 v3 v4 b hb]
    simp only [ladder1_turn]
  · rw [C103_ladder_v1 l1 l2 l3 hin P V v1 v2 v3 v4 _ (valid_mirror b hb),
      C103_ladder_v1 l1 l2 l3 hin P V v1 v2 v3 v4 b hb]
    simp only [ladder1_mirror]

theorem tri_part_four (b : Board) :
    Engine.triNumber (Engine.part 3 0 (Engine.turned 4 b)) = Engine.triNumber (Engine.part 3 0 b) := rfl

theorem ladder2_turn (T1 T2 : Engine.Table) (b : Board) (c : Nat) :
    Engine.ladder2 T1 T2 (Engine.turn b) c = Engine.ladder2 T1 T2 b c := by
  unfold Engine.ladder2
  rw [ladder1_turn]
  simp only [sum_range_succ, sum_range_zero, turned_turn]
  rw [tri_part_four]
  show _ = _ + (0 + T2 (Engine.triNumber (Engine.part 3 0 b)) c + _ + _ + _)
  ring

/-- **C103** (symmetry, ladder v2): quarter turns. -/
theorem C103_ladder_v2_symmetric (l1 l2 l3 k1 k2 k3 : Ladder) (hl : l1.dimIn ≤ 2) (hk : k1.dimIn ≤ 2)
    (P V : Nat) (v1 v2 v3 v4 : Lin) (b : Board) (hb : Valid b) :
    ladderForward2 (ladderMapping l1 l2 l3) (ladderMapping k1 k2 k3) P V v1 v2 v3 v4 (Engine.turn b)
      = ladderForward2 (ladderMapping l1 l2 l3) (ladderMapping k1 k2 k3) P V v1 v2 v3 v4 b := by
  funext o
  rw [C103_ladder_v2 l1 l2 l3 k1 k2 k3 hl hk P V v1 v2 v3 v4 _ (valid_turn b hb),
    C103_ladder_v2 l1 l2 l3 k1 k2 k3 hl hk P V v1 v2 v3 v4 b hb]
  simp only [ladder2_turn]

/-- Two boards with the same cells. -/
theorem rect_congr (h w : Nat) (b b' : Board) (e : ∀ y < h, ∀ x < w, b y x = b' y x) :
    Engine.rectNumber h w b = Engine.rectNumber h w b' := by
  unfold Engine.rectNumber
  refine sum_congr rfl fun y hy => sum_congr rfl fun x hx => ?_
  rw [e y (mem_range.mp hy) x (mem_range.mp hx)]

theorem turned_four (b : Board) (y x : Nat) (hy : y < 7) (hx : x < 7) : Engine.turned 4 b y x = b y x := by
  have e : Engine.turned 4 b y x = b (6 - (6 - y)) (6 - (6 - x)) := rfl
  rw [e, show 6 - (6 - y) = y by omega, show 6 - (6 - x) = x by omega]

theorem square4_turn (T0 T1 T2 : Engine.Table) (b : Board) (c : Nat) :
    Engine.square4 T0 T1 T2 (Engine.turn b) c = Engine.square4 T0 T1 T2 b c := by
  have e0 : Engine.rectNumber 4 4 (Engine.turned 4 b) = Engine.rectNumber 4 4 (Engine.turned 0 b) :=
    rect_congr _ _ _ _ fun y hy x hx => turned_four b y x (by omega) (by omega)
  have e1 : Engine.rectNumber 4 4 (Engine.part 0 1 (Engine.turned 4 b))
      = Engine.rectNumber 4 4 (Engine.part 0 1 (Engine.turned 0 b)) :=
    rect_congr _ _ _ _ fun y hy x hx => turned_four b (0 + y) (1 + x) (by omega) (by omega)
  have e2 : Engine.rectNumber 4 4 (Engine.mirror (Engine.part 1 0 (Engine.turned 4 b)))
      = Engine.rectNumber 4 4 (Engine.mirror (Engine.part 1 0 (Engine.turned 0 b))) :=
    rect_congr _ _ _ _ fun y hy x hx => turned_four b (1 + x) (0 + y) (by omega) (by omega)
  have e3 : Engine.rectNumber 4 4 (Engine.part 1 1 (Engine.turned 4 b))
      = Engine.rectNumber 4 4 (Engine.part 1 1 (Engine.turned 0 b)) :=
    rect_congr _ _ _ _ fun y hy x hx => turned_four b (1 + y) (1 + x) (by omega) (by omega)
  unfold Engine.square4
  simp only [sum_range_succ, sum_range_zero, turned_turn, Nat.reduceAdd]
  rw [e0, e1, e2, e3]
  ring

/-- **C103** (symmetry, square v4): quarter turns. -/
theorem C103_square_v4_symmetric (F : Nat) (m : Nat → List Conv) (hm : ∀ j < 3, Mapping 4 4 (m j))
    (l1 l2 l3 : Lin) (b : Board) (hb : Valid b) :
    squareForward4 (fun _ x => x) F m l1 l2 l3 (Engine.turn b)
      = squareForward4 (fun _ x => x) F m l1 l2 l3 b := by
  funext o
  rw [C103_square_v4 F m hm l1 l2 l3 _ (valid_turn b hb), C103_square_v4 F m hm l1 l2 l3 b hb]
  congr 3
  funext c
  exact square4_turn _ _ _ b c

/-- Turning the board by a quarter shifts the four blocks of the feature by one. -/
theorem square2_turn (u : Int) (F : Nat) (hF : 0 < F) (T44 T43 : Engine.Table) (b : Board) (c : Nat)
    (hc : c < F * 4) :
    Engine.square2 u F T44 T43 (Engine.turn b) c = Engine.square2 u F T44 T43 b ((c + F) % (F * 4)) := by
  have hj : c / F < 4 := Nat.div_lt_of_lt_mul hc
  have hd : ((c + F) % (F * 4)) / F = (c / F + 1) % 4 := by
    rw [Nat.mod_mul_right_div_self, Nat.add_div_right _ hF]
  have hm : ((c + F) % (F * 4)) % F = c % F := by
    rw [Nat.mod_mul_right_mod, Nat.add_mod_right]
  unfold Engine.square2
  rw [hd, hm, turned_turn]
  rcases Nat.lt_or_ge (c / F) 3 with h | h
  · rw [Nat.mod_eq_of_lt (by omega : c / F + 1 < 4)]
  · have h3 : c / F = 3 := by omega
    rw [h3]
    have e0 : Engine.rectNumber 4 4 (Engine.turned 4 b) = Engine.rectNumber 4 4 (Engine.turned 0 b) :=
      rect_congr _ _ _ _ fun y hy x hx => turned_four b y x (by omega) (by omega)
    have e1 : Engine.rectNumber 4 3 (Engine.part 0 2 (Engine.turned 4 b))
        = Engine.rectNumber 4 3 (Engine.part 0 2 (Engine.turned 0 b)) :=
      rect_congr _ _ _ _ fun y hy x hx => turned_four b (0 + y) (2 + x) (by omega) (by omega)
    show u * T44 (Engine.rectNumber 4 4 (Engine.turned 4 b)) _ + T43 (Engine.rectNumber 4 3 (Engine.part 0 2 (Engine.turned 4 b))) _ = _
    rw [e0, e1]

/-- **C103** (symmetry, square v2): the feature of a turned board is the feature with its four blocks
shifted by one. -/
theorem C103_square_v2_blocks (int4 : Bool) (F : Nat) (hF : 0 < F) (m44 m43 : List Conv)
    (h44 : Mapping 4 4 m44) (h43 : Mapping 4 3 m43) (b : Board) (hb : Valid b) (c : Nat) (hc : c < F * 4) :
    squareFeature2 int4 F m44 m43 (Engine.turn b) c
      = squareFeature2 int4 F m44 m43 b ((c + F) % (F * 4)) := by
  rw [squareFeature2_eq int4 F m44 m43 h44 h43 _ (valid_turn b hb) c hc,
    squareFeature2_eq int4 F m44 m43 h44 h43 b hb _ (Nat.mod_lt _ (by omega)),
    square2_turn _ F hF _ _ b c hc]

theorem square3_turn (u : Int) (F : Nat) (hF : 0 < F) (T1 T2 T3 : Engine.Table) (b : Board) (c : Nat)
    (hc : c < F * 4) :
    Engine.square3 u F T1 T2 T3 (Engine.turn b) c = Engine.square3 u F T1 T2 T3 b ((c + F) % (F * 4)) := by
  have hj : c / F < 4 := Nat.div_lt_of_lt_mul hc
  have hd : ((c + F) % (F * 4)) / F = (c / F + 1) % 4 := by
    rw [Nat.mod_mul_right_div_self, Nat.add_div_right _ hF]
  have hm : ((c + F) % (F * 4)) % F = c % F := by
    rw [Nat.mod_mul_right_mod, Nat.add_mod_right]
  have e0 : Engine.rectNumber 3 4 (Engine.turned 4 b) = Engine.rectNumber 3 4 (Engine.turned 0 b) :=
    rect_congr _ _ _ _ fun y hy x hx => turned_four b y x (by omega) (by omega)
  have e1 : Engine.rectNumber 3 4 (Engine.part 0 3 (Engine.turned 4 b))
      = Engine.rectNumber 3 4 (Engine.part 0 3 (Engine.turned 0 b)) :=
    rect_congr _ _ _ _ fun y hy x hx => turned_four b (0 + y) (3 + x) (by omega) (by omega)
  have e2 : Engine.rectNumber 3 4 (Engine.part 2 3 (Engine.turned 4 b))
      = Engine.rectNumber 3 4 (Engine.part 2 3 (Engine.turned 0 b)) :=
    rect_congr _ _ _ _ fun y hy x hx => turned_four b (2 + y) (3 + x) (by omega) (by omega)
  unfold Engine.square3
  rw [hd, hm, turned_turn, turned_turn]
  rcases four _ hj with h | h | h | h <;> rw [h] <;> simp only [Nat.reduceAdd, Nat.reduceMod]
  · rw [e1, e2]
  · rw [e0]

/-- **C103** (symmetry, square v3). -/
theorem C103_square_v3_blocks (int4 : Bool) (F : Nat) (hF : 0 < F) (mc1 mc2 mm : List Conv)
    (h1 : Mapping 3 4 mc1) (h2 : Mapping 3 4 mc2) (hm : Mapping 3 4 mm) (b : Board) (hb : Valid b) (c : Nat)
    (hc : c < F * 4) :
    squareFeature3 int4 F mc1 mc2 mm (Engine.turn b) c
      = squareFeature3 int4 F mc1 mc2 mm b ((c + F) % (F * 4)) := by
  rw [squareFeature3_eq int4 F mc1 mc2 mm h1 h2 hm _ (valid_turn b hb) c hc,
    squareFeature3_eq int4 F mc1 mc2 mm h1 h2 hm b hb _ (Nat.mod_lt _ (by omega)),
    square3_turn _ F hF _ _ _ b c hc]

/-! ### Which networks are exported -/

/-- All entries of a layer are inside `[lo, hi]`. -/
def Within (lo hi : ℚ) (o i : Nat) (l : Lin) : Prop := ∀ r < o, ∀ c < i, lo ≤ l.w r c ∧ l.w r c ≤ hi

/-- **C103** (ladder export is total).  Training keeps the value layers inside `[-1, 127/128]`; every
such network is exported. -/
theorem C103_ladder_accepts (nd : Bool) (P V : Nat) (m : List Conv) (l1 l2 l3 l4 : Lin)
    (h1 : Within (-1) (127 / 128) 32 V l1) (h2 : Within (-1) (127 / 128) 32 32 l2)
    (h3 : Within (-1) (127 / 128) 32 32 l3) (h4 : Within (-1) (127 / 128) (valueRows nd) 32 l4) :
    (ladderFile1 m nd P V l1 l2 l3 l4).isSome ∧ ∀ m2, (ladderFile2 m m2 nd P V l1 l2 l3 l4).isSome := by
  have key : ∀ o i l, Within (-1) (127 / 128) o i l → truncCheck 128 o i l := by
    intro o i l h r hr c hc
    obtain ⟨a, b⟩ := h r hr c hc
    have a' : (((-128 : Int)) : ℚ) ≤ l.w r c * 128 := by push_cast; linarith
    have b' : l.w r c * 128 ≤ ((127 : Int) : ℚ) := by push_cast; linarith
    unfold pyInt
    by_cases hp : 0 ≤ l.w r c * 128
    · rw [if_pos hp]
      exact ⟨Int.le_floor.mpr a', Int.cast_le.mp ((Int.floor_le _).trans b')⟩
    · rw [if_neg hp]
      exact ⟨Int.cast_le.mp (a'.trans (Int.le_ceil _)), Int.ceil_le.mpr b'⟩
  have hc : ladderChecks nd V l1 l2 l3 l4 := ⟨key _ _ _ h1, key _ _ _ h2, key _ _ _ h3, key _ _ _ h4⟩
  constructor
  · unfold ladderFile1
    rw [if_pos hc]
    rfl
  · intro m2
    unfold ladderFile2
    rw [if_pos hc]
    rfl

theorem within_round (s lo hi : ℚ) (hs : 0 < s) (h1 : ((-128 : Int) : ℚ) ≤ lo * s)
    (h2 : hi * s ≤ ((127 : Int) : ℚ)) (o i : Nat) (l : Lin) (h : Within lo hi o i l) : roundCheck s o i l := by
  intro r hr c hc
  obtain ⟨a, b⟩ := h r hr c hc
  have a' := h1.trans (mul_le_mul_of_nonneg_right a hs.le)
  have b' := (mul_le_mul_of_nonneg_right b hs.le).trans h2
  exact Verif.Export.roundEven_mono_bounds _ _ _ a' b'

/-- **C103** (square v3 export is total): its own clipping of the first layer, `[-128/256, 127/256]`, is
what the exporter accepts. -/
theorem C103_square_v3_accepts (batch : Nat) (int4 nd : Bool) (F : Nat) (mc1 mc2 mm : List Conv)
    (l1 l2 l3 : Lin) (h1 : Within (-128 / 256) (127 / 256) 64 (F * 4) l1) :
    (squareFile3 batch int4 nd F mc1 mc2 mm l1 l2 l3).isSome := by
  have := within_round 256 _ _ (by norm_num) (by norm_num) (by norm_num) _ _ _ h1
  unfold squareFile3
  rw [if_pos this]
  rfl

/-- **C103** (which first layers of square v2 and v4 are exported): rounding at scale 256 must stay
inside int8.  Nothing else about the network matters. -/
theorem C103_square_accepts_iff (batch : Nat) (int4 nd : Bool) (F : Nat) (m44 m43 : List Conv)
    (m : Nat → List Conv) (l1 l2 l3 : Lin) :
    ((squareFile2 batch int4 nd F m44 m43 l1 l2 l3).isSome ↔
        ∀ r < 32, ∀ c < F * 4, -128 ≤ roundEven (l1.w r c * 256) ∧ roundEven (l1.w r c * 256) ≤ 127)
      ∧ ((squareFile4 batch nd F m l1 l2 l3).isSome ↔
        ∀ r < 32, ∀ c < F, -128 ≤ roundEven (l1.w r c * 256) ∧ roundEven (l1.w r c * 256) ≤ 127) := by
  constructor
  · unfold squareFile2
    by_cases h : roundCheck 256 32 (F * 4) l1
    · rw [if_pos h]
      exact ⟨fun _ => h, fun _ => rfl⟩
    · rw [if_neg h]
      exact ⟨fun h' => absurd h' (by simp), fun h' => absurd h' h⟩
  · unfold squareFile4
    by_cases h : roundCheck 256 32 F l1
    · rw [if_pos h]
      exact ⟨fun _ => h, fun _ => rfl⟩
    · rw [if_neg h]
      exact ⟨fun h' => absurd h' (by simp), fun h' => absurd h' h⟩

/-- **C103** (finding).  The clipping that square v2 and v4 inherit, `[-1, 127/128]`, does not guarantee
an export: a network at its upper clip bound is refused. -/
theorem C103_square_v2_refuses (batch : Nat) (int4 nd : Bool) (F : Nat) (hF : 0 < F) (m44 m43 : List Conv)
    (m : Nat → List Conv) :
    ∃ l1 : Lin, Within (-1) (127 / 128) 32 (F * 4) l1 ∧ ∀ l2 l3,
      squareFile2 batch int4 nd F m44 m43 l1 l2 l3 = none ∧ squareFile4 batch nd F m l1 l2 l3 = none := by
  refine ⟨⟨fun _ _ => 127 / 128, fun _ => 0⟩, fun _ _ _ _ => ⟨by norm_num, le_rfl⟩, fun l2 l3 => ?_⟩
  have e : roundEven (127 / 128 * 256) = 254 := by
    have := Verif.Quant.roundEven_int 254
    norm_num at this ⊢
    exact this
  obtain ⟨h2, h4⟩ := C103_square_accepts_iff batch int4 nd F m44 m43 m ⟨fun _ _ => 127 / 128, fun _ => 0⟩ l2 l3
  constructor
  · cases hx : squareFile2 batch int4 nd F m44 m43 ⟨fun _ _ => 127 / 128, fun _ => 0⟩ l2 l3 with
    | none => rfl
    | some x =>
      rw [hx] at h2
      have := (h2.mp rfl 0 (by norm_num) 0 (by omega)).2
      simp only [e] at this
      omega
  · cases hx : squareFile4 batch nd F m ⟨fun _ _ => 127 / 128, fun _ => 0⟩ l2 l3 with
    | none => rfl
    | some x =>
      rw [hx] at h4
      have := (h4.mp rfl 0 (by norm_num) 0 hF).2
      simp only [e] at this
      omega

/-! ### Ranges -/

theorem ladder1_range (T : Engine.Table) (b : Board) (c : Nat) (hT : ∀ i, -128 ≤ T i c ∧ T i c ≤ 127) :
    -1024 ≤ Engine.ladder1 T b c ∧ Engine.ladder1 T b c ≤ 1016 := by
  unfold Engine.ladder1
  simp only [sum_range_succ, sum_range_zero]
  have := fun k => hT (Engine.triNumber (Engine.turned k b))
  have := fun k => hT (Engine.triNumber (Engine.mirror (Engine.turned k b)))
  have a0 := hT (Engine.triNumber (Engine.turned 0 b))
  have a1 := hT (Engine.triNumber (Engine.turned 1 b))
  have a2 := hT (Engine.triNumber (Engine.turned 2 b))
  have a3 := hT (Engine.triNumber (Engine.turned 3 b))
  have b0 := hT (Engine.triNumber (Engine.mirror (Engine.turned 0 b)))
  have b1 := hT (Engine.triNumber (Engine.mirror (Engine.turned 1 b)))
  have b2 := hT (Engine.triNumber (Engine.mirror (Engine.turned 2 b)))
  have b3 := hT (Engine.triNumber (Engine.mirror (Engine.turned 3 b)))
  omega

theorem sum4_range (f : Nat → Int) (h : ∀ k, -128 ≤ f k ∧ f k ≤ 127) :
    -512 ≤ ∑ k ∈ range 4, f k ∧ ∑ k ∈ range 4, f k ≤ 508 := by
  simp only [sum_range_succ, sum_range_zero]
  have h0 := h 0
  have h1 := h 1
  have h2 := h 2
  have h3 := h 3
  omega

/-- **C103** (int16 features).  The sums of table entries an engine forms fit 16 bits, whatever the
tables contain. -/
theorem C103_sums_fit (T0 T1 T2 : Engine.Table) (h0 : ∀ i c, -128 ≤ T0 i c ∧ T0 i c ≤ 127)
    (h1 : ∀ i c, -128 ≤ T1 i c ∧ T1 i c ≤ 127) (h2 : ∀ i c, -128 ≤ T2 i c ∧ T2 i c ≤ 127) (b : Board)
    (c : Nat) :
    (-1536 ≤ Engine.ladder2 T0 T1 b c ∧ Engine.ladder2 T0 T1 b c ≤ 1524)
      ∧ (-2048 ≤ Engine.square4 T0 T1 T2 b c ∧ Engine.square4 T0 T1 T2 b c ≤ 2032) := by
  constructor
  · have a := ladder1_range T0 b c fun i => h0 i c
    have d := sum4_range (fun k => T1 (Engine.triNumber (Engine.part 3 0 (Engine.turned k b))) c)
      fun k => h1 _ c
    unfold Engine.ladder2
    omega
  · have a0 := sum4_range (fun k => T0 (Engine.rectNumber 4 4 (Engine.turned k b)) c) fun k => h0 _ c
    have a1 := sum4_range (fun k => T1 (Engine.rectNumber 4 4 (Engine.part 0 1 (Engine.turned k b))) c)
      fun k => h1 _ c
    have a2 := sum4_range
      (fun k => T1 (Engine.rectNumber 4 4 (Engine.mirror (Engine.part 1 0 (Engine.turned k b)))) c) fun k => h1 _ c
    have a3 := sum4_range (fun k => T2 (Engine.rectNumber 4 4 (Engine.part 1 1 (Engine.turned k b))) c)
      fun k => h2 _ c
    unfold Engine.square4
    omega

end Verif.Flat
