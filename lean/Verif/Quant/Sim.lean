import Verif.Quant.Lemmas

namespace Verif.Quant

open Verif.Export (roundEven quantFeature roundEven_mono_bounds C51_quantised_range)
open Finset
open Engine (sat toI8 rect affine)

theorem sat_idem (n : Nat) (z : Int) : sat n (sat n z) = sat n z :=
  sat_eq _ _ (sat_range n z).1 (sat_range n z).2

theorem sat_toI8 (z : Int) : sat 8 (toI8 z) = toI8 z := sat_idem 8 _

/-- An accumulator of scale 128² read as int8. -/
theorem sat_acc (z : Int) : sat 8 ⌊(z : ℚ) / (128 * 128) * 128⌋ = toI8 z := by
  have := floor_div_mul z 128 128 (by norm_num) (by norm_num)
  norm_num at this
  unfold toI8
  norm_num
  rw [this]

theorem sat_val (z : Int) : sat 8 ⌊(z : ℚ) / 128 * 128⌋ = sat 8 z := by
  rw [floor_scale _ _ (by norm_num)]

theorem fq_acc (z : Int) :
    fakeQuant ((z : ℚ) / (128 * 128)) (floor := true) = (toI8 z : ℚ) / 128 := by
  rw [fakeQuant_floor _ _ _ (by norm_num), sat_acc]

theorem linearBlock_acc (n : Nat) (act : Bool) (L : Lin) (x : Vec) (z : Nat → Int) (o : Nat)
    (hx : ∀ i, x i = (z i : ℚ) / (128 * 128)) :
    linearBlock n act L x o =
      (((if act then rect else id) (affine n (exportLin L) (fun i => toI8 (z i)) o) : Int) : ℚ)
        / (128 * 128) := by
  rw [linearBlock_eq]
  simp only [hx, sat_acc]

theorem linearBlock_val (n : Nat) (act : Bool) (L : Lin) (x : Vec) (z : Nat → Int) (o : Nat)
    (hx : ∀ i, x i = (z i : ℚ) / 128) :
    linearBlock n act L x o =
      (((if act then rect else id) (affine n (exportLin L) (fun i => sat 8 (z i)) o) : Int) : ℚ)
        / (128 * 128) := by
  rw [linearBlock_eq]
  simp only [hx, sat_val]

theorem starBlock_eq (n m : Nat) (S : Star) (x : Vec) (z : Nat → Int) (o : Nat)
    (hx : ∀ i, x i = (z i : ℚ) / 128) :
    starBlock n m S x o =
      (Engine.star n m (exportStar S) (fun i => sat 8 (z i)) o : ℚ) / (128 * 128) := by
  unfold starBlock Engine.star
  simp only
  rw [linearBlock_val m true S.down _ (fun j => toI8
    (toI8 (rect (affine n (exportLin S.up1) (fun i => sat 8 (z i)) (2 * j)))
        * toI8 (affine n (exportLin S.up2) (fun i => sat 8 (z i)) (2 * j))
      + toI8 (rect (affine n (exportLin S.up1) (fun i => sat 8 (z i)) (2 * j + 1)))
        * toI8 (affine n (exportLin S.up2) (fun i => sat 8 (z i)) (2 * j + 1)))) o ?_]
  · simp only [sat_toI8, if_true]
    rfl
  · intro j
    have h1 : ∀ k, fakeQuant (linearBlock n true S.up1 x k) (floor := true)
        = (toI8 (rect (affine n (exportLin S.up1) (fun i => sat 8 (z i)) k)) : ℚ) / 128 := by
      intro k
      rw [linearBlock_val n true S.up1 x z k hx, fq_acc]
      simp only [if_true]
    have h2 : ∀ k, fakeQuant (linearBlock n false S.up2 x k) (floor := true)
        = (toI8 (affine n (exportLin S.up2) (fun i => sat 8 (z i)) k) : ℚ) / 128 := by
      intro k
      rw [linearBlock_val n false S.up2 x z k hx, fq_acc]
      simp only [Bool.false_eq_true, if_false, id]
    simp only [h1, h2]
    refine Eq.trans ?_ (fq_acc _)
    congr 1
    push_cast
    ring

theorem group_eq (n m : Nat) (G : Group) (x : Vec) (z : Nat → Int) (o : Nat)
    (hx : ∀ i, x i = (z i : ℚ) / 128) :
    G.run n m x o =
      (Engine.group n m (exportGroup G) (fun i => sat 8 (z i)) o : ℚ) / (128 * 128) := by
  cases G with
  | lin l =>
    show linearBlock n true l x o = _
    rw [linearBlock_val n true l x z o hx]
    rfl
  | star s => exact starBlock_eq n m s x z o hx

theorem toI8_range (z : Int) : -128 ≤ toI8 z ∧ toI8 z ≤ 127 := by
  have := sat_range 8 (z / 2 ^ 7)
  norm_num at this
  exact this

theorem avg2_range (a b : Int) (ha : -128 ≤ a ∧ a ≤ 127) (hb : -128 ≤ b ∧ b ≤ 127) :
    -128 ≤ Engine.avg2 a b ∧ Engine.avg2 a b ≤ 127 := by
  unfold Engine.avg2; omega

theorem fq_avg (a b : Int) (ha : -128 ≤ a ∧ a ≤ 127) (hb : -128 ≤ b ∧ b ≤ 127) :
    fakeQuant (((a : ℚ) / 128 + (b : ℚ) / 128 + 1 / 128) / 2) (floor := true)
      = (Engine.avg2 a b : ℚ) / 128 := by
  rw [fakeQuant_floor _ _ _ (by norm_num)]
  have e : ((a : ℚ) / 128 + (b : ℚ) / 128 + 1 / 128) / 2 * 128 = ((a + b + 1 : Int) : ℚ) / ((2 : ℕ) : ℚ) := by
    push_cast; ring
  have hr := avg2_range a b ha hb
  rw [e, Rat.floor_intCast_div_natCast]
  have h2 : ((a + b + 1) / ((2 : ℕ) : Int)) = Engine.avg2 a b := rfl
  rw [h2, sat_eq 8 _ (by norm_num; omega) (by norm_num; omega)]

theorem avg4_eq (a b c d : Int) :
    avg4 ((a : ℚ) / (128 * 128)) (b / (128 * 128)) (c / (128 * 128)) (d / (128 * 128))
      = (Engine.avg4 a b c d : ℚ) / 128 := by
  unfold avg4 Engine.avg4
  simp only [fq_acc]
  rw [fq_avg _ _ (toI8_range _) (toI8_range _), fq_avg _ _ (toI8_range _) (toI8_range _),
    fq_avg _ _ (avg2_range _ _ (toI8_range _) (toI8_range _))
      (avg2_range _ _ (toI8_range _) (toI8_range _))]

theorem avg4_range (a b c d : Int) : -128 ≤ Engine.avg4 a b c d ∧ Engine.avg4 a b c d ≤ 127 :=
  avg2_range _ _ (avg2_range _ _ (toI8_range _) (toI8_range _))
    (avg2_range _ _ (toI8_range _) (toI8_range _))

theorem sat_avg4 (a b c d : Int) : sat 8 (Engine.avg4 a b c d) = Engine.avg4 a b c d := by
  have := avg4_range a b c d
  exact sat_eq 8 _ (by norm_num; omega) (by norm_num; omega)

theorem quad_eq (n m : Nat) (G : Group) (v1 v2 v3 v4 : Vec) (z1 z2 z3 z4 : Nat → Int) (o : Nat)
    (h1 : ∀ i, v1 i = (z1 i : ℚ) / (128 * 128)) (h2 : ∀ i, v2 i = (z2 i : ℚ) / (128 * 128))
    (h3 : ∀ i, v3 i = (z3 i : ℚ) / (128 * 128)) (h4 : ∀ i, v4 i = (z4 i : ℚ) / (128 * 128)) :
    G.run n m (fun j => avg4 (v1 j) (v2 j) (v3 j) (v4 j)) o =
      (Engine.group n m (exportGroup G) (fun j => Engine.avg4 (z1 j) (z2 j) (z3 j) (z4 j)) o : ℚ)
        / (128 * 128) := by
  rw [group_eq n m G _ (fun j => Engine.avg4 (z1 j) (z2 j) (z3 j) (z4 j)) o
    (fun i => by rw [h1, h2, h3, h4, avg4_eq])]
  simp only [sat_avg4]

theorem affine_congr (n : Nat) (L : ILin) (x x' : Nat → Int) (o : Nat) (h : ∀ i < n, x i = x' i) :
    affine n L x o = affine n L x' o := by
  unfold affine
  congr 1
  exact sum_congr rfl fun i hi => by rw [h i (mem_range.1 hi)]

/-- The last layers: the input is mixed (scale 128 and scale 128²), described by its int8 value. -/
theorem valueTail_eq (n m : Nat) (l1 l2 l3 : Lin) (v : Vec) (z : Nat → Int) (o : Nat)
    (hv : ∀ i < n, sat 8 ⌊v i * 128⌋ = z i) :
    valueTail n m l1 l2 l3 v o =
      (Engine.tail n m (exportLin l1) (exportLin l2) (exportLin l3) z o : ℚ) / (128 * 128) := by
  unfold valueTail Engine.tail
  rw [linearBlock_acc m false l3 _
    (fun j => rect (affine m (exportLin l2)
      (fun j => toI8 (rect (affine n (exportLin l1) z j))) j)) o ?_]
  · rfl
  · intro j
    rw [linearBlock_acc m true l2 _ (fun j => rect (affine n (exportLin l1) z j)) j ?_]
    · rfl
    · intro i
      rw [linearBlock_eq, affine_congr n _ _ z i hv]
      rfl

/-! ### Features -/

theorem fq_table (x : ℚ) :
    fakeQuant (clampQ x (-16) (511 / 32)) (scale := 32) (numBits := some 16)
      = (quantFeature x : ℚ) / 32 := by
  rw [fakeQuant_round _ _ _ (by norm_num)]
  have h := C51_quantised_range x
  have e : roundEven (clampQ x (-16) (511 / 32) * 32) = quantFeature x := rfl
  rw [e, sat_eq 16 _ (by norm_num; omega) (by norm_num; omega)]

/-- The table entries are those the exporter writes. -/
def table (m : Nat → FMap) : Nat → Engine.IMap := fun d c y x => quantFeature (m d c y x)

theorem table_range (m : Nat → FMap) (d c y x : Nat) :
    -512 ≤ table m d c y x ∧ table m d c y x ≤ 511 :=
  ⟨(C51_quantised_range _).1, (C51_quantised_range _).2.1⟩

theorem accum_range (m : Nat → FMap) (c y x : Nat) :
    0 ≤ Engine.accum (table m) c y x ∧ Engine.accum (table m) c y x ≤ 2044 := by
  unfold Engine.accum rect
  have h0 := table_range m 0 c y x
  have h1 := table_range m 1 c y x
  have h2 := table_range m 2 c y x
  have h3 := table_range m 3 c y x
  omega

/-- The rectified mean of the four directions. -/
theorem accum_eq (m : Nat → FMap) (c y x : Nat) :
    relu ((∑ d ∈ range 4, fakeQuant (clampQ (m d c y x) (-16) (511 / 32)) (scale := 32)
      (numBits := some 16)) / 4) = (Engine.accum (table m) c y x : ℚ) / 128 := by
  simp only [fq_table]
  have e : (∑ d ∈ range 4, (quantFeature (m d c y x) : ℚ) / 32) / 4
      = ((table m 0 c y x + table m 1 c y x + table m 2 c y x + table m 3 c y x : Int) : ℚ) / 128 := by
    simp only [sum_range_succ, range_zero, sum_empty, table]
    push_cast
    ring
  rw [e, relu_div _ _ (by norm_num)]
  rfl

theorem neighbour_range (H W : Nat) (f : Nat → Nat → Int) (y x k : Nat) (B : Int) (hB : 0 ≤ B)
    (hf : ∀ y x, 0 ≤ f y x ∧ f y x ≤ B) :
    0 ≤ Engine.neighbour H W f y x k ∧ Engine.neighbour H W f y x k ≤ B := by
  unfold Engine.neighbour
  split_ifs
  · exact hf _ _
  · exact ⟨le_rfl, hB⟩

theorem patch_eq (H W : Nat) (f : Nat → Nat → ℚ) (g : Nat → Nat → Int) (s : ℚ) (y x k : Nat)
    (h : ∀ y x, f y x = s * g y x) :
    patch H W f y x k = s * Engine.neighbour H W g y x k := by
  unfold patch Engine.neighbour
  split_ifs
  · exact h _ _
  · simp

theorem prod_range (a w : Int) (ha : 0 ≤ a ∧ a ≤ 2044) (hw : -32768 ≤ w ∧ w ≤ 32767) :
    -4088 ≤ Engine.dwProduct a w ∧ Engine.dwProduct a w ≤ 4087 := by
  unfold Engine.dwProduct
  have h1 : 4 * a * w ≤ 4 * 2044 * 32767 := by nlinarith
  have h2 : 4 * 2044 * (-32768) ≤ 4 * a * w := by nlinarith
  omega

theorem dwProduct_eq (a w : Int) (ha : 0 ≤ a ∧ a ≤ 2044) (hw : -32768 ≤ w ∧ w ≤ 32767) :
    dwProduct ((4 / 128 : ℚ) * a) ((w : ℚ) / 65536) = (Engine.dwProduct a w : ℚ) / 128 := by
  unfold dwProduct
  rw [fakeQuant_floor _ _ _ (by norm_num)]
  have e : (4 / 128 : ℚ) * a * ((w : ℚ) / 65536) * 128 = ((4 * a * w : Int) : ℚ) / ((65536 : ℕ) : ℚ) := by
    push_cast; ring
  rw [e, Rat.floor_intCast_div_natCast]
  have h2 : (4 * a * w) / ((65536 : ℕ) : Int) = Engine.dwProduct a w := by
    unfold Engine.dwProduct; norm_num
  have hr := prod_range a w ha hw
  rw [h2, sat_eq 16 _ (by norm_num; omega) (by norm_num; omega)]

theorem dwW_range (N : Net) (c k : Nat) :
    -32768 ≤ (exportNet N).dwW c k ∧ (exportNet N).dwW c k ≤ 32767 := by
  show -32768 ≤ clampZ _ _ _ ∧ clampZ _ _ _ ≤ 32767
  unfold clampZ; omega

theorem dwW_eq (N : Net) (c k : Nat) :
    fakeQuant (N.dwW c k) (scale := 65536) (numBits := some 16)
      = ((exportNet N).dwW c k : ℚ) / 65536 := by
  rw [fakeQuant_round _ _ _ (by norm_num)]
  congr 2
  show sat 16 _ = clampZ (roundEven (dwWClipped N c k * 65536)) (-32768) 32767
  have e : dwWClipped N c k * 65536 = clampQ (N.dwW c k * 65536) ((-32768 : Int) : ℚ) ((32767 : Int) : ℚ) := by
    unfold dwWClipped
    rw [clampQ_scale _ _ _ _ (by norm_num)]
    norm_num
  rw [e, roundEven_clamp _ _ _ (by norm_num)]
  have := clampZ_eq_sat (roundEven (N.dwW c k * 65536)) 16
  norm_num at this
  rw [← this]
  unfold clampZ
  omega

theorem dwB_eq (N : Net) (c : Nat) (h1 : -64 ≤ N.dwB c) (h2 : N.dwB c ≤ 64) :
    fakeQuant (N.dwB c) (numBits := some 16) = ((exportNet N).dwB c : ℚ) / 128 := by
  rw [fakeQuant_round _ _ _ (by norm_num)]
  congr 2
  show sat 16 _ = clampZ (roundEven (dwBClipped N c * 128)) (-32768) 32767
  have e : dwBClipped N c = N.dwB c := by
    unfold dwBClipped clampQ
    rw [max_eq_left h1, min_eq_left h2]
  rw [e]
  have := clampZ_eq_sat (roundEven (N.dwB c * 128)) 16
  norm_num at this
  rw [← this]

theorem dwConv_eq (N : Net) (H W : Nat) (m : Nat → FMap) (f : FMap) (c y x : Nat)
    (hf : ∀ c y x, f c y x = (4 / 128 : ℚ) * Engine.accum (table m) c y x)
    (hb : -64 ≤ N.dwB c ∧ N.dwB c ≤ 64) :
    dwConv H W N.dwW N.dwB f c y x
      = (rect (Engine.dwAcc H W (exportNet N) (Engine.accum (table m)) c y x) : ℚ) / 128 := by
  unfold dwConv
  simp only
  have hg : ∀ y x, fakeQuant (f c y x) (numBits := some 16)
      = (4 / 128 : ℚ) * Engine.accum (table m) c y x := by
    intro y x
    have hr := accum_range m c y x
    rw [fakeQuant_round _ _ _ (by norm_num), hf]
    have e : (4 / 128 : ℚ) * (Engine.accum (table m) c y x : ℚ) * 128
        = ((4 * Engine.accum (table m) c y x : Int) : ℚ) := by push_cast; ring
    rw [e, roundEven_int, sat_eq 16 _ (by norm_num; omega) (by norm_num; omega)]
    push_cast
    ring
  rw [dwB_eq N c hb.1 hb.2]
  have hs : ∀ k, dwProduct (patch H W (fun y x => fakeQuant (f c y x) (numBits := some 16)) y x k)
        (fakeQuant (N.dwW c k) (scale := 65536) (numBits := some 16))
      = (Engine.dwProduct (Engine.neighbour H W (Engine.accum (table m) c) y x k)
          ((exportNet N).dwW c k) : ℚ) / 128 := by
    intro k
    rw [patch_eq H W _ (Engine.accum (table m) c) (4 / 128) y x k hg, dwW_eq]
    exact dwProduct_eq _ _
      (neighbour_range H W _ y x k 2044 (by norm_num) (fun y x => accum_range m c y x))
      (dwW_range N c k)
  simp only [hs]
  rw [← sum_div, ← add_div]
  unfold Engine.dwAcc
  rw [← relu_div _ _ (by norm_num)]
  push_cast
  rfl

theorem getFeature_eq (N : Net) (H W : Nat) (m : Nat → FMap) (c y x : Nat)
    (hb : c < N.dimDw → -64 ≤ N.dwB c ∧ N.dwB c ≤ 64) :
    getFeature N H W m c y x
      = (Engine.feature (exportNet N) H W (table m) c y x : ℚ) / 128 := by
  unfold getFeature Engine.feature
  simp only
  by_cases hc : c < N.dimDw
  · rw [if_pos hc, if_pos (show c < (exportNet N).dimDw from hc)]
    rw [dwConv_eq N H W m _ c y x (fun c y x => by rw [accum_eq]; ring) (hb hc)]
    rw [fakeQuant_round _ _ _ (by norm_num), roundEven_scale _ _ (by norm_num)]
  · rw [if_neg hc, if_neg (show ¬ c < (exportNet N).dimDw from hc)]
    have hr := accum_range m c y x
    rw [accum_eq, fakeQuant_round _ _ _ (by norm_num), roundEven_scale _ _ (by norm_num),
      sat_eq 16 _ (by norm_num; omega) (by norm_num; omega)]

theorem feature_range (N : INet) (H W : Nat) (m : Nat → FMap) (c y x : Nat) :
    0 ≤ Engine.feature N H W (table m) c y x ∧ Engine.feature N H W (table m) c y x ≤ 32767 := by
  unfold Engine.feature
  have hr := accum_range m c y x
  split_ifs
  · unfold sat rect
    norm_num
  · omega

end Verif.Quant
