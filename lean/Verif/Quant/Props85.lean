/-
C85: the exported integers compute the trained (fake-quantised) network.
-/
import Verif.Quant.Sim
import Mathlib.Tactic.IntervalCases

namespace Verif.Quant

open Verif.Export (roundEven quantFeature roundEven_mono_bounds C51_quantised_range)
open Finset
open Engine (sat toI8 rect affine)

/-! ### Sums over the board -/

theorem cut_le (n r : Nat) : cut n r ≤ n := by
  unfold cut
  split <;> try split_ifs
  all_goals omega

theorem sum2_range (A B : Finset Nat) (f : Nat → Nat → Int) (M : Int) (hM : 0 ≤ M)
    (hf : ∀ y x, 0 ≤ f y x ∧ f y x ≤ M) :
    0 ≤ ∑ y ∈ A, ∑ x ∈ B, f y x ∧ ∑ y ∈ A, ∑ x ∈ B, f y x ≤ (A.card * B.card : Nat) * M := by
  constructor
  · exact sum_nonneg fun y _ => sum_nonneg fun x _ => (hf y x).1
  · calc ∑ y ∈ A, ∑ x ∈ B, f y x ≤ ∑ _y ∈ A, ∑ _x ∈ B, M :=
          sum_le_sum fun y _ => sum_le_sum fun x _ => (hf y x).2
      _ = (A.card * B.card : Nat) * M := by
          simp only [sum_const, nsmul_eq_mul]; push_cast; ring

/-- A board sum fits int32. -/
theorem boardSum_range (H W : Nat) (hHW : H * W ≤ 65536) (A B : Finset Nat) (hA : A.card ≤ H)
    (hB : B.card ≤ W) (f : Nat → Nat → Int) (hf : ∀ y x, 0 ≤ f y x ∧ f y x ≤ 32767) :
    0 ≤ ∑ y ∈ A, ∑ x ∈ B, f y x ∧ ∑ y ∈ A, ∑ x ∈ B, f y x < 2 ^ 31 := by
  have h := sum2_range A B f 32767 (by norm_num) hf
  have hc : A.card * B.card ≤ 65536 := le_trans (Nat.mul_le_mul hA hB) hHW
  have hc' : ((A.card * B.card : Nat) : Int) ≤ 65536 := by exact_mod_cast hc
  refine ⟨h.1, ?_⟩
  have : ((A.card * B.card : Nat) : Int) * 32767 ≤ 65536 * 32767 := by omega
  omega

theorem fq_sum (S : Int) (h0 : 0 ≤ S) (h1 : S < 2 ^ 31) (k : Nat) (hk : 0 < k) :
    fakeQuant ((S : ℚ) / 128 / k) (numBits := some 32) (floor := true)
      = ((S / (k : Int) : Int) : ℚ) / 128 := by
  rw [fakeQuant_floor _ _ _ (by norm_num)]
  have e : (S : ℚ) / 128 / k * 128 = (S : ℚ) / ((128 * k : Nat) : ℚ) * ((128 : Nat) : ℚ) := by
    have : (k : ℚ) ≠ 0 := by positivity
    push_cast; field_simp
  rw [e, floor_div_mul S 128 k (by norm_num) hk]
  have h2 : 0 ≤ S / (k : Int) := Int.ediv_nonneg h0 (by omega)
  have h3 : S / (k : Int) ≤ S := Int.ediv_le_self _ h0
  rw [sat_eq 32 _ (by norm_num; omega) (by norm_num; omega)]

theorem featureSum_eq (H W : Nat) (hHW : H * W ≤ 65536) (f : FMap) (g : Engine.IMap)
    (hf : ∀ c y x, f c y x = (g c y x : ℚ) / 128) (hg : ∀ c y x, 0 ≤ g c y x ∧ g c y x ≤ 32767)
    (c : Nat) : featureSum H W f c = (Engine.total H W g c : ℚ) / 128 := by
  unfold featureSum Engine.total
  have e : ∑ y ∈ range H, ∑ x ∈ range W, f c y x
      = ((∑ y ∈ range H, ∑ x ∈ range W, g c y x : Int) : ℚ) / 128 := by
    simp only [hf, sum_div]; push_cast; simp only [sum_div]
  have hr := boardSum_range H W hHW (range H) (range W) (by simp) (by simp) (g c) (hg c)
  rw [e]
  exact fq_sum _ hr.1 hr.2 256 (by norm_num)

theorem cut_eq_bound (n r : Nat) : cut n r = Engine.bound n r := by
  match r with
  | 0 => rfl
  | 1 => show n / 3 + (if n % 3 = 2 then 1 else 0) = (n + 1) / 3
         split_ifs <;> omega
  | 2 => show n / 3 * 2 + (if n % 3 > 0 then 1 else 0) = n - (n + 1) / 3
         split_ifs <;> omega
  | _ + 3 => rfl

theorem regionSum_eq (H W : Nat) (hHW : H * W ≤ 65536) (f : FMap) (g : Engine.IMap)
    (hf : ∀ c y x, f c y x = (g c y x : ℚ) / 128) (hg : ∀ c y x, 0 ≤ g c y x ∧ g c y x ≤ 32767)
    (r s c : Nat) : regionSum H W f r s c = (Engine.region H W g r s c : ℚ) / 128 := by
  unfold regionSum Engine.region
  simp only [← cut_eq_bound]
  have e : ∑ y ∈ Ico (cut H r) (cut H (r + 1)), ∑ x ∈ Ico (cut W s) (cut W (s + 1)), f c y x
      = ((∑ y ∈ Ico (cut H r) (cut H (r + 1)), ∑ x ∈ Ico (cut W s) (cut W (s + 1)), g c y x : Int) : ℚ)
        / 128 := by
    simp only [hf, sum_div]; push_cast; simp only [sum_div]
  have hr := boardSum_range H W hHW (Ico (cut H r) (cut H (r + 1))) (Ico (cut W s) (cut W (s + 1)))
    (by rw [Nat.card_Ico]; have := cut_le H (r + 1); omega)
    (by rw [Nat.card_Ico]; have := cut_le W (s + 1); omega) (g c) (hg c)
  rw [e]
  exact fq_sum _ hr.1 hr.2 32 (by norm_num)

/-! ### The heads -/

theorem fq_feature (z : Int) (h : 0 ≤ z ∧ z ≤ 32767) :
    fakeQuant ((z : ℚ) / 128) (numBits := some 16) = (z : ℚ) / 128 := by
  rw [fakeQuant_round _ _ _ (by norm_num), roundEven_scale _ _ (by norm_num),
    sat_eq 16 _ (by norm_num; omega) (by norm_num; omega)]

theorem exportPw_w (x : ℚ) :
    fakeQuant x (scale := 128 * 128) (numBits := some 16)
      = (clampZ (roundEven (x * (128 * 128))) (-32768) 32767 : ℚ) / (128 * 128) := by
  rw [fakeQuant_round _ _ _ (by norm_num)]
  have := clampZ_eq_sat (roundEven (x * (128 * 128))) 16
  norm_num at this
  norm_num
  rw [this]

theorem exportPw_b (x : ℚ) :
    fakeQuant x (scale := 128 * 128 * 128) (numBits := some 32)
      = (clampZ (roundEven (x * (128 * 128 * 128))) (-(2 ^ 31)) (2 ^ 31 - 1) : ℚ) / (128 * 128 * 128) := by
  rw [fakeQuant_round _ _ _ (by norm_num)]
  have := clampZ_eq_sat (roundEven (x * (128 * 128 * 128))) 32
  norm_num at this
  norm_num
  rw [this]

theorem policyMid_eq (N : Net) (f : FMap) (g : Engine.IMap) (fs : Vec) (t : Nat → Int)
    (hf : ∀ c y x, f c y x = (g c y x : ℚ) / 128) (hg : ∀ c y x, 0 ≤ g c y x ∧ g c y x ≤ 32767)
    (ht : ∀ c, fs c = (t c : ℚ) / 128) (y x o : Nat) :
    policyMiddle N f fs y x o = (Engine.policyMidAcc (exportNet N) g t y x o : ℚ) / (128 * 128 * 128) := by
  unfold Engine.policyMidAcc policyMiddle
  rw [show (exportNet N).dimPolicy = N.dimPolicy from rfl,
    show (exportNet N).dimFeature = N.dimFeature from rfl]
  cases hp : N.policy with
  | static l =>
    have he : (exportNet N).policy = exportPolicy (.static l) := by
      show exportPolicy N.policy = _; rw [hp]
    rw [he]
    show staticPw N.dimPolicy l f y x o = _
    unfold staticPw exportPolicy
    simp only [hf, fq_feature _ (hg _ _ _), exportPw_w, exportPw_b]
    rw [← relu_div _ _ (by norm_num)]
    congr 1
    push_cast
    rw [add_div, sum_div]
    congr 1
    refine sum_congr rfl fun c _ => ?_
    ring
  | dynamic l1 l2 =>
    have he : (exportNet N).policy = exportPolicy (.dynamic l1 l2) := by
      show exportPolicy N.policy = _; rw [hp]
    rw [he]
    show dynamicPw N.dimFeature N.dimPolicy l1 l2 f fs y x o = _
    have hout : ∀ k, linearBlock (N.dimPolicy * 2) false l2 (linearBlock N.dimFeature true l1 fs) k
        = ((affine (N.dimPolicy * 2) (exportLin l2)
            (fun j => toI8 (rect (affine N.dimFeature (exportLin l1) (Engine.i8 t) j))) k : Int) : ℚ)
          / (128 * 128) := by
      intro k
      rw [linearBlock_acc (N.dimPolicy * 2) false l2 _
        (fun j => rect (affine N.dimFeature (exportLin l1) (Engine.i8 t) j)) k ?_]
      · rfl
      · intro j
        rw [linearBlock_val N.dimFeature true l1 fs t j ht]
        rfl
    unfold dynamicPw exportPolicy
    simp only [hout, hf, fq_feature _ (hg _ _ _)]
    have hw : ∀ z : Int, fakeQuant ((z : ℚ) / (128 * 128)) (scale := 128 * 128) (numBits := some 16)
        (floor := true) = (sat 16 z : ℚ) / (128 * 128) := by
      intro z
      rw [fakeQuant_floor _ _ _ (by norm_num), floor_scale _ _ (by norm_num)]
    simp only [hw]
    rw [← relu_div _ _ (by norm_num)]
    show relu _ = relu _
    congr 1
    push_cast
    rw [add_div, sum_div]
    congr 1
    · refine sum_congr rfl fun c _ => ?_
      ring
    · rw [show policyMid = 16 from rfl]
      ring

/-- Inside the vector, the concatenation of the code is the concatenation in blocks. -/
theorem cat5_rel (n m : Nat) (a q0 q1 q2 q3 : Vec) (a' q0' q1' q2' q3' : Nat → Int)
    (ha : ∀ i, sat 8 ⌊a i * 128⌋ = a' i) (h0 : ∀ i, sat 8 ⌊q0 i * 128⌋ = q0' i)
    (h1 : ∀ i, sat 8 ⌊q1 i * 128⌋ = q1' i) (h2 : ∀ i, sat 8 ⌊q2 i * 128⌋ = q2' i)
    (h3 : ∀ i, sat 8 ⌊q3 i * 128⌋ = q3' i) (k : Nat) (hk : k < n + 4 * m) :
    sat 8 ⌊cat5 n m a q0 q1 q2 q3 k * 128⌋
      = Engine.concat n m a' (Engine.quadrants q0' q1' q2' q3') k := by
  unfold cat5 Engine.concat
  have hdiv : ∀ j, n + j * m ≤ k → k < n + (j + 1) * m →
      (k - n) / m = j ∧ (k - n) % m = k - (n + j * m) := by
    intro j hl hu
    have hm : 0 < m := by
      rcases Nat.eq_zero_or_pos m with rfl | h
      · simp at hl hu; omega
      · exact h
    have hu' : k < n + (j * m + m) := by rw [Nat.succ_mul] at hu; exact hu
    have e : k - n = (k - (n + j * m)) + m * j := by rw [Nat.mul_comm m j]; omega
    rw [e, Nat.add_mul_div_left _ _ hm, Nat.add_mul_mod_self_left,
      Nat.div_eq_of_lt (by omega), Nat.mod_eq_of_lt (by omega)]
    omega
  by_cases c0 : k < n
  · rw [if_pos c0, if_pos c0]; exact ha _
  rw [if_neg c0, if_neg c0]
  by_cases c1 : k < n + m
  · obtain ⟨e1, e2⟩ := hdiv 0 (by omega) (by omega)
    rw [if_pos c1, e1, e2, Nat.zero_mul, Nat.add_zero]; exact h0 _
  rw [if_neg c1]
  by_cases c2 : k < n + 2 * m
  · obtain ⟨e1, e2⟩ := hdiv 1 (by omega) (by omega)
    rw [if_pos c2, e1, e2, Nat.one_mul]; exact h1 _
  rw [if_neg c2]
  by_cases c3 : k < n + 3 * m
  · obtain ⟨e1, e2⟩ := hdiv 2 (by omega) (by omega)
    rw [if_pos c3, e1, e2]; exact h2 _
  rw [if_neg c3]
  obtain ⟨e1, e2⟩ := hdiv 3 (by omega) (by omega)
  rw [e1, e2]; exact h3 _

theorem value_eq (N : Net) (H W : Nat) (hHW : H * W ≤ 65536) (f : FMap) (g : Engine.IMap) (fs : Vec)
    (t : Nat → Int) (hf : ∀ c y x, f c y x = (g c y x : ℚ) / 128)
    (hg : ∀ c y x, 0 ≤ g c y x ∧ g c y x ≤ 32767) (ht : ∀ c, fs c = (t c : ℚ) / 128) (o : Nat) :
    valueForward N H W f fs o = (Engine.value (exportNet N) H W g t o : ℚ) / (128 * 128) := by
  unfold valueForward Engine.value
  cases hv : N.value with
  | plain l1 l2 l3 =>
    have he : (exportNet N).value = exportValue (.plain l1 l2 l3) := by
      show exportValue N.value = _; rw [hv]
    rw [he]
    exact valueTail_eq _ _ _ _ _ _ _ _ fun i _ => by rw [ht, sat_val]; rfl
  | grouped corner edge center quad l1 l2 l3 =>
    have he : (exportNet N).value = exportValue (.grouped corner edge center quad l1 l2 l3) := by
      show exportValue N.value = _; rw [hv]
    rw [he]
    have hr : ∀ r s c, regionSum H W f r s c = (Engine.region H W g r s c : ℚ) / 128 :=
      fun r s c => regionSum_eq H W hHW f g hf hg r s c
    have hG : ∀ (G : Group) r s i, G.run N.dimFeature N.dimValue (regionSum H W f r s) i
        = (Engine.group N.dimFeature N.dimValue (exportGroup G) (Engine.i8 (Engine.region H W g r s)) i : ℚ)
          / (128 * 128) := fun G r s i => group_eq _ _ G _ _ i (hr r s)
    refine valueTail_eq _ _ _ _ _ _ _ _ fun i hi => ?_
    refine cat5_rel _ _ _ _ _ _ _ _ _ _ _ _ ?_ ?_ ?_ ?_ ?_ i hi
    · intro i; rw [ht, sat_val]; rfl
    all_goals
      intro i
      rw [quad_eq _ _ quad _ _ _ _ _ _ _ _ i (hG _ _ _) (hG _ _ _) (hG _ _ _) (hG _ _ _), sat_acc]
      rfl

/-! ### The theorems -/

/-- **C85**, the exported network computes the trained network: for every network of the Mix9 family
(static or dynamic policy convolution; plain, linear-group or star-group value head; any
dimensions), every board with at most 65536 points and every mapping output, the outputs of the
fake-quantised forward pass are exactly those of integer inference on the exported integers; the
value outputs have scale 128².  The biases of the depthwise convolution must lie in [-64, 64]. -/
theorem C85_forward (N : Net) (H W : Nat) (m : Nat → FMap) (hHW : H * W ≤ 65536)
    (hb : ∀ c < N.dimDw, -64 ≤ N.dwB c ∧ N.dwB c ≤ 64) :
    (∀ y x, (forward N H W m).policy y x
        = (Engine.run (exportNet N) H W (fun d c y x => quantFeature (m d c y x))).policy y x)
    ∧ ∀ o, (forward N H W m).value o
        = ((Engine.run (exportNet N) H W (fun d c y x => quantFeature (m d c y x))).value o : ℚ)
          / (128 * 128) := by
  have hf : ∀ c y x, getFeature N H W m c y x
      = (Engine.feature (exportNet N) H W (table m) c y x : ℚ) / 128 :=
    fun c y x => getFeature_eq N H W m c y x (hb c)
  have hg := feature_range (exportNet N) H W m
  have ht := featureSum_eq H W hHW _ _ hf hg
  constructor
  · intro y x
    show policyForward N _ _ y x = Engine.policy (exportNet N) _ _ y x
    unfold policyForward Engine.policy
    have hp := policyMid_eq N _ _ _ _ hf hg ht y x
    congr 1
    refine sum_congr rfl fun o _ => ?_
    show _ = (Engine.policyMidAcc (exportNet N) (Engine.feature (exportNet N) H W (table m)) _ y x o : ℚ)
      * (N.outW o / (128 * 128 * 128))
    rw [hp o, div_mul_eq_mul_div, mul_div_assoc]
    rfl
  · intro o
    exact value_eq N H W hHW _ _ _ _ hf hg ht o

/-- All entries of an exported layer fit the types of the documented struct. -/
def FitsLin (L : ILin) : Prop :=
  ∀ o i, (-128 ≤ L.w o i ∧ L.w o i ≤ 127) ∧ (-(2 ^ 31) ≤ L.b o ∧ L.b o < 2 ^ 31)

def FitsGroup : IGroup → Prop
  | .lin l => FitsLin l
  | .star s => FitsLin s.up1 ∧ FitsLin s.up2 ∧ FitsLin s.down

/-- The documented types: int16 for the depthwise convolution and the static policy weights, int8
weights and int32 biases everywhere else (model/serialization/mixnet.py:1392-1561). -/
def Fits (N : INet) : Prop :=
  (∀ c k, (-32768 ≤ N.dwW c k ∧ N.dwW c k ≤ 32767) ∧ (-32768 ≤ N.dwB c ∧ N.dwB c ≤ 32767))
  ∧ (match N.policy with
    | .static l => ∀ o i, (-32768 ≤ l.w o i ∧ l.w o i ≤ 32767) ∧ (-(2 ^ 31) ≤ l.b o ∧ l.b o < 2 ^ 31)
    | .dynamic l1 l2 => FitsLin l1 ∧ FitsLin l2)
  ∧ (match N.value with
    | .plain l1 l2 l3 => FitsLin l1 ∧ FitsLin l2 ∧ FitsLin l3
    | .grouped a b c d l1 l2 l3 => FitsGroup a ∧ FitsGroup b ∧ FitsGroup c ∧ FitsGroup d
        ∧ FitsLin l1 ∧ FitsLin l2 ∧ FitsLin l3)

theorem clampZ_range (z lo hi : Int) (h : lo ≤ hi) : lo ≤ clampZ z lo hi ∧ clampZ z lo hi ≤ hi := by
  unfold clampZ; omega

theorem exportLin_fits (L : Lin) : FitsLin (exportLin L) := by
  intro o i
  refine ⟨clampZ_range _ _ _ (by norm_num), ?_⟩
  have := clampZ_range (roundEven (L.b o * 128 * 128)) (-(2 ^ 31)) (2 ^ 31 - 1) (by norm_num)
  show -(2 ^ 31) ≤ clampZ _ _ _ ∧ clampZ _ _ _ < 2 ^ 31
  omega

theorem exportGroup_fits (G : Group) : FitsGroup (exportGroup G) := by
  cases G with
  | lin l => exact exportLin_fits l
  | star s => exact ⟨exportLin_fits _, exportLin_fits _, exportLin_fits _⟩

/-- **C85**, no exported integer wraps around when it is converted to its type, whatever the trained
weights are; and the table entries fit the 10 bits of the compressed stream. -/
theorem C85_types (N : Net) :
    Fits (exportNet N) ∧ ∀ x, -512 ≤ quantFeature x ∧ quantFeature x ≤ 511 := by
  refine ⟨⟨?_, ?_, ?_⟩, fun x => ⟨(C51_quantised_range x).1, (C51_quantised_range x).2.1⟩⟩
  · exact fun c k => ⟨clampZ_range _ _ _ (by norm_num), clampZ_range _ _ _ (by norm_num)⟩
  · show (match exportPolicy N.policy with
      | .static l => ∀ o i, (-32768 ≤ l.w o i ∧ l.w o i ≤ 32767) ∧ (-(2 ^ 31) ≤ l.b o ∧ l.b o < 2 ^ 31)
      | .dynamic l1 l2 => FitsLin l1 ∧ FitsLin l2)
    cases N.policy with
    | static l =>
      intro o i
      refine ⟨clampZ_range _ _ _ (by norm_num), ?_⟩
      have := clampZ_range (roundEven (l.b o * (128 * 128 * 128))) (-(2 ^ 31)) (2 ^ 31 - 1) (by norm_num)
      show -(2 ^ 31) ≤ clampZ _ _ _ ∧ clampZ _ _ _ < 2 ^ 31
      omega
    | dynamic l1 l2 => exact ⟨exportLin_fits _, exportLin_fits _⟩
  · show (match exportValue N.value with
      | .plain l1 l2 l3 => FitsLin l1 ∧ FitsLin l2 ∧ FitsLin l3
      | .grouped a b c d l1 l2 l3 => FitsGroup a ∧ FitsGroup b ∧ FitsGroup c ∧ FitsGroup d
          ∧ FitsLin l1 ∧ FitsLin l2 ∧ FitsLin l3)
    cases N.value with
    | plain l1 l2 l3 => exact ⟨exportLin_fits _, exportLin_fits _, exportLin_fits _⟩
    | grouped a b c d l1 l2 l3 =>
      exact ⟨exportGroup_fits _, exportGroup_fits _, exportGroup_fits _, exportGroup_fits _,
        exportLin_fits _, exportLin_fits _, exportLin_fits _⟩

/-- **C85**, int32 accumulators: a linear layer with at most 2^15 inputs and biases below 2^16 in
magnitude (2^30 at scale 128²) never leaves int32, for any int8 input; nor does any sum of features
over a part of a board with at most 65536 points. -/
theorem C85_accumulators (L : Lin) (n : Nat) (hn : n ≤ 2 ^ 15) (o : Nat)
    (hb : |L.b o| ≤ 2 ^ 16) (x : Nat → Int) (hx : ∀ i, -128 ≤ x i ∧ x i ≤ 127) :
    |affine n (exportLin L) x o| < 2 ^ 31 := by
  have hw : ∀ i, |x i * (exportLin L).w o i| ≤ 2 ^ 14 := by
    intro i
    have h1 := (exportLin_fits L o i).1
    rw [abs_mul]
    have h2 : |x i| ≤ 128 := by rw [abs_le]; have := hx i; omega
    have h3 : |(exportLin L).w o i| ≤ 128 := by rw [abs_le]; omega
    calc |x i| * |(exportLin L).w o i| ≤ 128 * 128 :=
          mul_le_mul h2 h3 (abs_nonneg _) (by norm_num)
      _ = 2 ^ 14 := by norm_num
  have hs : |∑ i ∈ range n, x i * (exportLin L).w o i| ≤ 2 ^ 29 := by
    calc |∑ i ∈ range n, x i * (exportLin L).w o i|
        ≤ ∑ i ∈ range n, |x i * (exportLin L).w o i| := abs_sum_le_sum_abs _ _
      _ ≤ ∑ _i ∈ range n, 2 ^ 14 := sum_le_sum fun i _ => hw i
      _ = n * 2 ^ 14 := by simp
      _ ≤ 2 ^ 29 := by
        have : (n : Int) ≤ 2 ^ 15 := by exact_mod_cast hn
        omega
  have hbz : |(exportLin L).b o| ≤ 2 ^ 30 := by
    rw [abs_le] at hb
    have := roundEven_mono_bounds (L.b o * 128 * 128) (-(2 ^ 30)) (2 ^ 30)
      (by push_cast; linarith) (by push_cast; linarith)
    show |clampZ (roundEven (L.b o * 128 * 128)) (-(2 ^ 31)) (2 ^ 31 - 1)| ≤ 2 ^ 30
    unfold clampZ
    rw [abs_le]
    omega
  have := abs_add_le (∑ i ∈ range n, x i * (exportLin L).w o i) ((exportLin L).b o)
  show |_ + _| < (2 : Int) ^ 31
  omega

/-- **C85**, the board sums are int32 as well. -/
theorem C85_board_sums (N : Net) (H W : Nat) (hHW : H * W ≤ 65536) (m : Nat → FMap) (c : Nat)
    (A B : Finset Nat) (hA : A.card ≤ H) (hB : B.card ≤ W) :
    0 ≤ ∑ y ∈ A, ∑ x ∈ B, Engine.feature (exportNet N) H W (table m) c y x
    ∧ ∑ y ∈ A, ∑ x ∈ B, Engine.feature (exportNet N) H W (table m) c y x < 2 ^ 31 :=
  boardSum_range H W hHW A B hA hB _ (fun y x => feature_range (exportNet N) H W m c y x)

/-- **C85**, the depthwise convolution in int16: every product is an int16, and if the exported
weights and bias of the channel satisfy `8176·Σ|w| + 65536·(9 + |b|) ≤ 65536·32767`, then every
partial sum over part of the window, with or without the bias, is an int16 and the final saturation
never acts. -/
theorem C85_dwconv_int16 (N : Net) (H W : Nat) (m : Nat → FMap) (c y x : Nat) :
    (∀ k, |Engine.dwProduct (Engine.neighbour H W (Engine.accum (table m) c) y x k)
        ((exportNet N).dwW c k)| ≤ 4088)
    ∧ (8176 * ∑ k ∈ range 9, |(exportNet N).dwW c k| + 65536 * (9 + |(exportNet N).dwB c|)
          ≤ 65536 * 32767 →
        (∀ S ⊆ range 9, ∀ b ∈ [0, (exportNet N).dwB c],
          |∑ k ∈ S, Engine.dwProduct (Engine.neighbour H W (Engine.accum (table m) c) y x k)
            ((exportNet N).dwW c k) + b| ≤ 32767)
        ∧ sat 16 (rect (Engine.dwAcc H W (exportNet N) (Engine.accum (table m)) c y x))
          = rect (Engine.dwAcc H W (exportNet N) (Engine.accum (table m)) c y x)) := by
  have hn : ∀ k, 0 ≤ Engine.neighbour H W (Engine.accum (table m) c) y x k
      ∧ Engine.neighbour H W (Engine.accum (table m) c) y x k ≤ 2044 := fun k =>
    neighbour_range H W _ y x k 2044 (by norm_num) (fun y x => accum_range m c y x)
  refine ⟨fun k => ?_, fun hc => ?_⟩
  · have := prod_range _ _ (hn k) (dwW_range N c k)
    rw [abs_le]; omega
  have hp : ∀ k, 65536 * |Engine.dwProduct (Engine.neighbour H W (Engine.accum (table m) c) y x k)
      ((exportNet N).dwW c k)| ≤ 8176 * |(exportNet N).dwW c k| + 65536 := by
    intro k
    obtain ⟨a, ha⟩ : ∃ a, a = Engine.neighbour H W (Engine.accum (table m) c) y x k := ⟨_, rfl⟩
    obtain ⟨w, hw⟩ : ∃ w, w = (exportNet N).dwW c k := ⟨_, rfl⟩
    have h := hn k
    rw [← ha] at h ⊢
    rw [← hw]
    unfold Engine.dwProduct
    have h1 : |4 * a * w| ≤ 8176 * |w| := by
      rw [abs_mul]
      refine mul_le_mul_of_nonneg_right ?_ (abs_nonneg _)
      rw [abs_le]; omega
    have h3 := abs_nonneg w
    rw [abs_le] at h1
    have h4 := h1.1
    have h5 := h1.2
    have : |4 * a * w / 2 ^ 16| ≤ (8176 * |w| + 65536) / 65536 := by
      rw [abs_le]
      obtain ⟨t, ht⟩ : ∃ t, t = 4 * a * w := ⟨_, rfl⟩
      rw [← ht] at h4 h5 ⊢
      omega
    omega
  have hS : ∀ S ⊆ range 9, 65536 * |∑ k ∈ S,
      Engine.dwProduct (Engine.neighbour H W (Engine.accum (table m) c) y x k) ((exportNet N).dwW c k)|
      ≤ 8176 * ∑ k ∈ range 9, |(exportNet N).dwW c k| + 65536 * 9 := by
    intro S hS
    calc 65536 * |∑ k ∈ S, Engine.dwProduct (Engine.neighbour H W (Engine.accum (table m) c) y x k)
            ((exportNet N).dwW c k)|
        ≤ 65536 * ∑ k ∈ S, |Engine.dwProduct (Engine.neighbour H W (Engine.accum (table m) c) y x k)
            ((exportNet N).dwW c k)| :=
          mul_le_mul_of_nonneg_left (abs_sum_le_sum_abs _ _) (by norm_num)
      _ ≤ 65536 * ∑ k ∈ range 9, |Engine.dwProduct
            (Engine.neighbour H W (Engine.accum (table m) c) y x k) ((exportNet N).dwW c k)| :=
          mul_le_mul_of_nonneg_left
            (sum_le_sum_of_subset_of_nonneg hS fun _ _ _ => abs_nonneg _) (by norm_num)
      _ = ∑ k ∈ range 9, 65536 * |Engine.dwProduct
            (Engine.neighbour H W (Engine.accum (table m) c) y x k) ((exportNet N).dwW c k)| := mul_sum _ _ _
      _ ≤ ∑ k ∈ range 9, (8176 * |(exportNet N).dwW c k| + 65536) := sum_le_sum fun k _ => hp k
      _ = 8176 * ∑ k ∈ range 9, |(exportNet N).dwW c k| + 65536 * 9 := by
          rw [sum_add_distrib, ← mul_sum]; simp
  have hall : ∀ S ⊆ range 9, ∀ b ∈ [0, (exportNet N).dwB c],
      |∑ k ∈ S, Engine.dwProduct (Engine.neighbour H W (Engine.accum (table m) c) y x k)
        ((exportNet N).dwW c k) + b| ≤ 32767 := by
    intro S hsub b hb
    have h1 := hS S hsub
    have h2 : |b| ≤ |(exportNet N).dwB c| := by
      simp only [List.mem_cons, List.not_mem_nil, or_false] at hb
      rcases hb with rfl | rfl
      · simp
      · exact le_rfl
    have h3 := abs_add_le (∑ k ∈ S, Engine.dwProduct
      (Engine.neighbour H W (Engine.accum (table m) c) y x k) ((exportNet N).dwW c k)) b
    omega
  refine ⟨hall, ?_⟩
  have h := hall (range 9) (Subset.refl _) ((exportNet N).dwB c) (by simp)
  have h' : |Engine.dwAcc H W (exportNet N) (Engine.accum (table m)) c y x| ≤ 32767 := h
  rw [abs_le] at h'
  unfold rect
  exact sat_eq 16 _ (by norm_num) (by norm_num; omega)

/-- **C85** (finding), the exporter's overflow assertion holds for every network: it divides the
clipped weights, which are at most 1/2 already, by two once more. -/
theorem C85_dwconv_check_never_fires (N : Net) (c : Nat) : dwCheck N c := by
  unfold dwCheck
  have h : ∑ k ∈ range 9, |dwWClipped N c k| ≤ ∑ _k ∈ range 9, (1 / 2 : ℚ) := by
    refine sum_le_sum fun k _ => ?_
    unfold dwWClipped clampQ
    rw [abs_le]
    constructor
    · refine le_min ?_ (by norm_num)
      exact le_trans (by norm_num) (le_max_right _ _)
    · exact le_trans (min_le_right _ _) (by norm_num)
  have e : ∑ _k ∈ range 9, (1 / 2 : ℚ) = 9 / 2 := by norm_num
  rw [e] at h
  linarith

end Verif.Quant
