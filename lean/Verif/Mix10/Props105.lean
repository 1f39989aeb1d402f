import Verif.Mix10.Spec
import Verif.Quant.Props85

/-!
# C105: the exported Mix10 integers compute the trained network
-/
namespace Verif.Mix10
open Finset
open Verif.Quant (Vec Lin FMap ILin Net linearBlock avg4 cat5 cut clampQ fakeQuant relu dwConv featureSum exportLin clampZ
  table sat_acc sat_val fq_acc linearBlock_acc linearBlock_val linearBlock_eq avg4_eq sat_avg4 sat_toI8 fakeQuant_floor floor_scale
  floor_div_mul relu_div fq_feature cut_eq_bound boardSum_range cut_le featureSum_eq feature_range getFeature_eq cat5_rel affine_congr sat_idem)
open Verif.Export (roundEven quantFeature C51_quantised_range)
open Verif.Quant.Engine (sat toI8 rect affine IMap IVec)

/-! ## The features -/

/-- The part of the network that Mix9 has as well. -/
def base (N : Net10) : Net where
  dimFeature := N.dimFeature
  dimPolicy := 0
  dimValue := N.dimValue
  dimDw := N.dimDw
  dwW := N.dwW
  dwB := N.dwB
  policy := .static N.small1
  outW := N.smallOutW
  outB := N.smallOutB
  value := .plain N.small1 N.small2 N.small3

theorem getFeature_base (N : Net10) (H W : Nat) (m : Nat → FMap) : getFeature N H W m = Quant.getFeature (base N) H W (limit N m) := rfl

theorem feature_base (N : Net10) (H W : Nat) (m : Nat → IMap) :
    Engine.feature (exportNet N) H W m = Quant.Engine.feature (Quant.exportNet (base N)) H W m := rfl

/-- **C105**: the training clamp at -511/32 and the exporter's clip at -16 give the same integer exactly above -511.5/32. -/
theorem C105_clamp_iff (x : ℚ) : quantFeature (clampQ x (-511 / 32) (511 / 32)) = quantFeature x ↔ -1023 / 64 < x := by
  have key : ∀ x : ℚ, -511 / 32 ≤ x → quantFeature (clampQ x (-511 / 32) (511 / 32)) = quantFeature x := by
    intro x hx
    have e : clampQ (clampQ x (-511 / 32) (511 / 32)) (-16) (511 / 32) = clampQ x (-16) (511 / 32) := by
      unfold clampQ
      rw [max_eq_left hx, max_eq_left (show (-16 : ℚ) ≤ x by linarith)]
      rw [max_eq_left (le_min (by linarith) (by norm_num)), min_assoc, min_self]
    show roundEven (clampQ (clampQ x (-511 / 32) (511 / 32)) (-16) (511 / 32) * 32) = roundEven (clampQ x (-16) (511 / 32) * 32)
    rw [e]
  rcases le_total (-511 / 32) x with hx | hx
  · exact ⟨fun _ => by linarith, fun _ => key x hx⟩
  have e1 : clampQ x (-511 / 32) (511 / 32) = -511 / 32 := by
    unfold clampQ
    rw [max_eq_right hx]
    norm_num
  have e2 : quantFeature (-511 / 32) = -511 := by decide +kernel
  rw [e1, e2]
  have hq : quantFeature x = roundEven (max x (-16) * 32) := by
    show roundEven (clampQ x (-16) (511 / 32) * 32) = _
    unfold clampQ
    rw [min_eq_left (max_le (by linarith) (by norm_num))]
  rw [hq]
  constructor
  · intro h
    by_contra hc
    rw [not_lt] at hc
    have h1 : max x (-16) * 32 ≤ -1023 / 2 := by
      have : max x (-16) ≤ -1023 / 64 := max_le hc (by norm_num)
      linarith
    have h2 : (-512 : ℚ) ≤ max x (-16) * 32 := by
      have := le_max_right x (-16 : ℚ)
      linarith
    have h3 : roundEven (max x (-16) * 32) = -512 := by
      have hf : ⌊max x (-16) * 32⌋ = -512 := by
        rw [Int.floor_eq_iff]
        push_cast
        constructor <;> linarith
      unfold roundEven
      simp only
      rw [hf]
      push_cast
      by_cases h4 : max x (-16) * 32 - -512 < 1 / 2
      · rw [if_pos h4]
      · rw [if_neg h4, if_neg (by linarith)]
    omega
  · intro h
    have hm : max x (-16) = x := max_eq_left (by linarith)
    rw [hm]
    have hf : ⌊x * 32⌋ = -512 ∨ x * 32 = -511 := by
      rcases lt_or_eq_of_le hx with h' | h'
      · left
        rw [Int.floor_eq_iff]
        push_cast
        constructor <;> linarith
      · right; rw [h']; norm_num
    rcases hf with hf | hf
    · unfold roundEven
      simp only
      rw [hf]
      push_cast
      rw [if_neg (by linarith), if_pos (by linarith)]
    · rw [hf]
      decide +kernel

/-- All mapping outputs are inside the range in which training and export agree. -/
def InRange (m : Nat → FMap) : Prop := ∀ d c y x, -1023 / 64 < m d c y x

theorem table_limit (N : Net10) (hn : N.norm = none) (m : Nat → FMap) (hm : InRange m) : table (limit N m) = table m := by
  funext d c y x
  show quantFeature (limit N m d c y x) = quantFeature (m d c y x)
  unfold limit
  rw [hn]
  exact (C105_clamp_iff _).mpr (hm d c y x)

/-! ## Layers -/

/-- A vector that holds int32 accumulators of scale 128². -/
def Acc (v : Vec) (z : IVec) : Prop := ∀ i, v i = (z i : ℚ) / (128 * 128)

theorem acc_lin (n : Nat) (L : Lin) (v : Vec) (z : IVec) (h : Acc v z) :
    Acc (linearBlock n false L v) (affine n (exportLin L) fun i => toI8 (z i)) := fun o => linearBlock_acc n false L v z o h

theorem acc_relu (n : Nat) (L : Lin) (v : Vec) (z : IVec) (h : Acc v z) :
    Acc (linearBlock n true L v) (fun j => rect (affine n (exportLin L) (fun i => toI8 (z i)) j)) := fun o => linearBlock_acc n true L v z o h

theorem acc_val (n : Nat) (L : Lin) (v : Vec) (z : IVec) (h : ∀ i, v i = (z i : ℚ) / 128) :
    Acc (linearBlock n true L v) (fun j => rect (affine n (exportLin L) (fun i => sat 8 (z i)) j)) := fun o => linearBlock_val n true L v z o h

theorem acc_raw (n : Nat) (L : Lin) (v : Vec) (z : IVec) (h : ∀ i < n, sat 8 ⌊v i * 128⌋ = z i) :
    Acc (linearBlock n true L v) (fun j => rect (affine n (exportLin L) z j)) := by
  intro o
  rw [linearBlock_eq, affine_congr n _ _ z o h]
  rfl

theorem toI8_idem (z : Int) : sat 8 (toI8 z) = toI8 z := sat_toI8 z

/-! ## The region features -/

theorem fq_region (S : Int) : fakeQuant ((S : ℚ) / 128 / 32) (floor := true) = (sat 8 (S / 2 ^ 5) : ℚ) / 128 := by
  rw [fakeQuant_floor _ _ _ (by norm_num)]
  have e : (S : ℚ) / 128 / 32 * 128 = (S : ℚ) / ((128 * 32 : Nat) : ℚ) * ((128 : Nat) : ℚ) := by
    push_cast; ring
  rw [e, floor_div_mul S 128 32 (by norm_num) (by norm_num)]
  norm_num

theorem groupFeature_eq (N : Net10) (H W : Nat) (f : FMap) (g : IMap) (hf : ∀ c y x, f c y x = (g c y x : ℚ) / 128) (mod : Vec) (z : IVec)
    (hmod : ∀ k, mod k = (toI8 (z k) : ℚ) / 128) (r s j : Nat) (hj : j < N.dimFeature) :
    groupFeature N H W f mod r s j = (Engine.gated N.dimFeature (Engine.region H W g r s) (fun k => toI8 (z k)) j : ℚ) / 128 := by
  have hreg : ∀ c, fakeQuant ((∑ y ∈ Ico (cut H r) (cut H (r + 1)), ∑ x ∈ Ico (cut W s) (cut W (s + 1)), f c y x) / 32) (floor := true)
      = (Engine.region H W g r s c : ℚ) / 128 := by
    intro c
    unfold Engine.region
    simp only [← cut_eq_bound]
    have e : ∑ y ∈ Ico (cut H r) (cut H (r + 1)), ∑ x ∈ Ico (cut W s) (cut W (s + 1)), f c y x
        = ((∑ y ∈ Ico (cut H r) (cut H (r + 1)), ∑ x ∈ Ico (cut W s) (cut W (s + 1)), g c y x : Int) : ℚ) / 128 := by
      simp only [hf, sum_div]; push_cast; simp only [sum_div]
    rw [e]
    exact fq_region _
  have hcat : ∀ k, k < 2 * N.dimFeature → (if k < N.dimFeature then (Engine.region H W g r s k : ℚ) / 128
      else (Engine.region H W g r s (k - N.dimFeature) : ℚ) / 128) = (Engine.region H W g r s (k % N.dimFeature) : ℚ) / 128 := by
    intro k hk
    by_cases h : k < N.dimFeature
    · rw [if_pos h, Nat.mod_eq_of_lt h]
    · rw [if_neg h, Nat.mod_eq_sub_mod (by omega), Nat.mod_eq_of_lt (by omega)]
  unfold groupFeature Engine.gated
  simp only [hreg, hmod]
  rw [hcat _ (by omega), hcat _ (by omega)]
  refine Eq.trans ?_ (fq_acc _)
  congr 1
  push_cast
  ring

/-! ## The heads -/

theorem dynamic_eq (a b : Nat) (out g : Vec) (z x : IVec) (hz : Acc out z) (hx : ∀ c, g c = (x c : ℚ) / 128) (o : Nat) :
    dynamicLayer a b out g o = (Engine.dynamic a b z x o : ℚ) / (128 * 128 * 128) := by
  unfold dynamicLayer Engine.dynamic
  have hw : ∀ z : Int, fakeQuant ((z : ℚ) / (128 * 128)) (scale := 128 * 128) (numBits := some 16) (floor := true)
      = (sat 16 z : ℚ) / (128 * 128) := by
    intro z
    rw [fakeQuant_floor _ _ _ (by norm_num), floor_scale _ _ (by norm_num)]
  simp only [hz _, hx, hw]
  rw [← relu_div _ _ (by norm_num)]
  show relu _ = relu _
  congr 1
  push_cast
  rw [add_div, sum_div]
  congr 1
  · refine sum_congr rfl fun c _ => ?_
    rw [Nat.mul_comm a o]
    ring
  · ring

theorem small_acc (N : Net10) (H W : Nat) (f : FMap) (t : IVec) (ht : ∀ c, featureSum H W f c = (t c : ℚ) / 128) :
    ∃ z, Acc (smallFeature N H W f) z ∧ (fun i => toI8 (z i)) = Engine.small (exportNet N) t :=
  ⟨_, acc_relu _ _ _ _ (acc_val _ _ _ _ ht), rfl⟩

theorem large_acc (N : Net10) (H W : Nat) (f : FMap) (g : IMap) (hf : ∀ c y x, f c y x = (g c y x : ℚ) / 128) (v : Vec) (zv : IVec)
    (hv : Acc v zv) :
    ∃ z, Acc (largeFeature N H W f v) z ∧ (fun i => toI8 (z i)) = Engine.large (exportNet N) H W g (fun i => toI8 (zv i)) := by
  have hmod : ∀ k, modulation N v k = (toI8 (affine N.dimValue (exportLin N.gate) (fun i => toI8 (zv i)) k) : ℚ) / 128 := by
    intro k
    unfold modulation
    rw [acc_lin _ _ _ _ hv k, fq_acc]
  have hG : ∀ (L : Lin) (r s : Nat), Acc (linearBlock N.dimFeature true L (groupFeature N H W f (modulation N v) r s))
      (fun j => rect (affine N.dimFeature (exportLin L) (Engine.gated N.dimFeature (Engine.region H W g r s)
        (fun k => toI8 (affine N.dimValue (exportLin N.gate) (fun i => toI8 (zv i)) k))) j)) := by
    intro L r s
    refine acc_raw _ _ _ _ fun i hi => ?_
    rw [groupFeature_eq N H W f g hf _ _ hmod r s i hi, sat_val]
    exact sat_toI8 _
  have hQ : ∀ (a b c d : Vec) (za zb zc zd : IVec), Acc a za → Acc b zb → Acc c zc → Acc d zd →
      ∀ i, sat 8 ⌊linearBlock N.dimValue true N.quad (fun j => avg4 (a j) (b j) (c j) (d j)) i * 128⌋
        = Engine.layer N.dimValue (exportLin N.quad) (fun j => Quant.Engine.avg4 (za j) (zb j) (zc j) (zd j)) i := by
    intro a b c d za zb zc zd ha hb hc hd i
    have := acc_val N.dimValue N.quad (fun j => avg4 (a j) (b j) (c j) (d j)) (fun j => Quant.Engine.avg4 (za j) (zb j) (zc j) (zd j))
      (fun i => by rw [ha i, hb i, hc i, hd i, avg4_eq]) i
    rw [this, sat_acc]
    simp only [sat_avg4]
    rfl
  refine ⟨_, acc_relu N.dimValue N.large2 _ _ (acc_raw (N.dimValue * 5) N.large1 _ _ fun i hi =>
    cat5_rel N.dimValue N.dimValue v _ _ _ _ (fun i => toI8 (zv i)) _ _ _ _ (fun i => by rw [hv i, sat_acc])
      (hQ _ _ _ _ _ _ _ _ (hG N.corner 0 0) (hG N.edge 0 1) (hG N.edge 1 0) (hG N.center 1 1))
      (hQ _ _ _ _ _ _ _ _ (hG N.edge 0 1) (hG N.corner 0 2) (hG N.center 1 1) (hG N.edge 1 2))
      (hQ _ _ _ _ _ _ _ _ (hG N.edge 1 0) (hG N.center 1 1) (hG N.corner 2 0) (hG N.edge 2 1))
      (hQ _ _ _ _ _ _ _ _ (hG N.center 1 1) (hG N.edge 1 2) (hG N.edge 2 1) (hG N.corner 2 2)) i (by omega)), rfl⟩

theorem policySmall_eq (N : Net10) (f : FMap) (g : IMap) (hf : ∀ c y x, f c y x = (g c y x : ℚ) / 128)
    (hg : ∀ c y x, 0 ≤ g c y x ∧ g c y x ≤ 32767) (v : Vec) (zv : IVec) (hv : Acc v zv) (y x : Nat) :
    policySmall N f v y x = Engine.policySmall (exportNet N) g (fun i => toI8 (zv i)) y x := by
  unfold policySmall Engine.policySmall
  simp only
  have hz : Acc (linearBlock N.dimValue false N.policySmall2 (linearBlock N.dimValue true N.policySmall1 v))
      (affine N.dimValue (exportLin N.policySmall2) (Engine.layer N.dimValue (exportLin N.policySmall1) (fun i => toI8 (zv i)))) :=
    acc_lin _ _ _ _ (acc_relu _ _ _ _ hv)
  have hx : ∀ c, fakeQuant (f c y x) (numBits := some 16) = (g c y x : ℚ) / 128 := fun c => by rw [hf, fq_feature _ (hg _ _ _)]
  congr 1
  refine sum_congr rfl fun o _ => ?_
  rw [dynamic_eq _ _ _ _ _ _ hz hx o]
  show _ / (128 * 128 * 128) * N.smallOutW o = _ * (N.smallOutW o / (128 * 128 * 128))
  rw [div_mul_eq_mul_div, mul_div_assoc]
  rfl

theorem fq_mid (z : Int) : fakeQuant ((z : ℚ) / (128 * 128 * 128)) (numBits := some 16) (floor := true) = (sat 16 (z / 2 ^ 14) : ℚ) / 128 := by
  rw [fakeQuant_floor _ _ _ (by norm_num)]
  have e : (z : ℚ) / (128 * 128 * 128) * 128 = (z : ℚ) / ((128 * 16384 : Nat) : ℚ) * ((128 : Nat) : ℚ) := by
    push_cast; ring
  rw [e, floor_div_mul z 128 16384 (by norm_num) (by norm_num)]
  norm_num

theorem policyLarge_eq (N : Net10) (f : FMap) (g : IMap) (hf : ∀ c y x, f c y x = (g c y x : ℚ) / 128)
    (hg : ∀ c y x, 0 ≤ g c y x ∧ g c y x ≤ 32767) (v : Vec) (zv : IVec) (hv : Acc v zv) (y x : Nat) :
    policyLarge N f v y x = Engine.policyLarge (exportNet N) g (fun i => toI8 (zv i)) y x := by
  unfold policyLarge Engine.policyLarge
  simp only
  have h0 := acc_relu N.dimValue N.policyLarge0 _ _ hv
  have h1 : Acc (linearBlock N.dimValue false N.policyLarge1 (linearBlock N.dimValue true N.policyLarge0 v))
      (affine N.dimValue (exportLin N.policyLarge1) (Engine.layer N.dimValue (exportLin N.policyLarge0) (fun i => toI8 (zv i)))) :=
    acc_lin _ _ _ _ h0
  have h2 : Acc (linearBlock N.dimValue false N.policyLarge2 (linearBlock N.dimValue true N.policyLarge0 v))
      (affine N.dimValue (exportLin N.policyLarge2) (Engine.layer N.dimValue (exportLin N.policyLarge0) (fun i => toI8 (zv i)))) :=
    acc_lin _ _ _ _ h0
  have hx : ∀ c, fakeQuant (f c y x) (numBits := some 16) = (g c y x : ℚ) / 128 := fun c => by rw [hf, fq_feature _ (hg _ _ _)]
  congr 1
  refine sum_congr rfl fun o _ => ?_
  rw [dynamic_eq _ _ _ _ _ _ h2 (fun c => by rw [dynamic_eq _ _ _ _ _ _ h1 hx c, fq_mid]) o]
  show _ / (128 * 128 * 128) * N.largeOutW o = _ * (N.largeOutW o / (128 * 128 * 128))
  rw [div_mul_eq_mul_div, mul_div_assoc]
  rfl

/-- **C105.** For every Mix10 network without spherical features, every board with at most 65536 points and every mapping output above
-511.5/32: the two value heads and the two policy heads of the trained (fake-quantised) network are exactly those of integer inference on the
exported integers; the values have scale 128². The depthwise biases must lie in [-64, 64]. -/
theorem C105_forward (N : Net10) (hn : N.norm = none) (H W : Nat) (m : Nat → FMap) (hm : InRange m) (hHW : H * W ≤ 65536)
    (hb : ∀ c < N.dimDw, -64 ≤ N.dwB c ∧ N.dwB c ≤ 64) :
    (∀ o, (forward N H W m).valueSmall o = ((Engine.run (exportNet N) H W fun d c y x => quantFeature (m d c y x)).valueSmall o : ℚ) / (128 * 128))
    ∧ (∀ o, (forward N H W m).value o = ((Engine.run (exportNet N) H W fun d c y x => quantFeature (m d c y x)).value o : ℚ) / (128 * 128))
    ∧ (∀ y x, (forward N H W m).policySmall y x = (Engine.run (exportNet N) H W fun d c y x => quantFeature (m d c y x)).policySmall y x)
    ∧ ∀ y x, (forward N H W m).policy y x = (Engine.run (exportNet N) H W fun d c y x => quantFeature (m d c y x)).policy y x := by
  have ht : (fun d c y x => quantFeature (m d c y x)) = table (limit N m) := (table_limit N hn m hm).symm
  rw [ht]
  have hf : ∀ c y x, getFeature N H W m c y x = (Engine.feature (exportNet N) H W (table (limit N m)) c y x : ℚ) / 128 := by
    intro c y x
    rw [getFeature_base, feature_base]
    exact getFeature_eq (base N) H W (limit N m) c y x (hb c)
  have hg : ∀ c y x, 0 ≤ Engine.feature (exportNet N) H W (table (limit N m)) c y x
      ∧ Engine.feature (exportNet N) H W (table (limit N m)) c y x ≤ 32767 := by
    intro c y x
    rw [feature_base]
    exact feature_range _ H W (limit N m) c y x
  obtain ⟨zs, hs, es⟩ := small_acc N H W _ _ (featureSum_eq H W hHW _ _ hf hg)
  obtain ⟨zl, hl, el⟩ := large_acc N H W _ _ hf _ zs hs
  refine ⟨fun o => ?_, fun o => ?_, fun y x => ?_, fun y x => ?_⟩
  · have := acc_lin N.dimValue N.small3 _ _ hs o
    rw [es] at this
    exact this
  · have := acc_lin N.dimValue N.large3 _ _ hl o
    rw [el, es] at this
    exact this
  · have := policySmall_eq N _ _ hf hg _ zs hs y x
    rw [es] at this
    exact this
  · have := policyLarge_eq N _ _ hf hg _ zl hl y x
    rw [el, es] at this
    exact this

end Verif.Mix10
