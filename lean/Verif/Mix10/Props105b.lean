import Verif.Mix10.Props105
import Verif.Quant.Props86
import Verif.Mapping.Props97

set_option linter.dupNamespace false

/-!
# C105: the exported Mix10 file is the documented C++ struct, and inference from the board
-/
namespace Verif.Mix10
open Finset
open Verif.Quant (Vec Lin FMap ILin Write linWrites rowMajor vecList writeBytes exportLin FitsLin exportLin_fits rowMajor_eq pad_row
  read_fields fields_length readInt_append fits_w1 fits_b fits_lin linWrites_doc clampZ_range clampQ fakeQuant)
open Verif.Export (packBytes quantFeature)

/-! ## Specification: the documented struct (model/serialization/mixnet.py:2364-2419) -/

namespace Doc
open Verif.Quant.Doc (Field weight bias)

/-- `FCWeight<Out, In>`. -/
def fc (name : String) (out inp : Nat) (L : ILin) : List Field :=
  [weight (name ++ ".weight") 1 out inp L.w, bias (name ++ ".bias") out L.b]

/-- `FCWeight<4, In>` of a layer with three outputs; the fourth is zero. -/
def fc4 (name : String) (inp : Nat) (L : ILin) : List Field :=
  [weight (name ++ ".weight") 1 4 inp fun o i => if o < 3 then L.w o i else 0, bias (name ++ ".bias") 4 fun o => if o < 3 then L.b o else 0]

def padding (name : String) (n : Nat) : Field := ⟨name, 1, n, fun _ => 0⟩

def floats (name : String) (n : Nat) (a : Nat → Int) : Field := ⟨name, 4, n, a⟩

/-- `struct HeadBucket`. -/
def bucket (f32 : ℚ → Int) (N : INet10) : List Field :=
  let F := N.dimFeature
  let V := N.dimValue
  let sIn := max (N.dimDw / 2) 16
  let sOut := max (N.dimDw / 4) 16
  let lIn := max N.dimDw 16
  let lMid := max (N.dimDw / 2) 16
  let lOut := max (N.dimDw / 4) 16
  fc "policy_small_pwconv_weight_1" V V N.policySmall1 ++ fc "policy_small_pwconv_weight_2" (sOut * (sIn + 1)) V N.policySmall2
    ++ fc "policy_large_pwconv_weight_0" V V N.policyLarge0 ++ fc "policy_large_pwconv_weight_1" (lMid * (lIn + 1)) V N.policyLarge1
    ++ fc "policy_large_pwconv_weight_2" (lOut * (lMid + 1)) V N.policyLarge2
    ++ fc "value_small_l1" V F N.small1 ++ fc "value_small_l2" V V N.small2 ++ fc4 "value_small_l3" V N.small3
    ++ [padding "__padding_to_64bytes_0" 48]
    ++ fc "value_gate" (F * 2) V N.gate ++ fc "value_corner" V F N.corner ++ fc "value_edge" V F N.edge
    ++ fc "value_center" V F N.center ++ fc "value_quad" V V N.quad
    ++ fc "value_l1" V (V * 5) N.large1 ++ fc "value_l2" V V N.large2 ++ fc4 "value_l3" V N.large3
    ++ [padding "__padding_to_64bytes_1" 48]
    ++ [floats "policy_small_output_weight" sOut fun o => f32 (N.smallOutW o),
        floats "policy_large_output_weight" lOut fun o => f32 (N.largeOutW o),
        floats "policy_small_output_bias" 1 fun _ => f32 N.smallOutB,
        floats "policy_large_output_bias" 1 fun _ => f32 N.largeOutB,
        padding "__padding_to_64bytes_2" 56]

/-- `struct Weight` behind the mapping. -/
def fields (f32 : ℚ → Int) (N : INet10) : List Field :=
  [⟨"feature_dwconv_weight", 2, 9 * N.dimDw, fun j => N.dwW (j % N.dimDw) (j / N.dimDw)⟩,
   ⟨"feature_dwconv_bias", 2, N.dimDw, N.dwB⟩] ++ bucket f32 N

end Doc

/-! ## Proof -/

theorem lin_doc (o i : Nat) (L : ILin) (nm : String) : linWrites o i L = (Doc.fc nm o i L).map Quant.Doc.Field.write :=
  linWrites_doc o i L _ _

theorem padded_doc (i : Nat) (L : ILin) (nm : String) : paddedWrites i L = (Doc.fc4 nm i L).map Quant.Doc.Field.write := by
  unfold paddedWrites Doc.fc4
  rw [pad_row, rowMajor_eq]
  rfl

theorem pad_doc (n : Nat) (nm : String) : ((1, List.replicate n 0) : Write) = (Doc.padding nm n).write := by
  show (1, List.replicate n 0) = (1, (List.range n).map fun _ => (0 : Int))
  rw [List.map_const', List.length_range]

theorem bucket_doc (f32 : ℚ → Int) (N : INet10) : bucketWrites f32 N = (Doc.bucket f32 N).map Quant.Doc.Field.write := by
  unfold bucketWrites Doc.bucket
  simp only [List.map_append]
  rw [lin_doc _ _ N.policySmall1 "policy_small_pwconv_weight_1", lin_doc _ _ N.policySmall2 "policy_small_pwconv_weight_2",
    lin_doc _ _ N.policyLarge0 "policy_large_pwconv_weight_0", lin_doc _ _ N.policyLarge1 "policy_large_pwconv_weight_1",
    lin_doc _ _ N.policyLarge2 "policy_large_pwconv_weight_2", lin_doc _ _ N.small1 "value_small_l1", lin_doc _ _ N.small2 "value_small_l2",
    padded_doc _ N.small3 "value_small_l3", lin_doc _ _ N.gate "value_gate", lin_doc _ _ N.corner "value_corner",
    lin_doc _ _ N.edge "value_edge", lin_doc _ _ N.center "value_center", lin_doc _ _ N.quad "value_quad", lin_doc _ _ N.large1 "value_l1",
    lin_doc _ _ N.large2 "value_l2", padded_doc _ N.large3 "value_l3"]
  rfl

theorem fits_fc (nm : String) (o i : Nat) (L : Lin) : ∀ f ∈ Doc.fc nm o i (exportLin L), f.Fits := fits_lin _ _ _ _ _ (exportLin_fits L)

theorem fits_fc4 (nm : String) (i : Nat) (L : Lin) : ∀ f ∈ Doc.fc4 nm i (exportLin L), f.Fits := by
  have h3 := exportLin_fits L
  have h : FitsLin ⟨fun o i => if o < 3 then (exportLin L).w o i else 0, fun o => if o < 3 then (exportLin L).b o else 0⟩ := by
    intro o i
    have := h3 o i
    show (-128 ≤ (if o < 3 then (exportLin L).w o i else 0) ∧ (if o < 3 then (exportLin L).w o i else 0) ≤ 127)
      ∧ (-(2 ^ 31) ≤ (if o < 3 then (exportLin L).b o else 0) ∧ (if o < 3 then (exportLin L).b o else 0) < 2 ^ 31)
    by_cases ho : o < 3
    · simp only [ho, if_true]; exact this
    · simp only [ho, if_false]; norm_num
  intro f hf
  simp only [Doc.fc4, List.mem_cons, List.not_mem_nil, or_false] at hf
  rcases hf with rfl | rfl
  · exact fits_w1 _ _ _ _ h
  · exact fits_b _ _ _ h

theorem fits_pad (nm : String) (n : Nat) : (Doc.padding nm n).Fits := ⟨by norm_num [Doc.padding], fun j => by norm_num [Doc.padding]⟩

theorem fits_floats (nm : String) (n : Nat) (f32 : ℚ → Int) (hf : ∀ q, -(2 ^ 31) ≤ f32 q ∧ f32 q < 2 ^ 31) (a : Nat → ℚ) :
    (Doc.floats nm n fun o => f32 (a o)).Fits := by
  refine ⟨by norm_num [Doc.floats], fun j => ?_⟩
  have := hf (a j)
  show -((256 ^ 4 : Nat) : Int) / 2 ≤ f32 (a j) ∧ f32 (a j) < ((256 ^ 4 : Nat) : Int) / 2
  norm_num
  omega

/-- **C105**, no exported integer wraps around when it is stored. -/
theorem C105_types (f32 : ℚ → Int) (hf : ∀ q, -(2 ^ 31) ≤ f32 q ∧ f32 q < 2 ^ 31) (N : Net10) :
    ∀ f ∈ Doc.fields f32 (exportNet N), f.Fits := by
  have hd1 : ∀ c k, -32768 ≤ (exportNet N).dwW c k ∧ (exportNet N).dwW c k ≤ 32767 := fun c k => clampZ_range _ _ _ (by norm_num)
  have hd2 : ∀ c, -32768 ≤ (exportNet N).dwB c ∧ (exportNet N).dwB c ≤ 32767 := fun c => clampZ_range _ _ _ (by norm_num)
  intro f hm
  unfold Doc.fields at hm
  rcases List.mem_append.mp hm with hm | hm
  · simp only [List.mem_cons, List.not_mem_nil, or_false] at hm
    rcases hm with rfl | rfl
    · refine ⟨by norm_num, fun j => ?_⟩
      have := hd1 (j % (exportNet N).dimDw) (j / (exportNet N).dimDw)
      show -((256 ^ 2 : Nat) : Int) / 2 ≤ (exportNet N).dwW (j % (exportNet N).dimDw) (j / (exportNet N).dimDw) ∧ _ < ((256 ^ 2 : Nat) : Int) / 2
      norm_num
      omega
    · refine ⟨by norm_num, fun j => ?_⟩
      have := hd2 j
      show -((256 ^ 2 : Nat) : Int) / 2 ≤ (exportNet N).dwB j ∧ _ < ((256 ^ 2 : Nat) : Int) / 2
      norm_num
      omega
  · unfold Doc.bucket at hm
    simp only [List.mem_append, or_assoc, List.mem_cons, List.not_mem_nil, or_false] at hm
    rcases hm with h | h | h | h | h | h | h | h | rfl | h | h | h | h | h | h | h | h | rfl | rfl | rfl | rfl | rfl | rfl
    all_goals first
      | exact fits_fc _ _ _ _ f h
      | exact fits_fc4 _ _ _ f h
      | exact fits_pad _ _
      | exact fits_floats _ _ f32 hf _

/-- **C105**, the file is the documented struct: behind the compressed mapping streams the file has exactly the size of the documented struct,
and every element of every member, read as C reads it at the member's offset, is the exported integer the documentation assigns to it. -/
theorem C105_layout (f32 : ℚ → Int) (hf : ∀ q, -(2 ^ 31) ≤ f32 q ∧ f32 q < 2 ^ 31) (N : Net10) (tables : List (List Int)) :
    let start := (tables.flatMap (packBytes 10)).length
    (fileBytes f32 tables (exportNet N)).length = start + Quant.Doc.sizeOf (Doc.fields f32 (exportNet N))
    ∧ ∀ (k : Nat) (f : Quant.Doc.Field), (Doc.fields f32 (exportNet N))[k]? = some f → ∀ j < f.len,
        Quant.Doc.readInt (fileBytes f32 tables (exportNet N))
          (start + Quant.Doc.offset (Doc.fields f32 (exportNet N)) k + f.size * j) f.size = f.elem j := by
  intro start
  have hw : [(2, rowMajor 9 (exportNet N).dimDw fun k c => (exportNet N).dwW c k), (2, vecList (exportNet N).dimDw (exportNet N).dwB)]
      ++ bucketWrites f32 (exportNet N) = (Doc.fields f32 (exportNet N)).map Quant.Doc.Field.write := by
    unfold Doc.fields
    rw [List.map_append, bucket_doc, rowMajor_eq]
    rfl
  unfold fileBytes
  rw [hw]
  constructor
  · rw [List.length_append, fields_length]
  · intro k f hk j hj
    have hfit := C105_types f32 hf N f (List.mem_of_getElem? hk)
    rw [Nat.add_assoc, readInt_append]
    have := read_fields (Doc.fields f32 (exportNet N)) k f hk j hj hfit.1 (hfit.2 j).1 (hfit.2 j).2 []
    rwa [List.append_nil] at this

/-! ### Alignment -/

/-- The bytes in front of the gate, and the size of the bucket. -/
theorem offsets (f32 : ℚ → Int) (N : INet10) (V F D : Nat) (hV : N.dimValue = V) (hF : N.dimFeature = F) (hD : N.dimDw = D) :
    Quant.Doc.offset (Doc.bucket f32 N) 17 = V * (V + 4) + V * (V + 4) + (smallOut D * (smallIn D + 1) * (V + 4)
        + largeMid D * (largeIn D + 1) * (V + 4) + largeOut D * (largeMid D + 1) * (V + 4)) + V * (F + 4) + V * (V + 4) + (4 * V + 16) + 48
    ∧ Quant.Doc.offset (Doc.bucket f32 N) 34 = Quant.Doc.offset (Doc.bucket f32 N) 17 + F * 2 * (V + 4) + 3 * (V * (F + 4)) + V * (V + 4)
        + V * (V * 5 + 4) + V * (V + 4) + (4 * V + 16) + 48
    ∧ Quant.Doc.sizeOf (Doc.bucket f32 N) = Quant.Doc.offset (Doc.bucket f32 N) 34 + 4 * smallOut D + 4 * largeOut D + 64 := by
  refine ⟨?_, ?_, ?_⟩
  all_goals
    simp only [Quant.Doc.offset, Quant.Doc.sizeOf, Doc.bucket, Doc.fc, Doc.fc4, Doc.padding, Doc.floats, Quant.Doc.weight, Quant.Doc.bias,
      Quant.Doc.Field.bytes, List.take, List.cons_append, List.nil_append, List.map_cons, List.map_nil, List.sum_cons, List.sum_nil, hV, hF, hD]
    try simp only [smallOut, smallIn, largeMid, largeIn, largeOut]
    ring

theorem policy_bytes (D a : Nat) (hd : D ≤ 32 ∨ 64 ≤ D ∧ D % 32 = 0) :
    ∃ p, smallOut D * (smallIn D + 1) * (16 * a + 4) + largeMid D * (largeIn D + 1) * (16 * a + 4)
      + largeOut D * (largeMid D + 1) * (16 * a + 4) = 64 * p := by
  rcases hd with hd | hd
  · have e1 : smallOut D = 16 := by unfold smallOut; omega
    have e2 : largeMid D = 16 := by unfold largeMid; omega
    have e3 : largeOut D = 16 := by unfold largeOut; omega
    rw [e1, e2, e3]
    exact ⟨(smallIn D + 1) * (4 * a + 1) + (largeIn D + 1) * (4 * a + 1) + 17 * (4 * a + 1), by ring⟩
  · obtain ⟨k, hk⟩ : ∃ k, D = 32 * k := ⟨D / 32, by omega⟩
    have hk2 : 2 ≤ k := by omega
    have e1 : smallOut D = 8 * k := by unfold smallOut; omega
    have e3 : largeOut D = 8 * k := by unfold largeOut; omega
    have e4 : smallIn D = 16 * k := by unfold smallIn; omega
    have e2 : largeMid D = 16 * k := by unfold largeMid; omega
    have e5 : largeIn D = 32 * k := by unfold largeIn; omega
    rw [e1, e2, e3, e4, e5]
    exact ⟨(k * (16 * k + 1) + k * (32 * k + 1)) * (4 * a + 1), by ring⟩

theorem align_arith (V F D : Nat) (hF : F % 8 = 0) (hD : D % 8 = 0) (hV : V % 16 = 0) (hd : D ≤ 32 ∨ 64 ≤ D ∧ D % 32 = 0) (g o s : Nat)
    (h1 : g = V * (V + 4) + V * (V + 4) + (smallOut D * (smallIn D + 1) * (V + 4) + largeMid D * (largeIn D + 1) * (V + 4)
      + largeOut D * (largeMid D + 1) * (V + 4)) + V * (F + 4) + V * (V + 4) + (4 * V + 16) + 48)
    (h2 : o = g + F * 2 * (V + 4) + 3 * (V * (F + 4)) + V * (V + 4) + V * (V * 5 + 4) + V * (V + 4) + (4 * V + 16) + 48)
    (h3 : s = o + 4 * smallOut D + 4 * largeOut D + 64) : g % 64 = 0 ∧ o % 64 = 0 ∧ s % 64 = 0 := by
  obtain ⟨a, ha⟩ : ∃ a, V = 16 * a := ⟨V / 16, by omega⟩
  obtain ⟨b, hb⟩ : ∃ b, F = 8 * b := ⟨F / 8, by omega⟩
  obtain ⟨c, hc1, hc2⟩ : ∃ c, smallOut D = 8 * c ∧ largeOut D = 8 * c := by
    refine ⟨max (D / 4) 16 / 8, ?_⟩
    unfold smallOut largeOut
    omega
  obtain ⟨p, hp⟩ := policy_bytes D a hd
  subst ha hb
  rw [hp] at h1
  have m1 : 16 * a * (16 * a + 4) = 64 * (4 * (a * a) + a) := by ring
  have m2 : 16 * a * (8 * b + 4) = 64 * (2 * (a * b) + a) := by ring
  have m3 : 8 * b * 2 * (16 * a + 4) = 64 * (4 * (a * b) + b) := by ring
  have m4 : 16 * a * (16 * a * 5 + 4) = 64 * (20 * (a * a) + a) := by ring
  rw [m1, m2] at h1
  rw [m1, m2, m3, m4] at h2
  rw [hc1, hc2] at h3
  refine ⟨?_, ?_, ?_⟩ <;> omega

/-- **C105**, the two members that follow a padding — the gate and the float weights — and the end of the bucket are at multiples of 64 bytes,
if the value dimension is a multiple of 16 and the depthwise dimension is at most 32, is 64, or is a larger multiple of 32. -/
theorem C105_aligned (f32 : ℚ → Int) (N : INet10) (hF : N.dimFeature % 8 = 0) (hD : N.dimDw % 8 = 0) (hV : N.dimValue % 16 = 0)
    (hd : N.dimDw ≤ 32 ∨ 64 ≤ N.dimDw ∧ N.dimDw % 32 = 0) :
    (Doc.bucket f32 N)[17]?.map Quant.Doc.Field.name = some ("value_gate" ++ ".weight") ∧ Quant.Doc.offset (Doc.bucket f32 N) 17 % 64 = 0
    ∧ (Doc.bucket f32 N)[34]?.map Quant.Doc.Field.name = some "policy_small_output_weight" ∧ Quant.Doc.offset (Doc.bucket f32 N) 34 % 64 = 0
    ∧ Quant.Doc.sizeOf (Doc.bucket f32 N) % 64 = 0 := by
  have names : (Doc.bucket f32 N)[17]?.map Quant.Doc.Field.name = some ("value_gate" ++ ".weight")
      ∧ (Doc.bucket f32 N)[34]?.map Quant.Doc.Field.name = some "policy_small_output_weight" := by
    simp only [Doc.bucket, Doc.fc, Doc.fc4, List.cons_append, List.nil_append, List.getElem?_cons_succ, List.getElem?_cons_zero, Option.map_some,
      Quant.Doc.weight, Doc.floats, and_self]
  obtain ⟨h1, h2, h3⟩ := offsets f32 N _ _ _ rfl rfl rfl
  have key := align_arith N.dimValue N.dimFeature N.dimDw hF hD hV hd _ _ _ h1 h2 h3
  exact ⟨names.1, key.1, names.2, key.2⟩

/-- **C105** (finding): for other dimensions the exporter accepts, the padding does not align the members. -/
theorem C105_not_aligned (f32 : ℚ → Int) (N : INet10) (hF : N.dimFeature = 64) (hD : N.dimDw = 48) (hV : N.dimValue = 64) :
    (archSize 64 48 64).isSome = true ∧ Quant.Doc.offset (Doc.bucket f32 N) 17 % 64 = 32 := by
  refine ⟨by decide +kernel, ?_⟩
  rw [(offsets f32 N _ _ _ hV hF hD).1]
  decide +kernel

/-- **C105**, `arch_hash` tells the dimensions apart when the feature and depthwise dimensions are below 2048. -/
theorem C105_arch_hash (f d v f' d' v' a : Nat) (h : archSize f d v = some a) (h' : archSize f' d' v' = some a) (hf : f < 2048) (hd : d < 2048)
    (hf' : f' < 2048) (hd' : d' < 2048) : f = f' ∧ d = d' ∧ v = v' := by
  have key : ∀ f d v a : Nat, archSize f d v = some a → f < 2048 → d < 2048 →
      f = 8 * (a % 2 ^ 8) ∧ d = 8 * (a / 2 ^ 8 % 2 ^ 8) ∧ v = 8 * (a / 2 ^ 16) := by
    intro f d v a h hf hd
    unfold archSize at h
    split_ifs at h with hc
    simp only [Option.some.injEq] at h
    have e1 : f / 8 ||| (d / 8) <<< 8 = f / 8 + 2 ^ 8 * (d / 8) := by
      rw [Nat.shiftLeft_eq, Nat.or_comm, Nat.mul_comm, ← Nat.two_pow_add_eq_or_of_lt (by omega : f / 8 < 2 ^ 8)]
      omega
    have e2 : a = (f / 8 + 2 ^ 8 * (d / 8)) + 2 ^ 16 * (v / 8) := by
      rw [← h, e1, Nat.shiftLeft_eq, Nat.or_comm, Nat.mul_comm (v / 8),
        ← Nat.two_pow_add_eq_or_of_lt (by omega : f / 8 + 2 ^ 8 * (d / 8) < 2 ^ 16)]
      omega
    omega
  have k1 := key f d v a h hf hd
  have k2 := key f' d' v' a h' hf' hd'
  omega

/-! ## From the board -/

open Verif.LineEnc
open Verif.Mapping (Mappings NoOverlap lookupArray featureArray netDir C97_lookup)

theorem forward_swap (N : Net10) (hn : N.norm = none) (H W : Nat) (m : Nat → FMap) (s : Bool) :
    forward N H W (fun d => m (netDir s d)) = forward N H W m := by
  cases s with
  | true => rfl
  | false =>
    have : getFeature N H W (fun d => m (netDir false d)) = getFeature N H W m := by
      have hl : ∀ m : Nat → FMap, limit N m = fun d c y x => clampQ (m d c y x) (-511 / 32) (511 / 32) := by
        intro m
        unfold limit
        rw [hn]
      unfold getFeature
      simp only [hl]
      have e : ∀ c y x,
          (∑ d ∈ range 4, fakeQuant (clampQ (clampQ (m (netDir false d) c y x) (-511 / 32) (511 / 32)) (-16) (511 / 32))
            (scale := 32) (numBits := some 16))
          = ∑ d ∈ range 4, fakeQuant (clampQ (clampQ (m d c y x) (-511 / 32) (511 / 32)) (-16) (511 / 32))
            (scale := 32) (numBits := some 16) := by
        intro c y x
        simp only [sum_range_succ, range_zero, sum_empty, netDir]
        simp
        ring
      simp only [e]
    unfold forward
    rw [this]

/-- **C105** (end to end). For every board and every Mix10 network without spherical features whose mapping outputs on that board stay above
-511.5/32, integer inference that starts from the exported tables, indexed by the line codes of the board, gives exactly the four outputs of the
trained (fake-quantised) network evaluated on that board. -/
theorem C105_end_to_end (ms : Mappings ℚ) (batch L : Nat) (fix : Bool) (N : Net10) (hn : N.norm = none) (hbatch : 0 < batch)
    (hm : ms.FieldOf L fix N.dimFeature) (b : Board) (hb : NoOverlap b) (codes : Nat → Nat → Nat → Nat)
    (hcodes : transformBoard L false b = some codes) (hHW : b.H * b.W ≤ 65536) (hbias : ∀ c < N.dimDw, -64 ≤ N.dwB c ∧ N.dwB c ≤ 64)
    (hr : ∀ d < 4, ∀ c < N.dimFeature, ∀ y < b.H, ∀ x < b.W, -1023 / 64 < ms.feature b d c y x) :
    let out := forward N b.H b.W (featureArray ms N.dimFeature b)
    let eng := Engine.run (exportNet N) b.H b.W (lookupArray ms batch L N.dimFeature codes b)
    (∀ o, out.valueSmall o = (eng.valueSmall o : ℚ) / (128 * 128)) ∧ (∀ o, out.value o = (eng.value o : ℚ) / (128 * 128))
    ∧ (∀ y x, out.policySmall y x = eng.policySmall y x) ∧ ∀ y x, out.policy y x = eng.policy y x := by
  simp only
  have hlook : lookupArray ms batch L N.dimFeature codes b
      = fun d c y x => quantFeature (featureArray ms N.dimFeature b (netDir fix d) c y x) := by
    funext d c y x
    unfold lookupArray featureArray
    by_cases h : d < 4 ∧ c < N.dimFeature ∧ y < b.H ∧ x < b.W
    · have hn : netDir fix d < 4 := by unfold netDir; split_ifs <;> omega
      rw [if_pos h, if_pos ⟨hn, h.2⟩]
      have hv : (Spot.board b d y x).code L = some (codes d y x) := by
        show (transformBoard L false b).map (fun f => f d y x) = _
        rw [hcodes]; rfl
      rw [C97_lookup ms batch L fix N.dimFeature hbatch hm b hb d y x h.1 h.2.2.1 h.2.2.2 _ hv,
        List.getD_eq_getElem _ _ (by simpa using h.2.1)]
      simp
    · rw [if_neg h, if_neg]
      · decide +kernel
      · intro h'
        apply h
        refine ⟨?_, h'.2⟩
        have := h'.1
        unfold netDir at this
        split_ifs at this <;> omega
  have hin : InRange (featureArray ms N.dimFeature b) := by
    intro d c y x
    unfold featureArray
    by_cases h : d < 4 ∧ c < N.dimFeature ∧ y < b.H ∧ x < b.W
    · rw [if_pos h]; exact hr d h.1 c h.2.1 y h.2.2.1 x h.2.2.2
    · rw [if_neg h]; norm_num
  rw [hlook, ← forward_swap N hn b.H b.W (featureArray ms N.dimFeature b) fix]
  exact C105_forward N hn b.H b.W (fun d => featureArray ms N.dimFeature b (netDir fix d)) (fun d => hin _) hHW hbias

end Verif.Mix10
