/-
C103: end to end, from the bytes of the exported file to the value of the trained network.
-/
import Verif.Flat.Props103b

namespace Verif.Flat

open Verif.Export (roundEven)
open Verif.Quant (Vec Lin ILin Write writeBytes intBytes rowMajor linWrites vecList clampZ)
open Verif.Quant.Engine (affine)
open Verif.Utils (memberOffset readAt writeAll roundUp)
open Finset

attribute [local irreducible] rowMajor squareRow ladderRow vecList Engine.ladderHead Engine.squareHead

theorem squareRow_range8 (h w : Nat) (m : List Conv) (i j : Nat) :
    -128 ≤ squareRow table8 h w m i j ∧ squareRow table8 h w m i j ≤ 127 := by
  unfold squareRow table8 clampZ; omega

theorem squareRow_range4 (h w : Nat) (m : List Conv) (i j : Nat) :
    -8 ≤ squareRow table4 h w m i j ∧ squareRow table4 h w m i j ≤ 7 := by
  unfold squareRow table4 clampZ; omega

theorem squareRow_rangeV4 (h w : Nat) (m : List Conv) (i j : Nat) :
    -128 ≤ squareRow tableV4 h w m i j ∧ squareRow tableV4 h w m i j ≤ 127 := by
  unfold squareRow tableV4 clampZ; omega

/-! ### Ladder networks -/

theorem ladder1_congr (T T' : Engine.Table) (c : Nat) (h : ∀ i < 3 ^ 10, T i c = T' i c) (b : Board)
    (hb : Valid b) : Engine.ladder1 T b c = Engine.ladder1 T' b c := by
  unfold Engine.ladder1
  refine sum_congr rfl fun k _ => ?_
  have hv := valid_turned k b hb
  rw [h _ (tri_lt _ (valid_tri _ hv)), h _ (tri_lt _ (valid_tri _ (valid_mirror _ hv)))]

theorem ladder2_congr (T1 T2 T1' T2' : Engine.Table) (c : Nat) (h1 : ∀ i < 3 ^ 10, T1 i c = T1' i c)
    (h2 : ∀ i < 3 ^ 10, T2 i c = T2' i c) (b : Board) (hb : Valid b) :
    Engine.ladder2 T1 T2 b c = Engine.ladder2 T1' T2' b c := by
  unfold Engine.ladder2
  rw [ladder1_congr T1 T1' c h1 b hb]
  congr 1
  refine sum_congr rfl fun k _ => ?_
  rw [h2 _ (tri_lt _ (part_tri _ (valid_turned k b hb)))]

theorem ladderRow_range (m : List Conv) (i c : Nat) : -128 ≤ ladderRow m i c ∧ ladderRow m i c ≤ 127 := by
  unfold ladderRow table8 clampZ; omega

theorem ladder_members (ms : List (List Conv)) (nd : Bool) (D V : Nat) (l1 l2 l3 l4 : Lin) :
    members ((ms.map fun m => ladderTable m D) ++ ladderLayers nd V l1 l2 l3 l4)
      = Engine.ladderStruct ms.length D V := by
  unfold members ladderLayers Engine.ladderStruct ladderTable linWrites vecList
  rw [rows_four]
  simp only [List.map_append, List.map_map, List.map_cons, List.map_nil, rowMajor_length, Function.comp_def,
    List.length_map, List.length_range, List.cons_append, List.nil_append]
  congr 1
  norm_num

theorem table_read (al : Nat) (hal : 0 < al) (ws : List Write) (k r c : Nat) (T : Nat → Nat → Int)
    (h0 : ws[k]? = some (1, rowMajor r c T)) (hT : ∀ i j, -128 ≤ T i j ∧ T i j ≤ 127) (i j : Nat)
    (hi : i < r) (hj : j < c) :
    Engine.signed (writeAll [] al (ws.map writeBytes)) al (members ws) k (i * c + j) = T i j := by
  have := hT i j
  exact read_signed al hal ws k 1 (by norm_num) _ h0 _ _ (rowMajor_get r c _ i j hi hj)
    (by norm_num; omega) (by norm_num; omega)

/-- **C103** (ladder v1, end to end).  Whenever a file is written, reading its tables and layers at the
offsets of the struct and doing integer arithmetic gives the trained network's value output; the
spare output rows give 0. -/
theorem C103_ladder_v1_file (l1 l2 l3 : Ladder) (hin : l1.dimIn ≤ 2) (nd : Bool) (P V : Nat)
    (v1 v2 v3 v4 : Lin) (file : List Nat)
    (hf : ladderFile1 (ladderMapping l1 l2 l3) nd P V v1 v2 v3 v4 = some file) (b : Board) (hb : Valid b)
    (o : Nat) :
    let S := Engine.ladderStruct 1 (P + V) V
    let L := Engine.layer file 1 S
    let T : Engine.Table := fun i c => Engine.signed file 1 S 0 (i * (P + V) + c)
    let out := Engine.ladderHead V (L 1 V) (L 3 32) (L 5 32) (L 7 32) (fun c => Engine.ladder1 T b (P + c)) o
    (o < valueRows nd → ladderForward1 (ladderMapping l1 l2 l3) P V v1 v2 v3 v4 b o = (out : ℚ) / 2 ^ 14)
      ∧ (valueRows nd ≤ o → o < 4 → out = 0) := by
  intro S L T out
  unfold ladderFile1 at hf
  split_ifs at hf with hc
  obtain ⟨ws, hws⟩ : ∃ ws, ws = ([ladderMapping l1 l2 l3].map fun m => ladderTable m (P + V))
    ++ ladderLayers nd V v1 v2 v3 v4 := ⟨_, rfl⟩
  have hfile : file = writeAll [] 1 (ws.map writeBytes) := by
    rw [← plainFile_eq, hws]
    exact (Option.some.inj hf).symm
  have hS : S = members ws := by
    rw [hws, ladder_members]
    rfl
  have hget : ∀ k : Nat, ws[k]? = ([ladderTable (ladderMapping l1 l2 l3) (P + V)] ++ ladderLayers nd V v1 v2 v3 v4)[k]? := by
    intro k; rw [hws]; rfl
  have R : ∀ (k o i : Nat) (s : ℚ) (L' : Lin), ws[k]? = some (1, rowMajor o i (exportLin s L').w) →
      ws[k + 1]? = some (4, vecList o (exportLin s L').b) → SameLin o i (L k i) (exportLin s L') := by
    intro k o i s L' h0 h1
    have := layer_read 1 (by norm_num) ws k o i s L' h0 h1
    show SameLin o i (Engine.layer file 1 S k i) _
    rw [hfile, hS]
    exact this
  have r1 := R 1 32 V 128 v1 (by rw [hget]; rfl) (by rw [hget]; rfl)
  have r2 := R 3 32 32 128 v2 (by rw [hget]; rfl) (by rw [hget]; rfl)
  have r3 := R 5 32 32 128 v3 (by rw [hget]; rfl) (by rw [hget]; rfl)
  have r4 := R 7 (valueRows nd + padCount nd) 32 128 (padRows (valueRows nd) v4) (by rw [hget]; rfl)
    (by rw [hget]; rfl)
  have rT : ∀ i < 3 ^ 10, ∀ c < V, T i (P + c) = ladderRow (ladderMapping l1 l2 l3) i (P + c) := by
    intro i hi c hc
    show Engine.signed file 1 S 0 (i * (P + V) + (P + c)) = _
    rw [hfile, hS]
    exact table_read 1 (by norm_num) ws 0 (3 ^ 10) (P + V) (ladderRow (ladderMapping l1 l2 l3)) (hget 0)
      (ladderRow_range (ladderMapping l1 l2 l3)) i (P + c) hi (by omega)
  rw [rows_four] at r4
  constructor
  · intro ho
    rw [C103_ladder_v1 l1 l2 l3 hin P V v1 v2 v3 v4 b hb o]
    congr 2
    refine (ladderHead_same V (valueRows nd) _ _ _ _ _ _ _ _ _ _ r1 r2 r3
      ((r4.mono (valueRows_le nd)).trans (padRows_same 128 _ _ 32 v4 le_rfl)) (fun i hi => ?_) o ho).symm
    exact ladder1_congr _ _ _ (fun j hj => rT j hj i hi) b hb
  · intro h1 h2
    have : out = Engine.ladderHead V (L 1 V) (L 3 32) (L 5 32) (exportLin 128 (padRows (valueRows nd) v4))
        (fun c => Engine.ladder1 T b (P + c)) o :=
      ladderHead_same V 4 _ _ _ _ _ _ _ _ _ _ (fun r hr => ⟨fun _ _ => rfl, rfl⟩)
        (fun r hr => ⟨fun _ _ => rfl, rfl⟩) (fun r hr => ⟨fun _ _ => rfl, rfl⟩) r4 (fun _ _ => rfl) o h2
    rw [this]
    unfold Engine.ladderHead affine exportLin padRows
    simp only [if_neg (Nat.not_lt.mpr h1), zero_mul]
    have e : roundEven 0 = 0 := by
      have := Verif.Quant.roundEven_int 0
      rwa [Int.cast_zero] at this
    rw [e]
    simp [clampZ]

/-- **C103** (ladder v2, end to end). -/
theorem C103_ladder_v2_file (l1 l2 l3 k1 k2 k3 : Ladder) (hl : l1.dimIn ≤ 2) (hk : k1.dimIn ≤ 2)
    (nd : Bool) (P V : Nat) (v1 v2 v3 v4 : Lin) (file : List Nat)
    (hf : ladderFile2 (ladderMapping l1 l2 l3) (ladderMapping k1 k2 k3) nd P V v1 v2 v3 v4 = some file)
    (b : Board) (hb : Valid b) (o : Nat) (ho : o < valueRows nd) :
    let S := Engine.ladderStruct 2 (P + V) V
    let L := Engine.layer file 1 S
    let T : Nat → Engine.Table := fun k i c => Engine.signed file 1 S k (i * (P + V) + c)
    ladderForward2 (ladderMapping l1 l2 l3) (ladderMapping k1 k2 k3) P V v1 v2 v3 v4 b o =
      (Engine.ladderHead V (L 2 V) (L 4 32) (L 6 32) (L 8 32)
        (fun c => Engine.ladder2 (T 0) (T 1) b (P + c)) o : ℚ) / 2 ^ 14 := by
  intro S L T
  unfold ladderFile2 at hf
  split_ifs at hf with hc
  obtain ⟨ws, hws⟩ : ∃ ws, ws = ([ladderMapping l1 l2 l3, ladderMapping k1 k2 k3].map fun m => ladderTable m (P + V))
    ++ ladderLayers nd V v1 v2 v3 v4 := ⟨_, rfl⟩
  have hfile : file = writeAll [] 1 (ws.map writeBytes) := by
    rw [← plainFile_eq, hws]
    exact (Option.some.inj hf).symm
  have hS : S = members ws := by
    rw [hws, ladder_members]
    rfl
  have hget : ∀ k : Nat, ws[k]? = ([ladderTable (ladderMapping l1 l2 l3) (P + V),
      ladderTable (ladderMapping k1 k2 k3) (P + V)] ++ ladderLayers nd V v1 v2 v3 v4)[k]? := by
    intro k; rw [hws]; rfl
  have R : ∀ (k o i : Nat) (s : ℚ) (L' : Lin), ws[k]? = some (1, rowMajor o i (exportLin s L').w) →
      ws[k + 1]? = some (4, vecList o (exportLin s L').b) → SameLin o i (L k i) (exportLin s L') := by
    intro k o i s L' h0 h1
    have := layer_read 1 (by norm_num) ws k o i s L' h0 h1
    show SameLin o i (Engine.layer file 1 S k i) _
    rw [hfile, hS]
    exact this
  have r1 := R 2 32 V 128 v1 (by rw [hget]; rfl) (by rw [hget]; rfl)
  have r2 := R 4 32 32 128 v2 (by rw [hget]; rfl) (by rw [hget]; rfl)
  have r3 := R 6 32 32 128 v3 (by rw [hget]; rfl) (by rw [hget]; rfl)
  have r4 := R 8 (valueRows nd + padCount nd) 32 128 (padRows (valueRows nd) v4) (by rw [hget]; rfl)
    (by rw [hget]; rfl)
  rw [rows_four] at r4
  have rT : ∀ (k : Nat) m, ws[k]? = some (ladderTable m (P + V)) → ∀ i < 3 ^ 10, ∀ c < V,
      T k i (P + c) = ladderRow m i (P + c) := by
    intro k m hm i hi c hc
    show Engine.signed file 1 S k (i * (P + V) + (P + c)) = _
    rw [hfile, hS]
    exact table_read 1 (by norm_num) ws k (3 ^ 10) (P + V) (ladderRow m) hm
      (ladderRow_range m) i (P + c) hi (by omega)
  rw [C103_ladder_v2 l1 l2 l3 k1 k2 k3 hl hk P V v1 v2 v3 v4 b hb o]
  congr 2
  refine (ladderHead_same V (valueRows nd) _ _ _ _ _ _ _ _ _ _ r1 r2 r3
    ((r4.mono (valueRows_le nd)).trans (padRows_same 128 _ _ 32 v4 le_rfl)) (fun i hi => ?_) o ho).symm
  exact ladder2_congr _ _ _ _ _ (fun j hj => rT 0 _ (by rw [hget]; rfl) j hj i hi)
    (fun j hj => rT 1 _ (by rw [hget]; rfl) j hj i hi) b hb

/-- The size of the file, and the size of the struct as documented (`ValueDim` columns in the mapping):
they agree exactly when the network has no policy feature. -/
theorem C103_ladder_documented_size (m : List Conv) (nd : Bool) (P V : Nat) (v1 v2 v3 v4 : Lin)
    (file : List Nat) (hf : ladderFile1 m nd P V v1 v2 v3 v4 = some file) :
    file.length = ((Engine.ladderStruct 1 V V).map fun x => x.1 * x.2).sum ↔ P = 0 := by
  unfold ladderFile1 at hf
  split_ifs at hf with hc
  have hlen : file.length = ((Engine.ladderStruct 1 (P + V) V).map fun x => x.1 * x.2).sum := by
    have h := ladder_members [m] nd (P + V) V v1 v2 v3 v4
    rw [← Option.some.inj hf]
    simp only [List.map_cons, List.map_nil, List.length_cons, List.length_nil, Nat.zero_add] at h
    rw [← h]
    unfold plainFile members
    rw [List.length_flatMap, List.map_map]
    congr 1
    exact List.map_congr_left fun w _ => flatMap_length w.1 w.2
  rw [hlen]
  simp only [Engine.ladderStruct, List.replicate_one, List.map_cons, List.map_append, List.map_nil,
    List.sum_append, List.sum_cons, List.sum_nil]
  omega

/-! ### Square networks -/

/-- The number of rows of a table of `h` by `w` chunks (opaque, so that nothing is ever computed). -/
@[irreducible] def rows (h w : Nat) : Nat := 3 ^ (h * w)

theorem rows_eq (h w : Nat) : rows h w = 3 ^ (h * w) := by unfold rows; rfl

theorem rows44 : rows 4 4 = 43046721 := by rw [rows_eq]; norm_num

theorem rows43 : rows 4 3 = 531441 := by rw [rows_eq]; norm_num

theorem rows34 : rows 3 4 = 531441 := by rw [rows_eq]; norm_num

theorem rect_rows (h w : Nat) (b : Board) (hb : Cells h w b) : Engine.rectNumber h w b < rows h w := by
  rw [rows_eq]; exact rect_lt h w b hb

theorem squareEntries_rows (q : ℚ → Int) (h w F batch : Nat) (hb : 0 < batch) (m : List Conv) :
    squareEntries q h w F batch m = rowMajor (rows h w) F (squareRow q h w m) := by
  rw [rows_eq]; exact squareEntries_eq q h w F batch hb m

theorem packedEntries_rows (h w F batch : Nat) (hb : 0 < batch) (m : List Conv) :
    packedEntries h w F batch m = rowMajor (rows h w) (F / 2) fun i k =>
      packPair (squareRow table4 h w m i (2 * k)) (squareRow table4 h w m i (2 * k + 1)) := by
  rw [rows_eq]; exact packedEntries_eq h w F batch hb m

theorem square2_congr (u : Int) (F : Nat) (T1 T2 T1' T2' : Engine.Table)
    (h1 : ∀ i < rows 4 4, ∀ c < F, T1 i c = T1' i c) (h2 : ∀ i < rows 4 3, ∀ c < F, T2 i c = T2' i c)
    (b : Board) (hb : Valid b) (c : Nat) (hc : c < F * 4) :
    Engine.square2 u F T1 T2 b c = Engine.square2 u F T1' T2' b c := by
  have hF : 0 < F := by omega
  have hv := valid_turned (c / F) b hb
  unfold Engine.square2
  rw [h1 _ (rect_rows 4 4 _ (valid_rect _ hv 4 4 (by norm_num) (by norm_num))) _ (Nat.mod_lt _ hF),
    h2 _ (rect_rows 4 3 _ (valid_part _ hv 0 2 4 3 (by norm_num) (by norm_num))) _ (Nat.mod_lt _ hF)]

theorem square3_congr (u : Int) (F : Nat) (T1 T2 T3 T1' T2' T3' : Engine.Table)
    (h1 : ∀ i < rows 3 4, ∀ c < F, T1 i c = T1' i c) (h2 : ∀ i < rows 3 4, ∀ c < F, T2 i c = T2' i c)
    (h3 : ∀ i < rows 3 4, ∀ c < F, T3 i c = T3' i c)
    (b : Board) (hb : Valid b) (c : Nat) (hc : c < F * 4) :
    Engine.square3 u F T1 T2 T3 b c = Engine.square3 u F T1' T2' T3' b c := by
  have hF : 0 < F := by omega
  have hv := fun k => valid_turned k b hb
  unfold Engine.square3
  rw [h1 _ (rect_rows 3 4 _ (valid_rect _ (hv _) 3 4 (by norm_num) (by norm_num))) _ (Nat.mod_lt _ hF),
    h2 _ (rect_rows 3 4 _ (valid_part _ (hv _) 0 3 3 4 (by norm_num) (by norm_num))) _ (Nat.mod_lt _ hF),
    h3 _ (rect_rows 3 4 _ (valid_part _ (hv _) 2 3 3 4 (by norm_num) (by norm_num))) _ (Nat.mod_lt _ hF)]

theorem square4_congr (T0 T1 T2 T0' T1' T2' : Engine.Table) (c : Nat)
    (h0 : ∀ i < rows 4 4, T0 i c = T0' i c) (h1 : ∀ i < rows 4 4, T1 i c = T1' i c)
    (h2 : ∀ i < rows 4 4, T2 i c = T2' i c) (b : Board) (hb : Valid b) :
    Engine.square4 T0 T1 T2 b c = Engine.square4 T0' T1' T2' b c := by
  have hv := fun k => valid_turned k b hb
  unfold Engine.square4
  congr 1
  · congr 1
    · congr 1
      · exact sum_congr rfl fun k _ =>
          h0 _ (rect_rows 4 4 _ (valid_rect _ (hv k) 4 4 (by norm_num) (by norm_num)))
      · exact sum_congr rfl fun k _ =>
          h1 _ (rect_rows 4 4 _ (valid_part _ (hv k) 0 1 4 4 (by norm_num) (by norm_num)))
    · exact sum_congr rfl fun k _ =>
        h1 _ (rect_rows 4 4 _ (mirror_cells _ 4 (valid_part _ (hv k) 1 0 4 4 (by norm_num) (by norm_num))))
  · exact sum_congr rfl fun k _ =>
      h2 _ (rect_rows 4 4 _ (valid_part _ (hv k) 1 1 4 4 (by norm_num) (by norm_num)))

theorem table8_range (x : ℚ) : -128 ≤ table8 x ∧ table8 x ≤ 127 := by unfold table8 clampZ; omega

theorem table4_range (x : ℚ) : -8 ≤ table4 x ∧ table4 x ≤ 7 := by unfold table4 clampZ; omega

theorem tableV4_range (x : ℚ) : -128 ≤ tableV4 x ∧ tableV4 x ≤ 127 := by unfold tableV4 clampZ; omega

/-- Two int4 numbers share a byte without loss. -/
theorem C103_int4_packing (even odd : Int) (he : -8 ≤ even ∧ even ≤ 7) (ho : -8 ≤ odd ∧ odd ≤ 7) :
    ∃ byte : Nat, byte < 256 ∧ packPair even odd = byte ∧ Engine.nibble byte 0 = even
      ∧ Engine.nibble byte 1 = odd := by
  obtain ⟨x, hx⟩ : ∃ x : Nat, even = (x : Int) - 8 := ⟨(even + 8).toNat, by omega⟩
  obtain ⟨y, hy⟩ : ∃ y : Nat, odd = (y : Int) - 8 := ⟨(odd + 8).toNat, by omega⟩
  subst hx hy
  have hx16 : x < 16 := by omega
  have hy16 : y < 16 := by omega
  refine ⟨((y : Int) - 8 + 8).toNat <<< 4 ||| ((x : Int) - 8 + 8).toNat, ?_⟩
  have e1 : ((y : Int) - 8 + 8).toNat = y := by omega
  have e2 : ((x : Int) - 8 + 8).toNat = x := by omega
  unfold packPair Engine.nibble
  rw [e1, e2]
  clear he ho e1 e2
  interval_cases x <;> interval_cases y <;> decide

theorem packed_read (al : Nat) (hal : 0 < al) (ws : List Write) (k r F : Nat) (hF : F % 2 = 0)
    (T : Nat → Nat → Int) (h0 : ws[k]? = some (1, rowMajor r (F / 2) fun i j => packPair (T i (2 * j)) (T i (2 * j + 1))))
    (hT : ∀ i j, -8 ≤ T i j ∧ T i j ≤ 7) (i c : Nat) (hi : i < r) (hc : c < F) :
    Engine.nibble (Engine.unsigned (writeAll [] al (ws.map writeBytes)) al (members ws) k
      (i * (F / 2) + c / 2)) c = T i c := by
  obtain ⟨byte, h256, hp, hlo, hhi⟩ := C103_int4_packing (T i (2 * (c / 2))) (T i (2 * (c / 2) + 1))
    (hT _ _) (hT _ _)
  have hu := read_unsigned al hal ws k 1 _ h0 (i * (F / 2) + c / 2) _
    (rowMajor_get r (F / 2) _ i (c / 2) hi (by omega))
  rw [hu, hp]
  have e : (((byte : Int) % (256 ^ 1 : Nat)).toNat) = byte := by norm_num; omega
  rw [e]
  unfold Engine.nibble at hlo hhi ⊢
  rcases Nat.mod_two_eq_zero_or_one c with h | h
  · have : 2 * (c / 2) = c := by omega
    rw [this] at hlo
    rw [if_pos h]
    exact hlo
  · have : 2 * (c / 2) + 1 = c := by omega
    rw [this] at hhi
    rw [if_neg (by omega)]
    exact hhi

theorem members_append (a b : List Write) : members (a ++ b) = members a ++ members b := by
  simp [members]

theorem squareLayers_members (nd : Bool) (n h : Nat) (l1 l2 l3 : Lin) :
    members (squareLayers nd n h l1 l2 l3) = Engine.squareLayers n h := by
  unfold members squareLayers Engine.squareLayers linWrites vecList
  rw [rows_four]
  simp only [List.map_cons, List.map_nil, rowMajor_length,
    List.length_map, List.length_range, List.cons_append, List.nil_append]

/-- The layers behind `k` tables are read back. -/
theorem square_layers_read (al : Nat) (hal : 0 < al) (ts ws : List Write) (nd : Bool) (n h : Nat)
    (l1 l2 l3 : Lin) (hws : ws = ts ++ squareLayers nd n h l1 l2 l3) (k : Nat) (hk : ts.length = k)
    (f f' : Nat → Int) (hf : ∀ i < n, f i = f' i) (o : Nat) (ho : o < valueRows nd) :
    Engine.squareHead n h (Engine.layer (writeAll [] al (ws.map writeBytes)) al (members ws) k n)
        (Engine.layer (writeAll [] al (ws.map writeBytes)) al (members ws) (k + 2) h)
        (Engine.layer (writeAll [] al (ws.map writeBytes)) al (members ws) (k + 4) 32) f o
      = Engine.squareHead n h (exportLin 256 l1) (exportLin 128 l2) (exportLin 128 l3) f' o := by
  have hget : ∀ j : Nat, ws[k + j]? = (squareLayers nd n h l1 l2 l3)[j]? := by
    intro j
    rw [hws, List.getElem?_append_right (by omega)]
    congr 1
    omega
  have r1 := layer_read al hal ws k h n 256 l1 ((hget 0).trans rfl) ((hget 1).trans rfl)
  have r2 := layer_read al hal ws (k + 2) 32 h 128 l2 ((hget 2).trans rfl) ((hget 3).trans rfl)
  have r3 := layer_read al hal ws (k + 4) (valueRows nd + padCount nd) 32 128 (padRows (valueRows nd) l3)
    ((hget 4).trans rfl) ((hget 5).trans rfl)
  rw [rows_four] at r3
  exact squareHead_same n h (valueRows nd) _ _ _ _ _ _ _ _ r1 r2
    ((r3.mono (valueRows_le nd)).trans (padRows_same 128 _ _ 32 l3 le_rfl)) hf o ho

/-- **C103** (square v2, int8 tables, end to end; any batch size). -/
theorem C103_square_v2_file (batch : Nat) (hbatch : 0 < batch) (nd : Bool) (F : Nat) (m44 m43 : List Conv)
    (h44 : Mapping 4 4 m44) (h43 : Mapping 4 3 m43) (l1 l2 l3 : Lin) (file : List Nat)
    (hf : squareFile2 batch false nd F m44 m43 l1 l2 l3 = some file) (b : Board) (hb : Valid b) (o : Nat)
    (ho : o < valueRows nd) :
    let S := Engine.square2Struct false F
    let L := Engine.layer file 1 S
    let T : Nat → Engine.Table := fun k i c => Engine.signed file 1 S k (i * F + c)
    squareForward2 false F m44 m43 l1 l2 l3 b o =
      (Engine.squareHead (F * 4) 32 (L 2 (F * 4)) (L 4 32) (L 6 32) (Engine.square2 1 F (T 0) (T 1) b) o : ℚ)
        / 2 ^ 14 := by
  intro S L T
  unfold squareFile2 at hf
  by_cases hc : roundCheck 256 32 (F * 4) l1
  swap
  · rw [if_neg hc] at hf
    cases hf
  rw [if_pos hc] at hf
  simp only [Bool.false_eq_true, if_false] at hf
  rw [squareEntries_rows _ _ _ _ _ hbatch, squareEntries_rows _ _ _ _ _ hbatch] at hf
  obtain ⟨ts, hts⟩ : ∃ ts : List Write, ts = [(1, rowMajor (rows 4 4) F (squareRow table8 4 4 m44)),
    (1, rowMajor (rows 4 3) F (squareRow table8 4 3 m43))] := ⟨_, rfl⟩
  obtain ⟨ws, hws⟩ : ∃ ws, ws = ts ++ squareLayers nd (F * 4) 32 l1 l2 l3 := ⟨_, rfl⟩
  have hfile : file = writeAll [] 1 (ws.map writeBytes) := by
    rw [← plainFile_eq, hws, hts]
    exact (Option.some.inj hf).symm
  have hS : S = members ws := by
    rw [hws, members_append, squareLayers_members, hts]
    unfold members
    simp only [List.map_cons, List.map_nil, rowMajor_length, rows44, rows43, rows34]
    rfl
  have rT : ∀ (k r : Nat) m w, ws[k]? = some (1, rowMajor r F (squareRow table8 4 w m)) → ∀ i < r, ∀ c < F,
      T k i c = squareRow table8 4 w m i c := by
    intro k r m w hm i hi c hc
    show Engine.signed file 1 S k (i * F + c) = _
    rw [hfile, hS]
    exact table_read 1 (by norm_num) ws k r F (squareRow table8 4 w m) hm (squareRow_range8 _ _ _) i c hi hc
  rw [C103_square_v2 false F m44 m43 h44 h43 l1 l2 l3 b hb o]
  congr 2
  show _ = Engine.squareHead (F * 4) 32 (Engine.layer file 1 S 2 (F * 4)) (Engine.layer file 1 S 4 32)
    (Engine.layer file 1 S 6 32) _ o
  rw [hfile, hS]
  refine (square_layers_read 1 (by norm_num) ts ws nd (F * 4) 32 l1 l2 l3 hws 2 (by rw [hts]; rfl) _ _
    (fun i hi => ?_) o ho).symm
  refine square2_congr 1 F _ _ _ _ (fun i hi c hc => rT 0 (rows 4 4) m44 4 (by rw [hws, hts]; rfl) i hi c hc)
    (fun i hi c hc => rT 1 (rows 4 3) m43 3 (by rw [hws, hts]; rfl) i hi c hc) b hb i hi

/-- **C103** (square v2, int4 corner table, end to end). -/
theorem C103_square_v2_int4_file (batch : Nat) (hbatch : 0 < batch) (nd : Bool) (F : Nat) (hF : F % 2 = 0)
    (m44 m43 : List Conv) (h44 : Mapping 4 4 m44) (h43 : Mapping 4 3 m43) (l1 l2 l3 : Lin) (file : List Nat)
    (hf : squareFile2 batch true nd F m44 m43 l1 l2 l3 = some file) (b : Board) (hb : Valid b) (o : Nat)
    (ho : o < valueRows nd) :
    let S := Engine.square2Struct true F
    let L := Engine.layer file 1 S
    let T44 : Engine.Table := fun i c =>
      Engine.nibble (Engine.unsigned file 1 S 0 (i * (F / 2) + c / 2)) c
    let T43 : Engine.Table := fun i c => Engine.signed file 1 S 1 (i * F + c)
    squareForward2 true F m44 m43 l1 l2 l3 b o =
      (Engine.squareHead (F * 4) 32 (L 2 (F * 4)) (L 4 32) (L 6 32) (Engine.square2 16 F T44 T43 b) o : ℚ)
        / 2 ^ 14 := by
  intro S L T44 T43
  unfold squareFile2 at hf
  by_cases hc : roundCheck 256 32 (F * 4) l1
  swap
  · rw [if_neg hc] at hf
    cases hf
  rw [if_pos hc] at hf
  simp only [if_true] at hf
  rw [packedEntries_rows _ _ _ _ hbatch, squareEntries_rows _ _ _ _ _ hbatch] at hf
  obtain ⟨ts, hts⟩ : ∃ ts : List Write, ts = [(1, rowMajor (rows 4 4) (F / 2) fun i k =>
      packPair (squareRow table4 4 4 m44 i (2 * k)) (squareRow table4 4 4 m44 i (2 * k + 1))),
    (1, rowMajor (rows 4 3) F (squareRow table8 4 3 m43))] := ⟨_, rfl⟩
  obtain ⟨ws, hws⟩ : ∃ ws, ws = ts ++ squareLayers nd (F * 4) 32 l1 l2 l3 := ⟨_, rfl⟩
  have hfile : file = writeAll [] 1 (ws.map writeBytes) := by
    rw [← plainFile_eq, hws, hts]
    exact (Option.some.inj hf).symm
  have hS : S = members ws := by
    rw [hws, members_append, squareLayers_members, hts]
    unfold members
    simp only [List.map_cons, List.map_nil, rowMajor_length, rows44, rows43, rows34]
    rfl
  rw [C103_square_v2 true F m44 m43 h44 h43 l1 l2 l3 b hb o]
  congr 2
  show _ = Engine.squareHead (F * 4) 32 (Engine.layer file 1 S 2 (F * 4)) (Engine.layer file 1 S 4 32)
    (Engine.layer file 1 S 6 32) _ o
  rw [hfile, hS]
  refine (square_layers_read 1 (by norm_num) ts ws nd (F * 4) 32 l1 l2 l3 hws 2 (by rw [hts]; rfl) _ _
    (fun i hi => ?_) o ho).symm
  refine square2_congr 16 F _ _ _ _ (fun i hi c hc => ?_) (fun i hi c hc => ?_) b hb i hi
  · show Engine.nibble (Engine.unsigned file 1 S 0 (i * (F / 2) + c / 2)) c = _
    rw [hfile, hS]
    exact packed_read 1 (by norm_num) ws 0 (rows 4 4) F hF (squareRow table4 4 4 m44)
      (by rw [hws, hts]; rfl) (squareRow_range4 _ _ _) i c hi hc
  · show Engine.signed file 1 S 1 (i * F + c) = _
    rw [hfile, hS]
    exact table_read 1 (by norm_num) ws 1 (rows 4 3) F (squareRow table8 4 3 m43) (by rw [hws, hts]; rfl)
      (squareRow_range8 _ _ _) i c hi hc

/-- **C103** (square v3, int8 tables, end to end).  The two corner tables are bytes with an offset of
128; the average is the unsigned rounding average of the two bytes. -/
theorem C103_square_v3_file (batch : Nat) (hbatch : 0 < batch) (nd : Bool) (F : Nat)
    (mc1 mc2 mm : List Conv) (h1 : Mapping 3 4 mc1) (h2 : Mapping 3 4 mc2) (hm : Mapping 3 4 mm)
    (l1 l2 l3 : Lin) (file : List Nat)
    (hf : squareFile3 batch false nd F mc1 mc2 mm l1 l2 l3 = some file) (b : Board) (hb : Valid b) (o : Nat)
    (ho : o < valueRows nd) :
    let S := Engine.square3Struct false F
    let L := Engine.layer file 1 S
    let U : Nat → Nat → Nat → Nat := fun k i c => Engine.unsigned file 1 S k (i * F + c)
    let T : Engine.Table := fun i c => Engine.signed file 1 S 2 (i * F + c)
    let feature : Nat → Int := fun c =>
      ((U 0 (Engine.rectNumber 3 4 (Engine.turned (c / F) b)) (c % F)
        + U 1 (Engine.rectNumber 3 4 (Engine.part 0 3 (Engine.turned ((c / F + 3) % 4) b))) (c % F) + 1) / 2 : Nat)
        - 128 + T (Engine.rectNumber 3 4 (Engine.part 2 3 (Engine.turned ((c / F + 3) % 4) b))) (c % F)
    squareForward3 false F mc1 mc2 mm l1 l2 l3 b o =
      (Engine.squareHead (F * 4) 64 (L 3 (F * 4)) (L 5 64) (L 7 32) feature o : ℚ) / 2 ^ 14 := by
  intro S L U T feature
  unfold squareFile3 v3Tables at hf
  by_cases hc : roundCheck 256 64 (F * 4) l1
  swap
  · rw [if_neg hc] at hf
    cases hf
  rw [if_pos hc] at hf
  simp only [Bool.false_eq_true, if_false] at hf
  simp only [squareEntries_rows _ _ _ _ _ hbatch] at hf
  obtain ⟨ts, hts⟩ : ∃ ts : List Write, ts =
    [(1, (rowMajor (rows 3 4) F (squareRow table8 3 4 mc1)).map (· + 128)),
     (1, (rowMajor (rows 3 4) F (squareRow table8 3 4 mc2)).map (· + 128)),
     (1, rowMajor (rows 3 4) F (squareRow table8 3 4 mm))] := ⟨_, rfl⟩
  obtain ⟨ws, hws⟩ : ∃ ws, ws = ts ++ squareLayers nd (F * 4) 64 l1 l2 l3 := ⟨_, rfl⟩
  have hfile : file = writeAll [] 1 (ws.map writeBytes) := by
    rw [← plainFile_eq, hws, hts]
    exact (Option.some.inj hf).symm
  have hS : S = members ws := by
    rw [hws, members_append, squareLayers_members, hts]
    unfold members
    simp only [List.map_cons, List.map_nil, rowMajor_length, List.length_map, rows44, rows43, rows34]
    rfl
  have rU : ∀ (k : Nat) m, ws[k]? = some (1, (rowMajor (rows 3 4) F (squareRow table8 3 4 m)).map (· + 128)) →
      ∀ i < rows 3 4, ∀ c < F, (U k i c : Int) = squareRow table8 3 4 m i c + 128 := by
    intro k m hk i hi c hc
    have hr : -128 ≤ squareRow table8 3 4 m i c ∧ squareRow table8 3 4 m i c ≤ 127 := squareRow_range8 _ _ _ _ _
    have := read_unsigned 1 (by norm_num) ws k 1 _ hk (i * F + c) (squareRow table8 3 4 m i c + 128) (by
      rw [List.getElem?_map, rowMajor_get _ _ _ i c hi hc]; rfl)
    show ((Engine.unsigned file 1 S k (i * F + c) : Nat) : Int) = _
    rw [hfile, hS, this]
    norm_num
    omega
  have rT : ∀ i < rows 3 4, ∀ c < F, T i c = squareRow table8 3 4 mm i c := by
    intro i hi c hc
    show Engine.signed file 1 S 2 (i * F + c) = _
    rw [hfile, hS]
    exact table_read 1 (by norm_num) ws 2 (rows 3 4) F (squareRow table8 3 4 mm) (by rw [hws, hts]; rfl)
      (squareRow_range8 _ _ _) i c hi hc
  rw [C103_square_v3 false F mc1 mc2 mm h1 h2 hm l1 l2 l3 b hb o]
  congr 2
  show _ = Engine.squareHead (F * 4) 64 (Engine.layer file 1 S 3 (F * 4)) (Engine.layer file 1 S 5 64)
    (Engine.layer file 1 S 7 32) _ o
  rw [hfile, hS]
  refine (square_layers_read 1 (by norm_num) ts ws nd (F * 4) 64 l1 l2 l3 hws 3 (by rw [hts]; rfl) _ _
    (fun i hi => ?_) o ho).symm
  have hF : 0 < F := by omega
  have hv := fun k => valid_turned k b hb
  show ((((U 0 (Engine.rectNumber 3 4 (Engine.turned (i / F) b)) (i % F)
        + U 1 (Engine.rectNumber 3 4 (Engine.part 0 3 (Engine.turned ((i / F + 3) % 4) b))) (i % F) + 1) / 2 : Nat) : Int)
        - 128 + T (Engine.rectNumber 3 4 (Engine.part 2 3 (Engine.turned ((i / F + 3) % 4) b))) (i % F))
      = Engine.square3 1 F (squareRow table8 3 4 mc1) (squareRow table8 3 4 mc2) (squareRow table8 3 4 mm) b i
  have e1 := rU 0 mc1 (by rw [hws, hts]; rfl) _
    (rect_rows 3 4 _ (valid_rect _ (hv (i / F)) 3 4 (by norm_num) (by norm_num))) _ (Nat.mod_lt i hF)
  have e2 := rU 1 mc2 (by rw [hws, hts]; rfl) _
    (rect_rows 3 4 _ (valid_part _ (hv ((i / F + 3) % 4)) 0 3 3 4 (by norm_num) (by norm_num))) _ (Nat.mod_lt i hF)
  rw [rT _ (rect_rows 3 4 _ (valid_part _ (hv ((i / F + 3) % 4)) 2 3 3 4 (by norm_num) (by norm_num))) _
    (Nat.mod_lt i hF)]
  unfold Engine.square3
  push_cast
  rw [e1, e2]
  omega

/-- **C103** (square v3, int4 tables, end to end). -/
theorem C103_square_v3_int4_file (batch : Nat) (hbatch : 0 < batch) (nd : Bool) (F : Nat) (hF2 : F % 2 = 0)
    (mc1 mc2 mm : List Conv) (h1 : Mapping 3 4 mc1) (h2 : Mapping 3 4 mc2) (hm : Mapping 3 4 mm)
    (l1 l2 l3 : Lin) (file : List Nat)
    (hf : squareFile3 batch true nd F mc1 mc2 mm l1 l2 l3 = some file) (b : Board) (hb : Valid b) (o : Nat)
    (ho : o < valueRows nd) :
    let S := Engine.square3Struct true F
    let L := Engine.layer file 1 S
    let T : Nat → Engine.Table := fun k i c =>
      Engine.nibble (Engine.unsigned file 1 S k (i * (F / 2) + c / 2)) c
    squareForward3 true F mc1 mc2 mm l1 l2 l3 b o =
      (Engine.squareHead (F * 4) 64 (L 3 (F * 4)) (L 5 64) (L 7 32)
        (Engine.square3 16 F (T 0) (T 1) (T 2) b) o : ℚ) / 2 ^ 14 := by
  intro S L T
  unfold squareFile3 v3Tables at hf
  rw [if_pos rfl] at hf
  split_ifs at hf with hc
  simp only [packedEntries_rows _ _ _ _ hbatch] at hf
  obtain ⟨P, hP⟩ : ∃ P : List Conv → Write, P = fun m => (1, rowMajor (rows 3 4) (F / 2) fun i k =>
      packPair (squareRow table4 3 4 m i (2 * k)) (squareRow table4 3 4 m i (2 * k + 1))) := ⟨_, rfl⟩
  obtain ⟨ts, hts⟩ : ∃ ts : List Write, ts = [P mc1, P mc2, P mm] := ⟨_, rfl⟩
  obtain ⟨ws, hws⟩ : ∃ ws, ws = ts ++ squareLayers nd (F * 4) 64 l1 l2 l3 := ⟨_, rfl⟩
  have hfile : file = writeAll [] 1 (ws.map writeBytes) := by
    rw [← plainFile_eq, hws, hts, hP]
    exact (Option.some.inj hf).symm
  have hS : S = members ws := by
    rw [hws, members_append, squareLayers_members, hts, hP]
    unfold members
    simp only [List.map_cons, List.map_nil, rowMajor_length, rows44, rows43, rows34]
    rfl
  have rT : ∀ (k : Nat) m, ws[k]? = some (P m) → ∀ i < rows 3 4, ∀ c < F, T k i c = squareRow table4 3 4 m i c := by
    intro k m hk i hi c hc
    rw [hP] at hk
    show Engine.nibble (Engine.unsigned file 1 S k (i * (F / 2) + c / 2)) c = _
    rw [hfile, hS]
    exact packed_read 1 (by norm_num) ws k (rows 3 4) F hF2 (squareRow table4 3 4 m) hk
      (squareRow_range4 _ _ _) i c hi hc
  rw [C103_square_v3 true F mc1 mc2 mm h1 h2 hm l1 l2 l3 b hb o]
  congr 2
  show _ = Engine.squareHead (F * 4) 64 (Engine.layer file 1 S 3 (F * 4)) (Engine.layer file 1 S 5 64)
    (Engine.layer file 1 S 7 32) _ o
  rw [hfile, hS]
  refine (square_layers_read 1 (by norm_num) ts ws nd (F * 4) 64 l1 l2 l3 hws 3 (by rw [hts]; rfl) _ _
    (fun i hi => ?_) o ho).symm
  exact square3_congr 16 F _ _ _ _ _ _ (fun i hi c hc => rT 0 mc1 (by rw [hws, hts]; rfl) i hi c hc)
    (fun i hi c hc => rT 1 mc2 (by rw [hws, hts]; rfl) i hi c hc)
    (fun i hi c hc => rT 2 mm (by rw [hws, hts]; rfl) i hi c hc) b hb i hi

/-! ### v4: one array for three tables, aligned members -/

theorem flatMap_three (n : Nat) (f : Nat → List Int) (hf : ∀ j, (f j).length = n) (j k : Nat) (hj : j < 3)
    (hk : k < n) : ((List.range 3).flatMap f)[j * n + k]? = (f j)[k]? := by
  have r3 : List.range 3 = [0, 1, 2] := rfl
  rw [r3]
  simp only [List.flatMap_cons, List.flatMap_nil, List.append_nil]
  have h0 := hf 0
  have h1 := hf 1
  interval_cases j
  · rw [List.getElem?_append_left (by omega)]
    congr 1
    omega
  · rw [List.getElem?_append_right (by omega), List.getElem?_append_left (by omega)]
    congr 1
    omega
  · rw [List.getElem?_append_right (by omega), List.getElem?_append_right (by omega)]
    congr 1
    omega

theorem range3 : List.range 3 = [0, 1, 2] := by decide

/-- **C103** (square v4, end to end): every member at a multiple of 32. -/
theorem C103_square_v4_file (batch : Nat) (hbatch : 0 < batch) (nd : Bool) (F : Nat) (m : Nat → List Conv)
    (hm : ∀ j < 3, Mapping 4 4 (m j)) (l1 l2 l3 : Lin) (file : List Nat)
    (hf : squareFile4 batch nd F m l1 l2 l3 = some file) (b : Board) (hb : Valid b) (o : Nat)
    (ho : o < valueRows nd) :
    let S := Engine.square4Struct F
    let L := Engine.layer file 32 S
    let T : Nat → Engine.Table := fun j i c => Engine.signed file 32 S 0 (j * (43046721 * F) + (i * F + c))
    squareForward4 (fun _ x => x) F m l1 l2 l3 b o =
      (Engine.squareHead F 32 (L 1 F) (L 3 32) (L 5 32) (Engine.square4 (T 0) (T 1) (T 2) b) o : ℚ)
        / 2 ^ 14 := by
  intro S L T
  unfold squareFile4 at hf
  split_ifs at hf with hc
  simp only [squareEntries_rows _ _ _ _ _ hbatch] at hf
  obtain ⟨xs, hxs⟩ : ∃ xs : List Int, xs = (List.range 3).flatMap fun j =>
    rowMajor (rows 4 4) F (squareRow tableV4 4 4 (m j)) := ⟨_, rfl⟩
  have hxl : xs.length = 3 * 43046721 * F := by
    rw [hxs, List.length_flatMap]
    simp only [rowMajor_length, range3, List.map_cons, List.map_nil, List.sum_cons, List.sum_nil]
    rw [rows44]
    ring
  obtain ⟨ws, hws⟩ : ∃ ws : List Write, ws = [(1, xs)] ++ squareLayers nd F 32 l1 l2 l3 := ⟨_, rfl⟩
  have hfile : file = writeAll [] 32 (ws.map writeBytes) := by
    rw [hws, hxs]
    exact (Option.some.inj hf).symm
  have hS : S = members ws := by
    rw [hws, members_append, squareLayers_members]
    unfold members
    simp only [List.map_cons, List.map_nil, hxl]
    rfl
  have rT : ∀ j < 3, ∀ i < rows 4 4, ∀ c < F, T j i c = squareRow tableV4 4 4 (m j) i c := by
    intro j hj i hi c hc
    have hr : -128 ≤ squareRow tableV4 4 4 (m j) i c ∧ squareRow tableV4 4 4 (m j) i c ≤ 127 := squareRow_rangeV4 _ _ _ _ _
    show Engine.signed file 32 S 0 (j * (43046721 * F) + (i * F + c)) = _
    rw [hfile, hS]
    refine read_signed 32 (by norm_num) ws 0 1 (by norm_num) xs (by rw [hws]; rfl) _ _ ?_
      (by norm_num; omega) (by norm_num; omega)
    have hlt : i * F + c < 43046721 * F := by
      have : (i + 1) * F ≤ 43046721 * F := Nat.mul_le_mul_right _ (by rw [← rows44]; exact hi)
      rw [Nat.succ_mul] at this
      omega
    rw [hxs, flatMap_three (43046721 * F) _ (fun j => by rw [rowMajor_length, rows44]) j _ hj hlt]
    exact rowMajor_get _ _ _ i c hi hc
  rw [C103_square_v4 F m hm l1 l2 l3 b hb o]
  congr 2
  show _ = Engine.squareHead F 32 (Engine.layer file 32 S 1 F) (Engine.layer file 32 S 3 32)
    (Engine.layer file 32 S 5 32) _ o
  rw [hfile, hS]
  refine (square_layers_read 32 (by norm_num) [(1, xs)] ws nd F 32 l1 l2 l3 hws 1 rfl _ _
    (fun i hi => ?_) o ho).symm
  exact square4_congr _ _ _ _ _ _ _ (fun k hk => rT 0 (by norm_num) k hk i hi)
    (fun k hk => rT 1 (by norm_num) k hk i hi) (fun k hk => rT 2 (by norm_num) k hk i hi) b hb

/-- **C103** (square v4 with vector quantisation, end to end): the engine reads the number of the code
of a chunk (`uint16_t`) and then the code. -/
theorem C103_square_v4_vq_file (batch : Nat) (hbatch : 0 < batch) (nd : Bool) (F codes : Nat)
    (pick : Nat → Vec → Nat) (code : Nat → Nat → Vec) (m : Nat → List Conv)
    (hm : ∀ j < 3, Mapping 4 4 (m j)) (l1 l2 l3 : Lin) (file : List Nat)
    (hf : squareFile4Vq batch nd F codes pick code m l1 l2 l3 = some file) (b : Board) (hb : Valid b)
    (o : Nat) (ho : o < valueRows nd) :
    let S := Engine.square4VqStruct F codes
    let L := Engine.layer file 32 S
    let number : Nat → Nat → Nat := fun j i => Engine.unsigned file 32 S 0 (j * 43046721 + i)
    let T : Nat → Engine.Table := fun j i c =>
      Engine.signed file 32 S 1 (j * (codes * F) + (number j i * F + c))
    squareForward4 (fun j => vqOut (pick j) (code j)) F m l1 l2 l3 b o =
      (Engine.squareHead F 32 (L 2 F) (L 4 32) (L 6 32) (Engine.square4 (T 0) (T 1) (T 2) b) o : ℚ)
        / 2 ^ 14 := by
  intro S L number T
  unfold squareFile4Vq at hf
  split_ifs at hf with hc
  obtain ⟨hcodes, hpick, _⟩ := hc
  simp only [← rows_eq] at hpick
  simp only [C103_batches _ _ hbatch, ← rows_eq] at hf
  obtain ⟨xs, hxs⟩ : ∃ xs : List Int, xs = (List.range 3).flatMap fun j =>
    (List.range (rows 4 4)).map fun i => (codeRow (pick j) (m j) i : Int) := ⟨_, rfl⟩
  obtain ⟨ys, hys⟩ : ∃ ys : List Int, ys = (List.range 3).flatMap fun j =>
    rowMajor codes F fun k c => tableCode (code j k c) := ⟨_, rfl⟩
  have hxl : xs.length = 3 * 43046721 := by
    rw [hxs, List.length_flatMap]
    simp only [List.length_map, List.length_range, range3, List.map_cons, List.map_nil, List.sum_cons, List.sum_nil, rows44]
    norm_num
  have hyl : ys.length = 3 * codes * F := by
    rw [hys, List.length_flatMap]
    simp only [rowMajor_length, range3, List.map_cons, List.map_nil, List.sum_cons, List.sum_nil]
    ring
  obtain ⟨ws, hws⟩ : ∃ ws : List Write, ws = [(2, xs), (1, ys)] ++ squareLayers nd F 32 l1 l2 l3 := ⟨_, rfl⟩
  have hfile : file = writeAll [] 32 (ws.map writeBytes) := by
    rw [hws, hxs, hys]
    exact (Option.some.inj hf).symm
  have hS : S = members ws := by
    rw [hws, members_append, squareLayers_members]
    unfold members
    simp only [List.map_cons, List.map_nil, hxl, hyl]
    rfl
  have rN : ∀ j < 3, ∀ i < rows 4 4, number j i = codeRow (pick j) (m j) i := by
    intro j hj i hi
    have hlt := hpick j hj i hi
    have := read_unsigned 32 (by norm_num) ws 0 2 xs (by rw [hws]; rfl) (j * 43046721 + i)
      (codeRow (pick j) (m j) i : Int) (by
        rw [hxs, flatMap_three 43046721 _ (fun j => by rw [List.length_map, List.length_range, rows44]) j i hj
          (by rw [← rows44]; exact hi)]
        rw [List.getElem?_map, List.getElem?_range hi]; rfl)
    show Engine.unsigned file 32 S 0 (j * 43046721 + i) = _
    rw [hfile, hS, this]
    norm_num
    omega
  have rT : ∀ j < 3, ∀ i < rows 4 4, ∀ c < F,
      T j i c = tableCode (code j (codeRow (pick j) (m j) i) c) := by
    intro j hj i hi c hc
    have hr : -128 ≤ tableCode (code j (codeRow (pick j) (m j) i) c)
        ∧ tableCode (code j (codeRow (pick j) (m j) i) c) ≤ 127 := by
      rw [tableCode_eq]; exact tableV4_range _
    show Engine.signed file 32 S 1 (j * (codes * F) + (number j i * F + c)) = _
    rw [rN j hj i hi, hfile, hS]
    refine read_signed 32 (by norm_num) ws 1 1 (by norm_num) ys (by rw [hws]; rfl) _ _ ?_
      (by norm_num; omega) (by norm_num; omega)
    have hp := hpick j hj i hi
    have hlt : codeRow (pick j) (m j) i * F + c < codes * F := by
      have : (codeRow (pick j) (m j) i + 1) * F ≤ codes * F := Nat.mul_le_mul_right _ hp
      rw [Nat.succ_mul] at this
      omega
    rw [hys, flatMap_three (codes * F) _ (fun j => rowMajor_length _ _ _) j _ hj hlt]
    exact rowMajor_get codes F (fun k c => tableCode (code j k c)) _ c hp hc
  rw [C103_square_v4_vq pick code F m hm l1 l2 l3 b hb o]
  congr 2
  show _ = Engine.squareHead F 32 (Engine.layer file 32 S 2 F) (Engine.layer file 32 S 4 32)
    (Engine.layer file 32 S 6 32) _ o
  rw [hfile, hS]
  refine (square_layers_read 32 (by norm_num) [(2, xs), (1, ys)] ws nd F 32 l1 l2 l3 hws 2 rfl _ _
    (fun i hi => ?_) o ho).symm
  exact square4_congr _ _ _ _ _ _ _ (fun k hk => rT 0 (by norm_num) k hk i hi)
    (fun k hk => rT 1 (by norm_num) k hk i hi) (fun k hk => rT 2 (by norm_num) k hk i hi) b hb

end Verif.Flat
