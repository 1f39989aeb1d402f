import Verif.Decode.Props74

/-! # C74: packed requests -/
namespace Verif.Decode
open Verif.Board Verif.Rng

variable {α : Type}

/-- The reference that the unpacked path builds for a packed row (dataset/npz_source.py:500-527): `bs` gives the board size of each file. -/
def Request.ref (q : Request) (bs : Nat → Nat × Nat) (r : Nat × Nat) : Ref :=
  ⟨(q.files.getD r.1 ("", [])).1, r.2, (bs r.1).1, (bs r.1).2, q.key r⟩

/-- One packed row before the pass entry is dropped. -/
def packRaw [Zero α] (c : Cfg α) (q : Request) (r : Nat × Nat) : Option (Row α) :=
  (q.files[r.1]?).bind fun file => (c.load file.1).bind fun a =>
    (a.bf[r.2]?).bind fun p => (gfAt a r.2).bind fun s => (a.vt[r.2]?).bind fun v =>
      (ptAt c a q.bh q.bw r.2).map fun p' => ⟨q.bh, q.bw, a.h, a.w, p, s, v, p'⟩

theorem packedGroup_eq [Zero α] (c : Cfg α) (a : Arrays α) (h w : Nat) (idx : List Nat) :
    packedGroup c a h w idx = idx.mapM fun i => (a.bf[i]?).bind fun p => (gfAt a i).bind fun s => (a.vt[i]?).bind fun v =>
      (ptAt c a h w i).map fun p' => (⟨h, w, a.h, a.w, p, s, v, p'⟩ : Row α) := by
  have hz := zipRows_mapM a.h a.w idx (fun _ => (h, w)) (fun i => a.bf[i]?) (fun i => gfAt a i) (fun i => a.vt[i]?) (fun i => ptAt c a h w i)
  rw [← hz]
  have g2 : selected a.gf [0] idx = idx.mapM fun i => gfAt a i := by
    unfold gfAt selected
    cases a.gf with
    | none => simp only []; rw [mapM_some_map]; simp
    | some g => rfl
  have g4 : selected a.pt (defaultPolicy c.hasPass h w) idx =
      idx.mapM fun i => ptAt c a h w i := by
    unfold ptAt selected
    cases a.pt with
    | none => simp only []; rw [mapM_some_map]; simp
    | some g => rfl
  unfold packedGroup
  rw [g2, g4]
  have e : (idx.map fun _ => (h, w)) = List.replicate idx.length (h, w) := by simp [List.map_const']
  rw [e]
  unfold takeAt
  cases idx.mapM fun i => a.bf[i]? with
  | none => rfl
  | some _ =>
  cases idx.mapM fun i => gfAt a i with
  | none => rfl
  | some _ =>
  cases idx.mapM fun i => a.vt[i]? with
  | none => rfl
  | some _ =>
  cases idx.mapM fun i => ptAt c a h w i with
  | none => rfl
  | some _ => rfl

/-- What a packed row is made of. -/
theorem packRaw_some [Zero α] {c : Cfg α} {q : Request} {r : Nat × Nat} {x : Row α} (h : packRaw c q r = some x) :
    ∃ file a, q.files[r.1]? = some file ∧ c.load file.1 = some a ∧ r.2 < a.bf.length ∧ a.bf[r.2]? = some x.planes ∧ gfAt a r.2 = some x.stm ∧
      a.vt[r.2]? = some x.value ∧ ptAt c a q.bh q.bw r.2 = some x.policy ∧ x.bh = q.bh ∧ x.bw = q.bw ∧ x.h = a.h ∧ x.w = a.w := by
  unfold packRaw at h
  cases hf : q.files[r.1]? with
  | none => simp [hf] at h
  | some file =>
  cases ha : c.load file.1 with
  | none => simp [hf, ha] at h
  | some a =>
  cases h1 : a.bf[r.2]? with
  | none => simp [hf, ha, h1] at h
  | some p =>
  cases h2 : gfAt a r.2 with
  | none => simp [hf, ha, h1, h2] at h
  | some s =>
  cases h3 : a.vt[r.2]? with
  | none => simp [hf, ha, h1, h2, h3] at h
  | some v =>
  cases h4 : ptAt c a q.bh q.bw r.2 with
  | none => simp [hf, ha, h1, h2, h3, h4] at h
  | some p' =>
    simp [hf, ha, h1, h2, h3, h4] at h
    subst h
    exact ⟨file, a, rfl, ha, (List.getElem?_eq_some_iff.mp h1).1, h1, h2, h3, h4, rfl, rfl, rfl, rfl⟩

/-- Two rows of one file have the same raw shape. -/
theorem col_shape [Zero α] {c : Cfg α} {a : Arrays α} (hw : WellFormed a) {h w i j : Nat} {x y : Row α}
    (x1 : a.bf[i]? = some x.planes) (x2 : gfAt a i = some x.stm) (x3 : a.vt[i]? = some x.value) (x4 : ptAt c a h w i = some x.policy)
    (y1 : a.bf[j]? = some y.planes) (y2 : gfAt a j = some y.stm) (y3 : a.vt[j]? = some y.value) (y4 : ptAt c a h w j = some y.policy) :
    x.planes.length = y.planes.length ∧ x.stm.length = y.stm.length ∧ x.value.length = y.value.length ∧
      policyShape x.policy = policyShape y.policy := by
  obtain ⟨n1, hn1⟩ := hw.1
  obtain ⟨n3, hn3⟩ := hw.2.2.1.2
  refine ⟨?_, ?_, ?_, ?_⟩
  · rw [hn1 _ (List.mem_of_getElem? x1), hn1 _ (List.mem_of_getElem? y1)]
  · unfold gfAt at x2 y2
    cases hg : a.gf with
    | none => simp [hg] at x2 y2; rw [← x2, ← y2]
    | some g =>
      obtain ⟨_, n, hn⟩ := hw.2.1 g hg
      simp [hg] at x2 y2
      rw [hn _ (List.mem_of_getElem? x2), hn _ (List.mem_of_getElem? y2)]
  · rw [hn3 _ (List.mem_of_getElem? x3), hn3 _ (List.mem_of_getElem? y3)]
  · unfold ptAt at x4 y4
    cases hg : a.pt with
    | none => simp [hg] at x4 y4; rw [← x4, ← y4]
    | some g =>
      obtain ⟨_, ⟨s, hn⟩, _⟩ := hw.2.2.2 g hg
      simp [hg] at x4 y4
      rw [hn _ (List.mem_of_getElem? x4), hn _ (List.mem_of_getElem? y4)]

theorem mem_usedFiles (q : Request) (f : Nat) : f ∈ usedFiles q ↔ ∃ r ∈ q.rows, r.1 = f := by
  have key : ∀ (l : List Nat) (p : Nat → Nat → Bool), f ∈ l.foldr (fun g acc => acc.takeWhile (p g) ++ g :: acc.dropWhile (p g)) [] ↔ f ∈ l := by
    intro l p
    induction l with
    | nil => simp
    | cons g gs ih =>
      rw [List.foldr_cons]
      generalize gs.foldr (fun g acc => acc.takeWhile (p g) ++ g :: acc.dropWhile (p g)) [] = acc at ih
      have : f ∈ acc ↔ f ∈ acc.takeWhile (p g) ∨ f ∈ acc.dropWhile (p g) := by
        rw [← List.mem_append, List.takeWhile_append_dropWhile]
      rw [List.mem_append, List.mem_cons, List.mem_cons, ← ih, this]
      tauto
  unfold usedFiles
  rw [key _ (fun f g => decide ((q.rows.map (·.1)).count g < (q.rows.map (·.1)).count f)), mem_distinct]
  simp

/-- Conditions on a packed request: indices are valid, and the announced sizes are those of the files; the request carries the size of the first row. -/
structure RequestOk (c : Cfg α) (q : Request) (bs : Nat → Nat × Nat) : Prop where
  idx : ∀ r ∈ q.rows, r.1 < q.files.length ∧ r.2 < 2 ^ 64
  first : ∀ r, q.rows.head? = some r → (q.bh, q.bw) = bs r.1
  refs : RefsOk c (q.rows.map (q.ref bs))

theorem RequestOk.file [Zero α] {c : Cfg α} {q : Request} {bs : Nat → Nat × Nat} (hq : RequestOk c q bs) {r : Nat × Nat} (hr : r ∈ q.rows) :
    ∃ file, q.files[r.1]? = some file ∧ (q.ref bs r).path = file.1 ∧ ∀ a, c.load file.1 = some a → WellFormed a ∧ bs r.1 = (a.h, a.w) := by
  have hlt := (hq.idx r hr).1
  have hp : (q.ref bs r).path = (q.files[r.1]).1 := by
    simp [Request.ref, List.getD_eq_getElem?_getD, hlt]
  refine ⟨q.files[r.1], List.getElem?_eq_getElem hlt, hp, ?_⟩
  intro a ha
  obtain ⟨h1, h2, h3⟩ := hq.refs (q.ref bs r) (List.mem_map.mpr ⟨r, hr, rfl⟩) a (by rw [hp]; exact ha)
  exact ⟨h1, by rw [← h2, ← h3]; rfl⟩

theorem packed_assemble [Zero α] (c : Cfg α) (q : Request) (bs : Nat → Nat × Nat) (hq : RequestOk c q bs) (hne : q.rows ≠ []) :
    ((assemble (q.rows.map (·.1)) (packedRows c q) (usedFiles q) none (List.replicate q.rows.length none)).bind (·.mapM id)) =
      (q.rows.mapM (packRaw c q)).bind stack := by
  have hrep : (List.replicate q.rows.length none : List (Option (Row α))) =
      q.rows.map fun x => if (fun _ => false) x = true then packRaw c q x else none := by
    simp [List.map_const']
  rw [hrep]
  refine assemble_eq q.rows Prod.fst (packRaw c q) _ ?_ ?_ hne _ (fun _ => false) none
      (fun x hx => Or.inr ((mem_usedFiles q _).mpr ⟨x, hx, rfl⟩))
      (fun k hk => (mem_usedFiles q k).mp hk) (fun _ _ => rfl)
  · intro f ⟨x, hx, hxf⟩
    have hmem : x ∈ q.rows.filter fun r => decide (r.1 = f) := List.mem_filter.mpr ⟨hx, by simpa using hxf⟩
    have hpath : ∀ r ∈ q.rows.filter fun r => decide (r.1 = f), r.1 = f := fun r hr => by simpa using (List.mem_filter.mp hr).2
    unfold packedRows
    cases hf : q.files[f]? with
    | none => rw [mapM_none hmem (by simp [packRaw, hxf, hf])]; rfl
    | some file =>
      cases ha : c.load file.1 with
      | none => rw [mapM_none hmem (by simp [packRaw, hxf, hf, ha])]; simp [ha]
      | some a =>
        simp only [Option.bind_some, ha]
        rw [packedGroup_eq, mapM_map']
        apply mapM_congr'
        intro r hr
        simp [packRaw, hpath r hr, hf, ha]
  · intro x hx y hy hk a b ha hb
    obtain ⟨file, A, x1, x2, _, x4, x5, x6, x7, _, _, x8, x9⟩ := packRaw_some ha
    obtain ⟨file', A', y1, y2, _, y4, y5, y6, y7, _, _, y8, y9⟩ := packRaw_some hb
    rw [← hk, x1] at y1
    cases y1
    rw [x2] at y2
    cases y2
    obtain ⟨f', hf', _, hw⟩ := hq.file hx
    rw [x1] at hf'; cases hf'
    obtain ⟨s1, s2, s3, s4⟩ := col_shape (hw A x2).1 x4 x5 x6 x7 y4 y5 y6 y7
    simp [Row.shape, s1, s2, s3, s4, x8, x9, y8, y9]

theorem drawPacked_eq (c : Cfg α) (q : Request) (hidx : ∀ r ∈ q.rows, r.1 < q.files.length ∧ r.2 < 2 ^ 64) (n : Nat) (hn : 0 < n) (hn' : n ≤ 8) :
    drawPacked c q n = drawKeys c (q.rows.map q.key) n := by
  unfold drawPacked
  split_ifs with hp
  · rw [C03_v2_packed_rows c.H n hn (by omega) hp c.seed "symmetry" c.epoch 0 _ _ (by
      intro r hr
      obtain ⟨x, hx, rfl⟩ := List.mem_map.mp hr
      simpa using (hidx x hx).1)]
    unfold drawKeys
    congr 1
    rw [List.map_map]
    apply List.map_congr_left
    intro r hr
    have h1 := (hidx r hr).1
    have h2 := (hidx r hr).2
    have h3 : (UInt64.ofNat r.2).toNat = r.2 := by rw [UInt64.toNat_ofNat']; exact Nat.mod_eq_of_lt h2
    simp only [Function.comp, Request.key, h3]
    congr 1
    simp [List.getD_eq_getElem?_getD, h1]
  · rfl

/-- Drop the pass entry of a row (dataset/decoder.py:703-713). -/
theorem packed_tail [Zero α] (c : Cfg α) (hc : c.fixedSize = none) (hv : ValidSeed c) (q : Request) (bs : Nat → Nat × Nat) (hq : RequestOk c q bs)
    (hne : q.rows ≠ []) (rows : List (Row α)) (hm : q.rows.mapM (packRaw c q) = some rows)
    (hdim : ∀ x ∈ rows, x.h = q.bh ∧ x.w = q.bw) :
    (match rows.mapM (fun r => (dropPass c.hasPass q.bh q.bw r.policy).map fun p => { r with policy := p }) with
      | none => none
      | some rows' => vecPost c (drawPacked c q) rows') = (q.rows.map (q.ref bs)).mapM (decodeOne c) := by
  rw [mapM_map']
  -- one row
  have hrow : ∀ r ∈ q.rows, ∃ a, c.load (q.ref bs r).path = some a ∧ WellFormed a ∧ a.h = q.bh ∧ a.w = q.bw ∧ r.2 < a.bf.length ∧
      ((packRaw c q r).bind fun x => (dropPass c.hasPass q.bh q.bw x.policy).map fun p => { x with policy := p }) = rawRow c a r.2 := by
    intro r hr
    obtain ⟨x, hx, hxr⟩ := mapM_mem hm hr
    obtain ⟨file, a, x1, x2, x3, x4, x5, x6, x7, x8, x9, x10, x11⟩ := packRaw_some hxr
    obtain ⟨f', hf', hp, hw⟩ := hq.file hr
    rw [x1] at hf'; cases hf'
    obtain ⟨d1, d2⟩ := hdim x hx
    refine ⟨a, by rw [hp]; exact x2, (hw a x2).1, by rw [← x10, d1], by rw [← x11, d2], x3, ?_⟩
    have e1 : a.h = q.bh := by rw [← x10, d1]
    have e2 : a.w = q.bw := by rw [← x11, d2]
    rw [hxr, rawRow_eq, x4, x5, x6, e1, e2, x7]
    simp only [Option.bind_some]
    cases dropPass c.hasPass q.bh q.bw x.policy with
    | none => rfl
    | some p =>
      simp only [Option.map_some]
      congr 1
      cases x
      simp_all
  have hdec : ∀ r ∈ q.rows, decodeOne c (q.ref bs r) =
      ((packRaw c q r).bind fun x => (dropPass c.hasPass q.bh q.bw x.policy).map fun p => { x with policy := p }).bind fun row =>
        (pickOne c q.bh q.bw (q.key r)).bind fun i => postOne c i row := by
    intro r hr
    obtain ⟨a, h1, h2, h3, h4, h5, h6⟩ := hrow r hr
    rw [h6, decodeOne_eq c _ a h1 (by exact h5), h3, h4]
    rfl
  rw [mapM_congr' hdec]
  have hcomp := mapM_bind (packRaw c q) (fun x => (dropPass c.hasPass q.bh q.bw x.policy).map fun p => { x with policy := p }) q.rows
  rw [hm, Option.bind_some] at hcomp
  cases hd : rows.mapM (fun r => (dropPass c.hasPass q.bh q.bw r.policy).map fun p => { r with policy := p }) with
  | none =>
    rw [hd] at hcomp
    obtain ⟨r, hr, hn⟩ := exists_none_of_mapM hcomp.symm
    rw [mapM_none hr (by rw [hn]; rfl)]
  | some rows' =>
    rw [hd] at hcomp
    simp only []
    have hlen := mapM_length hcomp.symm
    rw [vecPost_eq c hc q.bh q.bw rows' (q.rows.map q.key) (by simp [hlen]) (by
        intro h0; subst h0
        exact hne (List.length_eq_zero_iff.mp (by simpa using hlen.symm))) (by
        intro x hx
        obtain ⟨r, hr, hrx⟩ := mapM_mem_rev hcomp.symm hx
        obtain ⟨a, h1, h2, h3, h4, h5, h6⟩ := hrow r hr
        rw [h6] at hrx
        rw [← h3, ← h4]
        exact rawRow_good h2 hrx) _ (fun n h1 h2 => drawPacked_eq c q hq.idx n h1 h2) hv]
    exact zip_map_mapM _ q.key (fun p => (pickOne c q.bh q.bw p.2).bind fun i => postOne c i p.1) q.rows rows' hcomp.symm

theorem decodePacked_eq [Zero α] (c : Cfg α) (q : Request) (hne : q.rows ≠ []) :
    decodePacked c q = (match (assemble (q.rows.map (·.1)) (packedRows c q) (usedFiles q) none (List.replicate q.rows.length none)).bind (·.mapM id) with
      | none => none
      | some rows =>
        match rows.mapM (fun r => (dropPass c.hasPass q.bh q.bw r.policy).map fun p => { r with policy := p }) with
        | none => none
        | some rows' => vecPost c (drawPacked c q) rows') := by
  unfold decodePacked
  cases h : q.rows with
  | nil => exact absurd h hne
  | cons r rs => rfl

theorem row_h [Zero α] {c : Cfg α} {q : Request} {bs : Nat → Nat × Nat} (hq : RequestOk c q bs) {r : Nat × Nat} (hr : r ∈ q.rows) {x : Row α}
    (hx : packRaw c q r = some x) : bs r.1 = (x.h, x.w) := by
  obtain ⟨file, a, x1, x2, x3, x4, x5, x6, x7, x8, x9, x10, x11⟩ := packRaw_some hx
  obtain ⟨f', hf', hp, hw⟩ := hq.file hr
  rw [x1] at hf'; cases hf'
  rw [(hw a x2).2, x10, x11]

/-- **C74 (packed requests).** When the packed decoder succeeds, its batch is the one the references of its rows give. -/
theorem C74_packed [Zero α] (c : Cfg α) (hc : c.fixedSize = none) (hv : ValidSeed c) (q : Request) (bs : Nat → Nat × Nat) (hq : RequestOk c q bs)
    (out : List (Row α)) (h : decodePacked c q = some out) : materializeRefs c (q.rows.map (q.ref bs)) = some out := by
  have hne : q.rows ≠ [] := by intro h0; simp [decodePacked, h0] at h
  rw [decodePacked_eq c q hne, packed_assemble c q bs hq hne] at h
  rw [C74_materialize c hv _ hq.refs]
  cases hm : q.rows.mapM (packRaw c q) with
  | none => simp [hm] at h
  | some rows =>
    rw [hm, Option.bind_some] at h
    cases hs : stack rows with
    | none => simp [hs] at h
    | some rows0 =>
      rw [hs] at h
      obtain ⟨rfl, hrne, hsh⟩ := stack_some hs
      simp only [] at h
      have hdim : ∀ x ∈ rows0, x.h = q.bh ∧ x.w = q.bw := by
        obtain ⟨r0, rs, hrs⟩ := List.exists_cons_of_ne_nil hne
        obtain ⟨x0, hx0, hf0⟩ := mapM_mem hm (x := r0) (by simp [hrs])
        have e0 := row_h hq (by simp [hrs]) hf0
        have e1 := hq.first r0 (by simp [hrs])
        rw [e0] at e1
        intro x hx
        have := hsh x hx x0 hx0
        simp only [Row.shape, Shape.mk.injEq] at this
        simp only [Prod.mk.injEq] at e1
        exact ⟨by rw [this.2.1, e1.1], by rw [this.2.2.1, e1.2]⟩
      rw [packed_tail c hc hv q bs hq hne rows0 hm hdim] at h
      rw [h, Option.bind_some]
      -- shapes of the result
      have hon : out ≠ [] := by
        intro h0; subst h0
        have := mapM_length h
        exact hne (List.length_eq_zero_iff.mp (by simpa using this.symm))
      have hshape : ∀ x ∈ out, ∃ y ∈ rows0, ∃ p, dropPass c.hasPass q.bh q.bw y.policy = some p ∧ x.shape = ({ y with policy := p } : Row α).shape := by
        intro x hx
        obtain ⟨ref, href, hd⟩ := mapM_mem_rev h hx
        obtain ⟨r, hr, rfl⟩ := List.mem_map.mp href
        obtain ⟨y, hy, hry⟩ := mapM_mem hm hr
        obtain ⟨file, a, x1, x2, x3, x4, x5, x6, x7, x8, x9, x10, x11⟩ := packRaw_some hry
        obtain ⟨f', hf', hp, hw⟩ := hq.file hr
        rw [x1] at hf'; cases hf'
        obtain ⟨_, z, i, hz, _, hpost⟩ := decodeOne_raw (by rw [hp]; exact x2) hd
        have hgood := rawRow_good (hw a x2).1 hz
        have e1 : a.h = q.bh := by rw [← x10, (hdim y hy).1]
        have e2 : a.w = q.bw := by rw [← x11, (hdim y hy).2]
        have hz' : rawRow c a r.2 = some z := hz
        rw [rawRow_eq, x4, x5, x6, e1, e2, x7] at hz'
        simp only [Option.bind_some] at hz'
        cases hdp : dropPass c.hasPass q.bh q.bw y.policy with
        | none => simp [hdp] at hz'
        | some p =>
          rw [hdp, Option.map_some, Option.some.injEq] at hz'
          refine ⟨y, hy, p, hdp, ?_⟩
          rw [postOne_shape hc hgood hpost, ← hz']
          simp [Row.shape, (hdim y hy).1, (hdim y hy).2]
      obtain ⟨x0, hx0⟩ := List.exists_mem_of_ne_nil _ hon
      refine stack_uniform (s := x0.shape) hon ?_
      intro x hx
      obtain ⟨y, hy, p, hp, he⟩ := hshape x hx
      obtain ⟨y', hy', p', hp', he'⟩ := hshape x0 hx0
      rw [he, he']
      have hyy := hsh y hy y' hy'
      simp only [Row.shape, Shape.mk.injEq] at hyy ⊢
      obtain ⟨a1, a2, a3, a4, a5, a6⟩ := hyy
      refine ⟨a1, a2, a3, a4, a5, ?_⟩
      unfold dropPass at hp hp'
      split_ifs at hp hp' with hh
      · cases hp; cases hp'; exact a6
      · cases hpy : y.policy with
        | plane g =>
          cases hpy' : y'.policy with
          | plane g' =>
            rw [hpy] at hp a6; rw [hpy'] at hp' a6
            simp at hp hp'; rw [← hp, ← hp']; exact a6
          | flat v' => rw [hpy, hpy'] at a6; simp [policyShape] at a6
        | flat v =>
          cases hpy' : y'.policy with
          | plane g' => rw [hpy, hpy'] at a6; simp [policyShape] at a6
          | flat v' =>
            rw [hpy] at hp; rw [hpy'] at hp'
            simp only at hp hp'
            split_ifs at hp hp'
            cases hp; cases hp'; rfl

/-- The policy arrays of the files of a request have one layout (all flat, or all planes). -/
def SamePolicyLayout [Zero α] (c : Cfg α) (q : Request) (bs : Nat → Nat × Nat) : Prop :=
  ∀ r ∈ q.rows, ∀ r' ∈ q.rows, ∀ a a' p p', c.load (q.ref bs r).path = some a → c.load (q.ref bs r').path = some a' →
    ptAt c a a.h a.w r.2 = some p → ptAt c a' a'.h a'.w r'.2 = some p' → (policyShape p = policyShape p' ∨ a.h ≠ a'.h ∨ a.w ≠ a'.w)

/-- **C74 (packed requests, equality).** If moreover the files share one policy layout, packed and unpacked decoding are equal, failures included. -/
theorem C74_packed_eq [Zero α] (c : Cfg α) (hc : c.fixedSize = none) (hv : ValidSeed c) (q : Request) (bs : Nat → Nat × Nat) (hq : RequestOk c q bs)
    (hlay : SamePolicyLayout c q bs) : decodePacked c q = materializeRefs c (q.rows.map (q.ref bs)) := by
  cases hp : decodePacked c q with
  | some out => rw [C74_packed c hc hv q bs hq out hp]
  | none =>
    by_contra hcon
    cases hmat : materializeRefs c (q.rows.map (q.ref bs)) with
    | none => exact hcon hmat.symm
    | some out =>
      rw [C74_materialize c hv _ hq.refs] at hmat
      cases hd : (q.rows.map (q.ref bs)).mapM (decodeOne c) with
      | none => simp [hd] at hmat
      | some out' =>
        rw [hd, Option.bind_some] at hmat
        obtain ⟨rfl, hone, hsh⟩ := stack_some hmat
        have hne : q.rows ≠ [] := by
          intro h0
          rw [h0] at hd
          simp at hd; exact hone hd
        obtain ⟨r0, rs, hrs⟩ := List.exists_cons_of_ne_nil hne
        have hr0 : r0 ∈ q.rows := by simp [hrs]
        -- per row: the file, the raw row, its shape
        have hraw : ∀ r ∈ q.rows, ∃ file a x y, q.files[r.1]? = some file ∧ c.load file.1 = some a ∧ c.load (q.ref bs r).path = some a ∧ WellFormed a ∧
            bs r.1 = (a.h, a.w) ∧ rawRow c a r.2 = some y ∧ x ∈ out ∧ x.shape = y.shape ∧ y.h = a.h ∧ y.w = a.w := by
          intro r hr
          obtain ⟨x, hx, hdx⟩ := mapM_mem hd (x := q.ref bs r) (List.mem_map.mpr ⟨r, hr, rfl⟩)
          obtain ⟨file, hf, hpth, hw⟩ := hq.file hr
          cases ha : c.load file.1 with
          | none => simp [decodeOne, hpth, ha] at hdx
          | some a =>
            have hla : c.load (q.ref bs r).path = some a := by rw [hpth]; exact ha
            obtain ⟨_, y, i, hy, _, hpost⟩ := decodeOne_raw hla hdx
            have hg := rawRow_good (hw a ha).1 hy
            exact ⟨file, a, x, y, hf, ha, hla, (hw a ha).1, (hw a ha).2, hy, hx, postOne_shape hc hg hpost, hg.1, hg.2.1⟩
        obtain ⟨file0, a0, x0, y0, f0, l0, l0', w0, b0, r0y, hx0, s0, h0, w0'⟩ := hraw r0 hr0
        have hfirst := hq.first r0 (by simp [hrs])
        rw [b0] at hfirst
        simp only [Prod.mk.injEq] at hfirst
        -- dimensions of every file are those of the request
        have hdims : ∀ r ∈ q.rows, ∃ z, packRaw c q r = some z ∧ z.h = q.bh ∧ z.w = q.bw ∧ z.shape = (⟨q.bh, q.bw, q.bh, q.bw, z.planes, z.stm, z.value, z.policy⟩ : Row α).shape ∧
            z.planes.length = y0.planes.length ∧ z.stm.length = y0.stm.length ∧ z.value.length = y0.value.length ∧
            ∃ a, c.load (q.ref bs r).path = some a ∧ a.h = q.bh ∧ a.w = q.bw ∧ ptAt c a a.h a.w r.2 = some z.policy := by
          intro r hr
          obtain ⟨file, a, x, y, f1, l1, l1', w1, b1, r1, hx1, s1, h1, w1'⟩ := hraw r hr
          have e := hsh x hx1 x0 hx0
          rw [s1, s0] at e
          simp only [Row.shape, Shape.mk.injEq] at e
          have eh : a.h = q.bh := by rw [← h1, e.2.1, h0, hfirst.1]
          have ew : a.w = q.bw := by rw [← w1', e.2.2.1, w0', hfirst.2]
          rw [rawRow_eq] at r1
          cases c1 : a.bf[r.2]? with
          | none => simp [c1] at r1
          | some p =>
          cases c2 : gfAt a r.2 with
          | none => simp [c1, c2] at r1
          | some s =>
          cases c3 : a.vt[r.2]? with
          | none => simp [c1, c2, c3] at r1
          | some v =>
          cases c4 : ptAt c a a.h a.w r.2 with
          | none => simp [c1, c2, c3, c4] at r1
          | some pol =>
            refine ⟨⟨q.bh, q.bw, a.h, a.w, p, s, v, pol⟩, ?_, eh, ew, by simp [Row.shape, eh, ew], ?_⟩
            · simp only [packRaw, f1, l1, c1, c2, c3, Option.bind_some]
              rw [← eh, ← ew, c4]; rfl
            · rw [c1, c2, c3, c4] at r1
              simp only [Option.bind_some] at r1
              cases c5 : dropPass c.hasPass a.h a.w pol with
              | none => simp [c5] at r1
              | some pol' =>
                rw [c5, Option.map_some, Option.some.injEq] at r1
                subst r1
                exact ⟨e.1, e.2.2.2.1, e.2.2.2.2.1, a, l1', eh, ew, c4⟩
        have hall : ∃ rows, q.rows.mapM (packRaw c q) = some rows := by
          cases hm : q.rows.mapM (packRaw c q) with
          | some rows => exact ⟨rows, rfl⟩
          | none =>
            obtain ⟨r, hr, hn⟩ := exists_none_of_mapM hm
            obtain ⟨z, hz, _⟩ := hdims r hr
            rw [hz] at hn; cases hn
        obtain ⟨rows, hm⟩ := hall
        have hrow : ∀ z ∈ rows, ∃ r ∈ q.rows, packRaw c q r = some z := fun z hz => mapM_mem_rev hm hz
        have hstack : stack rows = some rows := by
          obtain ⟨z0, hz0, hp0⟩ := mapM_mem hm hr0
          refine stack_uniform (s := z0.shape) (List.ne_nil_of_mem hz0) ?_
          intro z hz
          obtain ⟨r, hr, hrz⟩ := hrow z hz
          obtain ⟨z1, e1, d1, d2, _, d3, d4, d5, a, la, ah, aw, ap⟩ := hdims r hr
          rw [hrz] at e1; cases e1
          obtain ⟨z2, e2, k1, k2, _, k3, k4, k5, a', la', ah', aw', ap'⟩ := hdims r0 hr0
          rw [hp0] at e2; cases e2
          have hpol : policyShape z.policy = policyShape z0.policy := by
            rcases hlay r hr r0 hr0 a a' z.policy z0.policy la la' ap ap' with h | h | h
            · exact h
            · exact absurd (by rw [ah, ah']) h
            · exact absurd (by rw [aw, aw']) h
          simp [Row.shape, d1, d2, k1, k2, d3, d4, d5, k3, k4, k5, hpol]
        rw [decodePacked_eq c q hne, packed_assemble c q bs hq hne, hm, Option.bind_some, hstack] at hp
        simp only [] at hp
        rw [packed_tail c hc hv q bs hq hne rows hm (by
          intro z hz
          obtain ⟨r, hr, hrz⟩ := hrow z hz
          obtain ⟨z1, e1, d1, d2, _⟩ := hdims r hr
          rw [hrz] at e1; cases e1
          exact ⟨d1, d2⟩), hd] at hp
        cases hp

end Verif.Decode
