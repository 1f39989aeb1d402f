import Verif.Decode.Vec

/-! # Batches from one file and from several files -/
namespace Verif.Decode
open Verif.Board Verif.Rng

variable {α β γ κ : Type}

/-- What the loader guarantees of the arrays of a file: they are rectangular with a common number of rows, and planes of `pt` have the board's size. -/
def WellFormed (a : Arrays α) : Prop :=
  (∃ n, ∀ p ∈ a.bf, p.length = n) ∧
  (∀ g, a.gf = some g → g.length = a.bf.length ∧ ∃ n, ∀ s ∈ g, s.length = n) ∧
  (a.vt.length = a.bf.length ∧ ∃ n, ∀ v ∈ a.vt, v.length = n) ∧
  (∀ p, a.pt = some p → p.length = a.bf.length ∧ (∃ s, ∀ q ∈ p, policyShape q = s) ∧
    ∀ g, .plane g ∈ p → g.h = a.h ∧ g.w = a.w)

/-! ### Columns -/

theorem slice_eq (col : List β) (f : Nat) (idx : List Nat) (hc : contiguous f idx = true) (hr : ∀ i ∈ idx, i < col.length) :
    some ((col.drop f).take idx.length) = idx.mapM fun i => col[i]? := by
  induction idx generalizing f with
  | nil => simp
  | cons i is ih =>
    simp only [contiguous, Bool.and_eq_true, beq_iff_eq] at hc
    obtain ⟨rfl, hc⟩ := hc
    have hi := hr i (by simp)
    rw [mapM_cons', ← ih (i + 1) hc (fun j hj => hr j (by simp [hj]))]
    rw [List.getElem?_eq_getElem hi, List.drop_eq_getElem_cons hi]
    simp only [List.length_cons, List.take_succ_cons, Option.bind_some, Option.map_some]

theorem gatherCol_eq (col : List β) (idx : List Nat) (hr : ∀ i ∈ idx, i < col.length) :
    gatherCol col idx = idx.mapM fun i => col[i]? := by
  unfold gatherCol
  cases idx with
  | nil => rfl
  | cons f is =>
    simp only []
    split_ifs with h
    · exact slice_eq col f (f :: is) h hr
    · rfl

theorem contiguous_get (f : Nat) (idx : List Nat) (h : contiguous f idx = true) :
    ∀ i ∈ idx, i < f + idx.length := by
  induction idx generalizing f with
  | nil => simp
  | cons i is ih =>
    simp only [contiguous, Bool.and_eq_true, beq_iff_eq] at h
    obtain ⟨rfl, h⟩ := h
    intro j hj
    rcases List.mem_cons.mp hj with rfl | hj
    · simp
    · have := ih _ h j hj
      simp; omega

theorem gatherCol_short (col : List β) (idx : List Nat) (i : Nat) (hi : i ∈ idx) (hr : col.length ≤ i) (l : List β)
    (h : gatherCol col idx = some l) : l.length < idx.length := by
  unfold gatherCol at h
  cases idx with
  | nil => simp at hi
  | cons f is =>
    simp only [] at h
    split_ifs at h with hc
    · simp only [Option.some.injEq] at h
      subst h
      have := contiguous_get _ _ hc i hi
      simp at this ⊢
      omega
    · unfold takeAt at h
      rw [mapM_none hi (List.getElem?_eq_none hr)] at h
      cases h

theorem zipRows_length {h w : Nat} : ∀ {bhw : List (Nat × Nat)} {ps : List (List (Nat → Nat → α))} {ss vs : List (List α)} {qs : List (Policy α)}
    {rows : List (Row α)}, zipRows bhw h w ps ss vs qs = some rows → ps.length = bhw.length := by
  intro bhw ps
  induction ps generalizing bhw with
  | nil =>
    intro ss vs qs rows hz
    cases ss <;> cases vs <;> cases qs <;> cases bhw <;> simp [zipRows] at hz ⊢
  | cons p ps ih =>
    intro ss vs qs rows hz
    cases ss <;> cases vs <;> cases qs <;> cases bhw <;> simp [zipRows] at hz ⊢
    obtain ⟨r, hr, -⟩ := hz
    exact ih hr

/-- Zipping columns obtained by `mapM` is one `mapM` over the rows. -/
theorem zipRows_mapM (h w : Nat) (idx : List κ) (bs : κ → Nat × Nat) (f1 : κ → Option (List (Nat → Nat → α))) (f2 f3 : κ → Option (List α))
    (f4 : κ → Option (Policy α)) :
    ((idx.mapM f1).bind fun ps => (idx.mapM f2).bind fun ss => (idx.mapM f3).bind fun vs => (idx.mapM f4).bind fun qs =>
      zipRows (idx.map bs) h w ps ss vs qs) =
    idx.mapM fun i => (f1 i).bind fun p => (f2 i).bind fun s => (f3 i).bind fun v => (f4 i).map fun q =>
      (⟨(bs i).1, (bs i).2, h, w, p, s, v, q⟩ : Row α) := by
  induction idx with
  | nil => simp [zipRows]
  | cons i is ih =>
    simp only [mapM_cons', List.map_cons]
    rw [← ih]
    cases f1 i with
    | none => rfl
    | some p =>
    cases f2 i with
    | none => cases is.mapM f1 <;> rfl
    | some s =>
    cases f3 i with
    | none => cases is.mapM f1 <;> cases is.mapM f2 <;> rfl
    | some v =>
    cases f4 i with
    | none => cases is.mapM f1 <;> cases is.mapM f2 <;> cases is.mapM f3 <;> rfl
    | some q =>
      cases is.mapM f1 <;> cases is.mapM f2 <;> cases is.mapM f3 <;> cases is.mapM f4 <;> simp [zipRows]

theorem rawRow_eq [Zero α] (c : Cfg α) (a : Arrays α) (i : Nat) :
    rawRow c a i = (a.bf[i]?).bind fun p => (gfAt a i).bind fun s => (a.vt[i]?).bind fun v =>
      ((ptAt c a a.h a.w i).bind (dropPass c.hasPass a.h a.w)).map fun q => ⟨a.h, a.w, a.h, a.w, p, s, v, q⟩ := by
  unfold rawRow
  cases a.bf[i]? with
  | none => rfl
  | some p =>
    cases gfAt a i with
    | none => rfl
    | some s =>
      cases a.vt[i]? with
      | none => rfl
      | some v =>
        simp only [Option.bind_some]
        cases ((ptAt c a a.h a.w i).bind (dropPass c.hasPass a.h a.w)) <;> rfl

theorem dropPass_good [Zero α] {hp : Bool} {h w : Nat} {p q : Policy α} (hd : dropPass hp h w p = some q)
    (hg : ∀ g, p = .plane g → g.h = h ∧ g.w = w) : ∀ g, q = .plane g → g.h = h ∧ g.w = w := by
  unfold dropPass at hd
  split_ifs at hd with h1
  · cases hd; exact hg
  · cases p with
    | plane g => simp at hd; subst hd; exact hg
    | flat v =>
      simp only at hd
      split_ifs at hd
      cases hd
      intro g hgg
      cases hgg
      exact ⟨rfl, rfl⟩

theorem ptAt_good [Zero α] {c : Cfg α} {a : Arrays α} (hw : WellFormed a) {i : Nat} {p : Policy α} (h : ptAt c a a.h a.w i = some p) :
    ∀ g, p = .plane g → g.h = a.h ∧ g.w = a.w := by
  unfold ptAt at h
  cases hp : a.pt with
  | none =>
    simp [hp] at h
    subst h
    unfold defaultPolicy
    split_ifs
    · intro g hg; cases hg
    · intro g hg; cases hg; exact ⟨rfl, rfl⟩
  | some l =>
    simp [hp] at h
    intro g hg
    subst hg
    exact (hw.2.2.2 l hp).2.2 g (List.mem_of_getElem? h)

theorem rawRow_good [Zero α] {c : Cfg α} {a : Arrays α} (hw : WellFormed a) {i : Nat} {r : Row α} (h : rawRow c a i = some r) :
    Good a.h a.w r := by
  rw [rawRow_eq] at h
  cases h1 : a.bf[i]? with
  | none => simp [h1] at h
  | some p =>
  cases h2 : gfAt a i with
  | none => simp [h1, h2] at h
  | some s =>
  cases h3 : a.vt[i]? with
  | none => simp [h1, h2, h3] at h
  | some v =>
  cases h4 : ptAt c a a.h a.w i with
  | none => simp [h1, h2, h3, h4] at h
  | some q =>
  cases h5 : dropPass c.hasPass a.h a.w q with
  | none => simp [h1, h2, h3, h4, h5] at h
  | some q' =>
    simp [h1, h2, h3, h4, h5] at h
    subst h
    exact ⟨rfl, rfl, rfl, rfl, dropPass_good h5 (ptAt_good hw h4)⟩

theorem decodeOne_eq [Zero α] (c : Cfg α) (ref : Ref) (a : Arrays α) (ha : c.load ref.path = some a) (hr : ref.row < a.bf.length) :
    decodeOne c ref = (rawRow c a ref.row).bind fun r => (pickOne c a.h a.w ref.key).bind fun i => postOne c i r := by
  unfold decodeOne
  simp only [ha, hr, if_true]
  cases rawRow c a ref.row with
  | none => rfl
  | some r => cases pickOne c a.h a.w ref.key <;> rfl

theorem zip_map_mapM (f : β → Option γ) (key : β → κ) {δ : Type} (g : γ × κ → Option δ) (l : List β) (rows : List γ)
    (h : l.mapM f = some rows) :
    (rows.zip (l.map key)).mapM g = l.mapM fun x => (f x).bind fun r => g (r, key x) := by
  induction l generalizing rows with
  | nil => simp at h; subst h; rfl
  | cons a as ih =>
    obtain ⟨y, ys, ha, hs, rfl⟩ := mapM_cons_iff h
    rw [List.map_cons, List.zip_cons_cons, mapM_cons', mapM_cons', ih ys hs, ha]
    rfl

/-- **One file.** The vectorised decoding of references into one file is the decoding of every reference alone; also failures agree. -/
theorem loadedBatch_eq [Zero α] (c : Cfg α) (hc : c.fixedSize = none) (hv : ValidSeed c) (a : Arrays α) (hw : WellFormed a) (refs : List Ref)
    (hne : refs ≠ []) (hload : ∀ r ∈ refs, c.load r.path = some a) (hb : ∀ r ∈ refs, r.bh = a.h ∧ r.bw = a.w) :
    loadedBatch c a refs = refs.mapM (decodeOne c) := by
  obtain ⟨r0, rs, rfl⟩ := List.exists_cons_of_ne_nil hne
  generalize hrefs : r0 :: rs = refs at *
  by_cases hr : ∀ r ∈ refs, r.row < a.bf.length
  · -- in range
    have hidx : ∀ i ∈ refs.map Ref.row, i < a.bf.length := by
      intro i hi; obtain ⟨r, hm, rfl⟩ := List.mem_map.mp hi; exact hr r hm
    have g1 : gatherCol a.bf (refs.map Ref.row) = refs.mapM fun r => a.bf[r.row]? := by
      rw [gatherCol_eq _ _ hidx, mapM_map']
    have g3 : gatherCol a.vt (refs.map Ref.row) = refs.mapM fun r => a.vt[r.row]? := by
      rw [gatherCol_eq _ _ (by rw [hw.2.2.1.1]; exact hidx), mapM_map']
    have g2 : gather a.gf [0] (refs.map Ref.row) = refs.mapM fun r => gfAt a r.row := by
      unfold gather gfAt
      cases hg : a.gf with
      | none =>
        simp only []
        rw [mapM_some_map]; simp
      | some g =>
        simp only []
        rw [gatherCol_eq _ _ (by rw [(hw.2.1 g hg).1]; exact hidx), mapM_map']
    have hr0 : r0 ∈ refs := by rw [← hrefs]; simp
    have g4 : gather a.pt (defaultPolicy c.hasPass a.h a.w) (refs.map Ref.row) = refs.mapM fun r => ptAt c a a.h a.w r.row := by
      unfold gather ptAt
      cases hg : a.pt with
      | none =>
        simp only []
        rw [mapM_some_map]; simp
      | some g =>
        simp only []
        rw [gatherCol_eq _ _ (by rw [(hw.2.2.2 g hg).1]; exact hidx), mapM_map']
    have hbs : (refs.map fun r => (r.bh, r.bw)) = refs.map fun _ => (a.h, a.w) :=
      List.map_congr_left fun r hm => by rw [(hb r hm).1, (hb r hm).2]
    have step : loadedBatch c a refs = ((refs.mapM fun r => rawRow c a r.row).bind (vecPost c (drawKeys c (refs.map Ref.key)))) := by
      have hun : loadedBatch c a refs = (match gatherCol a.bf (refs.map Ref.row), gather a.gf [0] (refs.map Ref.row), gatherCol a.vt (refs.map Ref.row), gather a.pt (defaultPolicy c.hasPass a.h a.w) (refs.map Ref.row) with
          | some bf, some gf, some vt, some pt =>
            match pt.mapM (dropPass c.hasPass a.h a.w) with
            | none => none
            | some pt' =>
              (zipRows (refs.map fun r => (r.bh, r.bw)) a.h a.w bf gf vt pt').bind (vecPost c (drawKeys c (refs.map Ref.key)))
          | _, _, _, _ => none) := by
        rw [← hrefs]
        unfold loadedBatch
        simp only [(hb r0 hr0).1, (hb r0 hr0).2]
        generalize gatherCol a.bf ((r0 :: rs).map Ref.row) = o1
        generalize gather a.gf [0] ((r0 :: rs).map Ref.row) = o2
        generalize gatherCol a.vt ((r0 :: rs).map Ref.row) = o3
        generalize gather a.pt (defaultPolicy c.hasPass a.h a.w) ((r0 :: rs).map Ref.row) = o4
        cases o1 <;> cases o2 <;> cases o3 <;> cases o4 <;> first | rfl | skip
      rw [hun, g1, g2, g3, g4, hbs]
      have hz := zipRows_mapM a.h a.w refs (fun _ => (a.h, a.w)) (fun r => a.bf[r.row]?) (fun r => gfAt a r.row) (fun r => a.vt[r.row]?)
        (fun r => (ptAt c a a.h a.w r.row).bind (dropPass c.hasPass a.h a.w))
      rw [mapM_congr' (f := fun r : Ref => rawRow c a r.row) (fun r _ => rawRow_eq c a r.row), ← hz,
        ← mapM_bind (fun r : Ref => ptAt c a a.h a.w r.row) (dropPass c.hasPass a.h a.w) refs]
      cases refs.mapM fun r => a.bf[r.row]? with
      | none => rfl
      | some ps =>
      cases refs.mapM fun r => gfAt a r.row with
      | none => rfl
      | some ss =>
      cases refs.mapM fun r => a.vt[r.row]? with
      | none => rfl
      | some vs =>
      cases refs.mapM fun r => ptAt c a a.h a.w r.row with
      | none => rfl
      | some qs =>
        simp only [Option.bind_some]
        cases qs.mapM (dropPass c.hasPass a.h a.w) <;> rfl
    rw [step, mapM_congr' (f := decodeOne c) (fun r hm => decodeOne_eq c r a (hload r hm) (hr r hm))]
    cases hraw : refs.mapM fun r => rawRow c a r.row with
    | none =>
      obtain ⟨x, hx, hn⟩ := exists_none_of_mapM hraw
      rw [mapM_none hx (by simp [hn])]; rfl
    | some rows =>
      simp only [Option.bind_some]
      rw [vecPost_eq c hc a.h a.w rows (refs.map Ref.key) (by rw [mapM_length hraw]; simp) (by
        intro h0; subst h0
        have := mapM_length hraw
        rw [← hrefs] at this; simp at this) (by
        intro r hm
        obtain ⟨x, _, hx⟩ := mapM_mem_rev hraw hm
        exact rawRow_good hw hx) _ (fun _ _ _ => rfl) hv]
      exact zip_map_mapM (fun r => rawRow c a r.row) Ref.key (fun p => (pickOne c a.h a.w p.2).bind fun i => postOne c i p.1) refs rows hraw
  · -- out of range
    have : ∃ r ∈ refs, a.bf.length ≤ r.row := by
      by_contra hno
      exact hr fun r hm => by
        by_contra h
        exact hno ⟨r, hm, by omega⟩
    obtain ⟨r, hm, hrow⟩ := this
    have hn : decodeOne c r = none := by
      unfold decodeOne
      simp only [hload r hm]
      rw [if_neg (by omega)]
    rw [mapM_none hm hn]
    rw [← hrefs]
    unfold loadedBatch
    simp only []
    rw [hrefs]
    cases hg : gatherCol a.bf (refs.map Ref.row) with
    | none => rfl
    | some ps =>
      have hlen := gatherCol_short a.bf (refs.map Ref.row) r.row (List.mem_map.mpr ⟨r, hm, rfl⟩) hrow ps hg
      split
      · rename_i bf gf vt pt e1 e2 e3 e4
        cases e1
        cases pt.mapM (dropPass c.hasPass r0.bh r0.bw) with
        | none => rfl
        | some qs =>
          simp only []
          cases hz : zipRows (refs.map fun r => (r.bh, r.bw)) a.h a.w ps gf vt qs with
          | none => rfl
          | some rows =>
            have := zipRows_length hz
            simp at this hlen
            omega
      · rfl

/-! ### Shapes -/

theorem flat_length (g : Grid α) : (Board.flat g).length = g.h * g.w := by simp [Board.flat]

theorem symRow_shape [Zero α] {s : Sym} {r r' : Row α} (h : symRow s r = some r') : r'.shape = r.shape := by
  unfold symRow at h
  simp only at h
  split_ifs at h with hd
  have hd1 : (s.applyArr (⟨r.h, r.w, fun _ _ => ()⟩ : Grid Unit)).h = r.h := by
    by_contra hh; exact hd (Or.inl hh)
  have hd2 : (s.applyArr (⟨r.h, r.w, fun _ _ => ()⟩ : Grid Unit)).w = r.w := by
    by_contra hh; exact hd (Or.inr hh)
  cases hp : r.policy with
  | flat v =>
    simp only [hp] at h
    split_ifs at h with hv
    cases h
    have e : ∀ (f : Nat → Nat → α), (s.applyArr ⟨r.h, r.w, f⟩).h = r.h ∧ (s.applyArr ⟨r.h, r.w, f⟩).w = r.w := by
      intro f
      unfold Sym.applyArr at hd1 hd2 ⊢
      cases s <;> simp_all [Sym.ops, Grid.flipX, Grid.flipY, Grid.swap]
    simp only [Row.shape, hp, policyShape, List.length_map, List.length_append, flat_length, unflat, (e _).1, (e _).2, List.length_drop]
    have : v.length = r.h * r.w + 1 := by simpa using hv
    rw [this]
    congr 2
    omega
  | plane g =>
    simp only [hp] at h
    split_ifs at h with hv
    cases h
    have h1 : (s.applyArr g).h = g.h := by by_contra hh; exact hv (Or.inl hh)
    have h2 : (s.applyArr g).w = g.w := by by_contra hh; exact hv (Or.inr hh)
    simp [Row.shape, hp, policyShape, h1, h2]

theorem symOne_shape [Zero α] {c : Cfg α} {i : Nat} {r r' : Row α} (h : symOne c i r = some r') : r'.shape = r.shape := by
  unfold symOne at h
  cases hk : c.kind with
  | none => simp [hk] at h; rw [h]
  | some k =>
    simp only [hk] at h
    cases ha : (available r.h r.w k).bind (·[i]?) with
    | none => simp [ha] at h
    | some s => rw [ha] at h; exact symRow_shape h

theorem postOne_shape [Zero α] {c : Cfg α} (hc : c.fixedSize = none) {i : Nat} {r r' : Row α} {h w : Nat} (hg : Good h w r)
    (hp : postOne c i r = some r') : r'.shape = r.shape := by
  rw [postOne_eq c hc i r hg] at hp
  cases hs : sideOne c r with
  | none => simp [hs] at hp
  | some x =>
    rw [hs] at hp
    rw [symOne_shape hp]
    obtain ⟨h1, h2, _, _, h5, h6, h7, h8⟩ := sideOne_keeps hs
    simp [Row.shape, h1, h2, h5, h6, h7, h8]

/-- All rows of a file have one shape before and after post-processing. -/
theorem rawRow_shape [Zero α] (c : Cfg α) {a : Arrays α} (hw : WellFormed a) {i j : Nat} {x y : Row α}
    (hx : rawRow c a i = some x) (hy : rawRow c a j = some y) : x.shape = y.shape := by
  rw [rawRow_eq] at hx hy
  have key : ∀ {i : Nat} {x : Row α}, ((a.bf[i]?).bind fun p => (gfAt a i).bind fun s => (a.vt[i]?).bind fun v =>
      ((ptAt c a a.h a.w i).bind (dropPass c.hasPass a.h a.w)).map fun q => (⟨a.h, a.w, a.h, a.w, p, s, v, q⟩ : Row α)) = some x →
      x.h = a.h ∧ x.w = a.w ∧ x.planes ∈ a.bf ∧ gfAt a i = some x.stm ∧ x.value ∈ a.vt ∧
        (ptAt c a a.h a.w i).bind (dropPass c.hasPass a.h a.w) = some x.policy := by
    intro i x h
    cases h1 : a.bf[i]? with
    | none => simp [h1] at h
    | some p =>
    cases h2 : gfAt a i with
    | none => simp [h1, h2] at h
    | some s =>
    cases h3 : a.vt[i]? with
    | none => simp [h1, h2, h3] at h
    | some v =>
    cases h4 : (ptAt c a a.h a.w i).bind (dropPass c.hasPass a.h a.w) with
    | none => rw [h1, h2, h3, h4] at h; simp at h
    | some q =>
      rw [h1, h2, h3, h4] at h
      simp at h
      subst h
      exact ⟨rfl, rfl, List.mem_of_getElem? h1, rfl, List.mem_of_getElem? h3, rfl⟩
  obtain ⟨x1, x2, x3, x4, x5, x6⟩ := key hx
  obtain ⟨y1, y2, y3, y4, y5, y6⟩ := key hy
  obtain ⟨n1, hn1⟩ := hw.1
  obtain ⟨n3, hn3⟩ := hw.2.2.1.2
  have hs : x.stm.length = y.stm.length := by
    unfold gfAt at x4 y4
    cases hg : a.gf with
    | none => simp [hg] at x4 y4; rw [← x4, ← y4]
    | some g =>
      obtain ⟨_, n, hn⟩ := hw.2.1 g hg
      simp [hg] at x4 y4
      rw [hn _ (List.mem_of_getElem? x4), hn _ (List.mem_of_getElem? y4)]
  have hp : policyShape x.policy = policyShape y.policy := by
    have key2 : ∀ {p p' q q' : Policy α}, policyShape p = policyShape p' → dropPass c.hasPass a.h a.w p = some q →
        dropPass c.hasPass a.h a.w p' = some q' → policyShape q = policyShape q' := by
      intro p p' q q' he hq hq'
      unfold dropPass at hq hq'
      split_ifs at hq hq' with hh
      · cases hq; cases hq'; exact he
      · cases p with
        | plane g =>
          cases p' with
          | plane g' => simp at hq hq'; rw [← hq, ← hq']; exact he
          | flat v' => simp [policyShape] at he
        | flat v =>
          cases p' with
          | plane g' => simp [policyShape] at he
          | flat v' =>
            simp only at hq hq'
            split_ifs at hq hq'
            cases hq; cases hq'; rfl
    cases h4 : ptAt c a a.h a.w i with
    | none => simp [h4] at x6
    | some p =>
    cases h4' : ptAt c a a.h a.w j with
    | none => simp [h4'] at y6
    | some p' =>
      rw [h4] at x6; rw [h4'] at y6
      refine key2 ?_ x6 y6
      unfold ptAt at h4 h4'
      cases hg : a.pt with
      | none => simp [hg] at h4 h4'; rw [← h4, ← h4']
      | some g =>
        obtain ⟨_, ⟨s, hn⟩, _⟩ := hw.2.2.2 g hg
        simp [hg] at h4 h4'
        rw [hn _ (List.mem_of_getElem? h4), hn _ (List.mem_of_getElem? h4')]
  simp [Row.shape, x1, x2, y1, y2, hn1 _ x3, hn1 _ y3, hn3 _ x5, hn3 _ y5, hs, hp]

theorem decodeOne_raw [Zero α] {c : Cfg α} {r : Ref} {a : Arrays α} (ha : c.load r.path = some a) {x : Row α} (h : decodeOne c r = some x) :
    r.row < a.bf.length ∧ ∃ y i, rawRow c a r.row = some y ∧ pickOne c a.h a.w r.key = some i ∧ postOne c i y = some x := by
  by_cases hr : r.row < a.bf.length
  · refine ⟨hr, ?_⟩
    rw [decodeOne_eq c r a ha hr] at h
    cases h1 : rawRow c a r.row with
    | none => simp [h1] at h
    | some y =>
      cases h2 : pickOne c a.h a.w r.key with
      | none => simp [h1, h2] at h
      | some i => simp [h1, h2] at h; exact ⟨y, i, rfl, rfl, h⟩
  · unfold decodeOne at h
    simp [ha, hr] at h

theorem decodeOne_shape [Zero α] {c : Cfg α} (hc : c.fixedSize = none) {r r' : Ref} {a : Arrays α} (hw : WellFormed a)
    (ha : c.load r.path = some a) (ha' : c.load r'.path = some a) {x x' : Row α}
    (h : decodeOne c r = some x) (h' : decodeOne c r' = some x') : x.shape = x'.shape := by
  obtain ⟨_, y, i, h1, _, h3⟩ := decodeOne_raw ha h
  obtain ⟨_, y', i', h1', _, h3'⟩ := decodeOne_raw ha' h'
  rw [postOne_shape hc (rawRow_good hw h1) h3, postOne_shape hc (rawRow_good hw h1') h3', rawRow_shape c hw h1 h1']

/-! ### Assembling -/

theorem stack_uniform {rows : List (Row α)} {s : Shape} (hne : rows ≠ []) (h : ∀ x ∈ rows, x.shape = s) : stack rows = some rows := by
  cases rows with
  | nil => exact absurd rfl hne
  | cons r rs =>
    unfold stack
    simp only []
    rw [if_pos]
    intro x hx
    rw [h x (by simp [hx]), h r (by simp)]

theorem stack_some {rows out : List (Row α)} (h : stack rows = some out) :
    out = rows ∧ rows ≠ [] ∧ ∀ x ∈ rows, ∀ y ∈ rows, x.shape = y.shape := by
  cases rows with
  | nil => simp [stack] at h
  | cons r rs =>
    unfold stack at h
    simp only [] at h
    split_ifs at h with hh
    cases h
    refine ⟨rfl, by simp, ?_⟩
    have : ∀ x ∈ r :: rs, x.shape = r.shape := by
      intro x hx
      rcases List.mem_cons.mp hx with rfl | hx
      · rfl
      · exact hh x hx
    intro x hx y hy
    rw [this x hx, this y hy]

theorem stack_none {rows : List (Row α)} {x y : Row α} (hx : x ∈ rows) (hy : y ∈ rows) (hne : x.shape ≠ y.shape) : stack rows = none := by
  cases h : stack rows with
  | none => rfl
  | some out => exact absurd ((stack_some h).2.2 x hx y hy) hne

/-- The loop over the files gives the rows in their places, and fails exactly when a row fails or two files disagree. -/
theorem assemble_eq [DecidableEq κ] (items : List β) (key : β → κ) (f : β → Option (Row α)) (group : κ → Option (List (Row α)))
    (hgroup : ∀ k, (∃ x ∈ items, key x = k) → group k = (items.filter fun x => key x = k).mapM f)
    (hsame : ∀ x ∈ items, ∀ y ∈ items, key x = key y → ∀ a b, f x = some a → f y = some b → a.shape = b.shape)
    (hne : items ≠ []) :
    ∀ (ks : List κ) (done : β → Bool) (schema : Option Shape),
      (∀ x ∈ items, done x = true ∨ key x ∈ ks) → (∀ k ∈ ks, ∃ x ∈ items, key x = k) →
      (match schema with
        | none => ∀ x ∈ items, done x = false
        | some s => (∃ x ∈ items, done x = true) ∧ ∀ x ∈ items, done x = true → ∃ a, f x = some a ∧ a.shape = s) →
      ((assemble (items.map key) group ks schema (items.map fun x => if done x then f x else none)).bind fun out => out.mapM id) =
        (items.mapM f).bind stack := by
  intro ks
  induction ks with
  | nil =>
    intro done schema hcov _ hs
    simp only [assemble, Option.bind_some]
    rw [mapM_id_map]
    have hall : ∀ x ∈ items, done x = true := fun x hx => by simpa using hcov x hx
    rw [mapM_congr' (g := f) (fun x hx => by simp [hall x hx])]
    cases schema with
    | none =>
      obtain ⟨x, hx⟩ := List.exists_mem_of_ne_nil _ hne
      simp only at hs
      have := hs x hx; rw [hall x hx] at this; cases this
    | some s =>
      simp only at hs
      cases hm : items.mapM f with
      | none => rfl
      | some rows =>
        simp only [Option.bind_some]
        refine (stack_uniform (s := s) ?_ ?_).symm
        · intro h0; subst h0
          have := mapM_length hm
          exact hne (List.length_eq_zero_iff.mp (by simpa using this.symm))
        · intro r hr
          obtain ⟨x, hx, hf⟩ := mapM_mem_rev hm hr
          obtain ⟨a, ha, hsh⟩ := hs.2 x hx (hall x hx)
          rw [hf] at ha; cases ha; exact hsh
  | cons k ks ih =>
    intro done schema hcov hks hs
    unfold assemble
    rw [hgroup k (hks k (by simp))]
    have hmask : (items.map key).map (· == k) = items.map fun x => decide (key x = k) := by
      rw [List.map_map]; apply List.map_congr_left; intro x _; simp [beq_eq_decide]
    cases hv : (items.filter fun x => decide (key x = k)).mapM f with
    | none =>
      obtain ⟨x, hx, hn⟩ := exists_none_of_mapM hv
      rw [mapM_none (List.mem_of_mem_filter hx) hn]; rfl
    | some vals =>
      obtain ⟨x0, hx0, hk0⟩ := hks k (by simp)
      have hmem0 : x0 ∈ items.filter fun x => decide (key x = k) := List.mem_filter.mpr ⟨hx0, by simpa using hk0⟩
      cases vals with
      | nil =>
        have := mapM_length hv
        have h0 := List.length_eq_zero_iff.mp this.symm
        rw [h0] at hmem0; simp at hmem0
      | cons g gs =>
        obtain ⟨xg, hxg, hfg⟩ := mapM_mem_rev hv (y := g) (by simp)
        have hxgi := List.mem_of_mem_filter hxg
        have hkg : key xg = k := by simpa using (List.mem_filter.mp hxg).2
        have hshape : ∀ x ∈ items, key x = k → ∃ a, f x = some a ∧ a.shape = g.shape := by
          intro x hx hkx
          obtain ⟨a, _, ha⟩ := mapM_mem hv (x := x) (List.mem_filter.mpr ⟨hx, by simpa using hkx⟩)
          exact ⟨a, ha, hsame x hx xg hxgi (by rw [hkx, hkg]) a g ha hfg⟩
        have hput : putAt (items.map fun x => if done x then f x else none) (positionsOf k 0 (items.map key)) (g :: gs) =
            items.map fun x => if done x || decide (key x = k) then f x else none := by
          rw [putAt_positions _ _ _ _ (by simp), hmask]
          exact scatter_step items (fun x => decide (key x = k)) done f (g :: gs) (by rw [maskGet_eq_filter]; exact hv)
        have hcov' : ∀ x ∈ items, (done x || decide (key x = k)) = true ∨ key x ∈ ks := by
          intro x hx
          rcases hcov x hx with h | h
          · left; simp [h]
          · rcases List.mem_cons.mp h with h | h
            · left; simp [h]
            · right; exact h
        have hks' : ∀ k' ∈ ks, ∃ x ∈ items, key x = k' := fun k' h => hks k' (by simp [h])
        simp only [hput]
        cases schema with
        | none =>
          simp only at hs ⊢
          refine ih _ (some g.shape) hcov' hks' ⟨⟨xg, hxgi, by simp [hkg]⟩, ?_⟩
          intro x hx hd
          have : key x = k := by simpa [hs x hx] using hd
          exact hshape x hx this
        | some s =>
          simp only at hs ⊢
          by_cases hgs : g.shape = s
          · rw [if_pos hgs]
            refine ih _ (some s) hcov' hks' ⟨⟨xg, hxgi, by simp [hkg]⟩, ?_⟩
            intro x hx hd
            rcases Bool.or_eq_true_iff.mp hd with h | h
            · exact hs.2 x hx h
            · rw [← hgs]; exact hshape x hx (by simpa using h)
          · rw [if_neg hgs]
            obtain ⟨xd, hxd, hdd⟩ := hs.1
            obtain ⟨a, ha, hsa⟩ := hs.2 xd hxd hdd
            cases hm : items.mapM f with
            | none => rfl
            | some rows =>
              obtain ⟨a', ha', he⟩ := mapM_mem hm hxd
              rw [ha] at he; cases he
              obtain ⟨g', hg', he⟩ := mapM_mem hm hxgi
              rw [hfg] at he; cases he
              simp only [Option.bind_some, Option.bind_none]
              exact (stack_none hg' ha' (by rw [hsa]; exact hgs)).symm

theorem mem_distinct [DecidableEq β] (l : List β) (x : β) : x ∈ distinct l ↔ x ∈ l := by
  induction l with
  | nil => simp [distinct]
  | cons a as ih =>
    by_cases h : x = a
    · simp [distinct, h]
    · simp [distinct, h, ih]

end Verif.Decode
