/-
C90: the map-style and the streaming variant of a KataGo dataset deliver the same samples.
-/
import Verif.Katago.Props89b

namespace Verif.Katago
open Verif.Board Verif.Decode

/-! ### Raw files -/

theorem flatten_at {β : Type} : ∀ (ls : List (List β)) (k i : Nat) (b : List β), ls[k]? = some b → i < b.length →
    ls.flatten[((ls.take k).map List.length).sum + i]? = b[i]?
  | [], _, _, _, h, _ => by simp at h
  | l :: ls, 0, i, b, h, hi => by
    simp only [List.getElem?_cons_zero, Option.some.injEq] at h
    subst h
    simp [List.getElem?_append_left hi]
  | l :: ls, k + 1, i, b, h, hi => by
    simp only [List.getElem?_cons_succ] at h
    rw [List.flatten_cons, List.take_succ_cons, List.map_cons, List.sum_cons,
      List.getElem?_append_right (by omega), ← flatten_at ls k i b h hi]
    congr 1
    omega

theorem mapM_getElem {β γ : Type} {g : β → Option γ} : ∀ {l : List β} {r : List γ}, l.mapM g = some r →
    ∀ (k : Nat) (x : β), l[k]? = some x → ∃ y, r[k]? = some y ∧ g x = some y
  | [], r, _, k, x, hx => by simp at hx
  | a :: as, r, h, k, x, hx => by
    rw [mapM_cons'] at h
    cases ha : g a with
    | none => simp [ha] at h
    | some y =>
      cases hs : as.mapM g with
      | none => simp [ha, hs] at h
      | some ys =>
        simp [ha, hs] at h
        subst h
        cases k with
        | zero => simp at hx; subst hx; exact ⟨y, by simp, ha⟩
        | succ k => simpa using mapM_getElem hs k x (by simpa using hx)

/-- Processing without a symmetry and then with it is processing with it at once, when nothing is padded. -/
theorem postOne_twice (c : Cfg ℚ) (k : Kind) (sym : Nat) (r : Row ℚ) (hs : c.fixedSize = none) :
    ((postOne { c with kind := none } 0 r).bind
      (postOne { c with fixedSide := false, fixedSize := none, kind := some k } sym))
      = postOne { c with kind := some k } sym r := by
  unfold postOne
  by_cases h : c.fixedSide = true ∧ r.stm.length ≠ 1
  · simp only [if_pos h]; rfl
  simp only [if_neg h, hs]
  unfold process
  simp only [augment, pad, finish]
  generalize ht : ({ bh := r.bh, bw := r.bw, h := r.h, w := r.w, planes := r.planes, stm := (if r.stm.any c.gt0 then 1 else 0), value := r.value, policy := r.policy, sparse := none, position := none, moves := none } : Sample ℚ) = t
  have hx : t.stm = (if r.stm.any c.gt0 then 1 else 0) ∧ t.sparse = none ∧ t.position = none ∧ t.moves = none := by
    rw [← ht]; exact ⟨rfl, rfl, rfl, rfl⟩
  cases hf : fixSide c.fixedSide t with
  | none => simp
  | some s =>
    have hsx : s.stm = (if r.stm.any c.gt0 then 1 else 0) ∧ s.sparse = none ∧ s.position = none ∧ s.moves = none := by
      unfold fixSide at hf
      by_cases hc : (c.fixedSide && decide (t.stm > 0)) = true
      · rw [if_pos hc] at hf
        unfold sideSwap at hf
        split at hf
        · rw [hx.2.1] at hf
          simp only [Option.some.injEq] at hf
          rw [← hf]
          exact ⟨hx.1, rfl, hx.2.2.1, hx.2.2.2⟩
        · cases hf
      · rw [if_neg hc] at hf
        simp only [Option.some.injEq] at hf
        rw [← hf]; exact hx
    obtain ⟨h1, h2, h3, h4⟩ := hsx
    have hs' : s = { bh := s.bh, bw := s.bw, h := s.h, w := s.w, planes := s.planes, stm := (if r.stm.any c.gt0 then 1 else 0), value := s.value, policy := s.policy, sparse := none, position := none, moves := none } := by
      cases s; simp_all
    rw [hs']
    simp [fixSide, finish]

theorem postOne_plain (c : Cfg ℚ) (a b : Nat) (r : Row ℚ) :
    postOne { c with kind := none } a r = postOne { c with kind := none } b r := rfl

/-- **C90**, raw files: the map-style dataset is the concatenation of the per-file datasets of the streaming
variant, and index `i` of file `k` is the same sample, for the same symmetry.  Boards are not padded or no
symmetry is applied; conditions look at every row by itself. -/
theorem C90_raw_map_is_stream (o : Opts) (f : RawRow → Bool) (hf : RowWise o.cond f) (files : List (List RawRow))
    (rows : List (Row ℚ)) (parts : List (List (Row ℚ))) (hmap : loadRaw o files = some rows)
    (hstream : (files.mapM fun file => loadRaw o.still [file]) = some parts)
    (hpad : o.c.fixedSize = none ∨ o.c.kind = none) :
    rows = parts.flatten ∧
      ∀ k i sym file part, files[k]? = some file → parts[k]? = some part → i < part.length →
        rawItem o rows (((parts.take k).map List.length).sum + i) sym = rawStream o file i sym := by
  have e1 := (C89_rows_delivered o f hf files rows hmap).1
  have e2 : parts = files.map (deliver o f) := by
    refine mapM_eq_map (fun file part h => ?_) hstream
    have := (C89_rows_delivered o.still f hf [file] part h).1
    rw [this, List.flatten_cons, List.flatten_nil, List.append_nil]
    rfl
  have e : rows = parts.flatten := by rw [e1, e2, deliver_flatten]
  refine ⟨e, ?_⟩
  intro k i sym file part hfile hpart hi
  obtain ⟨part', hp', hload⟩ := mapM_getElem hstream k file hfile
  rw [hpart] at hp'
  cases hp'
  unfold rawStream
  rw [hload, Option.bind_some, if_pos hi]
  unfold rawItem
  rw [e, flatten_at parts k i part hpart hi, List.getElem?_eq_getElem hi]
  simp only [Option.bind_some]
  have hc : o.still.c = { o.c with kind := none } := rfl
  rw [hc]
  cases hk : o.c.kind with
  | none =>
    have : o.c = { o.c with kind := none } := by cases hcc : o.c; rw [hcc] at hk; simp at hk; simp [hk]
    rw [this]
    simp only [postOne_plain o.c sym 0]
    cases postOne { o.c with kind := none } 0 part[i] <;> rfl
  | some kk =>
    have hsz : o.c.fixedSize = none := by
      rcases hpad with h | h
      · exact h
      · rw [hk] at h; cases h
    simp only []
    rw [postOne_twice o.c kk sym part[i] hsz]
    congr 1
    cases hcc : o.c; rw [hcc] at hk; simp at hk; simp [hk]

/-! ### Processed files -/

/-- Row `i` of the columns of a file, as a condition sees it. -/
def rowAt (a : File) (i : Nat) : Option (List (Nat → Nat → ℚ)) × Option (Option (List ℚ)) × Option (List ℚ) × Option (Option (Policy ℚ)) :=
  (a.bf[i]?, a.gf.map (·[i]?), a.vt[i]?, a.pt.map (·[i]?))

/-- The condition looks at every row of the file by itself. -/
def PRowWise (cond : Option (File → Option (List Bool)))
    (f : Option (List (Nat → Nat → ℚ)) × Option (Option (List ℚ)) × Option (List ℚ) × Option (Option (Policy ℚ)) → Bool) : Prop :=
  ∀ c, cond = some c → ∀ a m, c a = some m → m = (List.range a.bf.length).map fun i => f (rowAt a i)

/-! The proof works with files given by rows. -/

structure Rec where
  planes : List (Nat → Nat → ℚ)
  gf : List ℚ
  vt : List ℚ
  pt : Policy ℚ

def cols (g p : Bool) (h w : Nat) (l : List Rec) : File :=
  { h := h, w := w, bf := l.map (·.planes), gf := if g then some (l.map (·.gf)) else none
    vt := l.map (·.vt), pt := if p then some (l.map (·.pt)) else none }

def recsOf (a : File) : List Rec :=
  (List.range a.bf.length).map fun i =>
    ⟨a.bf.getD i [], (a.gf.getD []).getD i [], a.vt.getD i [], (a.pt.getD []).getD i (.flat [])⟩

theorem cols_of {a : File} (h : lengthsOk a.bf.length a = true) :
    a = cols a.gf.isSome a.pt.isSome a.h a.w (recsOf a) := by
  unfold lengthsOk at h
  simp only [Bool.and_eq_true, decide_eq_true_eq] at h
  obtain ⟨⟨⟨-, h1⟩, h2⟩, h3⟩ := h
  have key : ∀ {β : Type} (l : List β) (n : Nat) (d : β), l.length = n → l = (List.range n).map fun i => l.getD i d := by
    intro β l n d hl
    apply List.ext_getElem (by simp [hl])
    intro i h1 h2
    simp [List.getElem?_eq_getElem h1]
  cases a with
  | mk ah aw abf agf avt apt =>
  simp only at h1 h2 h3 ⊢
  unfold cols recsOf
  simp only [List.map_map, Function.comp_def]
  congr 1
  · exact key abf _ [] rfl
  · cases agf with
    | none => rfl
    | some g =>
      simp only [decide_eq_true_eq] at h2
      simp only [Option.isSome_some, if_true, Option.getD_some]
      rw [← key g _ [] h2]
  · exact key avt _ [] h1
  · cases apt with
    | none => rfl
    | some g =>
      simp only [decide_eq_true_eq] at h3
      simp only [Option.isSome_some, if_true, Option.getD_some]
      rw [← key g _ (.flat []) h3]

theorem select_cols (m : List Bool) (g p : Bool) (h w : Nat) (l : List Rec) :
    selectRows m (cols g p h w l) = cols g p h w (maskGet m l) := by
  unfold selectRows cols
  cases g <;> cases p <;> simp [maskGet_map]

theorem stmMask_cols {f : Int} {g p : Bool} {h w : Nat} {l : List Rec} {m : List Bool}
    (hm : stmMask f (cols g p h w l) = some m) : m = l.map fun r => decide (r.gf.getD 0 0 = (f : ℚ)) := by
  unfold stmMask cols at hm
  cases g with
  | false => simp at hm
  | true =>
    simp only [if_true, Option.bind_some] at hm
    have := mapM_eq_map (t := fun r : List ℚ => decide (r.getD 0 0 = (f : ℚ))) (fun r v hv => by
      obtain ⟨k, hk, rfl⟩ := Option.map_eq_some_iff.mp hv
      simp [List.getD_eq_getElem?_getD, hk]) hm
    rw [this, List.map_map]; rfl

def condRec (g p : Bool)
    (f : Option (List (Nat → Nat → ℚ)) × Option (Option (List ℚ)) × Option (List ℚ) × Option (Option (Policy ℚ)) → Bool) (r : Rec) : Bool :=
  f (some r.planes, (if g then some (some r.gf) else none), some r.vt, (if p then some (some r.pt) else none))

theorem condMask_cols {cond f} (hf : PRowWise cond f) {c} (hc : cond = some c) {g p : Bool} {h w : Nat} {l : List Rec} {m : List Bool}
    (hm : c (cols g p h w l) = some m) : m = l.map (condRec g p f) := by
  rw [hf c hc _ _ hm]
  apply List.ext_getElem (by simp [cols])
  intro i h1 h2
  have hi : i < l.length := by simpa using h2
  simp only [List.getElem_map, List.getElem_range]
  unfold rowAt cols condRec
  cases g <;> cases p <;> simp [List.getElem?_eq_getElem hi]

def pickT {β : Type} (d : β) (o : Option (List Nat)) (r : List β) : List β :=
  match o with
  | none => r
  | some ks => ks.map fun k => r.getD k d

def chanT (o : POpts) (r : Rec) : Rec :=
  { planes := pickT (fun _ _ => 0) o.boardChannels r.planes, gf := pickT 0 (o.stmChannel.map fun k => [k]) r.gf,
    vt := pickT 0 o.valueChannels r.vt, pt := r.pt }

theorem pick_eq {β : Type} (d : β) {ks : List Nat} {r y : List β} (h : pick ks r = some y) : y = ks.map fun k => r.getD k d :=
  mapM_eq_map (fun k v hv => by simp [List.getD_eq_getElem?_getD, hv]) h

theorem channels_cols {o : POpts} {g p : Bool} {h w : Nat} {l : List Rec} {a : File}
    (ha : channels o (cols g p h w l) = some a) : a = cols g p h w (l.map (chanT o)) := by
  unfold channels at ha
  simp only [] at ha
  split at ha
  · rename_i bf gf vt hb hg hv
    simp only [Option.some.injEq] at ha
    rw [← ha]
    have e1 : bf = l.map fun r => pickT (fun _ _ => 0) o.boardChannels r.planes := by
      cases hc : o.boardChannels with
      | none => rw [hc] at hb; simp only [Option.some.injEq] at hb; rw [← hb]; rfl
      | some ks =>
        rw [hc] at hb
        rw [mapM_eq_map (fun x y hxy => pick_eq (fun _ _ => 0) hxy) hb]
        simp [cols, pickT]
    have e3 : vt = l.map fun r => pickT 0 o.valueChannels r.vt := by
      cases hc : o.valueChannels with
      | none => rw [hc] at hv; simp only [Option.some.injEq] at hv; rw [← hv]; rfl
      | some ks =>
        rw [hc] at hv
        rw [mapM_eq_map (fun x y hxy => pick_eq 0 hxy) hv]
        simp [cols, pickT]
    have e2 : gf = if g then some (l.map fun r => pickT 0 (o.stmChannel.map fun k => [k]) r.gf) else none := by
      cases hc : o.stmChannel with
      | none => rw [hc] at hg; simp only [Option.some.injEq] at hg; rw [← hg]; cases g <;> rfl
      | some k =>
        rw [hc] at hg
        cases g with
        | false => simp [cols] at hg
        | true =>
          simp only [cols, if_true, Option.bind_some] at hg
          obtain ⟨z, hz, rfl⟩ := Option.map_eq_some_iff.mp hg
          rw [mapM_eq_map (fun x y hxy => pick_eq 0 hxy) hz]
          simp [pickT]
    unfold cols chanT
    rw [e1, e2, e3]
    simp [List.map_map, Function.comp_def]
  · cases ha

/-- The rows that pass both filters. -/
def keepRec (o : POpts) (g p : Bool)
    (f : Option (List (Nat → Nat → ℚ)) × Option (Option (List ℚ)) × Option (List ℚ) × Option (Option (Policy ℚ)) → Bool) (r : Rec) : Bool :=
  (match o.filterStm with | none => true | some s => decide (r.gf.getD 0 0 = (s : ℚ))) &&
    (match o.cond with | none => true | some _ => condRec g p f r)

theorem mapFilters_cols {o : POpts} {f} (hf : PRowWise o.cond f) {g p : Bool} {h w : Nat} {l : List Rec} {a : File}
    (ha : mapFilters o (cols g p h w l) = some a) :
    a = cols g p h w ((l.filter (keepRec o g p f)).map (chanT o)) := by
  unfold mapFilters at ha
  obtain ⟨a2, h2, hch⟩ := Option.bind_eq_some_iff.mp ha
  obtain ⟨a1, h1, h2⟩ := Option.bind_eq_some_iff.mp h2
  have e1 : a1 = cols g p h w (l.filter fun r => match o.filterStm with | none => true | some s => decide (r.gf.getD 0 0 = (s : ℚ))) := by
    cases hs : o.filterStm with
    | none => rw [hs] at h1; simp only [Option.some.injEq] at h1; rw [← h1]; simp
    | some s =>
      rw [hs] at h1
      obtain ⟨m, hm, rfl⟩ := Option.map_eq_some_iff.mp h1
      rw [select_cols, stmMask_cols hm, maskGet_eq_filter]
  have e2 : a2 = cols g p h w ((l.filter fun r => match o.filterStm with | none => true | some s => decide (r.gf.getD 0 0 = (s : ℚ))).filter
      fun r => match o.cond with | none => true | some _ => condRec g p f r) := by
    rw [e1] at h2
    cases hc : o.cond with
    | none => rw [hc] at h2; simp only [Option.some.injEq] at h2; rw [← h2]; simp
    | some c =>
      rw [hc] at h2
      obtain ⟨m, hm, rfl⟩ := Option.map_eq_some_iff.mp h2
      rw [select_cols, condMask_cols hf hc hm, maskGet_eq_filter]
  rw [e2, List.filter_filter] at hch
  rw [channels_cols hch]
  congr 2
  apply List.filter_congr
  intro r _
  exact Bool.and_comm _ _

theorem loadStream_cols {o : POpts} {f} (hf : PRowWise o.cond f) {g p : Bool} {h w : Nat} {l : List Rec} {b : File}
    (hs : (h, w) ∈ o.boardsizes) (hb : loadStream o (cols g p h w l) = some b) :
    b = cols g p h w ((l.filter (keepRec o g p f)).map (chanT o)) := by
  unfold loadStream at hb
  by_cases h1 : ((cols g p h w l).bf.isEmpty || !lengthsOk (cols g p h w l).bf.length (cols g p h w l)) = true
  · rw [if_pos h1] at hb; cases hb
  rw [if_neg h1, if_neg (by simpa [cols] using hs)] at hb
  obtain ⟨m, hm, hch⟩ := Option.bind_eq_some_iff.mp hb
  unfold streamMask at hm
  obtain ⟨m1, hm1, hm2⟩ := Option.bind_eq_some_iff.mp hm
  have e : applyMask m (cols g p h w l) = cols g p h w (l.filter (keepRec o g p f)) := by
    unfold keepRec applyMask
    cases hsf : o.filterStm with
    | none =>
      rw [hsf] at hm1
      simp only [Option.some.injEq] at hm1
      subst hm1
      cases hc : o.cond with
      | none => rw [hc] at hm2; simp only [Option.some.injEq] at hm2; subst hm2; simp
      | some c =>
        rw [hc] at hm2
        obtain ⟨m', hm', rfl⟩ := Option.map_eq_some_iff.mp hm2
        simp only [select_cols, condMask_cols hf hc hm', maskGet_eq_filter, Bool.true_and]
    | some s =>
      rw [hsf] at hm1
      obtain ⟨m1', hm1', rfl⟩ := Option.map_eq_some_iff.mp hm1
      have em := stmMask_cols hm1'
      cases hc : o.cond with
      | none =>
        rw [hc] at hm2; simp only [Option.some.injEq] at hm2; subst hm2
        simp only [select_cols, em, maskGet_eq_filter, Bool.and_true]
      | some c =>
        rw [hc] at hm2
        obtain ⟨m', hm', rfl⟩ := Option.map_eq_some_iff.mp hm2
        simp only [em, condMask_cols hf hc hm', List.zipWith_map, List.zipWith_self]
        rw [select_cols, maskGet_eq_filter]
  rw [e] at hch
  exact channels_cols hch

theorem rawRow_cols (c : Cfg ℚ) (g p : Bool) (h w : Nat) (l : List Rec) (i : Nat) (r : Rec) (hr : l[i]? = some r) :
    rawRow c (cols g p h w l) i
      = ((if p then some r.pt else some (defaultPolicy c.hasPass h w)).bind (dropPass c.hasPass h w)).map fun q =>
        ⟨h, w, h, w, r.planes, (if g then r.gf else [0]), r.vt, q⟩ := by
  unfold rawRow gfAt ptAt cols
  cases g <;> cases p <;> simp only [List.getElem?_map, hr, Option.map_some, if_true, Bool.false_eq_true, if_false] <;>
    (cases (Option.bind _ _) <;> rfl)

theorem joinOpt_all {β : Type} : ∀ (xs : List (Option (List β) × Nat)),
    (∀ x ∈ xs, 0 < x.2 ∧ ∀ c, x.1 = some c → c.length = x.2) →
    ((xs.map (·.1)).filterMap id).flatten.length ≤ (xs.map (·.2)).sum ∧
    (((xs.map (·.1)).filterMap id).flatten.length = (xs.map (·.2)).sum → ∀ x ∈ xs, x.1.isSome = true)
  | [], _ => by simp
  | x :: xs, h => by
    obtain ⟨h1, h2⟩ := joinOpt_all xs fun y hy => h y (List.mem_cons_of_mem _ hy)
    obtain ⟨hx, hc⟩ := h x (List.mem_cons_self ..)
    obtain ⟨xo, xn⟩ := x
    cases xo with
    | none =>
      simp only [List.map_cons, List.filterMap_cons, id, List.sum_cons] at h1 h2 ⊢
      exact ⟨by omega, fun he => by simp only [] at hx; omega⟩
    | some c =>
      have := hc c rfl
      simp only [List.map_cons, List.filterMap_cons, id, List.sum_cons, List.flatten_cons, List.length_append] at h1 h2 this ⊢
      refine ⟨by omega, fun he y hy => ?_⟩
      rcases List.mem_cons.mp hy with rfl | hy
      · rfl
      · exact h2 (by omega) y hy

/-- The column is present in all files or in none. -/
theorem joinOpt_uniform {β : Type} (xs : List (Option (List β) × Nat))
    (h : ∀ x ∈ xs, 0 < x.2 ∧ ∀ c, x.1 = some c → c.length = x.2)
    (hl : ∀ c, joinOpt (xs.map (·.1)) = some c → c.length = (xs.map (·.2)).sum) :
    ∀ x ∈ xs, x.1.isSome = (joinOpt (xs.map (·.1))).isSome := by
  intro x hx
  unfold joinOpt at hl ⊢
  by_cases ha : ((xs.map (·.1)).all (·.isNone)) = true
  · rw [if_pos ha]
    have := List.all_eq_true.mp ha x.1 (List.mem_map_of_mem hx)
    rw [Option.isNone_iff_eq_none.mp this]
  · rw [if_neg ha] at hl ⊢
    rw [(joinOpt_all xs h).2 (hl _ rfl) x hx]
    rfl

theorem join_cols (g p : Bool) (h w : Nat) (l : List Rec) (ls : List (List Rec)) {j : File}
    (hj : joinFiles ((l :: ls).map (cols g p h w)) = some j) : j = cols g p h w (l :: ls).flatten := by
  unfold joinFiles at hj
  simp only [List.map_cons] at hj
  split_ifs at hj
  simp only [Option.some.injEq] at hj
  rw [← hj]
  have hcol : ∀ {β : Type} (F : Rec → β), joinOpt ((l :: ls).map fun l => some (l.map F)) = some ((l :: ls).flatten.map F) := by
    intro β F
    unfold joinOpt
    rw [if_neg (by simp)]
    have : ∀ m : List (List Rec), ((m.map fun l => some (l.map F)).filterMap id).flatten = m.flatten.map F := by
      intro m
      induction m with
      | nil => rfl
      | cons x xs ih =>
        rw [List.map_cons, List.filterMap_cons]
        simp only [id]
        rw [List.flatten_cons, List.flatten_cons, List.map_append]
        simp only [id] at ih
        rw [← ih]
    rw [this]
  have hno : ∀ {β : Type}, joinOpt ((l :: ls).map fun _ => (none : Option (List β))) = none := by
    intro β
    unfold joinOpt
    rw [if_pos (by simp)]
  unfold cols
  congr 1
  · simp [List.map_map, Function.comp_def, List.map_flatten]
  · cases g
    · rw [List.map_map]; exact hno
    · rw [List.map_map]; exact hcol (·.gf)
  · simp [List.map_map, Function.comp_def, List.map_flatten]
  · cases p
    · rw [List.map_map]; exact hno
    · rw [List.map_map]; exact hcol (·.pt)

theorem accept_eq {o : POpts} {files : List File} {acc : List (List File)} (h : files.mapM (acceptFile o) = some acc) :
    acc.flatten = files.filter fun a => decide ((a.h, a.w) ∈ o.boardsizes) := by
  have : acc = files.map fun a => if (a.h, a.w) ∈ o.boardsizes then [a] else [] := by
    refine mapM_eq_map (fun a y hy => ?_) h
    unfold acceptFile at hy
    by_cases h1 : (a.h, a.w) ∈ o.boardsizes
    · rw [if_neg (not_not.mpr h1)] at hy
      rw [if_pos h1]
      split_ifs at hy
      simpa [eq_comm] using hy
    · rw [if_pos h1] at hy
      rw [if_neg h1]
      simpa [eq_comm] using hy
  rw [this]
  clear h this
  induction files with
  | nil => rfl
  | cons a l ih =>
    rw [List.map_cons, List.flatten_cons, ih]
    by_cases h1 : (a.h, a.w) ∈ o.boardsizes
    · simp [h1]
    · simp [h1]

theorem recsOf_length (a : File) : (recsOf a).length = a.bf.length := by simp [recsOf]

/-- **C90**, processed files: the map-style dataset is the concatenation of the files as the streaming decoder
loads them, and row `i` of file `k` is the same sample, for the same symmetry.  Files are both accepted by the
streaming loader and joined by the map-style one; conditions look at every row by itself. -/
theorem C90_processed_map_is_stream (o : POpts)
    (f : Option (List (Nat → Nat → ℚ)) × Option (Option (List ℚ)) × Option (List ℚ) × Option (Option (Policy ℚ)) → Bool)
    (hf : PRowWise o.cond f) (files : List File) (a : File) (parts : List File)
    (hmap : loadMap o files = some a) (hstream : files.mapM (loadStream o) = some parts) :
    a.bf.length = (parts.map fun b => b.bf.length).sum ∧
      ∀ k i sym b, parts[k]? = some b → i < b.bf.length →
        mapItem o a (((parts.take k).map fun b => b.bf.length).sum + i) sym = streamItem o b i sym := by
  unfold loadMap at hmap
  obtain ⟨j, hj, hmf⟩ := Option.bind_eq_some_iff.mp hmap
  obtain ⟨acc, hacc, hjoin⟩ := Option.bind_eq_some_iff.mp hj
  rw [accept_eq hacc] at hjoin
  obtain ⟨kept, hkept⟩ : ∃ kept, kept = files.filter fun a => decide ((a.h, a.w) ∈ o.boardsizes) := ⟨_, rfl⟩
  rw [← hkept] at hjoin
  have hgood : ∀ x ∈ kept, lengthsOk x.bf.length x = true ∧ x.bf ≠ [] ∧ (x.h, x.w) ∈ o.boardsizes := by
    intro x hx
    rw [hkept, List.mem_filter] at hx
    obtain ⟨b, _, hb⟩ := mapM_mem hstream hx.1
    unfold loadStream at hb
    by_cases h1 : (x.bf.isEmpty || !lengthsOk x.bf.length x) = true
    · rw [if_pos h1] at hb; cases hb
    · simp only [Bool.or_eq_true, List.isEmpty_iff, Bool.not_eq_true', not_or, Bool.not_eq_false] at h1
      exact ⟨h1.2, h1.1, by simpa using hx.2⟩
  -- one shape and one set of columns
  obtain ⟨g, p, h, w, hu⟩ : ∃ g p h w, ∀ x ∈ kept, x = cols g p h w (recsOf x) := by
    cases hk : kept with
    | nil => exact ⟨true, true, 0, 0, by simp⟩
    | cons x0 xs =>
      have hjoin' := hjoin
      rw [hk] at hjoin'
      unfold joinFiles at hjoin'
      simp only [] at hjoin'
      split_ifs at hjoin' with hany hlen
      rw [← hk] at hany hlen hjoin' ⊢
      have hsz : ∀ x ∈ kept, x.h = x0.h ∧ x.w = x0.w := by
        intro x hx
        have := hany
        simp only [List.any_eq_true, not_exists, not_and] at this
        have := this x hx
        simp only [decide_eq_true_eq, not_or, not_not] at this
        exact this
      have hsum : ((kept.map (·.bf)).flatten).length = (kept.map fun x => x.bf.length).sum := by
        rw [List.length_flatten, List.map_map]; rfl
      unfold lengthsOk at hlen
      simp only [Bool.and_eq_true, decide_eq_true_eq] at hlen
      obtain ⟨⟨-, hg⟩, hp⟩ := hlen
      have hgp : ∀ x ∈ kept, (∀ c, x.gf = some c → c.length = x.bf.length) ∧ (∀ c, x.pt = some c → c.length = x.bf.length) := by
        intro x hx
        have := (hgood x hx).1
        unfold lengthsOk at this
        simp only [Bool.and_eq_true, decide_eq_true_eq] at this
        refine ⟨fun c hc => ?_, fun c hc => ?_⟩
        · have := this.1.2; rw [hc] at this; simpa using this
        · have := this.2; rw [hc] at this; simpa using this
      have hpos : ∀ x ∈ kept, 0 < x.bf.length := fun x hx => List.length_pos_iff.mpr (hgood x hx).2.1
      have ug := joinOpt_uniform (kept.map fun x => (x.gf, x.bf.length))
        (by
          intro y hy
          obtain ⟨x, hx, rfl⟩ := List.mem_map.mp hy
          exact ⟨hpos x hx, (hgp x hx).1⟩)
        (by
          intro c hc
          rw [List.map_map] at hc ⊢
          have hc' : joinOpt (kept.map (·.gf)) = some c := hc
          rw [hc'] at hg
          simp only [decide_eq_true_eq] at hg
          rw [hg, hsum]; rfl)
      have up := joinOpt_uniform (kept.map fun x => (x.pt, x.bf.length))
        (by
          intro y hy
          obtain ⟨x, hx, rfl⟩ := List.mem_map.mp hy
          exact ⟨hpos x hx, (hgp x hx).2⟩)
        (by
          intro c hc
          rw [List.map_map] at hc ⊢
          have hc' : joinOpt (kept.map (·.pt)) = some c := hc
          rw [hc'] at hp
          simp only [decide_eq_true_eq] at hp
          rw [hp, hsum]; rfl)
      refine ⟨(joinOpt (kept.map (·.gf))).isSome, (joinOpt (kept.map (·.pt))).isSome, x0.h, x0.w, fun x hx => ?_⟩
      have e := cols_of (hgood x hx).1
      have e1 := ug (x.gf, x.bf.length) (List.mem_map_of_mem hx)
      have e2 := up (x.pt, x.bf.length) (List.mem_map_of_mem hx)
      rw [List.map_map] at e1 e2
      have e1' : x.gf.isSome = (joinOpt (kept.map (·.gf))).isSome := e1
      have e2' : x.pt.isSome = (joinOpt (kept.map (·.pt))).isSome := e2
      have e3 : x.h = x0.h := (hsz x hx).1
      have e4 : x.w = x0.w := (hsz x hx).2
      rw [e1', e2', e3, e4] at e
      exact e
  -- the joined file
  have hjc : j = cols g p h w (kept.map recsOf).flatten := by
    have hkc : kept = (kept.map recsOf).map (cols g p h w) := by
      rw [List.map_map]
      conv_lhs => rw [← List.map_id kept]
      exact List.map_congr_left fun x hx => hu x hx
    cases hk : kept with
    | nil => rw [hk] at hjoin; simp [joinFiles] at hjoin
    | cons x0 xs =>
      rw [hkc, hk, List.map_cons] at hjoin
      exact join_cols g p h w _ _ hjoin
  rw [hjc] at hmf
  have ha := mapFilters_cols hf hmf
  obtain ⟨part, hpart⟩ : ∃ part : File → List Rec, part = fun x =>
      if (x.h, x.w) ∈ o.boardsizes then ((recsOf x).filter (keepRec o g p f)).map (chanT o) else [] := ⟨_, rfl⟩
  have hqs : ((kept.map recsOf).flatten.filter (keepRec o g p f)).map (chanT o) = (files.map part).flatten := by
    rw [hkept, hpart]
    clear * -
    induction files with
    | nil => rfl
    | cons x xs ih =>
      rw [List.map_cons, List.flatten_cons, ← ih]
      by_cases hx : (x.h, x.w) ∈ o.boardsizes
      · simp [hx, List.filter_append]
      · simp [hx]
  have hb : ∀ x ∈ files, ∀ b, loadStream o x = some b → b.bf.length = (part x).length ∧ (part x ≠ [] → b = cols g p h w (part x)) := by
    intro x hx b hb
    rw [hpart]
    by_cases hin : (x.h, x.w) ∈ o.boardsizes
    · simp only [if_pos hin]
      have hxk : x ∈ kept := by rw [hkept, List.mem_filter]; exact ⟨hx, by simpa using hin⟩
      have hxc := hu x hxk
      have hhw : x.h = h ∧ x.w = w := by rw [hxc]; exact ⟨rfl, rfl⟩
      rw [hxc] at hb
      have := loadStream_cols hf (by rw [← hhw.1, ← hhw.2]; exact hin) hb
      exact ⟨by rw [this]; simp [cols], fun _ => this⟩
    · simp only [if_neg hin]
      unfold loadStream at hb
      split_ifs at hb
      simp only [Option.some.injEq] at hb
      exact ⟨by rw [← hb]; rfl, fun hne => absurd rfl hne⟩
  have hlens : (parts.map fun b => b.bf.length) = (files.map part).map List.length := by
    rw [List.map_map]
    have hlen := mapM_length hstream
    apply List.ext_getElem (by simp [hlen])
    intro n h1 h2
    simp only [List.length_map] at h1 h2
    obtain ⟨b, hb1, hb2⟩ := mapM_getElem hstream n files[n] (List.getElem?_eq_getElem h2)
    rw [List.getElem?_eq_getElem h1] at hb1
    cases hb1
    simp only [List.getElem_map, Function.comp_apply]
    exact (hb _ (List.getElem_mem _) _ hb2).1
  rw [hqs] at ha
  refine ⟨?_, ?_⟩
  · rw [hlens, ha]
    show (List.map (·.planes) (files.map part).flatten).length = _
    rw [List.length_map, List.length_flatten]
  · intro k i sym b hbk hi
    have hlen := mapM_length hstream
    have hk : k < files.length := by
      rw [← hlen]; exact (List.getElem?_eq_some_iff.mp hbk).1
    obtain ⟨b', hb1, hb2⟩ := mapM_getElem hstream k files[k] (List.getElem?_eq_getElem hk)
    rw [hbk] at hb1
    cases hb1
    obtain ⟨hl, hc⟩ := hb _ (List.getElem_mem _) _ hb2
    have hne : part files[k] ≠ [] := by
      intro he
      rw [he] at hl
      simp at hl
      rw [hl] at hi
      simp at hi
    have hoff : ((parts.take k).map fun b => b.bf.length).sum = (((files.map part).take k).map List.length).sum := by
      rw [List.map_take, List.map_take, hlens]
    have hat := flatten_at (files.map part) k i (part files[k]) (by simp [List.getElem?_eq_getElem hk]) (by omega)
    have hi' : i < (part files[k]).length := by omega
    rw [List.getElem?_eq_getElem hi'] at hat
    unfold mapItem streamItem
    rw [hc hne, ha, hoff, rawRow_cols _ _ _ _ _ _ _ _ hat, rawRow_cols _ _ _ _ _ _ _ _ (List.getElem?_eq_getElem hi')]

/-! ### Findings -/

/-- **C90**, finding: a streaming file without accepted rows is an error, while the map-style dataset reads on. -/
theorem C90_raw_empty_file (o : Opts) (file : List RawRow) (h : loadFile o file = some [])
    (other : List RawRow) (rows : List (Row ℚ)) (ho : loadRaw o [other] = some rows) :
    loadRaw o [file, other] = some rows ∧ ∀ i sym, rawStream o file i sym = none := by
  have hs : loadFile o.still file = some [] := h
  constructor
  · unfold loadRaw at ho ⊢
    obtain ⟨ls, h1, h2⟩ := Option.bind_eq_some_iff.mp ho
    rw [mapM_cons'] at h1 ⊢
    cases hx : loadFile o other with
    | none => simp [hx] at h1
    | some y =>
      simp [hx] at h1
      subst h1
      rw [h]
      simpa [mapM_cons', hx] using h2
  · intro i sym
    unfold rawStream loadRaw
    simp [mapM_cons', hs, stack]

end Verif.Katago
