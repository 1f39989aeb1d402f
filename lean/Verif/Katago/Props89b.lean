/-
C89, whole files: the rows of a raw dataset are the accepted rows of its files, in order.  Findings.
-/
import Verif.Katago.Props89
import Verif.Decode.Lemmas

namespace Verif.Katago
open Verif.Board Verif.Decode

/-! ### Specification -/

/-- The condition looks at every row by itself. -/
def RowWise (cond : Option (List RawRow → Option (List Bool))) (f : RawRow → Bool) : Prop :=
  match cond with
  | none => ∀ r, f r = true
  | some c => ∀ rows m, c rows = some m → m = rows.map f

/-- The side to move asked for: the stored side, or the sign of the komi. -/
def SideWanted (want : Option Int) (r : RawRow) : Prop :=
  match want with
  | none => True
  | some f => if r.glob.length = 1 then r.glob.getD 0 0 = f
      else if f = 1 then 0 < r.glob.getD 5 0 else r.glob.getD 5 0 < 0

instance (want : Option Int) (r : RawRow) : Decidable (SideWanted want r) := by
  unfold SideWanted; cases want <;> infer_instance

/-! ### Proof -/

theorem maskGet_rows {m : List Bool} {l : List RawRow} {f : RawRow → Bool} (h : m = l.map f) : maskGet m l = l.filter f := by
  rw [h, maskGet_eq_filter]

theorem keepStm_eq {f : Int} {r : RawRow} {v : Bool} (h : keepStm f r = some v) : v = decide (SideWanted (some f) r) := by
  unfold keepStm at h
  unfold SideWanted
  by_cases h1 : r.glob.length = 1
  · rw [if_pos h1] at h
    simp only [if_pos h1]
    obtain ⟨k, hk, rfl⟩ := Option.map_eq_some_iff.mp h
    simp [List.getD_eq_getElem?_getD, hk]
  · rw [if_neg h1] at h
    simp only [if_neg h1]
    obtain ⟨k, hk, rfl⟩ := Option.map_eq_some_iff.mp h
    by_cases hf : f = 1 <;> simp [List.getD_eq_getElem?_getD, hk, hf]

theorem mapM_eq_map {β γ : Type} {g : β → Option γ} {t : β → γ} (ht : ∀ x y, g x = some y → y = t x) :
    ∀ {l : List β} {r : List γ}, l.mapM g = some r → r = l.map t
  | [], r, h => by simpa [eq_comm] using h
  | x :: xs, r, h => by
    rw [mapM_cons'] at h
    cases hx : g x with
    | none => simp [hx] at h
    | some y =>
      cases hxs : xs.mapM g with
      | none => simp [hx, hxs] at h
      | some ys =>
        simp [hx, hxs] at h
        rw [← h, mapM_eq_map ht hxs, ht x y hx, List.map_cons]

theorem filterRows_eq {o : Opts} {f : RawRow → Bool} (hf : RowWise o.cond f) {rows l : List RawRow}
    (h : filterRows o rows = some l) : l = rows.filter fun r => decide (SideWanted o.filterStm r) && f r := by
  unfold filterRows at h
  obtain ⟨r1, h1, h2⟩ := Option.bind_eq_some_iff.mp h
  have e1 : r1 = rows.filter fun r => decide (SideWanted o.filterStm r) := by
    cases hs : o.filterStm with
    | none =>
      rw [hs] at h1
      simp only [Option.some.injEq] at h1
      rw [← h1]
      symm
      rw [List.filter_eq_self]
      intro a _
      exact decide_eq_true (by rw [SideWanted]; trivial)
    | some s =>
      rw [hs] at h1
      obtain ⟨m, hm, rfl⟩ := Option.map_eq_some_iff.mp h1
      exact maskGet_rows (mapM_eq_map (fun x y hxy => keepStm_eq hxy) hm)
  have e2 : l = r1.filter f := by
    cases hc : o.cond with
    | none =>
      rw [hc] at h2 hf
      simp only [Option.some.injEq] at h2
      rw [← h2]
      symm
      rw [List.filter_eq_self]
      intro a _
      exact hf a
    | some c =>
      rw [hc] at h2 hf
      obtain ⟨m, hm, rfl⟩ := Option.map_eq_some_iff.mp h2
      exact maskGet_rows (hf _ _ hm)
  rw [e2, e1, List.filter_filter]
  congr 1
  funext r
  exact Bool.and_comm _ _

/-- The rows the user asked for, decoded, in order. -/
def deliver (o : Opts) (f : RawRow → Bool) (rows : List RawRow) : List (Row ℚ) :=
  ((rows.filter fun r => decide (SideWanted o.filterStm r) && f r).filterMap (unpackRow o)).filter
    fun s => decide ((s.bh, s.bw) ∈ o.boardsizes)

theorem mapM_filterMap {β γ : Type} {g : β → Option γ} :
    ∀ {l : List β} {r : List γ}, l.mapM g = some r → r = l.filterMap g ∧ ∀ x ∈ l, (g x).isSome
  | [], r, h => by
    have : r = [] := by simpa [eq_comm] using h
    subst this
    exact ⟨rfl, by simp⟩
  | x :: xs, r, h => by
    rw [mapM_cons'] at h
    cases hx : g x with
    | none => simp [hx] at h
    | some y =>
      cases hxs : xs.mapM g with
      | none => simp [hx, hxs] at h
      | some ys =>
        simp [hx, hxs] at h
        obtain ⟨e1, e2⟩ := mapM_filterMap hxs
        refine ⟨by rw [← h, e1]; simp [hx], ?_⟩
        intro z hz
        rcases List.mem_cons.mp hz with rfl | hz
        · simp [hx]
        · exact e2 z hz

theorem loadFile_eq {o : Opts} {f : RawRow → Bool} (hf : RowWise o.cond f) {rows : List RawRow} {l : List (Row ℚ)}
    (h : loadFile o rows = some l) :
    l = deliver o f rows ∧ ∀ r ∈ rows, SideWanted o.filterStm r → f r = true → (unpackRow o r).isSome := by
  unfold loadFile at h
  obtain ⟨l1, h1, rfl⟩ := Option.map_eq_some_iff.mp h
  obtain ⟨l2, h2, h3⟩ := Option.bind_eq_some_iff.mp h1
  obtain ⟨e1, e2⟩ := mapM_filterMap h3
  have e3 := filterRows_eq hf h2
  refine ⟨by rw [e1, e3]; rfl, ?_⟩
  intro r hr hs hfr
  apply e2
  rw [e3, List.mem_filter]
  exact ⟨hr, by simp [hs, hfr]⟩

theorem stack_eq {rows l : List (Row ℚ)} (h : stack rows = some l) : l = rows ∧ rows ≠ [] := by
  unfold stack at h
  cases rows with
  | nil => cases h
  | cons r rs =>
    simp only [] at h
    by_cases hc : ∀ x ∈ rs, x.shape = r.shape
    · rw [if_pos hc] at h
      simp only [Option.some.injEq] at h
      exact ⟨h.symm, by simp⟩
    · rw [if_neg hc] at h; cases h

theorem deliver_flatten (o : Opts) (f : RawRow → Bool) (files : List (List RawRow)) :
    deliver o f files.flatten = (files.map (deliver o f)).flatten := by
  induction files with
  | nil => rfl
  | cons a l ih =>
    rw [List.flatten_cons, List.map_cons, List.flatten_cons, ← ih]
    simp [deliver, List.filter_append, List.filterMap_append]

/-- **C89**, whole dataset: the samples are exactly the rows of the files, in order, whose side to move,
condition and board size were asked for; a wanted row that does not decode is an error, never skipped. -/
theorem C89_rows_delivered (o : Opts) (f : RawRow → Bool) (hf : RowWise o.cond f) (files : List (List RawRow))
    (rows : List (Row ℚ)) (h : loadRaw o files = some rows) :
    rows = deliver o f files.flatten ∧ rows ≠ []
      ∧ ∀ r ∈ files.flatten, SideWanted o.filterStm r → f r = true → (unpackRow o r).isSome := by
  unfold loadRaw at h
  obtain ⟨ls, h1, h2⟩ := Option.bind_eq_some_iff.mp h
  obtain ⟨e, hne⟩ := stack_eq h2
  have e1 : ls = files.map (deliver o f) := mapM_eq_map (fun x y hxy => (loadFile_eq hf hxy).1) h1
  refine ⟨by rw [e, e1, deliver_flatten], by rw [e]; exact hne, ?_⟩
  intro r hr hs hfr
  obtain ⟨file, hfile, hrf⟩ := List.mem_flatten.mp hr
  obtain ⟨l, _, hl⟩ := mapM_mem h1 hfile
  exact (loadFile_eq hf hl).2 r hrf hs hfr

/-! ### Through `__getitem__` -/

/-- **C89**, end to end for boards that fill the tensor: sample `i` is the decoded position with a symmetry of the
requested kind applied to stones and policy together, swapped to a fixed side if asked, padded if asked. -/
theorem C89_item_aligned (o : Opts) (rows : List (Row ℚ)) (i sym : Nat) (r : Row ℚ) (hr : rows[i]? = some r)
    (hfill : r.bh = r.h ∧ r.bw = r.w)
    (hpol : (∃ g, r.policy = .plane g ∧ g.h = r.h ∧ g.w = r.w) ∨ ∃ v, r.policy = .flat v ∧ v.length = r.h * r.w + 1)
    (hstm : r.stm.length = 1) (hval : 2 ≤ r.value.length)
    (hfit : ∀ H W, o.c.fixedSize = some (H, W) → r.bh ≤ H ∧ r.bw ≤ W)
    (hsym : ∀ k, o.c.kind = some k → ∃ syms, available r.bh r.bw k = some syms ∧ sym < syms.length) :
    ∃ s0 q sy, rawItem o rows i sym = some q ∧ Picked o.c.kind r.bh r.bw sym sy
      ∧ s0.planes = (if o.c.fixedSide && r.stm.any o.c.gt0 then r.planes.reverse else r.planes)
      ∧ (∃ a b l, r.value = a :: b :: l
          ∧ s0.value = if o.c.fixedSide && r.stm.any o.c.gt0 then b :: a :: l else a :: b :: l)
      ∧ s0.bh = r.bh ∧ s0.bw = r.bw ∧ s0.policy = r.policy
      ∧ q.stm = r.stm ∧ q.value = s0.value
      ∧ Aligned sy (o.c.fixedSize.getD (r.bh, r.bw)).1 (o.c.fixedSize.getD (r.bh, r.bw)).2 s0
          { bh := q.bh, bw := q.bw, h := q.h, w := q.w, planes := q.planes, stm := s0.stm, value := q.value,
            policy := q.policy, sparse := none, position := none, moves := none } := by
  obtain ⟨a, b, l, hv⟩ : ∃ a b l, r.value = a :: b :: l := by
    cases hvv : r.value with
    | nil => rw [hvv] at hval; simp at hval
    | cons a t =>
      cases t with
      | nil => rw [hvv] at hval; simp at hval
      | cons b l => exact ⟨a, b, l, rfl⟩
  obtain ⟨t, ht⟩ : ∃ t : Sample ℚ, t = { bh := r.bh, bw := r.bw, h := r.h, w := r.w, planes := r.planes, stm := (if r.stm.any o.c.gt0 then 1 else 0), value := r.value, policy := r.policy, sparse := none, position := none, moves := none } := ⟨_, rfl⟩
  obtain ⟨s0, hs0, hrest⟩ : ∃ s0, fixSide o.c.fixedSide t = some s0
      ∧ (s0.planes = (if o.c.fixedSide && r.stm.any o.c.gt0 then r.planes.reverse else r.planes)
      ∧ s0.value = (if o.c.fixedSide && r.stm.any o.c.gt0 then b :: a :: l else a :: b :: l)
      ∧ s0.bh = r.bh ∧ s0.bw = r.bw ∧ s0.h = r.h ∧ s0.w = r.w ∧ s0.policy = r.policy ∧ s0.sparse = none
      ∧ s0.position = none ∧ s0.moves = none) := by
    rw [ht]
    cases hfs : o.c.fixedSide <;> cases hst : r.stm.any o.c.gt0 <;>
      simp [fixSide, sideSwap, hv]
  obtain ⟨p1, p2, p3, p4, p5, p6, p7, p8, p9, p10⟩ := hrest
  have hwf : WellFormed s0 := by
    refine ⟨by rw [p5, p3, hfill.1], by rw [p6, p4, hfill.2], ?_, (by rw [p8]; intro sp h; cases h), (by rw [p9]; intro p h; cases h)⟩
    rw [p7, p3, p4, hfill.1, hfill.2]
    rcases hpol with ⟨g, hg, h1⟩ | ⟨v, hg, h1⟩ <;> rw [hg] <;> exact h1
  obtain ⟨sy, q, hq, hpk, hal, -⟩ := C46_process_sample o.c.fixedSide o.c.fixedSize o.c.kind sym false t s0 hs0 hwf
    (by rw [p3, p4]; exact hfit) (by rw [p3, p4]; exact hsym)
  have hitem : rawItem o rows i sym = some { bh := q.bh, bw := q.bw, h := q.h, w := q.w, planes := q.planes, stm := r.stm, value := q.value, policy := q.policy } := by
    unfold rawItem postOne
    rw [hr, Option.bind_some, if_neg (by simp [hstm]), ← ht, hq]
    rfl
  rw [p3, p4] at hpk hal
  exact ⟨s0, _, sy, hitem, hpk, p1, ⟨a, b, l, hv, p2⟩, p3, p4, p7, rfl, hal.side.2,
    ⟨hal.size, hal.planes, hal.policy, rfl, hal.side.2⟩⟩

/-! ### Findings -/

theorem fixSide_keeps {fixed : Bool} {t s : Sample ℚ} (h : fixSide fixed t = some s) :
    s.bh = t.bh ∧ s.bw = t.bw ∧ s.policy = t.policy := by
  unfold fixSide at h
  by_cases hc : (fixed && decide (t.stm > 0)) = true
  · rw [if_pos hc] at h
    unfold sideSwap at h
    split at h
    · split at h
      · simp only [Option.some.injEq] at h
        rw [← h]; exact ⟨rfl, rfl, rfl⟩
      · obtain ⟨x, _, rfl⟩ := Option.map_eq_some_iff.mp h
        exact ⟨rfl, rfl, rfl⟩
    · cases h
  · rw [if_neg hc] at h
    simp only [Option.some.injEq] at h
    rw [← h]; exact ⟨rfl, rfl, rfl⟩

/-- **C89**, finding: tensors of side 3 come out as 4 × 4 (nine bits take two bytes, that is sixteen bits). -/
theorem C89_side_three (f : Nat → Nat → Bool) : sideOf (packPlane 3 f) = 4 := by
  unfold sideOf packPlane
  rw [List.length_map, List.length_range]
  decide +kernel

/-- **C89**, finding: a row of komi zero is decoded as black to move but is in neither half of a side filter. -/
theorem C89_komi_zero (r : RawRow) (h : r.glob.length ≠ 1) (h0 : r.glob[5]? = some 0) :
    unpackSide r.glob = some [-1] ∧ keepStm (-1) r = some false ∧ keepStm 1 r = some false := by
  simp [unpackSide, keepStm, h, h0]

/-- **C89**, finding: a board that does not fill the tensor, with a pass entry and a symmetry, is an error. -/
theorem C89_small_pass_symmetry (o : Opts) (rows : List (Row ℚ)) (i sym : Nat) (r : Row ℚ) (v : List ℚ) (k : Kind)
    (hr : rows[i]? = some r) (hv : r.policy = .flat v) (hlen : v.length = r.h * r.w + 1)
    (hsmall : r.bh * r.bw < r.h * r.w) (hk : o.c.kind = some k) : rawItem o rows i sym = none := by
  have hne : v.length ≠ r.bh * r.bw + 1 := by omega
  have haug : ∀ (s : Sample ℚ), s.bh = r.bh → s.bw = r.bw → s.policy = .flat v → augment (some k) sym s = none := by
    intro s h1 h2 h3
    unfold augment
    simp only []
    cases (available s.bh s.bw k).bind (·[sym]?) with
    | none => rfl
    | some sy =>
      have : symPolicy sy s = none := by
        unfold symPolicy; rw [h3, h1, h2]; simp [hne]
      simp only [this]
  unfold rawItem postOne
  rw [hr, Option.bind_some]
  by_cases hc : o.c.fixedSide = true ∧ r.stm.length ≠ 1
  · rw [if_pos hc]
  rw [if_neg hc, hk]
  unfold process
  rw [Option.map_eq_none_iff]
  cases hfs : fixSide o.c.fixedSide _ with
  | none => rfl
  | some s =>
    obtain ⟨e1, e2, e3⟩ := fixSide_keeps hfs
    rw [Option.bind_some, haug s e1 e2 (e3.trans hv), Option.bind_none]

end Verif.Katago
