import Verif.Npz.Lemmas
import Mathlib.Data.Nat.Count
import Mathlib.Data.Int.CardIntervalMod

/-!
# C15-C19: NPZ row sources
-/
namespace Verif.Npz
open Verif.Rng (Val Digest deterministicPermutation)

/-! ### Specification vocabulary -/

/-- Reads with a list of request sizes, one after the other. -/
def readAll (S : Src) : List Nat → Cursor → Option (List Env × Cursor)
  | [], c => some ([], c)
  | k :: ks, c => do
    let (x, c1) ← nextEnvelopes S c k
    let (y, c2) ← readAll S ks c1
    some (x ++ y, c2)

/-- The files of the source were laid out one after the other in the global row space. -/
def Built (S : Src) : Prop := ∃ table, S.files = buildFiles 0 table

/-- Number of rows of all files. -/
def totalRows (S : Src) : Nat := (S.files.map (·.count)).sum

/-- The stream of an epoch/cycle: file by file in the given order, the rows in increasing order; of these the
ones on this rank (all when not sharded) that sampling admits. -/
def expected (S : Src) (epoch cycle : Nat) (order : List Nat) : List Env :=
  order.flatMap fun i =>
    ((List.range (S.file i).count).filter fun row =>
      (!S.sharded || ((S.file i).begin + row) % S.world == S.rank) &&
        (S.full || S.admit epoch (recordKey (S.file i) (physicalRow (S.file i) row) cycle))).map
      fun row => mkEnv (S.file i) row cycle

/-! ### Lemmas connecting the loops with the specification -/

theorem remList_zero (S : Src) (c : Cursor) (hc : c.rank = if S.sharded then S.rank else 0) (l : List Nat) :
    (remList S c l 0).map (envOf S c) = expected S c.epoch c.cycle l := by
  induction l with
  | nil => rfl
  | cons i l ih =>
    rw [remList, List.map_append, ih, expected, expected, List.flatMap_cons]
    congr 1
    rw [List.map_map, fr, Nat.sub_zero, ← List.range_eq_range']
    have : (deliver S c (S.file i)) = fun row =>
        (!S.sharded || ((S.file i).begin + row) % S.world == S.rank) &&
        (S.full || S.admit c.epoch (recordKey (S.file i) (physicalRow (S.file i) row) c.cycle)) := by
      funext row
      simp only [deliver, inRank, admitted, hc]
      by_cases hs : S.sharded <;> simp [hs]
    rw [this]
    rfl

/-- Cursors that a reader can hold for an epoch/cycle of `S`: started, or advanced by a read. -/
inductive Held (H : Digest) (S : Src) : Cursor → Prop
  | start {epoch cycle : Nat} {c : Cursor} : startCycle H S epoch cycle S.rank = some c → Held H S c
  | read {c c' : Cursor} {k : Nat} {out : List Env} : Held H S c → nextEnvelopes S c k = some (out, c') →
      Held H S c'
  | packed {c c' : Cursor} {k : Nat} {ids : List Nat} : Held H S c → S.sharded = false →
      nextPacked S c k = some (ids, c') → Held H S c'

theorem startCycle_eq {H : Digest} {S : Src} {e y r : Nat} {c : Cursor} (h : startCycle H S e y r = some c) :
    r = S.rank ∧ S.rank < S.world ∧ fileOrder H S e y = some c.order ∧
      c = ⟨e, y, if S.sharded then S.rank else 0, c.order, 0, 0⟩ := by
  unfold startCycle at h
  split at h
  · simp at h
  · rename_i hn
    simp only [Option.map_eq_some_iff] at h
    obtain ⟨o, ho, rfl⟩ := h
    push Not at hn
    obtain ⟨rfl, h2⟩ := hn
    exact ⟨rfl, h2, ho, rfl⟩

theorem nextEnvelopes_spec {S : Src} {c : Cursor} (hr : RankOk S c.rank) (hfp : c.fp ≤ c.order.length)
    {k : Nat} (hk : 0 < k) :
    ∃ fp row, nextEnvelopes S c k =
        some (((remList S c (c.order.drop c.fp) c.row).take k).map (envOf S c), { c with fp := fp, row := row }) ∧
      remList S c (c.order.drop fp) row = (remList S c (c.order.drop c.fp) c.row).drop k ∧
      PosOk S c.order fp row := by
  have hsp := nextLoop_spec S c hr (fuelFor S c.order) c.fp c.row k
    ((mu_le_fuelFor _ _ _).trans (fuelFor_drop _ _ _))
  have hse := settle_spec S c c.order _ (nextLoop S c (fuelFor S c.order) c.fp c.row k).2.2 (hsp.2.2 hfp)
  refine ⟨_, _, ?_, ?_, hse.2⟩
  · unfold nextEnvelopes
    rw [if_neg (by omega)]
    simp only
    rw [hsp.1]
  · rw [hse.1, hsp.2.1]

theorem PosOk.le {S : Src} {o : List Nat} {fp row : Nat} (h : PosOk S o fp row) : fp ≤ o.length := by
  rcases h with h | h <;> omega

theorem readAll_spec {S : Src} : ∀ (ks : List Nat) {c : Cursor}, RankOk S c.rank → c.fp ≤ c.order.length →
    (∀ k ∈ ks, 0 < k) →
    ∃ fp row, readAll S ks c =
        some (((remList S c (c.order.drop c.fp) c.row).take ks.sum).map (envOf S c),
          { c with fp := fp, row := row }) ∧
      remList S c (c.order.drop fp) row = (remList S c (c.order.drop c.fp) c.row).drop ks.sum ∧
      fp ≤ c.order.length
  | [], c, _, hfp, _ => ⟨c.fp, c.row, by simp [readAll], by simp, hfp⟩
  | k :: ks, c, hr, hfp, hk => by
    obtain ⟨fp1, row1, h1, h2, h3⟩ := nextEnvelopes_spec (S := S) (c := c) hr hfp (hk k (by simp))
    obtain ⟨fp2, row2, g1, g2, g3⟩ := readAll_spec ks (c := { c with fp := fp1, row := row1 }) hr h3.le
      (fun x hx => hk x (by simp [hx]))
    refine ⟨fp2, row2, ?_, ?_, g3⟩
    · simp only [readAll, h1, Option.bind_eq_bind, Option.bind_some]
      rw [g1]
      simp only [Option.bind_some, Option.some.injEq, Prod.mk.injEq, and_true]
      change _ = List.map (envOf S c) (List.take (k + ks.sum) _)
      rw [List.take_add, List.map_append]
      congr 1
      simp only [remList_pos]
      change List.map (envOf S c) (List.take ks.sum (remList S c (c.order.drop fp1) row1)) = _
      rw [h2]
    · simp only [remList_pos] at g2 ⊢
      rw [g2, h2, List.drop_drop]; rfl

/-! ### C15 -/

/-- **C15 (the stream of an epoch).** Whatever positive request sizes are used, the records read from the start
of an epoch are exactly the first `Σ sizes` records of the expected stream: rows in order, file by file. -/
theorem C15_stream (H : Digest) (S : Src) (epoch cycle : Nat) (c : Cursor)
    (hc : startCycle H S epoch cycle S.rank = some c) (ks : List Nat) (hk : ∀ k ∈ ks, 0 < k) :
    (readAll S ks c).map Prod.fst = some ((expected S epoch cycle c.order).take ks.sum) := by
  obtain ⟨_, hw, _, he⟩ := startCycle_eq hc
  have hr : RankOk S c.rank := by
    intro hs; rw [he]; simp [hs, hw]
  obtain ⟨fp, row, h1, -, -⟩ := readAll_spec (S := S) ks (c := c) hr (by rw [he]; simp) hk
  rw [h1]
  have hrank : c.rank = if S.sharded then S.rank else 0 := by rw [he]
  have h0 := remList_zero S c hrank c.order
  have e1 : c.epoch = epoch := by rw [he]
  have e2 : c.cycle = cycle := by rw [he]
  rw [e1, e2] at h0
  have hfp : c.fp = 0 := by rw [he]
  have hrow : c.row = 0 := by rw [he]
  rw [hfp, hrow, List.drop_zero, Option.map_some, List.map_take, h0]

/-! #### Request sizes -/

theorem held_step {H : Digest} {S : Src} {c c' : Cursor} {k : Nat} {out : List Env}
    (ih : (fileOrder H S c.epoch c.cycle = some c.order ∧ (c.rank = if S.sharded then S.rank else 0) ∧
      S.rank < S.world) ∧ ((c.fp = 0 ∧ c.row = 0) ∨ PosOk S c.order c.fp c.row))
    (h : nextEnvelopes S c k = some (out, c')) :
    (fileOrder H S c'.epoch c'.cycle = some c'.order ∧ (c'.rank = if S.sharded then S.rank else 0) ∧
      S.rank < S.world) ∧ ((c'.fp = 0 ∧ c'.row = 0) ∨ PosOk S c'.order c'.fp c'.row) := by
  obtain ⟨⟨h1, h2, h3⟩, h4⟩ := ih
  have hr : RankOk S c.rank := by intro hs; rw [h2]; simp [hs, h3]
  have hfp : c.fp ≤ c.order.length := by
    rcases h4 with h4 | h4
    · omega
    · exact h4.le
  rcases Nat.eq_zero_or_pos k with rfl | hk
  · simp [nextEnvelopes] at h
  · obtain ⟨fp, row, g1, -, g3⟩ := nextEnvelopes_spec hr hfp hk
    rw [g1] at h
    simp only [Option.some.injEq, Prod.mk.injEq] at h
    rw [← h.2]
    exact ⟨⟨h1, h2, h3⟩, Or.inr g3⟩

theorem Held.inv {H : Digest} {S : Src} {c : Cursor} (h : Held H S c) :
    (fileOrder H S c.epoch c.cycle = some c.order ∧ (c.rank = if S.sharded then S.rank else 0) ∧
      S.rank < S.world) ∧
    ((c.fp = 0 ∧ c.row = 0) ∨ PosOk S c.order c.fp c.row) := by
  induction h with
  | start h =>
    obtain ⟨_, hw, ho, he⟩ := startCycle_eq h
    rw [he]; exact ⟨⟨ho, rfl, hw⟩, Or.inl ⟨rfl, rfl⟩⟩
  | @read c c' k out _ h ih => exact held_step ih h
  | @packed c c' k ids _ hs h ih =>
    rw [nextPacked_eq S c hs] at h
    simp only [Option.map_eq_some_iff, Prod.mk.injEq] at h
    obtain ⟨⟨o, c2⟩, h, -, rfl⟩ := h
    exact held_step ih h

theorem settle_cases (S : Src) (order : List Nat) (fp row : Nat) :
    (settle S order fp row = settleLoop S order (order.length - fp) fp row) ∨
    ((settleLoop S order (order.length - fp) fp row).1 = order.length ∧
      settle S order fp row = (order.length, 0)) := by
  unfold settle
  simp only
  split
  · rename_i h; right; exact ⟨h, by rw [h]⟩
  · left; rfl

/-- **C15 (request sizes do not matter, cursors included).** One read of `m + n` returns what a read of `m`
followed by a read of `n` returns, and ends at the same cursor. -/
theorem C15_chunking (H : Digest) (S : Src) (c : Cursor) (hc : Held H S c) (m n : Nat) (hm : 0 < m) (hn : 0 < n) :
    nextEnvelopes S c (m + n) = readAll S [m, n] c := by
  obtain ⟨⟨-, h2, h3⟩, -⟩ := hc.inv
  have hr : RankOk S c.rank := by intro hs; rw [h2]; simp [hs, h3]
  have hF := (mu_le_fuelFor S (c.order.drop c.fp) c.row).trans (fuelFor_drop S c.order c.fp)
  obtain ⟨ha, hmu⟩ := nextLoop_add S c hr _ c.fp c.row m n hF
  simp only [readAll, nextEnvelopes, if_neg (show ¬ m = 0 by omega), if_neg (show ¬ n = 0 by omega),
    if_neg (show ¬ m + n = 0 by omega), Option.bind_eq_bind, Option.bind_some, List.append_nil]
  simp only [nextLoop_pos]
  rw [ha]
  set r1 := nextLoop S c (fuelFor S c.order) c.fp c.row m
  rcases settle_cases S c.order r1.2.1 r1.2.2 with h | ⟨h, h'⟩
  · rw [h, nextLoop_settle S c hr n hn _ _ _ _ hmu]
  · rw [h']
    have hz := nextLoop_settle S c hr n hn (c.order.length - r1.2.1) r1.2.1 r1.2.2 _ hmu
    rw [h] at hz
    have e : ∀ x, nextLoop S c (fuelFor S c.order) c.order.length x n = ([], c.order.length, x) := by
      intro x
      cases fuelFor S c.order with
      | zero => rfl
      | succ k => simp [nextLoop]
    rw [e] at hz
    rw [← hz, e]
    simp [settle, settleLoop]

/-! #### Every row exactly once -/

theorem fileOrder_perm {H : Digest} {S : Src} {e y : Nat} {o : List Nat} (h : fileOrder H S e y = some o) :
    o.Perm (List.range S.files.length) := by
  unfold fileOrder at h
  split at h
  · exact Verif.Rng.C04_permutation _ _ _ _ _ _ h
  · simp only [Option.some.injEq] at h; rw [← h]

theorem flatMap_rows (b : Nat) (t : List (List UInt8 × Nat × Nat × Option (List Nat))) :
    (buildFiles b t).flatMap (fun f => List.range' f.begin f.count) =
      List.range' b ((buildFiles b t).map (·.count)).sum := by
  induction t generalizing b with
  | nil => simp [buildFiles]
  | cons x t ih =>
    obtain ⟨d, o, n, r⟩ := x
    simp only [buildFiles, List.flatMap_cons, List.map_cons, List.sum_cons, ih]
    rw [← List.range'_append]; simp

theorem expected_payloads (S : Src) (hs : S.sharded = false) (hf : S.full = true) (e y : Nat) (o : List Nat) :
    (expected S e y o).map (·.payload) = o.flatMap fun i => List.range' (S.file i).begin (S.file i).count := by
  induction o with
  | nil => rfl
  | cons i o ih =>
    simp only [expected, List.flatMap_cons, List.map_append] at ih ⊢
    rw [ih]
    congr 1
    simp only [hs, hf, Bool.not_false, Bool.true_or, Bool.and_self, List.map_map]
    rw [List.filter_eq_self.mpr (by simp)]
    apply List.ext_getElem
    · simp
    · intro k h1 h2; simp [mkEnv_payload]

theorem range_flatMap_files (S : Src) {α : Type} (g : File → List α) :
    (List.range S.files.length).flatMap (fun i => g (S.file i)) = S.files.flatMap g := by
  have : S.files = (List.range S.files.length).map S.file := by
    apply List.ext_getElem
    · simp
    · intro i h1 h2; simp at h2; simp [Src.file, h2]
  conv_rhs => rw [this]
  rw [List.flatMap_map]

/-- **C15 (every row exactly once).** Without rank sharding and at sample rate 1, once the requested sizes add
up to at least the number of rows, the delivered global row numbers are exactly `0 .. total-1`, each once; without
shuffling they come in increasing order. -/
theorem C15_every_row_once (H : Digest) (S : Src) (hb : Built S) (hs : S.sharded = false) (hf : S.full = true)
    (epoch cycle : Nat) (c : Cursor) (hc : startCycle H S epoch cycle S.rank = some c) (ks : List Nat)
    (hk : ∀ k ∈ ks, 0 < k) (hsum : totalRows S ≤ ks.sum) :
    ∃ out c', readAll S ks c = some (out, c') ∧
      (out.map (·.payload)).Perm (List.range (totalRows S)) ∧
      (S.shuffle = false → out.map (·.payload) = List.range (totalRows S)) := by
  have h := C15_stream H S epoch cycle c hc ks hk
  simp only [Option.map_eq_some_iff] at h
  obtain ⟨⟨out, c'⟩, h, ho⟩ := h
  simp only at ho
  obtain ⟨_, hw, hfo, he⟩ := startCycle_eq hc
  obtain ⟨t, ht⟩ := hb
  have hrows : S.files.flatMap (fun f => List.range' f.begin f.count) = List.range (totalRows S) := by
    rw [totalRows, ht, flatMap_rows, List.range_eq_range']
  have hperm : ((expected S epoch cycle c.order).map (·.payload)).Perm (List.range (totalRows S)) := by
    rw [expected_payloads S hs hf, ← hrows, ← range_flatMap_files S (fun f => List.range' f.begin f.count)]
    exact (fileOrder_perm hfo).flatMap_right _
  have hlen : (expected S epoch cycle c.order).length = totalRows S := by
    have := hperm.length_eq; simpa using this
  rw [List.take_of_length_le (by omega)] at ho
  refine ⟨out, c', h, ho ▸ hperm, ?_⟩
  intro hsh
  rw [ho, expected_payloads S hs hf]
  have : c.order = List.range S.files.length := by
    simp [fileOrder, hsh] at hfo; exact hfo.symm
  rw [this, ← hrows, ← range_flatMap_files S (fun f => List.range' f.begin f.count)]

/-! #### Resolving global rows -/

theorem begin_eq {S : Src} (hb : Built S) {i : Nat} (hi : i < S.files.length) :
    (S.file i).begin = ((S.files.take i).map (·.count)).sum := by
  obtain ⟨t, ht⟩ := hb
  have := buildFiles_begin 0 t i (by rw [← ht]; exact hi)
  simp only [← ht, Nat.zero_add] at this
  rw [← this]; simp [Src.file, hi]

theorem begin_succ {S : Src} (hb : Built S) {i : Nat} (hi : i + 1 < S.files.length) :
    (S.file (i + 1)).begin = (S.file i).begin + (S.file i).count := by
  rw [begin_eq hb hi, begin_eq hb (by omega), List.take_add_one]
  have h : i < S.files.length := by omega
  simp [h, Src.file]

theorem begin_mono {S : Src} (hb : Built S) {i j : Nat} (hij : i ≤ j) (hj : j < S.files.length) :
    (S.file i).begin ≤ (S.file j).begin := by
  induction j with
  | zero => have : i = 0 := by omega
            subst this; exact le_refl _
  | succ j ih =>
    rcases Nat.lt_or_ge i (j + 1) with h | h
    · have := ih (by omega) (by omega); rw [begin_succ hb hj]; omega
    · have : i = j + 1 := by omega
      subst this; exact le_refl _

theorem takeWhile_length {p : Nat → Bool} : ∀ (l : List Nat) (n : Nat), n ≤ l.length →
    (∀ i (h : i < l.length), i < n → p l[i] = true) →
    (∀ (h : n < l.length), p l[n] = false) → (l.takeWhile p).length = n
  | [], n, h, _, _ => by simp at h; simp [h]
  | a :: l, 0, _, _, h2 => by have := h2 (by simp); simp at this; simp [this]
  | a :: l, n + 1, h, h1, h2 => by
    have ha := h1 0 (by simp) (by omega)
    simp only [List.getElem_cons_zero] at ha
    rw [List.takeWhile_cons_of_pos ha, List.length_cons]
    rw [takeWhile_length l n (by simpa using h)]
    · intro i hi hin; have := h1 (i + 1) (by simpa using hi) (by omega); simpa using this
    · intro hl; have := h2 (by simpa using hl); simpa using this

/-- **C15 (global row numbers resolve to the right file and row).** Every row of every file is found under its
global number, a number that resolves is one of those, and numbers past the end are rejected. -/
theorem C15_resolve (S : Src) (hb : Built S) :
    (∀ i row, i < S.files.length → row < (S.file i).count →
      resolve S ((S.file i).begin + row) = some (i, row)) ∧
    (∀ id i row, resolve S id = some (i, row) →
      i < S.files.length ∧ row < (S.file i).count ∧ id = (S.file i).begin + row) ∧
    (∀ id, totalRows S ≤ id → resolve S id = none) := by
  have h2 : ∀ id i row, resolve S id = some (i, row) →
      i < S.files.length ∧ row < (S.file i).count ∧ id = (S.file i).begin + row := by
    intro id i row h
    unfold resolve at h
    simp only at h
    split at h
    · simp at h
    · rename_i hk
      split at h
      · rename_i hc
        simp only [Option.some.injEq, Prod.mk.injEq] at h
        obtain ⟨rfl, rfl⟩ := h
        refine ⟨?_, hc.2, by omega⟩
        have : bisectRight (S.files.map (·.begin)) id ≤ (S.files.map (·.begin)).length :=
          (List.takeWhile_sublist _).length_le
        simp at this; omega
      · simp at h
  refine ⟨?_, h2, ?_⟩
  · intro i row hi hrow
    have hk : bisectRight (S.files.map (·.begin)) ((S.file i).begin + row) = i + 1 := by
      apply takeWhile_length
      · simp; omega
      · intro j hj hji
        simp only [List.length_map] at hj
        have := begin_mono hb (show j ≤ i by omega) hi
        simp only [Src.file, List.getD_eq_getElem?_getD, List.getElem?_eq_getElem hj, Option.getD_some] at this
        simp only [List.getElem_map, decide_eq_true_eq]
        simp only [Src.file, List.getD_eq_getElem?_getD] 
        omega
      · intro hj
        simp only [List.length_map] at hj
        have := begin_succ hb hj
        simp only [List.getElem_map, decide_eq_false_iff_not]
        have e : (S.file (i + 1)) = S.files[i + 1] := by simp [Src.file, hj]
        rw [e] at this
        omega
    unfold resolve
    simp only
    rw [hk, if_neg (by omega)]
    simp only [Nat.add_sub_cancel]
    rw [if_pos (by omega)]
    simp
  · intro id hid
    cases h : resolve S id with
    | none => rfl
    | some p =>
      obtain ⟨i, row⟩ := p
      obtain ⟨hi, hrow, he⟩ := h2 id i row h
      exfalso
      have hbg := begin_eq hb hi
      have htot : totalRows S = ((S.files.take i).map (·.count)).sum + ((S.files.drop i).map (·.count)).sum := by
        rw [← List.sum_append, ← List.map_append, List.take_append_drop, totalRows]
      have hd : S.files.drop i = S.files[i] :: S.files.drop (i + 1) := List.drop_eq_getElem_cons hi
      rw [hd] at htot
      simp only [List.map_cons, List.sum_cons] at htot
      have e : S.file i = S.files[i] := by simp [Src.file, hi]
      rw [← e] at htot
      omega

/-! ### C16 -/

theorem expected_shard (S : Src) (w r : Nat) (e y : Nat) (o : List Nat) :
    expected { S with world := w, rank := r, sharded := true } e y o =
      (expected { S with sharded := false } e y o).filter fun x => x.payload % w == r := by
  induction o with
  | nil => rfl
  | cons i o ih =>
    simp only [expected, List.flatMap_cons, List.filter_append] at ih ⊢
    rw [ih]
    congr 1
    rw [List.filter_map, List.filter_filter]
    apply congrArg
    apply List.filter_congr
    intro row _
    simp [mkEnv, Src.file]

theorem expected_length_le (S : Src) (e y : Nat) (o : List Nat) (ho : o.Perm (List.range S.files.length)) :
    (expected S e y o).length ≤ totalRows S := by
  have h1 : ∀ o, (expected S e y o).length ≤ (o.map fun i => (S.file i).count).sum := by
    intro o
    induction o with
    | nil => simp [expected]
    | cons i o ih =>
      simp only [expected, List.flatMap_cons, List.length_append, List.map_cons, List.sum_cons] at ih ⊢
      refine Nat.add_le_add ?_ ih
      rw [List.length_map]
      exact (List.length_filter_le _ _).trans (by simp)
  refine (h1 o).trans (le_of_eq ?_)
  rw [(ho.map _).sum_eq, totalRows]
  congr 1
  apply List.ext_getElem
  · simp
  · intro i h1 h2; simp at h1; simp [Src.file, h1]

/-- A single request at least as large as the row count reads the whole epoch. -/
theorem read_epoch (H : Digest) (S : Src) (epoch cycle : Nat) (c : Cursor)
    (hc : startCycle H S epoch cycle S.rank = some c) (k : Nat) (hk : totalRows S ≤ k) (hk0 : 0 < k) :
    ∃ c', nextEnvelopes S c k = some (expected S epoch cycle c.order, c') := by
  have h := C15_stream H S epoch cycle c hc [k] (by simpa using hk0)
  obtain ⟨_, _, hfo, _⟩ := startCycle_eq hc
  have hl := expected_length_le S epoch cycle _ (fileOrder_perm hfo)
  simp only [readAll, List.sum_cons, List.sum_nil, Nat.add_zero] at h
  rw [List.take_of_length_le (by omega)] at h
  cases hn : nextEnvelopes S c k with
  | none => rw [hn] at h; simp at h
  | some p => rw [hn] at h; simp at h; exact ⟨p.2, by rw [← h]⟩

theorem configure_eq {S S' : Src} {w r : Nat} {sh : Bool} (h : S.configure w r sh = some S') :
    r < w ∧ S' = { S with world := w, rank := r, sharded := sh } := by
  unfold Src.configure at h
  split at h
  · simp at h
  · simp only [Option.some.injEq] at h
    exact ⟨by omega, h.symm⟩

/-- **C16 (rank sharding is a disjoint cover, in order).** Configure the same source for rank `r` of `w`. What
rank `r` delivers in an epoch is exactly the subsequence, in the same order, of what a single unsharded reader
delivers, consisting of the records whose global row number is `r` modulo `w`; and for every record there is exactly
one such rank. -/
theorem C16_shards (H : Digest) (S S0 Sr : Src) (w r : Nat) (h0 : S.configure 1 0 false = some S0)
    (hr : S.configure w r true = some Sr) (epoch cycle : Nat) (c0 cr : Cursor)
    (hc0 : startCycle H S0 epoch cycle 0 = some c0) (hcr : startCycle H Sr epoch cycle r = some cr)
    (k0 kr : Nat) (hk0 : totalRows S < k0) (hkr : totalRows S < kr) :
    ∃ out0 c0' outr cr', nextEnvelopes S0 c0 k0 = some (out0, c0') ∧ nextEnvelopes Sr cr kr = some (outr, cr') ∧
      outr = out0.filter (fun x => x.payload % w == r) ∧
      (∀ x ∈ out0, ∃! r', r' < w ∧ x.payload % w = r') := by
  obtain ⟨-, rfl⟩ := configure_eq h0
  obtain ⟨hrw, rfl⟩ := configure_eq hr
  obtain ⟨_, _, hfo0, _⟩ := startCycle_eq hc0
  obtain ⟨_, _, hfor, _⟩ := startCycle_eq hcr
  have hord : c0.order = cr.order := by
    have : fileOrder H { S with world := 1, rank := 0, sharded := false } epoch cycle =
      fileOrder H { S with world := w, rank := r, sharded := true } epoch cycle := rfl
    rw [this, hfor] at hfo0
    exact (Option.some.inj hfo0).symm
  obtain ⟨c0', e0⟩ := read_epoch H _ epoch cycle c0 hc0 k0 hk0.le (by omega)
  obtain ⟨cr', er⟩ := read_epoch H _ epoch cycle cr hcr kr hkr.le (by omega)
  refine ⟨_, _, _, _, e0, er, ?_, ?_⟩
  · rw [expected_shard S w r, ← hord]
    rfl
  · intro x _
    exact ⟨x.payload % w, ⟨Nat.mod_lt _ (by omega), rfl⟩, fun y hy => hy.2.symm⟩

/-- **C16 (balanced).** At sample rate 1 every rank delivers `⌊total/w⌋` or `⌊total/w⌋ + 1` records. -/
theorem C16_balanced (H : Digest) (S Sr : Src) (hb : Built S) (hf : S.full = true) (w r : Nat)
    (hr : S.configure w r true = some Sr) (epoch cycle : Nat) (cr : Cursor)
    (hcr : startCycle H Sr epoch cycle r = some cr) (kr : Nat) (hkr : totalRows S < kr) (outr : List Env)
    (cr' : Cursor) (hread : nextEnvelopes Sr cr kr = some (outr, cr')) :
    totalRows S / w ≤ outr.length ∧ outr.length ≤ totalRows S / w + 1 := by
  obtain ⟨hrw, rfl⟩ := configure_eq hr
  obtain ⟨_, _, hfor, _⟩ := startCycle_eq hcr
  obtain ⟨c2, er⟩ := read_epoch H _ epoch cycle cr hcr kr hkr.le (by omega)
  rw [er] at hread
  simp only [Option.some.injEq, Prod.mk.injEq] at hread
  rw [← hread.1, expected_shard S w r]
  have hperm : ((expected { S with sharded := false } epoch cycle cr.order).map (·.payload)).Perm
      (List.range (totalRows S)) := by
    obtain ⟨t, ht⟩ := hb
    have hrows : S.files.flatMap (fun f => List.range' f.begin f.count) = List.range (totalRows S) := by
      rw [totalRows, ht, flatMap_rows, List.range_eq_range']
    rw [expected_payloads { S with sharded := false } rfl hf, ← hrows,
      ← range_flatMap_files { S with sharded := false } (fun f => List.range' f.begin f.count)]
    exact (fileOrder_perm hfor).flatMap_right _
  have hl : ((expected { S with sharded := false } epoch cycle cr.order).filter
      fun x => x.payload % w == r).length = (List.range (totalRows S)).countP (fun g => g % w == r) := by
    rw [← List.countP_eq_length_filter, ← hperm.countP_eq, List.countP_map]; rfl
  rw [hl]
  have hcount : (List.range (totalRows S)).countP (fun g => g % w == r) =
      (totalRows S).count (fun g => g ≡ r [MOD w]) := by
    rw [Nat.count]
    apply List.countP_congr
    intro g _
    simp [Nat.ModEq, Nat.mod_eq_of_lt hrw]
  rw [hcount, Nat.count_modEq_card _ (by omega)]
  split <;> omega

/-! ### C17 -/

/-- **C17.** For a source that is not rank-sharded (the only use of packed reading, `planner.py:183-186`), from any
cursor and for any request size the packed read returns the payloads of the envelope read, in order, and leaves the
same cursor; both fail on a non-positive size. -/
theorem C17_packed_reads (S : Src) (hs : S.sharded = false) (c : Cursor) (k : Nat) :
    nextPacked S c k = (nextEnvelopes S c k).map fun r => (r.1.map (·.payload), r.2) :=
  nextPacked_eq S c hs k

theorem mem_remList {S : Src} {c : Cursor} {p : Nat × Nat} : ∀ {l : List Nat} {row : Nat},
    p ∈ remList S c l row → p.1 ∈ l ∧ p.2 < (S.file p.1).count
  | [], _, h => by simp [remList] at h
  | i :: l, row, h => by
    simp only [remList, List.mem_append, List.mem_map] at h
    rcases h with ⟨x, hx, rfl⟩ | h
    · simp only [fr, List.mem_filter, List.mem_range'_1] at hx
      exact ⟨by simp, by simp only; omega⟩
    · obtain ⟨h1, h2⟩ := mem_remList h
      exact ⟨by simp [h1], h2⟩

theorem mapM_eq_some {α β : Type} (f : α → Option β) (g : α → β) : ∀ (l : List α),
    (∀ a ∈ l, f a = some (g a)) → l.mapM f = some (l.map g)
  | [], _ => by simp
  | a :: l, h => by
    rw [List.mapM_cons, h a (by simp), mapM_eq_some f g l (fun x hx => h x (by simp [hx]))]; simp

/-- **C17 (record ids determine the envelopes).** In the first cycle of an epoch the packed ids, turned back into
envelopes, are exactly the envelopes of the envelope read. -/
theorem C17_ids_to_envelopes (H : Digest) (S : Src) (hb : Built S) (hs : S.sharded = false) (c : Cursor)
    (hc : Held H S c) (hcyc : c.cycle = 0) (k : Nat) (ids : List Nat) (c' : Cursor)
    (h : nextPacked S c k = some (ids, c')) :
    ∃ out, nextEnvelopes S c k = some (out, c') ∧ envelopesFromIds S ids = some out := by
  rw [nextPacked_eq S c hs] at h
  simp only [Option.map_eq_some_iff, Prod.mk.injEq] at h
  obtain ⟨⟨out, c2⟩, h, h1, rfl⟩ := h
  refine ⟨out, h, ?_⟩
  obtain ⟨⟨ho, h2, h3⟩, h4⟩ := hc.inv
  have hr : RankOk S c.rank := by intro hs; rw [h2]; simp [hs, h3]
  have hfp : c.fp ≤ c.order.length := by
    rcases h4 with h4 | h4
    · omega
    · exact h4.le
  rcases Nat.eq_zero_or_pos k with rfl | hk
  · simp [nextEnvelopes] at h
  obtain ⟨fp, row, g1, -, -⟩ := nextEnvelopes_spec hr hfp hk
  rw [g1] at h
  simp only [Option.some.injEq, Prod.mk.injEq] at h
  obtain ⟨rfl, -⟩ := h
  rw [← h1, envelopesFromIds, List.map_map, List.mapM_map]
  apply mapM_eq_some
  rintro ⟨i, rw'⟩ hp
  obtain ⟨hi, hlt⟩ := mem_remList (List.mem_of_mem_take hp)
  have hi' : i < S.files.length := by
    have := (fileOrder_perm ho).mem_iff.mp (List.mem_of_mem_drop hi)
    simpa using this
  have hres := (C15_resolve S hb).1 i rw' hi' hlt
  simp only [Function.comp, envOf, mkEnv_payload]
  rw [hres]
  simp [mkEnv, hcyc]

/-! ### C18 (NPZ sources) -/

/-- **C18 (restoring a saved cursor).** Any cursor a reader can hold is restored unchanged from its saved form. -/
theorem C18_npz_save_restore (H : Digest) (S : Src) (schema : String) (c : Cursor) (hc : Held H S c) :
    restoreCursor H S schema (saveCursor schema c) = some c := by
  obtain ⟨⟨ho, h2, h3⟩, h4⟩ := hc.inv
  have hstart : startCycle H S c.epoch c.cycle S.rank =
      some ⟨c.epoch, c.cycle, if S.sharded then S.rank else 0, c.order, 0, 0⟩ := by
    unfold startCycle
    rw [if_neg (by simp [h3]), ho]; rfl
  unfold restoreCursor saveCursor
  simp only
  rw [if_neg (by simp), if_neg (by rw [h2]; split <;> simp), if_neg (by omega)]
  simp only [Int.toNat_natCast, hstart, Option.bind_eq_bind, Option.bind_some]
  rw [if_neg (by simp)]
  have hz : (c.fp = 0 ∧ c.row = 0 ∧ 0 < c.order.length) ∨ PosOk S c.order c.fp c.row := by
    rcases h4 with h4 | h4
    · by_cases h0 : 0 < c.order.length
      · exact Or.inl ⟨h4.1, h4.2, h0⟩
      · right; left; omega
    · exact Or.inr h4
  rw [if_neg (by rcases hz with h | h | h <;> omega)]
  rcases hz with h | h | h
  · rw [if_neg (by omega), if_neg (by simp only [not_not]; constructor <;> omega)]
  · rw [if_pos (by omega), if_neg (by omega)]
  · rw [if_neg (by omega), if_neg (by simp only [not_not]; constructor <;> omega)]

/-- **C18 (resuming delivers exactly the remaining records).** Interrupt a run after the requests `ks`, save, restore
in a fresh source and continue with the requests `js`: together the two parts are the uninterrupted run, and the
continued run is itself a held cursor that can be saved again. -/
theorem C18_npz_resume (H : Digest) (S : Src) (schema : String) (epoch cycle : Nat) (c : Cursor)
    (hc : startCycle H S epoch cycle S.rank = some c) (ks js : List Nat) (out : List Env) (c1 c2 : Cursor)
    (h1 : readAll S ks c = some (out, c1))
    (h2 : restoreCursor H S schema (saveCursor schema c1) = some c2) :
    readAll S (ks ++ js) c = (readAll S js c2).map fun r => (out ++ r.1, r.2) := by
  have held : ∀ (ks : List Nat) (c c1 : Cursor) (out : List Env), Held H S c → readAll S ks c = some (out, c1) →
      Held H S c1 := by
    intro ks
    induction ks with
    | nil => intro c c1 out hc h; simp [readAll] at h; rw [← h.2]; exact hc
    | cons k ks ih =>
      intro c c1 out hc h
      simp only [readAll, Option.bind_eq_bind, Option.bind_eq_some_iff] at h
      obtain ⟨⟨x, cx⟩, hx, ⟨y, cy⟩, hy, he⟩ := h
      simp only [Option.some.injEq, Prod.mk.injEq] at he
      rw [← he.2]
      exact ih cx cy y (hc.read hx) hy
  have hheld := held ks c c1 out (.start hc) h1
  rw [C18_npz_save_restore H S schema c1 hheld, Option.some.injEq] at h2
  subst h2
  clear held hheld hc
  induction ks generalizing c out with
  | nil =>
    simp [readAll] at h1
    obtain ⟨rfl, rfl⟩ := h1
    simp
  | cons k ks ih =>
    simp only [readAll, Option.bind_eq_bind, Option.bind_eq_some_iff] at h1
    obtain ⟨⟨x, cx⟩, hx, ⟨y, cy⟩, hy, he⟩ := h1
    simp only [Option.some.injEq, Prod.mk.injEq] at he
    obtain ⟨rfl, rfl⟩ := he
    simp only [List.cons_append, readAll, hx, Option.bind_eq_bind, Option.bind_some]
    rw [ih cx y hy]
    cases readAll S js cy with
    | none => rfl
    | some p => simp

/-- **C18 (invalid cursors are rejected).** An accepted saved cursor has the right schema and rank, the file order
this source computes for its epoch and cycle, and a position inside the order. -/
theorem C18_npz_restore_validates (H : Digest) (S : Src) (schema : String) (s : Saved) (c : Cursor)
    (h : restoreCursor H S schema s = some c) :
    s.schema = schema ∧ s.rank = (if S.sharded then (S.rank : Int) else 0) ∧ 0 ≤ s.epoch ∧ 0 ≤ s.cycle ∧
      fileOrder H S s.epoch.toNat s.cycle.toNat = some c.order ∧ s.order = c.order.map (fun i : Nat => (i : Int)) ∧
      0 ≤ s.fp ∧ 0 ≤ s.row ∧ c.fp = s.fp.toNat ∧ c.row = s.row.toNat ∧
      ((c.fp = c.order.length ∧ c.row = 0) ∨
        (c.fp < c.order.length ∧ c.row ≤ (S.file (c.order.getD c.fp 0)).count)) := by
  unfold restoreCursor at h
  by_cases hsc : s.schema ≠ schema
  · rw [if_pos hsc] at h; simp at h
  rw [if_neg hsc] at h
  by_cases hrk : s.rank ≠ (if S.sharded then (S.rank : Int) else 0)
  · rw [if_pos hrk] at h; simp at h
  rw [if_neg hrk] at h
  by_cases hep : s.epoch < 0 ∨ s.cycle < 0
  · rw [if_pos hep] at h; simp at h
  rw [if_neg hep] at h
  simp only [Option.bind_eq_bind, Option.bind_eq_some_iff] at h
  obtain ⟨st, hst, h⟩ := h
  obtain ⟨_, _, hfo, _⟩ := startCycle_eq hst
  split at h
  · simp at h
  split at h
  · simp at h
  rename_i hord hpos
  push Not at hsc hrk hep hord
  rw [not_not] at hpos
  split at h
  · split at h
    · simp at h
    rename_i hl hrow
    simp only [Option.some.injEq] at h
    subst h
    exact ⟨hsc, hrk, by omega, by omega, hfo, hord, by omega, by omega, rfl, rfl, Or.inl ⟨by simp only; omega, by simp only; omega⟩⟩
  · split at h
    · simp at h
    rename_i hl hrow
    rw [not_not] at hrow
    simp only [Option.some.injEq] at h
    subst h
    exact ⟨hsc, hrk, by omega, by omega, hfo, hord, by omega, by omega, rfl, rfl, Or.inr ⟨by simp only; omega, by simp only; omega⟩⟩

/-! ### C19 -/

/-- The physical rows a catalog declares, in order. -/
def declared (c : Catalog) : List Nat :=
  match c.rowIndices with
  | none => List.range c.physicalRows
  | some l => l.map Int.toNat

theorem strictlyIncreasing_iff : ∀ (l : List Int), strictlyIncreasing l = true ↔ l.Pairwise (· < ·)
  | [] => by simp [strictlyIncreasing]
  | [a] => by simp [strictlyIncreasing]
  | a :: b :: l => by
    rw [strictlyIncreasing, Bool.and_eq_true, strictlyIncreasing_iff (b :: l), decide_eq_true_eq]
    constructor
    · rintro ⟨h1, h23⟩
      rw [List.pairwise_cons]
      have h2 := (List.pairwise_cons.mp h23).1
      refine ⟨?_, h23⟩
      intro x hx
      simp only [List.mem_cons] at hx
      rcases hx with rfl | hx
      · exact h1
      · have := h2 x hx; omega
    · intro h
      rw [List.pairwise_cons] at h
      exact ⟨h.1 b (by simp), h.2⟩

theorem increasing_identity : ∀ (l : List Int) (a : Int), l.Pairwise (· < ·) → l.headD a = a →
    l.getLastD a = a + l.length - 1 → l ≠ [] → l = (List.range l.length).map (fun i : Nat => a + (i : Int))
  | [], _, _, _, _, h => absurd rfl h
  | [x], a, _, h, _, _ => by simp at h; simp [h]
  | x :: y :: l, a, hp, h0, hl, _ => by
    simp only [List.headD_cons] at h0
    subst h0
    rw [List.pairwise_cons] at hp
    have hxy := hp.1 y (by simp)
    -- the last element is at least `y + length`
    have hlast : ∀ (l : List Int) (b : Int), (b :: l).Pairwise (· < ·) → b + l.length ≤ (b :: l).getLastD b := by
      intro l
      induction l with
      | nil => intro b _; simp
      | cons z l ih =>
        intro b hb
        rw [List.pairwise_cons] at hb
        have h1 := hb.1 z (by simp)
        have h2 := ih z hb.2
        simp only [List.getLastD_cons, List.length_cons] at h2 ⊢
        push_cast
        omega
    have h2 := hlast l y hp.2
    simp only [List.getLastD_cons, List.length_cons] at h2 hl
    push_cast at hl
    have hy : y = x + 1 := by omega
    have ih := increasing_identity (y :: l) y hp.2 (by simp)
      (by simp only [List.getLastD_cons, List.length_cons]; push_cast; omega) (by simp)
    simp only [List.length_cons] at ih
    conv_lhs => rw [ih]
    rw [List.length_cons, List.length_cons, List.range_succ_eq_map (n := l.length + 1), List.map_cons, List.map_map]
    simp only [Nat.cast_zero, add_zero, List.cons.injEq, true_and]
    apply List.map_congr_left
    intro i _
    simp [hy]; ring

/-- **C19 (what a catalog becomes).** Acceptance needs strictly increasing, non-negative row indices below the
physical row count; the logical rows of the resulting file map, in order, to exactly the declared physical rows -
also when the table was dropped because it is the identity. -/
theorem C19_rows (c : Catalog) (f : File) (h : catalogRows c = some (some (f.count, f.rows))) :
    (List.range f.count).map (physicalRow f) = declared c ∧
      (declared c).Pairwise (· < ·) ∧ (∀ x ∈ declared c, x < c.physicalRows) ∧ declared c ≠ [] := by
  unfold catalogRows at h
  cases hidx : c.rowIndices with
  | none =>
    rw [hidx] at h
    simp only at h
    split at h
    · simp at h
    · rename_i hz
      simp only [Option.some.injEq, Prod.mk.injEq] at h
      simp only [declared, hidx, List.mem_range, imp_self, implies_true, ne_eq, List.range_eq_nil, hz,
        not_false_eq_true, and_true, List.pairwise_lt_range, ← h.1]
      have : physicalRow f = id := by funext r; simp [physicalRow, ← h.2]
      rw [this]; simp
  | some l =>
    rw [hidx] at h
    simp only at h
    by_cases h1 : l.length = 0
    · rw [if_pos h1] at h; simp at h
    rw [if_neg h1] at h
    by_cases h2 : (l.any (· < 0) || !strictlyIncreasing l) = true
    · rw [if_pos h2] at h; simp at h
    rw [if_neg h2] at h
    by_cases h3 : (c.physicalRows : Int) ≤ l.getLastD 0
    · rw [if_pos h3] at h; simp at h
    rw [if_neg h3] at h
    simp only [Bool.or_eq_true, List.any_eq_true, decide_eq_true_eq, Bool.not_eq_true', not_or, not_exists,
      not_and, Bool.not_eq_false, not_lt] at h2
    obtain ⟨hnn, hinc⟩ := h2
    rw [strictlyIncreasing_iff] at hinc
    have hlast : ∀ x ∈ l, x ≤ l.getLastD 0 := by
      intro x hx
      have hne : l ≠ [] := by intro h; simp [h] at h1
      rw [List.getLastD_eq_getLast?, List.getLast?_eq_some_getLast hne, Option.getD_some]
      have hp : (l.dropLast ++ [l.getLast hne]).Pairwise (· < ·) := by rw [List.dropLast_append_getLast]; exact hinc
      rw [← List.dropLast_append_getLast hne, List.mem_append] at hx
      rcases hx with hx | hx
      · exact (List.pairwise_append.mp hp).2.2 x hx _ (by simp) |>.le
      · simp at hx; omega
    have hdec : declared c = l.map Int.toNat := by simp [declared, hidx]
    rw [hdec]
    refine ⟨?_, ?_, ?_, ?_⟩
    · by_cases h4 : l.length = c.physicalRows ∧ l.headD 0 = 0 ∧ l.getLastD 0 = (l.length : Int) - 1
      · rw [if_pos h4] at h
        simp only [Option.some.injEq, Prod.mk.injEq] at h
        have hid := increasing_identity l 0 hinc h4.2.1 (by rw [h4.2.2]; omega) (by intro h; simp [h] at h1)
        have hph : physicalRow f = id := by funext r; simp [physicalRow, ← h.2]
        rw [hph, List.map_id, ← h.1]
        conv_rhs => rw [hid]
        rw [List.map_map]
        have : (Int.toNat ∘ fun i : Nat => (0 : Int) + (i : Int)) = id := by funext i; simp
        rw [this, List.map_id]
      · rw [if_neg h4] at h
        simp only [Option.some.injEq, Prod.mk.injEq] at h
        rw [← h.1]
        apply List.ext_getElem
        · simp
        · intro i g1 g2
          simp only [List.length_map, List.length_range] at g1
          simp [physicalRow, ← h.2, g1]
    · rw [List.pairwise_map]
      refine hinc.imp_of_mem ?_
      intro a b ha hb hab
      have := hnn a ha
      have := hnn b hb
      omega
    · intro x hx
      simp only [List.mem_map] at hx
      obtain ⟨y, hy, rfl⟩ := hx
      have := hlast y hy
      have := hnn y hy
      omega
    · intro h; simp at h; simp [h] at h1

/-- **C19 (which catalogs are accepted).** A catalog with strictly increasing in-range row indices (or none) is
accepted; an empty one is skipped, not rejected. -/
theorem C19_accepts (c : Catalog) (hinc : (declared c).Pairwise (· < ·)) (hlt : ∀ x ∈ declared c, x < c.physicalRows)
    (hnn : ∀ l, c.rowIndices = some l → ∀ x ∈ l, 0 ≤ x) :
    (declared c = [] → catalogRows c = some none) ∧
    (declared c ≠ [] → ∃ rows, catalogRows c = some (some ((declared c).length, rows))) := by
  unfold catalogRows
  cases hidx : c.rowIndices with
  | none =>
    simp only [declared, hidx, List.range_eq_nil, List.length_range]
    constructor
    · intro h; simp [h]
    · intro h; have h0 : ¬ c.physicalRows = 0 := by simpa using h
      exact ⟨none, by simp [h0]⟩
  | some l =>
    have hdec : declared c = l.map Int.toNat := by simp [declared, hidx]
    rw [hdec] at hinc hlt ⊢
    have hn := hnn l hidx
    simp only [List.map_eq_nil_iff, List.length_map]
    constructor
    · intro h; simp [h]
    · intro h
      have h1 : ¬ l.length = 0 := by simpa using h
      have h2 : ¬ (l.any (· < 0) || !strictlyIncreasing l) = true := by
        simp only [Bool.or_eq_true, List.any_eq_true, decide_eq_true_eq, Bool.not_eq_true', not_or, not_exists,
          not_and, Bool.not_eq_false, not_lt]
        refine ⟨hn, (strictlyIncreasing_iff l).mpr ?_⟩
        rw [List.pairwise_map] at hinc
        exact hinc.imp_of_mem (fun ha hb hab => by omega)
      have h3 : ¬ (c.physicalRows : Int) ≤ l.getLastD 0 := by
        have hne : l ≠ [] := by simpa using h
        rw [List.getLastD_eq_getLast?, List.getLast?_eq_some_getLast hne, Option.getD_some]
        have hm := List.getLast_mem hne
        have := hlt _ (List.mem_map_of_mem (f := Int.toNat) hm)
        have := hn _ hm
        omega
      rw [if_neg h1, if_neg h2, if_neg h3]
      split
      · exact ⟨_, rfl⟩
      · exact ⟨_, rfl⟩

theorem catalogTable_spec : ∀ (cs : List Catalog) (b : Nat) (t : List (List UInt8 × Nat × Nat × Option (List Nat))),
    catalogTable cs = some t →
    (buildFiles b t).flatMap (fun f => (List.range f.count).map fun row => (f.digest, physicalRow f row)) =
      cs.flatMap fun c => (declared c).map fun r => (c.digest, r)
  | [], b, t, h => by simp [catalogTable] at h; subst h; rfl
  | c :: cs, b, t, h => by
    simp only [catalogTable, Option.bind_eq_bind, Option.bind_eq_some_iff] at h
    obtain ⟨hd, hh, rest, hr, he⟩ := h
    cases hd with
    | none =>
      simp only [Option.some.injEq] at he
      subst he
      rw [List.flatMap_cons, ← catalogTable_spec cs b rest hr]
      have : declared c = [] := by
        unfold catalogRows at hh
        cases hidx : c.rowIndices with
        | none =>
          rw [hidx] at hh; simp only at hh
          split at hh
          · rename_i h0; simp [declared, hidx, h0]
          · simp at hh
        | some l =>
          rw [hidx] at hh; simp only at hh
          by_cases h1 : l.length = 0
          · have : l = [] := by simpa using h1
            simp [declared, hidx, this]
          · rw [if_neg h1] at hh
            exfalso
            repeat' split at hh
            all_goals simp at hh
      simp [this]
    | some p =>
      obtain ⟨n, rows⟩ := p
      simp only [Option.some.injEq] at he
      subst he
      simp only [buildFiles, List.flatMap_cons]
      rw [catalogTable_spec cs (b + n) rest hr]
      congr 1
      have := (C19_rows c ⟨c.digest, c.ordinal, n, b, rows⟩ hh).1
      simp only at this
      rw [← this, List.map_map]
      rfl

/-- **C19 (the delivered rows).** An unshuffled, unsharded indexed source at rate 1 delivers, in its first cycle,
exactly the declared physical rows of every catalog, catalog by catalog, each as its record key. -/
theorem C19_stream (H : Digest) (S : Src) (cs : List Catalog) (hcs : indexedFiles cs = some S.files)
    (hs : S.sharded = false) (hf : S.full = true) (hsh : S.shuffle = false) (epoch : Nat) (c : Cursor)
    (hc : startCycle H S epoch 0 S.rank = some c) (k : Nat) (hk : totalRows S < k) :
    ∃ out c', nextEnvelopes S c k = some (out, c') ∧
      out.map (·.key) = cs.flatMap fun c => (declared c).map fun r => (c.digest, [r]) := by
  obtain ⟨c', h⟩ := read_epoch H S epoch 0 c hc k hk.le (by omega)
  refine ⟨_, c', h, ?_⟩
  obtain ⟨_, _, hfo, _⟩ := startCycle_eq hc
  have hord : c.order = List.range S.files.length := by
    simp [fileOrder, hsh] at hfo; exact hfo.symm
  simp only [indexedFiles, Option.bind_eq_bind, Option.bind_eq_some_iff] at hcs
  obtain ⟨t, ht, hcs⟩ := hcs
  split at hcs
  · simp at hcs
  simp only [Option.some.injEq] at hcs
  have hspec := catalogTable_spec cs 0 t ht
  rw [hcs] at hspec
  have e : (cs.flatMap fun c => (declared c).map fun r => (c.digest, [r])) =
      (cs.flatMap fun c => (declared c).map fun r => (c.digest, r)).map fun p => (p.1, [p.2]) := by
    rw [List.map_flatMap]; congr 1; funext c; simp
  rw [e, ← hspec, ← range_flatMap_files S, hord, List.map_flatMap, expected, List.map_flatMap]
  congr 1
  funext i
  simp only [hs, hf, Bool.not_false, Bool.true_or, Bool.and_self, List.map_map]
  rw [List.filter_eq_self.mpr (by simp)]
  apply List.map_congr_left
  intro row _
  simp [mkEnv, recordKey]

/-! ### Non-vacuity -/

/-- A source with an empty file in the middle, two ranks. -/
def demo (sharded full shuffle : Bool) (world rank : Nat) : Src :=
  { files := buildFiles 0 [([1], 0, 3, none), ([2], 1, 0, none), ([3], 2, 2, some [4, 7])]
    seed := 5, shuffle, domain := "file_order", identity := [9], admit := fun _ k => k.2 != [1], full,
    world, rank, sharded }

def demoH : Digest := fun b => UInt64.ofNat (b.length * 7919 + (b.getLastD 3).toNat)

example : Built (demo false true false 1 0) := ⟨_, rfl⟩

example : ((startCycle demoH (demo false true true 1 0) 2 1 0).bind fun c => readAll (demo false true true 1 0) [2, 1, 9] c).isSome := by
  decide +kernel

example : (startCycle demoH (demo true false false 2 1) 0 0 1).bind (fun c =>
    (readAll (demo true false false 2 1) [1, 1] c).map fun r => r.1.map (·.payload)) = some [3] := by
  decide +kernel

example : (startCycle demoH (demo false true false 1 0) 0 0 0).bind (fun c =>
    (nextPacked (demo false true false 1 0) c 4).map fun r => (r.1, r.2.fp, r.2.row)) = some ([0, 1, 2, 3], 2, 1) := by
  decide +kernel

example : catalogRows ⟨[1], 0, 8, some [1, 4, 7]⟩ = some (some (3, some [1, 4, 7])) ∧
    catalogRows ⟨[1], 0, 3, some [0, 1, 2]⟩ = some (some (3, none)) ∧
    catalogRows ⟨[1], 0, 3, some [0, 2, 2]⟩ = none := by decide +kernel

end Verif.Npz
