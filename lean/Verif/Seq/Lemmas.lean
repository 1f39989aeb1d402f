import Verif.Seq.Model
import Verif.Rng.Props
import Mathlib.Data.List.Basic
import Mathlib.Algebra.BigOperators.Group.List.Basic

/-! # Specification of the records of a file, and lemmas about the reader loop -/
namespace Verif.Seq
open Verif.Rng (Val Digest deterministicPermutation)

/-! ### Specification: the records of a byte string -/

/-- The records of the entries in `b` (file `i`, first entry has index `k`), before sampling: entry by entry, for
each entry that has a shape its subrecords `0 .. m-1` in order.  Stops at malformed data. -/
def recs (S : Src) (epoch cycle i : Nat) : Nat → Bytes → Nat → List Env
  | 0, _, _ => []
  | fuel + 1, b, k =>
    if b = [] then []
    else match S.entryLen b with
      | none => []
      | some n =>
        if n = 0 ∨ b.length < n then []
        else match classify S (b.take n) with
          | none => []
          | some none => recs S epoch cycle i fuel (b.drop n) (k + 1)
          | some (some (code, m)) =>
            (List.range m).map (mkEnv S epoch cycle i ⟨b.take n, k, code, 0, m⟩) ++
              recs S epoch cycle i fuel (b.drop n) (k + 1)

/-- All of `b` is entries of declared shapes. -/
def wellFormed (S : Src) : Nat → Bytes → Prop
  | 0, b => b = []
  | fuel + 1, b =>
    b = [] ∨ ∃ n, S.entryLen b = some n ∧ n ≠ 0 ∧ n ≤ b.length ∧ classify S (b.take n) ≠ none ∧
      wellFormed S fuel (b.drop n)

/-- The records of a whole file. -/
def fileRecs (S : Src) (epoch cycle i : Nat) : List Env :=
  recs S epoch cycle i (S.file i).content.length (S.file i).content 0

/-! ### Fuel -/

theorem recs_fuel (S : Src) (e y i : Nat) : ∀ (f g : Nat) (b : Bytes) (k : Nat), b.length ≤ f → b.length ≤ g →
    recs S e y i f b k = recs S e y i g b k
  | 0, g, b, k, h, _ => by
    have : b = [] := by simpa using h
    subst this
    cases g <;> simp [recs]
  | f + 1, 0, b, k, _, h => by
    have : b = [] := by simpa using h
    subst this
    simp [recs]
  | f + 1, g + 1, b, k, hf, hg => by
    unfold recs
    split
    · rfl
    split
    · rfl
    rename_i n _
    split
    · rfl
    rename_i hn
    have h1 : (b.drop n).length ≤ f := by simp; omega
    have h2 : (b.drop n).length ≤ g := by simp; omega
    rw [recs_fuel S e y i f g _ (k + 1) h1 h2]

theorem wellFormed_fuel (S : Src) : ∀ (f g : Nat) (b : Bytes), b.length ≤ f → b.length ≤ g →
    (wellFormed S f b ↔ wellFormed S g b)
  | 0, g, b, h, _ => by
    have : b = [] := by simpa using h
    subst this
    cases g <;> simp [wellFormed]
  | f + 1, 0, b, _, h => by
    have : b = [] := by simpa using h
    subst this
    simp [wellFormed]
  | f + 1, g + 1, b, hf, hg => by
    unfold wellFormed
    apply or_congr Iff.rfl
    apply exists_congr
    intro n
    apply and_congr Iff.rfl
    apply and_congr_right
    intro hn
    apply and_congr_right
    intro hle
    apply and_congr Iff.rfl
    exact wellFormed_fuel S f g _ (by simp; omega) (by simp; omega)

/-! ### Work left -/

/-- Subrecords of a pending entry not yet looked at. -/
def pendRecs (S : Src) (e y i : Nat) : Option Pending → List Env
  | none => []
  | some p => (List.range' p.next (p.total - p.next)).map (mkEnv S e y i p)

/-- Records a reader will still deliver. -/
def remR (S : Src) (e y : Nat) (r : Reader) : List Env :=
  (pendRecs S e y r.file r.pending ++ recs S e y r.file (rest S r).length (rest S r) r.entry).filter (admitted S)

/-- For each open reader and each unopened file what it will still deliver. -/
def todo (S : Src) (c : Cursor) : List (Nat × List Env) :=
  c.active.map (fun r => (r.file, remR S c.epoch c.cycle r)) ++
    (c.order.drop c.nextFile).map fun i => (i, (fileRecs S c.epoch c.cycle i).filter (admitted S))

theorem mkEnv_next (S : Src) (e y i : Nat) (p : Pending) (n s : Nat) :
    mkEnv S e y i { p with next := n } s = mkEnv S e y i p s := rfl

theorem mkEnv_source (S : Src) (e y i : Nat) (p : Pending) (s : Nat) : (mkEnv S e y i p s).source = i := rfl

theorem nextPending_spec (S : Src) (e y i : Nat) : ∀ (fuel : Nat) (p : Pending), p.next < p.total →
    p.total - p.next ≤ fuel →
    (∀ q, (nextPending S e y i fuel p).2 = some q → q.next < q.total ∧ q.total = p.total ∧ 0 < q.next ∧
      q.raw = p.raw ∧ q.entry = p.entry ∧ q.code = p.code) ∧
    (match (nextPending S e y i fuel p).1 with
      | none => (pendRecs S e y i (some p)).filter (admitted S) = [] ∧ (nextPending S e y i fuel p).2 = none
      | some x => (pendRecs S e y i (some p)).filter (admitted S) =
          x :: (pendRecs S e y i (nextPending S e y i fuel p).2).filter (admitted S) ∧ x.source = i)
  | 0, p, h, hf => by omega
  | fuel + 1, p, h, hf => by
    have hr : pendRecs S e y i (some p) = mkEnv S e y i p p.next ::
        pendRecs S e y i (if p.next + 1 = p.total then none else some { p with next := p.next + 1 }) := by
      have : p.total - p.next = (p.total - (p.next + 1)) + 1 := by omega
      simp only [pendRecs]
      rw [this, List.range'_succ, List.map_cons]
      congr 1
      by_cases h : p.next + 1 = p.total
      · rw [if_pos h, h]; simp
      · rw [if_neg h]; rfl
    unfold nextPending
    simp only
    by_cases ha : admitted S (mkEnv S e y i p p.next) = true
    · rw [if_pos ha]
      refine ⟨?_, ?_⟩
      · intro q hq
        simp only at hq
        split at hq
        · simp at hq
        · simp only [Option.some.injEq] at hq
          subst hq
          exact ⟨by simp only; omega, rfl, by simp, rfl, rfl, rfl⟩
      · simp only
        rw [hr, List.filter_cons_of_pos ha]
        exact ⟨rfl, rfl⟩
    · rw [if_neg ha]
      by_cases hl : p.next + 1 = p.total
      · rw [if_pos hl]
        simp only
        refine ⟨by simp, ?_, trivial⟩
        rw [hr, List.filter_cons_of_neg ha, if_pos hl]
        rfl
      · rw [if_neg hl]
        simp only
        have ih := nextPending_spec S e y i fuel { p with next := p.next + 1 } (by simp only; omega)
          (by simp only; omega)
        refine ⟨ih.1, ?_⟩
        have hr' : (pendRecs S e y i (some p)).filter (admitted S) =
            (pendRecs S e y i (some { p with next := p.next + 1 })).filter (admitted S) := by
          rw [hr, List.filter_cons_of_neg ha, if_neg hl]
        rw [hr']
        exact ih.2

theorem classify_spec {S : Src} {raw : Bytes} {code m : Nat} (h : classify S raw = some (some (code, m))) :
    code < S.shapes.length ∧ 0 < m ∧ (S.count = none → m = 1) := by
  unfold classify at h
  cases hs : S.shapeOf raw with
  | none => rw [hs] at h; simp at h
  | some shape =>
    rw [hs] at h
    simp only at h
    by_cases hm : shape ∈ S.shapes
    · rw [if_pos hm] at h
      have hlt := List.idxOf_lt_length_of_mem hm
      cases hc : S.count with
      | none =>
        rw [hc] at h
        simp at h
        refine ⟨by omega, by omega, fun _ => by omega⟩
      | some f =>
        rw [hc] at h
        simp only at h
        by_cases h1 : f raw < 0
        · rw [if_pos h1] at h; simp at h
        · rw [if_neg h1] at h
          by_cases h2 : f raw = 0
          · rw [if_pos h2] at h; simp at h
          · rw [if_neg h2] at h
            simp only [Option.some.injEq, Prod.mk.injEq] at h
            exact ⟨by omega, by omega, by simp⟩
    · rw [if_neg hm] at h; simp at h

/-- Loop invariant: the turn points at a reader, pending entries have subrecords left, quantum respected. -/
structure Inv (S : Src) (c : Cursor) : Prop where
  turn : c.active ≠ [] → c.turn < c.active.length
  term : c.active = [] → c.turn = 0 ∧ c.used = 0 ∧ c.nextFile = c.order.length
  pend : ∀ r ∈ c.active, ∀ p, r.pending = some p → p.next < p.total ∧ 0 < p.next
  used : c.used < S.quantum
  next : c.nextFile ≤ c.order.length
  bound : c.active.length ≤ S.activeStreams

theorem set_perm {α β : Type} (f : α → β) (A : List α) (k : Nat) (x : α) (h : k < A.length) :
    ((A.set k x).map f).Perm (f x :: (A.eraseIdx k).map f) ∧ (A.map f).Perm (f A[k] :: (A.eraseIdx k).map f) := by
  have e1 : A.set k x = A.take k ++ x :: A.drop (k + 1) := List.set_eq_take_append_cons_drop .. |>.trans (by simp [h])
  have e2 : A.eraseIdx k = A.take k ++ A.drop (k + 1) := List.eraseIdx_eq_take_drop_succ A k
  have e3 : A = A.take k ++ A[k] :: A.drop (k + 1) := by
    rw [← List.drop_eq_getElem_cons h, List.take_append_drop]
  constructor
  · rw [e1, e2]
    simp only [List.map_append, List.map_cons]
    exact List.perm_middle
  · conv_lhs => rw [e3]
    rw [e2]
    simp only [List.map_append, List.map_cons]
    exact List.perm_middle

theorem recs_step (S : Src) (e y i : Nat) (b : Bytes) (k n : Nat) (hb : b ≠ []) (hn : S.entryLen b = some n)
    (h0 : ¬ (n = 0 ∨ b.length < n)) :
    recs S e y i b.length b k =
      (match classify S (b.take n) with
        | none => []
        | some none => recs S e y i (b.drop n).length (b.drop n) (k + 1)
        | some (some (code, m)) => (List.range m).map (mkEnv S e y i ⟨b.take n, k, code, 0, m⟩) ++
              recs S e y i (b.drop n).length (b.drop n) (k + 1)) := by
  obtain ⟨f, hf⟩ : ∃ f, b.length = f + 1 := ⟨b.length - 1, by
    have : b.length ≠ 0 := by simpa using hb
    omega⟩
  conv_lhs => rw [hf]; unfold recs
  rw [if_neg hb, hn]
  simp only
  rw [if_neg h0]
  have h1 : (b.drop n).length ≤ f := by simp; omega
  rw [recs_fuel S e y i f (b.drop n).length _ (k + 1) h1 (le_refl _)]

theorem rest_advance (S : Src) (r : Reader) (n k : Nat) (p : Option Pending) :
    rest S { r with offset := r.offset + n, entry := k, pending := p } = (rest S r).drop n := by
  simp [rest, List.drop_drop]

theorem advanceTurn_active (c : Cursor) : (advanceTurn c).active = c.active := rfl

theorem todo_congr (S : Src) (c c' : Cursor) (h1 : c'.active = c.active) (h2 : c'.order = c.order)
    (h3 : c'.nextFile = c.nextFile) (h4 : c'.epoch = c.epoch) (h5 : c'.cycle = c.cycle) :
    todo S c' = todo S c := by
  unfold todo; rw [h1, h2, h3, h4, h5]

/-- Unchanged identity of the cursor. -/
structure Same (c c' : Cursor) : Prop where
  epoch : c'.epoch = c.epoch
  cycle : c'.cycle = c.cycle
  rank : c'.rank = c.rank
  order : c'.order = c.order

theorem afterRead_fields (S : Src) (c : Cursor) (r : Reader) (raw : Bytes) :
    (afterRead S c r raw).epoch = c.epoch ∧ (afterRead S c r raw).cycle = c.cycle ∧
    (afterRead S c r raw).rank = c.rank ∧ (afterRead S c r raw).order = c.order ∧
    (afterRead S c r raw).nextFile = c.nextFile ∧
    (afterRead S c r raw).active =
      c.active.set c.turn { r with offset := r.offset + raw.length, entry := r.entry + 1 } := by
  unfold afterRead
  simp only
  split <;> exact ⟨rfl, rfl, rfl, rfl, rfl, rfl⟩

/-- Effect of one loop iteration on the work list, given the entry `(f, l)` it works on. -/
def Effect (S : Src) (c c' : Cursor) (f : Nat) (l : List Env) (O : List (Nat × List Env)) : Option Env → Prop
  | none => ((todo S c').Perm ((f, l) :: O) ∨ (l = [] ∧ (todo S c').Perm O)) ∧ fuelFor S c' < fuelFor S c
  | some e => ∃ l', l = e :: l' ∧ e.source = f ∧ (todo S c').Perm ((f, l') :: O)

/-- What one loop iteration does to the work list. -/
theorem iter_spec (S : Src) (c c' : Cursor) (o : Option Env) (hi : Inv S c) (hq : 0 < S.quantum) (ha : c.active ≠ [])
    (h : iter S c = some (o, c')) :
    ∃ f l O, (todo S c).Perm ((f, l) :: O) ∧ Same c c' ∧ Inv S c' ∧
      Effect S c c' f l O o := by
  have ht := hi.turn ha
  unfold iter at h
  rw [List.getElem?_eq_getElem ht] at h
  simp only at h
  set r := c.active[c.turn] with hr
  set D := (c.order.drop c.nextFile).map fun i => (i, (fileRecs S c.epoch c.cycle i).filter (admitted S)) with hD
  set E := (c.active.eraseIdx c.turn).map (fun r => (r.file, remR S c.epoch c.cycle r)) with hE
  have hperm : (todo S c).Perm ((r.file, remR S c.epoch c.cycle r) :: (E ++ D)) := by
    unfold todo
    exact ((set_perm (fun r => (r.file, remR S c.epoch c.cycle r)) c.active c.turn r ht).2.append_right _)
  have hset : ∀ r' : Reader, ((c.active.set c.turn r').map (fun r => (r.file, remR S c.epoch c.cycle r)) ++ D).Perm
      ((r'.file, remR S c.epoch c.cycle r') :: (E ++ D)) := by
    intro r'
    exact ((set_perm (fun r => (r.file, remR S c.epoch c.cycle r)) c.active c.turn r' ht).1.append_right _)
  have hwork : ∀ r' : Reader, ((c.active.set c.turn r').map (readerWork S)).sum + readerWork S r =
      (c.active.map (readerWork S)).sum + readerWork S r' := by
    intro r'
    have h1 := (set_perm (readerWork S) c.active c.turn r' ht).1.sum_eq
    have h2 := (set_perm (readerWork S) c.active c.turn r' ht).2.sum_eq
    rw [h1, h2]
    simp only [List.sum_cons]
    rw [← hr]; omega
  have hsetInv : ∀ (r' : Reader) (u t : Nat), (∀ p, r'.pending = some p → p.next < p.total ∧ 0 < p.next) →
      u < S.quantum → t < c.active.length →
      Inv S { c with active := c.active.set c.turn r', used := u, turn := t } := by
    intro r' u t hp hu ht'
    refine ⟨fun _ => by simpa using ht', ?_, ?_, hu, hi.next, by simpa using hi.bound⟩
    · intro h0
      simp only [List.set_eq_nil_iff] at h0
      exact absurd h0 ha
    · intro x hx p hxp
      simp only at hx
      rcases List.mem_or_eq_of_mem_set hx with hx | rfl
      · exact hi.pend x hx p hxp
      · exact hp p hxp
  cases hp : r.pending with
  | some p =>
    rw [hp] at h
    simp only [Option.some.injEq, Prod.mk.injEq] at h
    obtain ⟨h1, rfl⟩ := h
    have hpl := (hi.pend r (List.getElem_mem ht) p hp).1
    have hsp := nextPending_spec S c.epoch c.cycle r.file (p.total - p.next) p hpl (le_refl _)
    set x := nextPending S c.epoch c.cycle r.file (p.total - p.next) p
    have hrem : remR S c.epoch c.cycle r =
        (pendRecs S c.epoch c.cycle r.file (some p)).filter (admitted S) ++
          (recs S c.epoch c.cycle r.file (rest S r).length (rest S r) r.entry).filter (admitted S) := by
      rw [remR, hp, List.filter_append]
    have hrem' : remR S c.epoch c.cycle { r with pending := x.2 } =
        (pendRecs S c.epoch c.cycle r.file x.2).filter (admitted S) ++
          (recs S c.epoch c.cycle r.file (rest S r).length (rest S r) r.entry).filter (admitted S) := by
      rw [remR, List.filter_append]; rfl
    refine ⟨r.file, _, _, hperm, ⟨rfl, rfl, rfl, rfl⟩, ?_, ?_⟩
    · have := hsetInv { r with pending := x.2 } c.used c.turn
        (fun q hq => ⟨(hsp.1 q hq).1, (hsp.1 q hq).2.2.1⟩) hi.used ht
      exact this
    · subst h1
      cases hx : x.1 with
      | none =>
        have h2 := hsp.2
        rw [hx] at h2
        simp only at h2
        refine ⟨Or.inl ?_, ?_⟩
        · have := hset { r with pending := x.2 }
          rw [hrem'] at this
          rw [hrem, h2.1]
          rw [h2.2] at this
          rw [h2.2]
          exact this
        · have hw := hwork { r with pending := x.2 }
          have hw1 : readerWork S r = (rest S r).length + 2 := by simp [readerWork, hp]
          have hw2 : readerWork S { r with pending := x.2 } = (rest S r).length + 1 := by
            rw [h2.2]; simp [readerWork, rest]
          simp only [fuelFor]
          omega
      | some e =>
        have h2 := hsp.2
        rw [hx] at h2
        simp only at h2
        refine ⟨_, ?_, h2.2, hset { r with pending := x.2 }⟩
        rw [hrem, h2.1, hrem']
        rfl
  | none =>
    rw [hp] at h
    simp only at h
    by_cases hrest : rest S r = []
    · rw [if_pos hrest] at h
      simp only [Option.map_eq_some_iff, Prod.mk.injEq] at h
      obtain ⟨c2, h, rfl, rfl⟩ := h
      have hrem : remR S c.epoch c.cycle r = [] := by
        simp [remR, hp, pendRecs, hrest, recs]
      rw [hrem] at hperm
      unfold replaceOrRemove at h
      rw [List.getElem?_eq_getElem ht] at h
      simp only [← hr, hp, Option.isSome_none, Bool.false_eq_true, if_false] at h
      split at h
      · rename_i hlt
        simp only [Option.some.injEq] at h
        subst h
        have hdrop : c.order.drop c.nextFile = c.order.getD c.nextFile 0 :: c.order.drop (c.nextFile + 1) := by
          rw [List.drop_eq_getElem_cons hlt]; simp [hlt]
        refine ⟨r.file, [], _, hperm, ⟨rfl, rfl, rfl, rfl⟩, ?_, Or.inr ⟨rfl, ?_⟩, ?_⟩
        · have := hsetInv (openReader (c.order.getD c.nextFile 0)) 0 c.turn (by simp [openReader]) hq ht
          exact ⟨this.turn, fun h => absurd (by simpa using h) ha, this.pend, this.used, hlt,
            this.bound⟩
        · have hs := ((set_perm (fun r => (r.file, remR S c.epoch c.cycle r)) c.active c.turn
            (openReader (c.order.getD c.nextFile 0)) ht).1.append_right
              ((c.order.drop (c.nextFile + 1)).map fun i => (i, (fileRecs S c.epoch c.cycle i).filter (admitted S))))
          refine hs.trans ?_
          rw [hD, hdrop, List.map_cons]
          have : ((openReader (c.order.getD c.nextFile 0)).file,
                remR S c.epoch c.cycle (openReader (c.order.getD c.nextFile 0))) =
              (c.order.getD c.nextFile 0,
                (fileRecs S c.epoch c.cycle (c.order.getD c.nextFile 0)).filter (admitted S)) := by
            simp [openReader, remR, pendRecs, rest, fileRecs]
          rw [this]
          exact List.perm_middle.symm
        · have hw := hwork (openReader (c.order.getD c.nextFile 0))
          have hw1 : readerWork S r = 1 := by simp [readerWork, hp, hrest]
          have hw2 : readerWork S (openReader (c.order.getD c.nextFile 0)) =
              (S.file (c.order.getD c.nextFile 0)).content.length + 1 := by simp [readerWork, openReader, rest]
          simp only [fuelFor]
          rw [hdrop, List.map_cons, List.sum_cons]
          omega
      · rename_i hge
        simp only [Option.some.injEq] at h
        have hnf : c.nextFile = c.order.length := by have := hi.next; omega
        have hlen : (c.active.eraseIdx c.turn).length = c.active.length - 1 := List.length_eraseIdx_of_lt ht
        refine ⟨r.file, [], _, hperm, ?_, ?_, Or.inr ⟨rfl, ?_⟩, ?_⟩
        · subst h; exact ⟨rfl, rfl, rfl, rfl⟩
        · subst h
          refine ⟨?_, ?_, ?_, hq, hi.next, ?_⟩
          · intro h0
            simp only at h0
            simp only [if_neg h0]
            exact Nat.mod_lt _ (by have : (c.active.eraseIdx c.turn).length ≠ 0 := by simpa using h0
                                   omega)
          · intro h0
            simp only at h0
            simp only [if_pos h0, hnf, and_true]
            have : (c.active.eraseIdx c.turn).length = 0 := by rw [h0]; rfl
            omega
          · intro x hx p hxp
            exact hi.pend x (List.mem_of_mem_eraseIdx hx) p hxp
          · have := hi.bound
            simp only; omega
        · subst h
          unfold todo
          exact List.Perm.refl _
        · subst h
          have hw := (set_perm (readerWork S) c.active c.turn r ht).2.sum_eq
          rw [← hr, List.sum_cons] at hw
          have hw1 : readerWork S r = 1 := by simp [readerWork, hp, hrest]
          simp only [fuelFor]
          omega
    · rw [if_neg hrest] at h
      cases hrr : readRaw S r with
      | none => rw [hrr] at h; simp at h
      | some raw =>
        rw [hrr] at h
        simp only at h
        have hlenraw : ∃ n, S.entryLen (rest S r) = some n ∧ ¬ (n = 0 ∨ (rest S r).length < n) ∧
            raw = (rest S r).take n := by
          simp only [readRaw, Option.bind_eq_bind, Option.bind_eq_some_iff] at hrr
          obtain ⟨n, hn, h2⟩ := hrr
          by_cases h0 : n = 0 ∨ (rest S r).length < n
          · rw [if_pos h0] at h2; simp at h2
          · rw [if_neg h0] at h2; exact ⟨n, hn, h0, (Option.some.inj h2).symm⟩
        obtain ⟨n, hn, h0, hraw⟩ := hlenraw
        have hrl : raw.length = n := by rw [hraw, List.length_take]; omega
        have hstep := recs_step S c.epoch c.cycle r.file (rest S r) r.entry n hrest hn h0
        rw [← hraw] at hstep
        obtain ⟨f1, f2, f3, f4, f5, f6⟩ := afterRead_fields S c r raw
        -- the turn and quantum after the read
        have hturn : ∀ act : List Reader, act.length = c.active.length →
            (afterRead S c r raw).turn < c.active.length ∧ (afterRead S c r raw).used < S.quantum := by
          intro _ _
          unfold afterRead
          simp only
          have hpos : 0 < c.active.length := by omega
          split
          · refine ⟨?_, hq⟩
            simp only [advanceTurn, List.set_eq_nil_iff, if_neg ha, List.length_set]
            exact Nat.mod_lt _ hpos
          · rename_i hlt
            simp only at hlt ⊢
            exact ⟨ht, by omega⟩
        obtain ⟨ht1, ht2⟩ := hturn c.active rfl
        have hInv : ∀ r' : Reader, (∀ p, r'.pending = some p → p.next < p.total ∧ 0 < p.next) →
            Inv S { afterRead S c r raw with active := (afterRead S c r raw).active.set c.turn r' } := by
          intro r' hp'
          have := hsetInv r' _ _ hp' ht2 ht1
          rw [f6, List.set_set]
          refine ⟨this.turn, ?_, this.pend, this.used, by rw [f5, f4]; exact hi.next, this.bound⟩
          intro h0
          exact absurd (by simpa using h0) ha
        have hwork2 : ∀ r' : Reader, readerWork S r' < readerWork S r →
            fuelFor S { afterRead S c r raw with active := c.active.set c.turn r' } < fuelFor S c := by
          intro r' hlt
          have := hwork r'
          simp only [fuelFor, f4, f5]
          omega
        cases hcl : classify S raw with
        | none => rw [hcl] at h; simp at h
        | some cl =>
          rw [hcl] at h hstep
          cases cl with
          | none =>
            simp only [Option.some.injEq, Prod.mk.injEq] at h
            obtain ⟨rfl, rfl⟩ := h
            simp only at hstep
            set r' : Reader := { r with offset := r.offset + raw.length, entry := r.entry + 1 } with hr'
            have hrest' : rest S r' = (rest S r).drop n := by
              have := rest_advance S r n (r.entry + 1) r.pending
              rw [hr', hrl]; exact this
            have hrem : remR S c.epoch c.cycle r' = remR S c.epoch c.cycle r := by
              simp only [remR]
              rw [hstep, hrest']
            have hrem2 : (r'.file, remR S c.epoch c.cycle r') = (r.file, remR S c.epoch c.cycle r) := by rw [hrem]
            refine ⟨r.file, _, _, hperm, ⟨f1, f2, f3, f4⟩, ?_, Or.inl ?_, ?_⟩
            · have := hInv r' (fun p hp' => hi.pend r (List.getElem_mem ht) p hp')
              rw [f6, List.set_set, ← f6] at this
              exact this
            · have := hset r'
              rw [hrem2] at this
              unfold todo
              rw [f1, f2, f4, f5, f6]
              exact this
            · have hlt : readerWork S r' < readerWork S r := by
                simp only [readerWork, hrest', List.length_drop]
                have : r'.pending = r.pending := rfl
                rw [this]
                have : 0 < (rest S r).length := by
                  have : (rest S r).length ≠ 0 := by simpa using hrest
                  omega
                omega
              have := hwork2 r' hlt
              rw [← f6] at this
              exact this
          | some cm =>
            obtain ⟨code, m⟩ := cm
            have hm : 0 < m := (classify_spec hcl).2.1
            simp only [Option.some.injEq, Prod.mk.injEq] at h
            obtain ⟨h1, rfl⟩ := h
            have hsp := nextPending_spec S c.epoch c.cycle r.file m ⟨raw, r.entry, code, 0, m⟩ (by simpa using hm)
              (by simp)
            set x := nextPending S c.epoch c.cycle r.file m ⟨raw, r.entry, code, 0, m⟩ with hxdef
            set r' : Reader := { r with offset := r.offset + raw.length, entry := r.entry + 1, pending := x.2 } with hr'
            have hrest' : rest S r' = (rest S r).drop n := by
              rw [hr', hrl]; exact rest_advance S r n (r.entry + 1) x.2
            simp only at hstep
            have hrem : remR S c.epoch c.cycle r =
                (pendRecs S c.epoch c.cycle r.file (some ⟨raw, r.entry, code, 0, m⟩)).filter (admitted S) ++
                (recs S c.epoch c.cycle r.file ((rest S r).drop n).length ((rest S r).drop n)
                  (r.entry + 1)).filter (admitted S) := by
              simp only [remR, hp, pendRecs, List.nil_append, Nat.sub_zero, ← List.range_eq_range']
              rw [hstep, List.filter_append]
            have hrem' : remR S c.epoch c.cycle r' =
                (pendRecs S c.epoch c.cycle r.file x.2).filter (admitted S) ++
                (recs S c.epoch c.cycle r.file ((rest S r).drop n).length ((rest S r).drop n)
                  (r.entry + 1)).filter (admitted S) := by
              rw [remR, List.filter_append, hrest']
            have hIc := hInv r' (fun q hq' => ⟨(hsp.1 q hq').1, (hsp.1 q hq').2.2.1⟩)
            have htodo : todo S { afterRead S c r raw with active := (afterRead S c r raw).active.set c.turn r' } =
                (c.active.set c.turn r').map (fun r => (r.file, remR S c.epoch c.cycle r)) ++ D := by
              unfold todo
              simp only
              rw [f1, f2, f4, f5, f6, List.set_set]
            refine ⟨r.file, _, _, hperm, ⟨f1, f2, f3, f4⟩, hIc, ?_⟩
            subst h1
            cases hx : x.1 with
            | none =>
              have h2 := hsp.2
              rw [hx] at h2
              simp only at h2
              refine ⟨Or.inl ?_, ?_⟩
              · rw [htodo]
                have := hset r'
                have e : (r'.file, remR S c.epoch c.cycle r') = (r.file, remR S c.epoch c.cycle r) := by
                  rw [hrem, hrem', h2.1, h2.2]; rfl
                rw [e] at this
                exact this
              · have hlt : readerWork S r' < readerWork S r := by
                  simp only [readerWork, hrest', List.length_drop]
                  have : r'.pending = none := h2.2
                  rw [this]
                  have : 0 < (rest S r).length := by
                    have : (rest S r).length ≠ 0 := by simpa using hrest
                    omega
                  simp
                  omega
                have := hwork2 r' hlt
                rw [f6, List.set_set]
                exact this
            | some e =>
              have h2 := hsp.2
              rw [hx] at h2
              simp only at h2
              refine ⟨remR S c.epoch c.cycle r', ?_, h2.2, ?_⟩
              · rw [hrem, h2.1, hrem']; rfl
              · rw [htodo]
                exact hset r'

/-! ### The four kinds of iteration -/

/-- Reading the entry `raw` from reader `r`, leaving `q` pending. -/
def readReader (r : Reader) (raw : Bytes) (q : Option Pending) : Reader :=
  { r with offset := r.offset + raw.length, entry := r.entry + 1, pending := q }

/-- What an iteration can be. -/
inductive Kind (S : Src) (c : Cursor) (r : Reader) : Option Env → Cursor → Prop
  | pending (p : Pending) (hp : r.pending = some p) :
      Kind S c r (nextPending S c.epoch c.cycle r.file (p.total - p.next) p).1
        { c with active := (c.active.set c.turn
            { r with pending := (nextPending S c.epoch c.cycle r.file (p.total - p.next) p).2 }) }
  | replace (hp : r.pending = none) (hr : rest S r = []) (h : c.nextFile < c.order.length) :
      Kind S c r none { c with nextFile := c.nextFile + 1, used := 0,
                                active := c.active.set c.turn (openReader (c.order.getD c.nextFile 0)) }
  | remove (hp : r.pending = none) (hr : rest S r = []) (h : ¬ c.nextFile < c.order.length) :
      Kind S c r none { c with active := c.active.eraseIdx c.turn, used := 0,
                               turn := if c.active.eraseIdx c.turn = [] then c.turn
                                 else c.turn % (c.active.eraseIdx c.turn).length }
  | skip (hp : r.pending = none) (n : Nat) (hn : S.entryLen (rest S r) = some n) (h0 : n ≠ 0)
      (hle : n ≤ (rest S r).length) (hc : classify S ((rest S r).take n) = some none) (t u : Nat)
      (h : afterRead S c r ((rest S r).take n) =
        { c with active := c.active.set c.turn (readReader r ((rest S r).take n) none), turn := t, used := u }) :
      Kind S c r none
        { c with active := c.active.set c.turn (readReader r ((rest S r).take n) none), turn := t, used := u }
  | entry (hp : r.pending = none) (n : Nat) (hn : S.entryLen (rest S r) = some n) (h0 : n ≠ 0)
      (hle : n ≤ (rest S r).length) (code m : Nat) (hc : classify S ((rest S r).take n) = some (some (code, m)))
      (t u : Nat) :
      Kind S c r (nextPending S c.epoch c.cycle r.file m ⟨(rest S r).take n, r.entry, code, 0, m⟩).1
        { c with active := c.active.set c.turn (readReader r ((rest S r).take n)
            (nextPending S c.epoch c.cycle r.file m ⟨(rest S r).take n, r.entry, code, 0, m⟩).2),
                 turn := t, used := u }

theorem iter_kind {S : Src} {c c' : Cursor} {o : Option Env} (ht : c.turn < c.active.length)
    (h : iter S c = some (o, c')) : Kind S c c.active[c.turn] o c' := by
  unfold iter at h
  rw [List.getElem?_eq_getElem ht] at h
  simp only at h
  set r := c.active[c.turn] with hr
  cases hp : r.pending with
  | some p =>
    rw [hp] at h
    simp only [Option.some.injEq, Prod.mk.injEq] at h
    obtain ⟨rfl, rfl⟩ := h
    exact Kind.pending p hp
  | none =>
    rw [hp] at h
    simp only at h
    by_cases hrest : rest S r = []
    · rw [if_pos hrest] at h
      simp only [Option.map_eq_some_iff, Prod.mk.injEq] at h
      obtain ⟨c2, h, rfl, rfl⟩ := h
      unfold replaceOrRemove at h
      rw [List.getElem?_eq_getElem ht] at h
      simp only [← hr, hp, Option.isSome_none, Bool.false_eq_true, if_false] at h
      split at h
      · rename_i hlt
        simp only [Option.some.injEq] at h
        subst h
        exact Kind.replace hp hrest hlt
      · rename_i hlt
        simp only [Option.some.injEq] at h
        subst h
        exact Kind.remove hp hrest hlt
    · rw [if_neg hrest] at h
      cases hrr : readRaw S r with
      | none => rw [hrr] at h; simp at h
      | some raw =>
        rw [hrr] at h
        simp only at h
        have hlenraw : ∃ n, S.entryLen (rest S r) = some n ∧ ¬ (n = 0 ∨ (rest S r).length < n) ∧
            raw = (rest S r).take n := by
          simp only [readRaw, Option.bind_eq_bind, Option.bind_eq_some_iff] at hrr
          obtain ⟨n, hn, h2⟩ := hrr
          by_cases h0 : n = 0 ∨ (rest S r).length < n
          · rw [if_pos h0] at h2; simp at h2
          · rw [if_neg h0] at h2; exact ⟨n, hn, h0, (Option.some.inj h2).symm⟩
        obtain ⟨n, hn, h0, rfl⟩ := hlenraw
        have haf : ∃ t u, ∀ act, { afterRead S c r ((rest S r).take n) with active := act } =
            { c with active := act, turn := t, used := u } := by
          obtain ⟨f1, f2, f3, f4, f5, -⟩ := afterRead_fields S c r ((rest S r).take n)
          refine ⟨(afterRead S c r ((rest S r).take n)).turn, (afterRead S c r ((rest S r).take n)).used, ?_⟩
          intro act
          simp only [f1, f2, f3, f4, f5]
        obtain ⟨t, u, haf⟩ := haf
        have f6 := (afterRead_fields S c r ((rest S r).take n)).2.2.2.2.2
        cases hcl : classify S ((rest S r).take n) with
        | none => rw [hcl] at h; simp at h
        | some cl =>
          rw [hcl] at h
          cases cl with
          | none =>
            simp only [Option.some.injEq, Prod.mk.injEq] at h
            obtain ⟨rfl, rfl⟩ := h
            have e : afterRead S c r ((rest S r).take n) =
                { c with active := c.active.set c.turn (readReader r ((rest S r).take n) none), turn := t, used := u } := by
              rw [← haf]
              have : readReader r ((rest S r).take n) none =
                  { r with offset := r.offset + ((rest S r).take n).length, entry := r.entry + 1 } := by
                simp [readReader, hp]
              rw [this, ← f6]
            rw [e]
            exact Kind.skip hp n hn (by omega) (by omega) hcl t u e
          | some cm =>
            obtain ⟨code, m⟩ := cm
            simp only [Option.some.injEq, Prod.mk.injEq] at h
            obtain ⟨rfl, rfl⟩ := h
            rw [haf, f6, List.set_set]
            exact Kind.entry hp n hn (by omega) (by omega) code m hcl t u

/-- Iterations on well-formed readers do not fail. -/
theorem iter_some {S : Src} {c : Cursor} (ht : c.turn < c.active.length)
    (hw : wellFormed S (rest S c.active[c.turn]).length (rest S c.active[c.turn])) : ∃ o c', iter S c = some (o, c') := by
  unfold iter
  rw [List.getElem?_eq_getElem ht]
  simp only
  set r := c.active[c.turn] with hr
  cases hp : r.pending with
  | some p => exact ⟨_, _, rfl⟩
  | none =>
    simp only
    by_cases hrest : rest S r = []
    · rw [if_pos hrest]
      unfold replaceOrRemove
      rw [List.getElem?_eq_getElem ht]
      simp only [← hr, hp, Option.isSome_none, Bool.false_eq_true, if_false]
      split
      · exact ⟨_, _, rfl⟩
      · exact ⟨_, _, rfl⟩
    · rw [if_neg hrest]
      obtain ⟨f, hf⟩ : ∃ f, (rest S r).length = f + 1 := ⟨(rest S r).length - 1, by
        have : (rest S r).length ≠ 0 := by simpa using hrest
        omega⟩
      rw [hf, wellFormed] at hw
      rcases hw with hw | ⟨n, hn, hn0, hle, hcl, _⟩
      · exact absurd hw hrest
      have hrr : readRaw S r = some ((rest S r).take n) := by
        simp only [readRaw, hn, Option.bind_eq_bind, Option.bind_some]
        rw [if_neg (by omega)]
      rw [hrr]
      simp only
      cases hc : classify S ((rest S r).take n) with
      | none => exact absurd hc hcl
      | some cl =>
        cases cl with
        | none => exact ⟨_, _, rfl⟩
        | some cm => exact ⟨_, _, rfl⟩

/-- Further facts about cursors: readers read scheduled files, each once; a pending entry is the last entry read. -/
structure Inv2 (S : Src) (c : Cursor) : Prop where
  files : (c.active.map (·.file)).Nodup
  sched : ∀ r ∈ c.active, r.file ∈ c.order.take c.nextFile
  pend : ∀ r ∈ c.active, ∀ p, r.pending = some p → S.count ≠ none ∧ p.raw ≠ [] ∧ p.entry + 1 = r.entry ∧
    classify S p.raw = some (some (p.code, p.total)) ∧
    ∃ b, S.entryLen b = some p.raw.length ∧ p.raw = b.take p.raw.length ∧ p.raw.length ≤ b.length

theorem map_set_file {A : List Reader} {k : Nat} {x : Reader} (h : k < A.length) (hx : x.file = A[k].file) :
    (A.set k x).map (·.file) = A.map (·.file) := by
  rw [List.map_set]
  apply List.ext_getElem
  · simp
  · intro i h1 h2
    rw [List.getElem_set]
    split
    · rename_i he; subst he; simp [hx]
    · rfl

theorem iter_inv2 {S : Src} {c c' : Cursor} {o : Option Env} (hn : c.order.Nodup) (hi : Inv S c) (h2 : Inv2 S c)
    (ha : c.active ≠ []) (h : iter S c = some (o, c')) : Inv2 S c' := by
  have ht := hi.turn ha
  have hk := iter_kind ht h
  have hmem := List.getElem_mem ht
  set r := c.active[c.turn] with hr
  have setCase : ∀ (x : Reader) (t u : Nat), x.file = r.file →
      (∀ p, x.pending = some p → S.count ≠ none ∧ p.raw ≠ [] ∧ p.entry + 1 = x.entry ∧
        classify S p.raw = some (some (p.code, p.total)) ∧
        ∃ b, S.entryLen b = some p.raw.length ∧ p.raw = b.take p.raw.length ∧ p.raw.length ≤ b.length) →
      Inv2 S { c with active := c.active.set c.turn x, turn := t, used := u } := by
    intro x t u hx hp
    refine ⟨?_, ?_, ?_⟩
    · simp only; rw [map_set_file ht hx]; exact h2.files
    · intro y hy
      rcases List.mem_or_eq_of_mem_set hy with hy | rfl
      · exact h2.sched y hy
      · rw [hx]; exact h2.sched r hmem
    · intro y hy p hyp
      rcases List.mem_or_eq_of_mem_set hy with hy | rfl
      · exact h2.pend y hy p hyp
      · exact hp p hyp
  cases hk with
  | pending p hp =>
    have hpl := (hi.pend r hmem p hp).1
    have hsp := (nextPending_spec S c.epoch c.cycle r.file (p.total - p.next) p hpl (le_refl _)).1
    obtain ⟨q1, q2, q3, q4, q5⟩ := h2.pend r hmem p hp
    refine setCase _ c.turn c.used ?_ ?_
    · rfl
    intro q hq
    obtain ⟨_, g2, _, g4, g5, g6⟩ := hsp q hq
    rw [g4, g5, g6, g2]
    exact ⟨q1, q2, q3, q4, q5⟩
  | replace hp hr' hlt =>
    have hj : c.order.getD c.nextFile 0 = c.order[c.nextFile] := by simp [hlt]
    have htake : c.order.take (c.nextFile + 1) = c.order.take c.nextFile ++ [c.order[c.nextFile]] := by
      rw [List.take_add_one, List.getElem?_eq_getElem hlt]; rfl
    have hnot : c.order[c.nextFile] ∉ c.order.take c.nextFile := by
      have : (c.order.take (c.nextFile + 1)).Nodup := hn.sublist (List.take_sublist _ _)
      rw [htake, List.nodup_append] at this
      intro hmem'
      exact this.2.2 _ hmem' _ (by simp) rfl
    refine ⟨?_, ?_, ?_⟩
    · have hp1 := (set_perm (fun r : Reader => r.file) c.active c.turn (openReader (c.order.getD c.nextFile 0)) ht).1
      have hp2 := (set_perm (fun r : Reader => r.file) c.active c.turn (openReader (c.order.getD c.nextFile 0)) ht).2
      simp only
      rw [hp1.nodup_iff, List.nodup_cons]
      have hnd := h2.files
      rw [hp2.nodup_iff, List.nodup_cons] at hnd
      refine ⟨?_, hnd.2⟩
      intro hm
      rw [List.mem_map] at hm
      obtain ⟨x, hx, hxe⟩ := hm
      have := h2.sched x (List.mem_of_mem_eraseIdx hx)
      rw [hxe] at this
      simp only [openReader, hj] at this
      exact hnot this
    · intro y hy
      simp only at hy ⊢
      rw [htake]
      rcases List.mem_or_eq_of_mem_set hy with hy | rfl
      · exact List.mem_append_left _ (h2.sched y hy)
      · rw [hj]; exact List.mem_append_right _ (List.mem_singleton.mpr rfl)
    · intro y hy p hyp
      rcases List.mem_or_eq_of_mem_set hy with hy | rfl
      · exact h2.pend y hy p hyp
      · simp [openReader] at hyp
  | remove hp hr' hlt =>
    refine ⟨?_, ?_, ?_⟩
    · simp only
      exact h2.files.sublist ((List.eraseIdx_sublist _ _).map _)
    · intro y hy; exact h2.sched y (List.mem_of_mem_eraseIdx hy)
    · intro y hy p hyp; exact h2.pend y (List.mem_of_mem_eraseIdx hy) p hyp
  | skip hp n hn' h0 hle hc t u _ =>
    refine setCase _ t u ?_ ?_
    · rfl
    intro q hq
    simp [readReader] at hq
  | entry hp n hn' h0 hle code m hc t u =>
    have hm := (classify_spec hc).2.1
    have hsp := (nextPending_spec S c.epoch c.cycle r.file m ⟨(rest S r).take n, r.entry, code, 0, m⟩
      (by simpa using hm) (by simp)).1
    refine setCase _ t u ?_ ?_
    · rfl
    intro q hq
    simp only [readReader] at hq
    obtain ⟨g1, g2, g3, g4, g5, g6⟩ := hsp q hq
    simp only at g2 g4 g5 g6
    have hlen : ((rest S r).take n).length = n := by rw [List.length_take]; omega
    rw [g4, g5, g6, g2]
    refine ⟨?_, ?_, rfl, hc, rest S r, ?_, ?_, ?_⟩
    · intro hcn
      have := (classify_spec hc).2.2 hcn
      omega
    · intro h; rw [h] at hlen; simp at hlen; omega
    · rw [hlen]; exact hn'
    · rw [hlen]
    · rw [hlen]; exact hle

/-- All unread data is well formed. -/
def Good (S : Src) (c : Cursor) : Prop :=
  (∀ r ∈ c.active, wellFormed S (rest S r).length (rest S r)) ∧
    ∀ i ∈ c.order.drop c.nextFile, wellFormed S (S.file i).content.length (S.file i).content

theorem iter_good {S : Src} {c c' : Cursor} {o : Option Env} (hi : Inv S c) (hg : Good S c)
    (ha : c.active ≠ []) (h : iter S c = some (o, c')) : Good S c' := by
  have ht := hi.turn ha
  have hk := iter_kind ht h
  have hmem := List.getElem_mem ht
  set r := c.active[c.turn] with hr
  have setCase : ∀ (x : Reader) (t u : Nat), wellFormed S (rest S x).length (rest S x) →
      Good S { c with active := c.active.set c.turn x, turn := t, used := u } := by
    intro x t u hx
    refine ⟨?_, hg.2⟩
    intro y hy
    rcases List.mem_or_eq_of_mem_set hy with hy | rfl
    · exact hg.1 y hy
    · exact hx
  have advance : ∀ n q, S.entryLen (rest S r) = some n → n ≠ 0 → n ≤ (rest S r).length →
      wellFormed S (rest S (readReader r ((rest S r).take n) q)).length
        (rest S (readReader r ((rest S r).take n) q)) := by
    intro n q hn h0 hle
    have hlen : ((rest S r).take n).length = n := by rw [List.length_take]; omega
    have e : rest S (readReader r ((rest S r).take n) q) = (rest S r).drop n := by
      unfold readReader; rw [hlen]; exact rest_advance S r n _ q
    rw [e]
    have hw := hg.1 r hmem
    obtain ⟨f, hf⟩ : ∃ f, (rest S r).length = f + 1 := ⟨(rest S r).length - 1, by omega⟩
    rw [hf, wellFormed] at hw
    rcases hw with hw | ⟨n', hn', _, _, _, hw⟩
    · rw [hw] at hf; simp at hf
    · rw [hn, Option.some.injEq] at hn'
      subst hn'
      rw [wellFormed_fuel S _ f _ (le_refl _) (by simp; omega)]
      exact hw
  cases hk with
  | pending p hp => exact setCase _ c.turn c.used (hg.1 r hmem)
  | replace hp hr' hlt =>
    have hdrop : c.order.drop c.nextFile = c.order.getD c.nextFile 0 :: c.order.drop (c.nextFile + 1) := by
      rw [List.drop_eq_getElem_cons hlt]; simp [hlt]
    have hg2 := hg.2
    rw [hdrop] at hg2
    refine ⟨?_, fun i hi' => hg2 i (by simp [hi'])⟩
    intro y hy
    rcases List.mem_or_eq_of_mem_set hy with hy | rfl
    · exact hg.1 y hy
    · have := hg2 (c.order.getD c.nextFile 0) (by simp)
      simpa [openReader, rest] using this
  | remove hp hr' hlt => exact ⟨fun y hy => hg.1 y (List.mem_of_mem_eraseIdx hy), hg.2⟩
  | skip hp n hn' h0 hle hc t u _ => exact setCase _ t u (advance n none hn' h0 hle)
  | entry hp n hn' h0 hle code m hc t u => exact setCase _ t u (advance n _ hn' h0 hle)

/-! ### The whole call -/

theorem nextLoop_fuelOk {S : Src} (hq : 0 < S.quantum) : ∀ (fuel : Nat) (c : Cursor), Inv S c →
    fuelFor S c ≤ fuel → Good S c → ∃ o c', nextLoop S fuel c = some (o, c')
  | 0, c, _, hf, _ => by simp [fuelFor] at hf
  | fuel + 1, c, hi, hf, hg => by
    unfold nextLoop
    by_cases ha : c.active = []
    · rw [if_pos ha]; exact ⟨_, _, rfl⟩
    · rw [if_neg ha]
      obtain ⟨o, c', h⟩ := iter_some (hi.turn ha) (hg.1 _ (List.getElem_mem (hi.turn ha)))
      rw [h]
      obtain ⟨f, l, O, _, _, hi', he⟩ := iter_spec S c c' o hi hq ha h
      cases o with
      | some e => exact ⟨_, _, rfl⟩
      | none =>
        simp only
        exact nextLoop_fuelOk hq fuel c' hi' (by have := he.2; omega) (iter_good hi hg ha h)

end Verif.Seq
