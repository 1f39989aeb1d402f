import Verif.Planner.Runs

/-!
# Planner properties C25-C27

`runEpoch P n (startEpoch P e)` calls `next_batch` until it returns `None`, at most `n` times; the result lists the
batches, tells whether the end was reached, and holds the final planner.  `rem (P.src.start e y)` are the records of
source cycle `y` of epoch `e` (cycle 0 is the epoch itself; further cycles occur only for rank-sharded sources with a
step budget).  The record type is arbitrary, so records of different cycles may be told apart.
-/
namespace Verif.Planner
open Verif.Rng (Val Digest)

variable {σ ε : Type}

/-! ### C25 -/

/-- **C25.** In an unbudgeted evaluation epoch every batch is well formed (`BatchOk`: exactly the batch size, one shape,
a leading block of real rows that the padding repeats); `next_batch` returns `None` after at most `#records` batches; and
then the rows marked real are exactly the source's records, each as often as the source delivers it. -/
theorem C25_eval (P : Planner σ ε) (ok : σ → Prop) (rem : σ → List ε) (L : Records P.src ok rem) (hv : P.Valid)
    (heval : P.train = false) (hsteps : P.cfg.steps = none) (n epoch : Nat) (bs : List (Batch ε)) (fin : Bool)
    (st : St σ ε) (h : runEpoch P n (startEpoch P epoch) = .ok (bs, fin, st)) :
    (∀ b ∈ bs, BatchOk P b) ∧ ((rem (P.src.start epoch 0)).length < n → fin = true) ∧
      (fin = true → (bs.flatMap realRows).Perm (rem (P.src.start epoch 0))) := by
  have hr := runEpoch_start L hv h
  have hsh : P.sharded = false := by
    cases hs : P.sharded with
    | false => rfl
    | true => have := (hv.shard hs).1; rw [heval] at this; simp at this
  obtain ⟨rest, hp, hrest⟩ := hr.conserve
  have hcy : st.cycle = 0 := hr.cycle hsh
  have hcyc : cycles P rem (startEpoch P epoch).epoch (st.cycle + 1) = rem (P.src.start epoch 0) := by
    rw [hcy]; simp [cycles, startEpoch]
  rw [hcyc, List.nil_append] at hp
  refine ⟨fun b hb => (hr.batches b hb).1, ?_, ?_⟩
  · intro hlt
    cases hf : fin with
    | true => rfl
    | false =>
      exfalso
      have hm := hr.more hf
      have hlen := hp.length_eq
      have hge : ∀ l : List (Batch ε), (∀ b ∈ l, BatchOk P b) → l.length ≤ (l.flatMap realRows).length := by
        intro l hl
        induction l with
        | nil => simp
        | cons b l ih =>
          have h1 := (hl b List.mem_cons_self).real_pos
          have h2 := ih fun b hb => hl b (List.mem_cons_of_mem _ hb)
          simp only [List.flatMap_cons, List.length_append, List.length_cons]
          omega
      have := hge bs fun b hb => (hr.batches b hb).1
      simp only [List.length_append] at hlen
      omega
  · intro hf
    rw [((hrest hf hsteps).1 heval), List.append_nil] at hp
    exact hp

/-- **C25 (padding are copies).** In a well-formed batch every row, padding included, equals a row marked real. -/
theorem C25_padding_copies (P : Planner σ ε) (b : Batch ε) (h : BatchOk P b) : ∀ e ∈ b.rows, e ∈ realRows b := by
  obtain ⟨k, h1, h2, h3, h4⟩ := h.real
  intro e he
  rw [h.realRows_eq h2 h3]
  obtain ⟨j, hj, rfl⟩ := List.getElem_of_mem he
  rw [h.size] at hj
  by_cases hjk : j < k
  · rw [List.mem_take_iff_getElem]
    exact ⟨j, by rw [h.size]; omega, rfl⟩
  · have h5 := h4 j (by omega) hj
    have hlt := Nat.mod_lt (j - k) h1
    rw [List.getElem?_eq_getElem (by rw [h.size]; exact hj), List.getElem?_eq_getElem (by rw [h.size]; omega)] at h5
    simp only [Option.some.injEq] at h5
    rw [h5, List.mem_take_iff_getElem]
    exact ⟨(j - k) % k, by rw [h.size]; omega, rfl⟩

/-- **C25/C26/C27 (exceptions are justified).** An epoch, however long it is run, ends in an exception only if the
shuffle reservoir refuses a record (C10: larger than the byte budget) or runs out of draws, if a rank-sharded source had 17
consecutive empty cycles, or if its records do not fit the declared uniform shape or the shape-queue limit. In
particular the loops of `next_batch` always end. -/
theorem C25_exceptions_justified (P : Planner σ ε) (ok : σ → Prop) (rem : σ → List ε) (L : Records P.src ok rem)
    (hv : P.Valid) (n epoch : Nat) (e : Err) (h : runEpoch P n (startEpoch P epoch) = .error e) :
    e = .reservoir ∨ (e = .emptyCycles ∧ P.sharded = true ∧ ∃ y, ∀ k < 17, rem (P.src.start epoch (y + k)) = []) ∨
      ((e = .shape ∨ e = .queueLimit) ∧ ¬ ∃ S, Fits P rem epoch S) := by
  refine runEpoch_error L hv n [] _ e (good_start L hv epoch) (start_conserve P rem epoch) ?_ h
  intro S _ s hs
  simp [startEpoch] at hs

/-! ### C26 -/

/-- **C26.** In a training epoch every batch has exactly the batch size, one shape and no padding; the records in the
batches occur at most as often as the source cycles read so far deliver them; and when an unbudgeted epoch has ended,
what was left out contains fewer than `batch` records of every shape. -/
theorem C26_train (P : Planner σ ε) (ok : σ → Prop) (rem : σ → List ε) (L : Records P.src ok rem) (hv : P.Valid)
    (htrain : P.train = true) (n epoch : Nat) (bs : List (Batch ε)) (fin : Bool)
    (st : St σ ε) (h : runEpoch P n (startEpoch P epoch) = .ok (bs, fin, st)) :
    (∀ b ∈ bs, b.rows.length = P.batch ∧ (∃ s, ∀ e ∈ b.rows, P.shape e = s) ∧ b.real = List.replicate P.batch true) ∧
      ∃ left, (bs.flatMap (·.rows) ++ left).Perm (cycles P rem epoch (st.cycle + 1)) ∧
        (P.sharded = false → st.cycle = 0) ∧
        (fin = true → P.cfg.steps = none → ∀ s, (left.filter fun e => P.shape e = s).length < P.batch) := by
  have hr := runEpoch_start L hv h
  have hall : ∀ b ∈ bs, b.real = List.replicate P.batch true ∧ realRows b = b.rows := by
    intro b hb
    obtain ⟨hb1, hb2, _⟩ := hr.batches b hb
    obtain ⟨k, h1, h2, h3, _⟩ := hb1.real
    have hk : k = P.batch := by
      by_contra hne
      have : false ∈ b.real := by
        rw [h3]
        apply List.mem_append_right
        rw [List.mem_replicate]
        exact ⟨by omega, rfl⟩
      have := hb2 htrain false this
      simp at this
    rw [hk] at h3
    refine ⟨by simpa using h3, ?_⟩
    rw [hb1.realRows_eq (Nat.le_refl _) h3, ← hb1.size, List.take_length]
  refine ⟨fun b hb => ⟨(hr.batches b hb).1.size, (hr.batches b hb).1.shape, (hall b hb).1⟩, ?_⟩
  obtain ⟨rest, hp, hrest⟩ := hr.conserve
  refine ⟨rest, ?_, fun hs => hr.cycle hs, fun hf hs => (hrest hf hs).2⟩
  have hflat : ∀ l : List (Batch ε), (∀ b ∈ l, realRows b = b.rows) → l.flatMap realRows = l.flatMap (·.rows) := by
    intro l hl
    induction l with
    | nil => rfl
    | cons b l ih =>
      simp only [List.flatMap_cons]
      rw [hl b List.mem_cons_self, ih fun b hb => hl b (List.mem_cons_of_mem _ hb)]
  rw [hflat bs fun b hb => (hall b hb).2, List.nil_append] at hp
  exact hp

/-! ### C27 -/

/-- **C27 (rank-sharded).** A rank-sharded epoch with `steps_per_epoch = N` that raises nothing consists of exactly `N`
batches with indices `0..N-1`, exactly the last of them flagged last, and `next_batch` returns `None` right after; the
emitted rows together with the discarded remainder are exactly the records of the source cycles read. -/
theorem C27_budget_sharded (P : Planner σ ε) (ok : σ → Prop) (rem : σ → List ε) (L : Records P.src ok rem)
    (hv : P.Valid) (hsh : P.sharded = true) (N : Nat) (hN : P.cfg.steps = some N) (n epoch : Nat) (bs : List (Batch ε))
    (fin : Bool) (st : St σ ε) (h : runEpoch P n (startEpoch P epoch) = .ok (bs, fin, st)) :
    (N < n → fin = true) ∧ (fin = true → bs.length = N) ∧ bs.length ≤ N ∧
      (∀ (i : Nat) (b : Batch ε), bs[i]? = some b → b.index = i ∧ (b.last = true ↔ i + 1 = N)) ∧
      ∃ discarded, (bs.flatMap realRows ++ discarded).Perm (cycles P rem epoch (st.cycle + 1)) := by
  have hr := runEpoch_start L hv h
  have hb := hr.budget N hN
  obtain ⟨h1, h2⟩ := hr.sharded N hsh hN
  simp only [startEpoch, Nat.zero_add] at hb h1
  refine ⟨?_, h1, hb, ?_, ?_⟩
  · intro hlt
    cases hf : fin with
    | true => rfl
    | false => have := hr.more hf; omega
  · intro i b hi
    have := hr.index i b hi
    simp only [startEpoch, Nat.zero_add] at this
    refine ⟨this, ?_⟩
    rw [h2 i b hi, this]
  · obtain ⟨rest, hp, _⟩ := hr.conserve
    exact ⟨rest, by rw [List.nil_append] at hp; exact hp⟩

/-- **C27 (replicated).** Without rank sharding the source is never restarted: the epoch has at most `N` batches, a batch
flagged last is the last one, and the `N`-th batch is flagged last. -/
theorem C27_budget_replicated (P : Planner σ ε) (ok : σ → Prop) (rem : σ → List ε) (L : Records P.src ok rem)
    (hv : P.Valid) (hsh : P.sharded = false) (N : Nat) (hN : P.cfg.steps = some N) (n epoch : Nat) (bs : List (Batch ε))
    (fin : Bool) (st : St σ ε) (h : runEpoch P n (startEpoch P epoch) = .ok (bs, fin, st)) :
    (N < n → fin = true) ∧ bs.length ≤ N ∧
      (∀ (i : Nat) (b : Batch ε), bs[i]? = some b → b.index = i ∧ (b.last = true → i + 1 = bs.length)) ∧
      ∃ discarded, (bs.flatMap realRows ++ discarded).Perm (rem (P.src.start epoch 0)) := by
  have hr := runEpoch_start L hv h
  have hb := hr.budget N hN
  simp only [startEpoch, Nat.zero_add] at hb
  refine ⟨?_, hb, ?_, ?_⟩
  · intro hlt
    cases hf : fin with
    | true => rfl
    | false => have := hr.more hf; omega
  · intro i b hi
    have := hr.index i b hi
    simp only [startEpoch, Nat.zero_add] at this
    exact ⟨this, hr.last i b hi⟩
  · obtain ⟨rest, hp, _⟩ := hr.conserve
    have hcy : st.cycle = 0 := hr.cycle hsh
    rw [hcy] at hp
    exact ⟨rest, by simpa [cycles, startEpoch] using hp⟩

/-- **C27 (empty source).** If every cycle of a rank-sharded source is empty, the first `next_batch` raises (it neither
returns nor loops). -/
theorem C27_empty_source_raises (P : Planner σ ε) (ok : σ → Prop) (rem : σ → List ε) (L : Records P.src ok rem)
    (hv : P.Valid) (hsh : P.sharded = true) (epoch : Nat) (hempty : ∀ y, rem (P.src.start epoch y) = []) :
    ∃ e, nextBatch P (startEpoch P epoch) = .error e ∧ (e = .emptyCycles ∨ e = .reservoir) := by
  have g := good_start L hv epoch
  have hnil : ∀ n, cycles P rem epoch n = [] := by
    intro n
    unfold cycles
    rw [List.flatMap_eq_nil_iff]
    intro y _; exact hempty y
  have hfits : Fits P rem epoch [] := ⟨fun y x hx => by rw [hempty y] at hx; simp at hx, by simp, by simp⟩
  have hn := nextBatch_spec L hv g
  cases hb : nextBatch P (startEpoch P epoch) with
  | error e =>
    refine ⟨e, rfl, ?_⟩
    have hk : ShapeInv P rem [] (startEpoch P epoch) := by
      intro S hS
      refine ⟨?_, by simp [startEpoch]⟩
      intro x hx
      have := (start_conserve P rem epoch).subset hx
      have he : (startEpoch P epoch).epoch = epoch := rfl
      rw [he, hnil] at this
      simp at this
    rcases nextBatch_error L hv g (fun _ => hk) hb with h | h | h
    · exact Or.inr h
    · exact Or.inl h.1
    · exact absurd ⟨[], hfits⟩ h.2
  | ok r =>
    exfalso
    obtain ⟨ob, st1⟩ := r
    rw [hb] at hn
    obtain ⟨N, hN⟩ := Option.isSome_iff_exists.mp (hv.shard hsh).2
    cases ob with
    | none =>
      have ha : AfterEnd P rem [] _ st1 := hn
      have hstop := ha.stop
      unfold mayRestart at hstop
      have := g.budget N hN
      rw [hsh, hN] at hstop
      simp [this] at hstop
    | some b =>
      have ha : AfterBatch P ok rem [] _ b st1 := hn
      obtain ⟨dropped, _, _, h3⟩ := ha.conserve
      have := h3 [] (start_conserve P rem epoch)
      have he : (startEpoch P epoch).epoch = epoch := rfl
      rw [he, hnil] at this
      have h4 := ha.batch.real_pos
      have h5 := this.length_eq
      simp only [List.length_append, List.length_nil] at h5
      omega

/-! ### Concrete cases -/

/-- A source reading a list per cycle; cursors are the unread records. -/
def listSource {ε : Type} (recs : Nat → List ε) (chunked zero : Bool) : Source (List ε) ε where
  next1 s := (s.head?, s.tail)
  many := if chunked then some (fun k s => (s.take k, s.drop k)) else none
  start _ y := recs y
  left s := s.length
  zeroResident := zero

theorem listSource_records {ε : Type} (recs : Nat → List ε) (chunked zero : Bool) :
    Records (listSource recs chunked zero) (fun _ => True) id := by
  refine ⟨fun _ _ => trivial, fun s _ => ⟨trivial, rfl, rfl⟩, ?_, fun s _ => rfl⟩
  intro f hf k s hk _
  unfold listSource at hf
  simp only at hf
  split at hf
  · simp only [Option.some.injEq] at hf
    subst hf
    refine ⟨trivial, List.take_append_drop _ _, by simp, ?_⟩
    intro h
    simp only [List.take_eq_nil_iff] at h
    rcases h with h | h
    · omega
    · exact h
  · simp at hf

/-- Records are numbers, their shape is the remainder modulo 3. -/
def demo (train sharded : Bool) (steps : Option Nat) (recs : Nat → List Nat) : Planner (List Nat) Nat where
  H := fun _ => 3
  src := listSource recs true false
  shape := (· % 3)
  bytes := fun _ => 1
  cfg := ⟨true, 4, some 10, 3, steps⟩
  train := train
  seed := 7
  batch := 4
  sharded := sharded
  uniform := none
  manifest := "m"

theorem demo_valid (train sharded : Bool) (N : Nat) (hN : 0 < N) (recs : Nat → List Nat)
    (h : sharded = true → train = true) : (demo train sharded (some N) recs).Valid :=
  ⟨⟨Nat.succ_pos 3, by intro b hb; simp [demo] at hb; omega, Nat.succ_pos 2, by intro n hn; simp [demo] at hn; omega⟩,
    Nat.succ_pos 3, fun hs => ⟨h hs, rfl⟩⟩

example : (demo false false none fun _ => List.range 13).Valid :=
  ⟨⟨by decide, by intro b hb; simp [demo] at hb; omega, by decide, by intro n hn; simp [demo] at hn⟩, by decide,
    fun hs => by simp [demo] at hs⟩

/-- Thirteen records of three shapes: an evaluation epoch of four batches, the last one padded. -/
example : ((runEpoch (demo false false none fun _ => List.range 13) 20
    (startEpoch (demo false false none fun _ => List.range 13) 0)).toOption.map fun r =>
      (r.1.map fun b => (b.rows, (b.real.filter id).length, b.last), r.2.1)) =
    some ([([5, 2, 8, 11], 4, false), ([0, 9, 3, 6], 4, false), ([1, 4, 7, 10], 4, false),
      ([12, 12, 12, 12], 1, true)], true) := by
  decide +kernel

/-- Three records per cycle: a budget of two batches of four reads three cycles. -/
example : ((runEpoch (demo true true (some 2) fun y => [3 * y, 3 * y + 3, 3 * y + 6]) 5
    (startEpoch (demo true true (some 2) fun y => [3 * y, 3 * y + 3, 3 * y + 6]) 0)).toOption.map fun r =>
      (r.1.map fun b => (b.rows.length, b.index, b.last), r.2.1, r.2.2.cycle)) =
    some ([(4, 0, false), (4, 1, true)], true, 2) := by decide +kernel

/-- An always-empty rank-sharded source. -/
example : (match nextBatch (demo true true (some 2) fun _ => []) (startEpoch (demo true true (some 2) fun _ => []) 0) with
    | .error e => some e | .ok _ => none) = some .emptyCycles := by decide +kernel

end Verif.Planner
