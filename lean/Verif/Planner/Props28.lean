import Verif.Planner.PackedSim
import Verif.Planner.Props

/-! # C28: the uniform and the packed path produce the batches of the generic path -/
namespace Verif.Planner
open Verif.Reservoir (Res Native Ready)

variable {σ ε : Type}

/-- **C28 (uniform path).** For a source that declares one shape, the fast uniform path and the generic path produce the
same batches, end at the same point and raise the same exceptions: for every number of `next_batch` calls, every epoch,
every reservoir configuration, with and without a step budget, in training and evaluation. -/
theorem C28_uniform_equals_generic (P : Planner σ ε) (ok : σ → Prop) (rem : σ → List ε) (L : Records P.src ok rem)
    (hv : P.Valid) (code : Nat) (hu : P.uniform = some code)
    (hall : ∀ e y, ∀ x ∈ rem (P.src.start e y), P.shape x = code) (n epoch : Nat) :
    mapOk (fun r => (r.1, r.2.1)) (runEpoch P n (startEpoch P epoch)) =
      mapOk (fun r => (r.1, r.2.1)) (runEpoch { P with uniform := none } n (startEpoch { P with uniform := none } epoch)) :=
  run_generic L hv hu hall n [] (startEpoch P epoch) (startEpoch (generic P) epoch) (good_start L hv epoch)
    (good_start (P := generic P) L ⟨hv.cfg, hv.batch, hv.shard⟩ epoch) ⟨[], Or.inl rfl, rfl⟩ (start_conserve P rem epoch)

theorem next_counter {P : Planner σ ε} {ok : σ → Prop} {rem : σ → List ε} (L : Records P.src ok rem) (hv : P.Valid)
    (hpl : P.sharded = false) {code : Nat} (hu : P.uniform = some code) {s : St σ ε} (hc : Core P ok rem s)
    {r : Option (Batch ε) × St σ ε} (h : nextBatch P s = .ok r) : s.res.rngCounter ≤ r.2.res.rngCounter := by
  unfold nextBatch at h
  split at h
  · simp only [Except.ok.injEq] at h; rw [← h]
  · rw [hu] at h
    exact uniformLoop_counter L hv.cfg hpl code _ _ _ _ _ hc h

theorem run_counter {P : Planner σ ε} {ok : σ → Prop} {rem : σ → List ε} (L : Records P.src ok rem) (hv : P.Valid)
    (hpl : P.sharded = false) {code : Nat} (hu : P.uniform = some code) : ∀ (n : Nat) (s : St σ ε) (r : List (Batch ε) × Bool × St σ ε),
      (s.finished = false → Good P ok rem s) → runEpoch P n s = .ok r → s.res.rngCounter ≤ r.2.2.res.rngCounter
  | 0, s, r, _, h => by simp only [runEpoch, Except.ok.injEq] at h; rw [← h]
  | n + 1, s, r, hg, h => by
    by_cases hf : s.finished = true
    · rw [runEpoch_finished hf] at h
      simp only [Except.ok.injEq] at h
      rw [← h]
    have g := hg (by simpa using hf)
    rw [runEpoch] at h
    have hspec := nextBatch_spec L hv g
    cases hb : nextBatch P s with
    | error e => rw [hb] at h; simp at h
    | ok q =>
      obtain ⟨ob, s1⟩ := q
      have h1 := next_counter L hv hpl hu g.core hb
      rw [hb] at h hspec
      cases ob with
      | none => simp only [Except.ok.injEq] at h; rw [← h]; exact h1
      | some b =>
        have ha : AfterBatch P ok rem [] s b s1 := hspec
        simp only at h
        cases hr : runEpoch P n s1 with
        | error e => rw [hr] at h; simp at h
        | ok q =>
          obtain ⟨bs, fin, s2⟩ := q
          rw [hr] at h
          simp only [Except.ok.injEq] at h
          have := run_counter L hv hpl hu n s1 _ ha.good hr
          rw [← h]
          exact h1.trans this

/-- Related results of a run. -/
def RRes (f : ε → UInt64) (a : List (Batch UInt64) × Bool × PSt σ) (b : List (Batch ε) × Bool × St σ ε) : Prop :=
  a.1 = b.1.map (Batch.ids f) ∧ a.2.1 = b.2.1

theorem pRun_finished {P : Planner σ ε} {packed : Nat → σ → List UInt64 × σ} {p : PSt σ} (h : p.finished = true) (n : Nat) :
    pRun P packed n p = .ok ([], decide (0 < n), p) := by
  cases n with
  | zero => rfl
  | succ n => simp [pRun, pNext, h]

theorem run_sim {P : Planner σ ε} {ok : σ → Prop} {rem : σ → List ε} (L : Records P.src ok rem) (hv : P.Valid)
    {f : ε → UInt64} {packed : Nat → σ → List UInt64 × σ} (hp : PackedOk P f packed rem)
    {code : Nat} (hu : P.uniform = some code) (hall : ∀ e y, ∀ x ∈ rem (P.src.start e y), P.shape x = code) :
    ∀ (n : Nat) (done : List ε) (p : PSt σ) (s : St σ ε), Good P ok rem s → PRel f p s →
      (done ++ held rem s).Perm (cycles P rem s.epoch (s.cycle + 1)) →
      Sim (RRes f) (fun b => Small b.2.2) (pRun P packed n p) (runEpoch P n s)
  | 0, _, p, s, _, _, _ => by
    constructor
    · intro a h; simp only [pRun, Except.ok.injEq] at h; subst h; exact ⟨_, rfl, rfl, rfl⟩
    · intro b h _; simp only [runEpoch, Except.ok.injEq] at h; subst h; exact ⟨_, rfl, rfl, rfl⟩
  | n + 1, done, p, s, g, hr, hperm => by
    have hpool : ∀ x ∈ pool rem s, P.shape x = code := by
      intro x hx
      have := hperm.subset (List.mem_append_right _ (List.mem_append_right (queued s.queues) hx))
      unfold cycles at this
      obtain ⟨y, _, hy⟩ := List.mem_flatMap.mp this
      exact hall _ y x hy
    have hsim : Sim (PRes f) (fun b => Small b.2) (pNext P packed p) (nextBatch P s) := by
      unfold pNext nextBatch
      rw [if_neg (by rw [hr.finished, g.running]; simp), if_neg (by rw [g.running]; simp), hu]
      exact loop_sim L hv.cfg hp code (uniformFuel P) [] 0 p s g.core hr hpool (Nat.zero_le _)
    have hspec := nextBatch_spec L hv g
    have after : ∀ (b : Batch ε) (p1 : PSt σ) (s1 : St σ ε), nextBatch P s = .ok (some b, s1) → PRel f p1 s1 →
        Sim (RRes f) (fun b => Small b.2.2) (pRun P packed n p1) (runEpoch P n s1) := by
      intro b p1 s1 hb hr1
      rw [hb] at hspec
      have ha : AfterBatch P ok rem [] s b s1 := hspec
      by_cases hf : s1.finished = true
      · have hfin : runEpoch P n s1 = .ok ([], decide (0 < n), s1) := runEpoch_finished hf n
        rw [pRun_finished (hr1.finished.trans hf), hfin]
        constructor
        · intro a h; simp only [Except.ok.injEq] at h; subst h; exact ⟨_, rfl, rfl, rfl⟩
        · intro b h _; simp only [Except.ok.injEq] at h; subst h; exact ⟨_, rfl, rfl, rfl⟩
      · have hf' : s1.finished = false := by simpa using hf
        obtain ⟨dropped, hd1, hd2, hd3⟩ := ha.conserve
        have hp1 := hd3 done (by simpa using hperm)
        have hbl0 : budgetLast P s = false := by
          cases hbb : budgetLast P s with
          | false => rfl
          | true => rw [ha.last.symm.trans (ha.budget hbb)] at hf'; simp at hf'
        rw [hd1 hbl0, List.append_nil] at hp1
        exact run_sim L hv hp hu hall n (done ++ realRows b) p1 s1 (ha.good hf') hr1 (by rw [ha.ident.2.2.1]; exact hp1)
    rw [pRun, runEpoch]
    constructor
    · intro a h
      cases hpn : pNext P packed p with
      | error e => rw [hpn] at h; simp at h
      | ok q =>
        obtain ⟨ob, p1⟩ := q
        obtain ⟨⟨ob', s1⟩, h1, h2, h3⟩ := hsim.1 _ hpn
        simp only at h2 h3
        rw [hpn] at h
        rw [h1]
        cases ob' with
        | none =>
          simp only [Option.map_none] at h2
          subst h2
          simp only [Except.ok.injEq] at h
          subst h
          exact ⟨_, rfl, rfl, rfl⟩
        | some b =>
          simp only [Option.map_some] at h2
          subst h2
          simp only at h ⊢
          cases hrn : pRun P packed n p1 with
          | error e => rw [hrn] at h; simp at h
          | ok q =>
            obtain ⟨bs, fin, p2⟩ := q
            obtain ⟨⟨bs', fin', s2⟩, h4, h5, h6⟩ := (after b p1 s1 h1 h3).1 _ hrn
            rw [hrn] at h
            simp only [Except.ok.injEq] at h
            subst h
            rw [h4]
            simp only at h5 h6
            exact ⟨_, rfl, by simp [h5], h6⟩
    · intro r h hs
      cases hnb : nextBatch P s with
      | error e => rw [hnb] at h; simp at h
      | ok q =>
        obtain ⟨ob, s1⟩ := q
        rw [hnb] at h
        cases ob with
        | none =>
          simp only [Except.ok.injEq] at h
          subst h
          obtain ⟨⟨ob', p1⟩, h1, h2, h3⟩ := hsim.2 _ hnb hs
          simp only [Option.map_none] at h2
          subst h2
          rw [h1]
          exact ⟨_, rfl, rfl, rfl⟩
        | some b =>
          simp only at h
          cases hrn : runEpoch P n s1 with
          | error e => rw [hrn] at h; simp at h
          | ok q =>
            obtain ⟨bs, fin, s2⟩ := q
            rw [hrn] at h
            simp only [Except.ok.injEq] at h
            subst h
            have hspec' := hspec
            rw [hnb] at hspec'
            have ha : AfterBatch P ok rem [] s b s1 := hspec'
            have hs1 : Small s1 := lt_of_le_of_lt (run_counter L hv hp.plain hu n s1 _ ha.good hrn) hs
            obtain ⟨⟨ob', p1⟩, h1, h2, h3⟩ := hsim.2 _ hnb hs1
            simp only [Option.map_some] at h2
            subst h2
            obtain ⟨⟨bs', fin', p2⟩, h4, h5, h6⟩ := (after b p1 s1 hnb h3).2 _ hrn hs
            simp only at h5 h6
            rw [h1]
            simp only
            rw [h4]
            exact ⟨_, rfl, by simp [h5], h6⟩

theorem prel_start (P : Planner σ ε) (f : ε → UInt64) (epoch : Nat) : PRel f (pStart P epoch) (startEpoch P epoch) :=
  ⟨rfl, rfl, rfl, rfl, rfl, Reservoir.Rel.init, Reservoir.Ready.Inv.init, rfl, rfl, rfl⟩

/-- **C28 (packed path, what it produces is right).** Whatever the packed path returns - for any number of calls - the
uniform path returns for the same records: same rows (as ids), flags, indices, and the same end. -/
theorem C28_packed_equals_uniform (P : Planner σ ε) (ok : σ → Prop) (rem : σ → List ε) (L : Records P.src ok rem)
    (hv : P.Valid) (f : ε → UInt64) (packed : Nat → σ → List UInt64 × σ) (hp : PackedOk P f packed rem) (code : Nat)
    (hu : P.uniform = some code) (hall : ∀ e y, ∀ x ∈ rem (P.src.start e y), P.shape x = code) (n epoch : Nat)
    (bs : List (Batch UInt64)) (fin : Bool) (st : PSt σ) (h : pRun P packed n (pStart P epoch) = .ok (bs, fin, st)) :
    ∃ bs' st', runEpoch P n (startEpoch P epoch) = .ok (bs', fin, st') ∧ bs = bs'.map (Batch.ids f) := by
  obtain ⟨⟨bs', fin', st'⟩, h1, h2, h3⟩ := (run_sim L hv hp hu hall n [] _ _ (good_start L hv epoch) (prel_start P f epoch)
    (start_conserve P rem epoch)).1 _ h
  simp only at h2 h3
  exact ⟨bs', st', by rw [h1, h3], h2⟩

/-- **C28 (packed path, it produces whenever the object path does).** If the uniform path returns and its shuffle drew
fewer than `2^63` random words, the packed path returns the same batches. -/
theorem C28_uniform_implies_packed (P : Planner σ ε) (ok : σ → Prop) (rem : σ → List ε) (L : Records P.src ok rem)
    (hv : P.Valid) (f : ε → UInt64) (packed : Nat → σ → List UInt64 × σ) (hp : PackedOk P f packed rem) (code : Nat)
    (hu : P.uniform = some code) (hall : ∀ e y, ∀ x ∈ rem (P.src.start e y), P.shape x = code) (n epoch : Nat)
    (bs : List (Batch ε)) (fin : Bool) (st : St σ ε) (h : runEpoch P n (startEpoch P epoch) = .ok (bs, fin, st))
    (hs : st.res.rngCounter < 2 ^ 63) :
    ∃ st', pRun P packed n (pStart P epoch) = .ok (bs.map (Batch.ids f), fin, st') := by
  obtain ⟨⟨bs', fin', st'⟩, h1, h2, h3⟩ := (run_sim L hv hp hu hall n [] _ _ (good_start L hv epoch) (prel_start P f epoch)
    (start_conserve P rem epoch)).2 _ h hs
  simp only at h2 h3
  exact ⟨st', by rw [h1, h3, h2]⟩

/-! ### A concrete case -/

/-- Twenty-two records of one shape in batches of four, reservoir of five. -/
def demo1 (uniform : Option Nat) : Planner (List Nat) Nat where
  H := fun _ => 3
  src := listSource (fun y => (List.range 22).map (· + 100 * y)) true true
  shape := fun _ => 9
  bytes := fun _ => 0
  cfg := ⟨true, 5, some 10, 1, none⟩
  train := false
  seed := 7
  batch := 4
  sharded := false
  uniform := uniform
  manifest := "m"

theorem demo1_valid (u : Option Nat) : (demo1 u).Valid :=
  ⟨⟨by simp [demo1], by intro b hb; simp [demo1] at hb; omega, by simp [demo1], by intro n hn; simp [demo1] at hn⟩,
    by simp [demo1], fun hs => by simp [demo1] at hs⟩

/-- Ids of a list of records. -/
def demo1Packed (k : Nat) (s : List Nat) : List UInt64 × List Nat := ((s.take k).map UInt64.ofNat, s.drop k)

example : PackedOk (demo1 (some 9)) UInt64.ofNat demo1Packed id :=
  ⟨rfl, ⟨_, rfl, fun _ _ => rfl⟩, fun _ => by simp [demo1], fun _ => by simp [demo1, listSource], rfl⟩

example : (demo1 (some 9)).Valid ∧ Records (demo1 (some 9)).src (fun _ => True) id ∧
    ∀ e y, ∀ x ∈ id ((demo1 (some 9)).src.start e y), (demo1 (some 9)).shape x = 9 :=
  ⟨demo1_valid _, listSource_records _ true true, fun _ _ _ _ => rfl⟩

example : ((pRun (demo1 (some 9)) demo1Packed 20 (pStart (demo1 (some 9)) 0)).toOption.map fun r =>
      (r.1.map fun b => (b.rows, (b.real.filter id).length, b.last), r.2.1)) =
    ((runEpoch (demo1 none) 20 (startEpoch (demo1 none) 0)).toOption.map fun r =>
      (r.1.map fun b => (b.rows.map UInt64.ofNat, (b.real.filter id).length, b.last), r.2.1)) ∧
    ((pRun (demo1 (some 9)) demo1Packed 20 (pStart (demo1 (some 9)) 0)).toOption.map fun r => r.1.length) = some 6 := by
  decide +kernel

end Verif.Planner
