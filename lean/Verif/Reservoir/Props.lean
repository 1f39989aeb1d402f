import Verif.Reservoir.Native
import Verif.Reservoir.ReadyLemmas

/-!
# C09-C14: shuffle reservoir, native reservoir, ready buffer
-/
namespace Verif.Reservoir
open Verif.Rng

variable {α : Type}

/-! ### Specification vocabulary -/

/-- The items a history offers, in order, with the sizes given by the caller. -/
def offeredPairs (ops : List (Op α)) : List (α × Int) :=
  ops.flatMap fun
    | .offer x z => [(x, z)]
    | .offerMany xs => xs
    | .offerZero xs => xs.map fun x => (x, 0)
    | .drain => []
    | .state => []

/-- The items a history offers. -/
def offeredItems (ops : List (Op α)) : List α := (offeredPairs ops).map Prod.fst

/-- States a reservoir can be in: created, after any successful call, or after restoring any accepted
snapshot. -/
inductive Reachable (H : Digest) (c : Cfg) : Res α → Prop
  | init : Reachable H c Res.init
  | step {r r' : Res α} {op : Op α} {out : List α} : Reachable H c r → step H c r op = some (r', out) →
      Reachable H c r'
  | restored {s : Snapshot α} {r : Res α} : restore c s = some r → Reachable H c r

theorem offeredPairs_eq (ops : List (Op α)) : offeredPairs ops = ops.flatMap Op.items := by
  unfold offeredPairs
  congr 1

theorem Reachable.inv {H : Digest} {c : Cfg} (hc : c.Valid) {r : Res α} (h : Reachable H c r) : Inv c r := by
  induction h with
  | init => exact Inv.init c hc
  | step _ hs ih => exact (step_spec hc ih hs).1
  | restored h => exact (restore_inv h).1

theorem Reachable.run {H : Digest} {c : Cfg} {ops : List (Op α)} : ∀ {r r' : Res α} {out : List α},
    Reachable H c r → Verif.Reservoir.run H c ops r = some (r', out) → Reachable H c r' := by
  induction ops with
  | nil => intro r r' out hr h; simp [Verif.Reservoir.run] at h; rw [← h.1]; exact hr
  | cons op ops ih =>
    intro r r' out hr h
    simp only [Verif.Reservoir.run, Option.bind_eq_bind, Option.bind_eq_some_iff] at h
    obtain ⟨⟨r1, o1⟩, h1, ⟨r2, o2⟩, h2, h3⟩ := h
    simp only [Option.some.injEq, Prod.mk.injEq] at h3
    obtain ⟨rfl, rfl⟩ := h3
    exact ih (hr.step h1) h2

/-! ### C09 -/

/-- **C09 (nothing lost, duplicated or invented, at any time).** Whatever was held before plus whatever was
offered is, up to order, what was emitted plus what is held now. -/
theorem C09_conservation (H : Digest) (c : Cfg) (hc : c.Valid) (r r' : Res α) (ops : List (Op α)) (out : List α)
    (hr : Reachable H c r) (h : run H c ops r = some (r', out)) :
    (out ++ r'.slots).Perm (r.slots ++ offeredItems ops) := by
  obtain ⟨hi', ⟨ps, hp, hperm⟩, _⟩ := run_spec hc ops r r' out (hr.inv hc) h
  have := hperm.map Prod.fst
  rw [← offeredPairs_eq] at this
  have e1 : (pairs r').map Prod.fst = r'.slots := List.map_fst_zip (by rw [hi'.len])
  have e2 : (pairs r).map Prod.fst = r.slots := List.map_fst_zip (by rw [(hr.inv hc).len])
  simpa [hp, e1, e2, offeredItems] using this

/-- **C09 (exactly once).** After the final drain of a fresh reservoir's history the emitted items are a
permutation of the offered items, for every digest function (i.e. every outcome of the random draws). -/
theorem C09_drain_emits_every_item_once (H : Digest) (c : Cfg) (hc : c.Valid) (r : Res α) (ops : List (Op α))
    (out : List α) (h : run H c (ops ++ [.drain]) Res.init = some (r, out)) :
    out.Perm (offeredItems ops) := by
  have hcl : r.slots = [] := by
    have hrun : ∀ (ops : List (Op α)) (r0 : Res α) (r : Res α) (out : List α), Inv c r0 →
        run H c (ops ++ [.drain]) r0 = some (r, out) → r.slots = [] := by
      intro ops
      induction ops with
      | nil =>
        intro r0 r out hi h
        simp only [List.nil_append, run, step, Option.bind_eq_bind, Option.bind_some, Option.bind_eq_some_iff] at h
        obtain ⟨⟨r1, o1⟩, h1, h3⟩ := h
        simp only [Option.some.injEq, Prod.mk.injEq] at h3
        obtain ⟨rfl, rfl⟩ := h3
        obtain ⟨a, _, b⟩ := drain_spec hi h1
        exact a.closed b
      | cons op ops ih =>
        intro r0 r out hi h
        simp only [List.cons_append, run, Option.bind_eq_bind, Option.bind_eq_some_iff] at h
        obtain ⟨⟨r1, o1⟩, h1, ⟨r2, o2⟩, h2, h3⟩ := h
        simp only [Option.some.injEq, Prod.mk.injEq] at h3
        obtain ⟨rfl, rfl⟩ := h3
        exact ih r1 r2 o2 (step_spec hc hi h1).1 h2
    exact hrun ops _ _ _ (Inv.init c hc) h
  have := C09_conservation H c hc _ _ _ _ Reachable.init h
  simpa [hcl, Res.init, offeredItems, offeredPairs] using this

/-- A two-slot reservoir with a 10-byte budget, fed through all entry points. -/
def exCfg : Cfg := ⟨2, some 10, 7, 0, []⟩
def exOps : List (Op Nat) := [.offer 1 4, .offerMany [(2, 4), (3, 9)], .state, .offerZero [4, 5, 6], .offer 7 3]

example : exCfg.Valid := ⟨by decide, by intro m hm; simp [exCfg] at hm; omega⟩
example : ((run (fun _ => 3) exCfg (exOps ++ [.drain]) Res.init).map fun q => (q.2.length, q.1.emitted))
    = some (7, 7) := by decide +kernel

/-! ### C10 -/

/-- **C10.** In every reachable state: at most `capacity` items; the byte counter is the sum of the recorded
sizes and within the budget; every item has a recorded size; offered = emitted + held; a drained reservoir holds
nothing; the peaks bound the present values. -/
theorem C10_budgets (H : Digest) (c : Cfg) (hc : c.Valid) (r : Res α) (hr : Reachable H c r) :
    r.slots.length ≤ c.capacity ∧ r.sizes.length = r.slots.length ∧ r.resident = r.sizes.sum ∧
    (∀ m, c.maxBytes = some m → r.sizes.sum ≤ m) ∧ r.offered = r.emitted + r.slots.length ∧
    (r.closed = true → r.slots = []) ∧
    r.slots.length ≤ r.peakOcc ∧ r.peakOcc ≤ c.capacity ∧ r.resident ≤ r.peakBytes := by
  have hi := hr.inv hc
  refine ⟨hi.cap, hi.len.symm, hi.res, ?_, hi.count, hi.closed, hi.peak.1, hi.peak.2, hi.peakB⟩
  intro m hm
  rw [← hi.res]; exact hi.bytes m hm

/-- **C10 (sizes and counters are the caller's).** From a fresh reservoir, the held (item, size) pairs together
with suitable sizes for the emitted items are exactly the offered pairs; the counters count offers and
emissions. -/
theorem C10_accounting (H : Digest) (c : Cfg) (hc : c.Valid) (r : Res α) (ops : List (Op α)) (out : List α)
    (h : run H c ops Res.init = some (r, out)) :
    (∃ outPairs : List (α × Int), outPairs.map Prod.fst = out ∧
      (outPairs ++ r.slots.zip r.sizes).Perm (offeredPairs ops)) ∧
    r.offered = (offeredPairs ops).length ∧ r.emitted = out.length := by
  obtain ⟨hi', ⟨ps, hp, hperm⟩, hn⟩ := run_spec hc ops _ r out (Inv.init c hc) h
  rw [← offeredPairs_eq] at hperm hn
  have e0 : pairs (Res.init : Res α) = [] := rfl
  rw [e0, List.nil_append] at hperm
  have hn' : r.offered = (offeredPairs ops).length := by rw [hn]; simp [Res.init]
  refine ⟨⟨ps, hp, hperm⟩, hn', ?_⟩
  have h1 := hperm.length_eq
  have h2 := hi'.count
  have h3 : ps.length = out.length := by rw [← hp]; simp
  have h4 : (pairs r).length = r.slots.length := by simp [pairs, hi'.len]
  rw [List.length_append] at h1
  omega

/-- **C10 (oversized or negative sizes are refused)** by every entry point that takes sizes; a chunk is refused
as a whole before anything is admitted. -/
theorem C10_oversize_rejected (H : Digest) (c : Cfg) (r : Res α) (x : α) (z : Int)
    (hz : z < 0 ∨ ∃ m, c.maxBytes = some m ∧ m < z) :
    offer H c r x z = none ∧ ∀ items, (x, z) ∈ items → offerMany H c r items = none := by
  have hs : sizeOk c z = false := by
    unfold sizeOk
    rcases hz with h | ⟨m, hm, h⟩
    · simp; omega
    · simp [hm]; omega
  constructor
  · unfold offer; simp [hs]
  · intro items hmem
    have : items.any (fun p => !sizeOk c p.2) = true := List.any_eq_true.mpr ⟨(x, z), hmem, by simp [hs]⟩
    unfold offerMany
    simp [this]

example : Reachable (fun _ => 3) exCfg ((run (fun _ => 3) exCfg exOps Res.init).get (by decide +kernel)).1 :=
  Reachable.run (ops := exOps) (out := ((run (fun _ => 3) exCfg exOps Res.init).get (by decide +kernel)).2)
    Reachable.init (by simp)

/-! ### C11 -/

/-- **C11 (offer_many).** In every open reservoir, `offer_many` returns the items and reaches the state of the
same single offers (and raises iff one of them raises). `offerEach` calls `offer` item by item. -/
theorem C11_offer_many (H : Digest) (c : Cfg) (r : Res α) (items : List (α × Int)) (hb : (rngBase H c).isSome)
    (hopen : r.closed = false) : offerMany H c r items = offerEach H c items r :=
  offerMany_eq H c r items hb hopen

/-- **C11 (offer_zero_sized).** -/
theorem C11_offer_zero_sized (H : Digest) (c : Cfg) (hc : c.Valid) (r : Res α) (items : List α)
    (hb : (rngBase H c).isSome) (hr : Reachable H c r) (hopen : r.closed = false) :
    offerZero H c r items = offerEach H c (items.map fun x => (x, 0)) r :=
  offerZero_eq H c hc r items hb (hr.inv hc) hopen

theorem offerEach_append (H : Digest) (c : Cfg) (xs ys : List (α × Int)) : ∀ r : Res α,
    offerEach H c (xs ++ ys) r =
      (offerEach H c xs r).bind fun p => (offerEach H c ys p.1).map fun q => (q.1, p.2 ++ q.2) := by
  induction xs with
  | nil => intro r; simp [offerEach]
  | cons p xs ih =>
    intro r
    obtain ⟨x, z⟩ := p
    simp only [List.cons_append, offerEach, Option.bind_eq_bind]
    cases offer H c r x z with
    | none => rfl
    | some q =>
      simp only [Option.bind_some, ih]
      cases offerEach H c xs q.1 with
      | none => rfl
      | some q2 =>
        simp only [Option.bind_some]
        cases offerEach H c ys q2.1 <;> simp

/-- **C11 (chunking is irrelevant).** Splitting a chunk at any point changes neither emissions nor state. -/
theorem C11_chunking (H : Digest) (c : Cfg) (r : Res α) (xs ys : List (α × Int)) (hb : (rngBase H c).isSome)
    (hopen : r.closed = false) :
    offerMany H c r (xs ++ ys) =
      (offerMany H c r xs).bind fun p => (offerMany H c p.1 ys).map fun q => (q.1, p.2 ++ q.2) := by
  rw [offerMany_eq H c r _ hb hopen, offerMany_eq H c r _ hb hopen, offerEach_append]
  cases h : offerEach H c xs r with
  | none => rfl
  | some p =>
    have hcl : ∀ (xs : List (α × Int)) (r : Res α) (p : Res α × List α), r.closed = false →
        offerEach H c xs r = some p → p.1.closed = false := by
      intro xs
      induction xs with
      | nil => intro r p hr h; simp [offerEach] at h; rw [← h]; exact hr
      | cons a xs ih =>
        intro r p hr h
        simp only [offerEach, Option.bind_eq_bind, Option.bind_eq_some_iff] at h
        obtain ⟨⟨r1, o1⟩, h1, ⟨r2, o2⟩, h2, h3⟩ := h
        simp only [Option.some.injEq] at h3
        subst h3
        refine ih r1 (r2, o2) ?_ h2
        unfold offer at h1
        split at h1
        · simp at h1
        split at h1
        · simp at h1
        simp only [Option.bind_eq_bind, Option.bind_eq_some_iff] at h1
        obtain ⟨_, _, ⟨r3, o3⟩, hw, h1⟩ := h1
        simp only [Option.some.injEq, Prod.mk.injEq] at h1
        rw [← h1.1]
        have := (evictWhile_closed _ _ _ _ _ _ _ hw).1
        simpa [updatePeaks, admit, this] using hr
    simp only [Option.bind_some]
    rw [offerMany_eq H c p.1 _ hb (hcl xs r p hopen h)]

example : (rngBase (fun _ => 3) exCfg).isSome := by decide +kernel
example : ((offerMany (fun _ => 3) exCfg (Res.init : Res Nat) [(1, 4), (2, 4), (3, 9), (4, 1)]).map Prod.snd)
    = some [1, 2] := by decide +kernel

/-! ### C12 -/

/-- Total number of ids offered by a packed history. -/
def packedTotal (ops : List POp) : Nat := (ops.map POp.count).sum

theorem packed_sim (H : Digest) (c : Cfg) (hc : c.Valid) (hu : c.capacity < 2 ^ 64) (hb : (rngBase H c).isSome) :
    ∀ (ops : List POp) (n : Native) (r : Res UInt64), Inv c r → Rel n r → r.offered + packedTotal ops < 2 ^ 64 →
    (∀ n' o, packedRun H c ops n = some (n', o) → ∃ r', run H c (ops.map POp.toOp) r = some (r', o) ∧ Rel n' r') ∧
    (∀ r' o, run H c (ops.map POp.toOp) r = some (r', o) → r'.rngCounter < 2 ^ 63 →
      ∃ n', packedRun H c ops n = some (n', o) ∧ Rel n' r') := by
  obtain ⟨base, hbase⟩ := Option.isSome_iff_exists.mp hb
  intro ops
  induction ops with
  | nil =>
    intro n r _ hr _
    constructor
    · intro n' o h; simp [packedRun] at h; obtain ⟨rfl, rfl⟩ := h; exact ⟨r, rfl, hr⟩
    · intro r' o h _; simp [run] at h; obtain ⟨rfl, rfl⟩ := h; exact ⟨n, rfl, hr⟩
  | cons op ops ih =>
    intro n r hi hr ht
    have ht' : r.offered + (op.count + packedTotal ops) < 2 ^ 64 := by simpa [packedTotal] using ht
    have hsim : (∀ n' o, packedStep H c n op = some (n', o) → ∃ r', step H c r op.toOp = some (r', o) ∧ Rel n' r') ∧
        (∀ r' o, step H c r op.toOp = some (r', o) → r'.rngCounter < 2 ^ 63 →
          ∃ n', packedStep H c n op = some (n', o) ∧ Rel n' r') := by
      cases op with
      | offer xs => exact packedOffer_sim hc hu hi hr base hbase xs
      | drain =>
        have := packedDrain_sim (H := H) (c := c) hr (by omega)
        exact ⟨this.1, fun r' o h _ => this.2 r' o h⟩
    have hcount : ∀ r' o, step H c r op.toOp = some (r', o) → r'.offered = r.offered + op.count := by
      intro r' o h
      have := (step_spec hc hi h).2.2
      rw [this]
      cases op <;> simp [POp.toOp, Op.items, POp.count]
    constructor
    · intro n' o h
      simp only [packedRun, Option.bind_eq_bind, Option.bind_eq_some_iff] at h
      obtain ⟨⟨n1, o1⟩, h1, ⟨n2, o2⟩, h2, h3⟩ := h
      simp only [Option.some.injEq, Prod.mk.injEq] at h3
      obtain ⟨rfl, rfl⟩ := h3
      obtain ⟨r1, hs1, hrel1⟩ := hsim.1 n1 o1 h1
      have := hcount _ _ hs1
      obtain ⟨r2, hs2, hrel2⟩ := (ih n1 r1 (step_spec hc hi hs1).1 hrel1 (by omega)).1 n2 o2 h2
      exact ⟨r2, by simp [run, hs1, hs2], hrel2⟩
    · intro r' o h hk
      simp only [List.map_cons, run, Option.bind_eq_bind, Option.bind_eq_some_iff] at h
      obtain ⟨⟨r1, o1⟩, h1, ⟨r2, o2⟩, h2, h3⟩ := h
      simp only [Option.some.injEq, Prod.mk.injEq] at h3
      obtain ⟨rfl, rfl⟩ := h3
      have hi1 := (step_spec hc hi h1).1
      have hk1 : r1.rngCounter < 2 ^ 63 := by
        have hmono : ∀ (ops : List (Op UInt64)) (r r' : Res UInt64) (o : List UInt64), Inv c r →
            run H c ops r = some (r', o) → r.rngCounter ≤ r'.rngCounter := by
          intro ops
          induction ops with
          | nil => intro r r' o _ h; simp [run] at h; simp [h.1]
          | cons op ops ih =>
            intro r r' o hi h
            simp only [run, Option.bind_eq_bind, Option.bind_eq_some_iff] at h
            obtain ⟨⟨r1, o1⟩, h1, ⟨r2, o2⟩, h2, h3⟩ := h
            simp only [Option.some.injEq, Prod.mk.injEq] at h3
            obtain ⟨rfl, rfl⟩ := h3
            exact (step_counter hc hi h1).trans (ih r1 r2 o2 (step_spec hc hi h1).1 h2)
        exact lt_of_le_of_lt (hmono _ _ _ _ hi1 h2) hk
      obtain ⟨n1, hs1, hrel1⟩ := hsim.2 r1 o1 h1 hk1
      have := hcount _ _ h1
      obtain ⟨n2, hs2, hrel2⟩ := (ih n1 r1 hi1 hrel1 (by omega)).2 r2 o2 h2 hk
      exact ⟨n2, by simp [packedRun, hs1, hs2], hrel2⟩

/-- **C12 (soundness).** Whenever the native reservoir completes a history, the Python reservoir fed the same
zero-sized items emits the same sequence and ends with the same slots, counters, peak and open/closed flag. -/
theorem C12_native_run_is_python_run (H : Digest) (c : Cfg) (hc : c.Valid) (hu : c.capacity < 2 ^ 64)
    (hb : (rngBase H c).isSome) (ops : List POp) (ht : packedTotal ops < 2 ^ 64) (n : Native) (o : List UInt64)
    (h : packedRun H c ops Native.init = some (n, o)) :
    ∃ r, run H c (ops.map POp.toOp) Res.init = some (r, o) ∧ n.slots = r.slots ∧ n.rngCounter = r.rngCounter ∧
      n.offered.toNat = r.offered ∧ n.emitted.toNat = r.emitted ∧ n.peakOcc = r.peakOcc ∧ n.closed = r.closed ∧
      r.resident = 0 ∧ r.peakBytes = 0 := by
  obtain ⟨r, hr, hrel⟩ := (packed_sim H c hc hu hb ops _ _ (Inv.init c hc) Rel.init (by simpa [Res.init] using ht)).1 n o h
  have hi := run_spec hc _ _ _ _ (Inv.init c hc) hr
  have hoff : r.offered < 2 ^ 64 := by
    rw [hi.2.2]
    have : ((ops.map POp.toOp).flatMap Op.items).length = packedTotal ops := by
      simp only [List.length_flatMap, packedTotal, List.map_map]
      congr 1
      apply List.map_congr_left
      intro op _
      cases op <;> simp [POp.toOp, Op.items, POp.count]
    rw [this]; simpa [Res.init] using ht
  have hem : r.emitted < 2 ^ 64 := by have := hi.1.count; omega
  refine ⟨r, hr, hrel.slots, hrel.counter, ?_, ?_, hrel.peak, hrel.closed, ?_, hrel.peakBytes⟩
  · rw [hrel.offered, UInt64.toNat_ofNat']; exact Nat.mod_eq_of_lt hoff
  · rw [hrel.emitted, UInt64.toNat_ofNat']; exact Nat.mod_eq_of_lt hem
  · rw [hi.1.res]; exact List.sum_eq_zero hrel.sizes

/-- **C12 (completeness).** Conversely a Python history that does not use up the `2^63` draw counter is
completed by the native reservoir with the same emissions. -/
theorem C12_python_run_is_native_run (H : Digest) (c : Cfg) (hc : c.Valid) (hu : c.capacity < 2 ^ 64)
    (hb : (rngBase H c).isSome) (ops : List POp) (ht : packedTotal ops < 2 ^ 64) (r : Res UInt64) (o : List UInt64)
    (h : run H c (ops.map POp.toOp) Res.init = some (r, o)) (hk : r.rngCounter < 2 ^ 63) :
    ∃ n, packedRun H c ops Native.init = some (n, o) ∧ n.slots = r.slots := by
  obtain ⟨n, hn, hrel⟩ := (packed_sim H c hc hu hb ops _ _ (Inv.init c hc) Rel.init (by simpa [Res.init] using ht)).2 r o h hk
  exact ⟨n, hn, hrel.slots⟩

/-- **C12 (a failing offer changes nothing).** Once the native `offer` has passed its closed check and its
preflight of the draw counter, which both precede every mutation, the mutating loop cannot throw: for every
full-or-partial slot array, if the call fails then it failed before the first mutation. -/
theorem C12_native_offer_fails_before_mutation (base : UInt64) (cap : Nat) (hc : 0 < cap) (hu : cap < 2 ^ 64)
    (n : Native) (hcap : n.slots.length ≤ cap) (input : List UInt64) (hfail : nativeOffer base cap n input = none) :
    n.closed = true ∨
    (preflight base cap (if cap - n.slots.length < input.length then input.length - (cap - n.slots.length) else 0)
      n.rngCounter).all (fun pre => decide (2 ^ 63 ≤ pre)) = true := by
  by_cases hcl : n.closed = true
  · exact Or.inl hcl
  right
  have hcnt : (if cap - n.slots.length < input.length then input.length - (cap - n.slots.length) else 0)
      = input.length - (cap - n.slots.length) := by split <;> omega
  rw [hcnt]
  cases hp : preflight base cap (input.length - (cap - n.slots.length)) n.rngCounter with
  | none => rfl
  | some pre =>
    by_cases hge : 2 ^ 63 ≤ pre
    · simpa using hge
    · exfalso
      have hpre := preflight_eq base cap hc hu input n.slots n.rngCounter hcap
      rw [hp] at hpre
      simp only [Option.map_some, Option.map_eq_some_iff] at hpre
      obtain ⟨⟨s, k, o⟩, hl, _⟩ := hpre
      unfold nativeOffer at hfail
      rw [if_neg hcl] at hfail
      simp only [hcnt, hp, Option.bind_eq_bind, Option.bind_some, if_neg hge, hl] at hfail
      simp at hfail

def exPCfg : Cfg := ⟨3, none, 7, 0, []⟩
def exPOps : List POp := [.offer [10, 20], .offer [30, 40, 50, 60], .drain]
example : (packedRun (fun _ => 3) exPCfg exPOps Native.init).map (fun q => (q.2.length, q.1.rngCounter)) = some (6, 3) := by
  decide +kernel
example : (packedRun (fun _ => 3) exPCfg exPOps Native.init).map (fun q => q.2)
    = (run (fun _ => 3) exPCfg (exPOps.map POp.toOp) Res.init).map (fun q => q.2) := by decide +kernel

/-! ### C13 -/

/-- **C13 (a snapshot restores the very state it was taken from).** -/
theorem C13_snapshot_restores (H : Digest) (c : Cfg) (hc : c.Valid) (r : Res α) (hr : Reachable H c r)
    (hk : r.rngCounter < 2 ^ 63) : restore c (state c r).2 = some (state c r).1 := by
  have hi := hr.inv hc
  unfold state
  rcases hi.cache with h | h
  · rw [h]; exact restore_snapshot hi hk
  · rw [h]
    simp only
    rw [restore_snapshot hi hk, ← h]

/-- **C13 (exact resume).** Continuing after save and restore emits exactly what the uninterrupted reservoir
emits and ends in the same state; taking the snapshot does not disturb the original either. -/
theorem C13_resume_exact (H : Digest) (c : Cfg) (hc : c.Valid) (r : Res α) (hr : Reachable H c r)
    (hk : r.rngCounter < 2 ^ 63) (ops : List (Op α)) :
    ((restore c (state c r).2).bind fun r' => run H c ops r') = run H c (.state :: ops) r ∧
    ((restore c (state c r).2).bind fun r' => (run H c ops r').map Prod.snd) = (run H c ops r).map Prod.snd := by
  rw [C13_snapshot_restores H c hc r hr hk]
  constructor
  · simp only [run, step, Option.bind_eq_bind, Option.bind_some, List.nil_append]
    cases run H c ops (state c r).1 <;> rfl
  · -- the cache is the only difference and no call's output depends on it
    simp only [Option.bind_some]
    have hcache : (state c r).1 = { r with cache := (state c r).1.cache } := by
      unfold state; split <;> rfl
    rw [hcache]
    exact run_cache_irrelevant H c ops r _

/-- **C13 (nothing inconsistent is installed).** If `restore` accepts a snapshot, the snapshot belongs to this
configuration and is consistent, and the installed state is exactly the snapshot. -/
theorem C13_restore_validates (c : Cfg) (s : Snapshot α) (r : Res α) (h : restore c s = some r) :
    s.algorithm = algorithm ∧ s.seed = c.seed ∧ s.epoch = c.epoch ∧ s.streamKey = c.streamKey ∧
    s.capacity = c.capacity ∧ s.maxBytes = c.maxBytes ∧
    s.slots.length = s.sizes.length ∧ s.slots.length ≤ c.capacity ∧ s.resident = s.sizes.sum ∧
    (∀ z ∈ s.sizes, 0 ≤ z) ∧ (∀ m, c.maxBytes = some m → s.sizes.sum ≤ m) ∧
    s.offered = s.emitted + s.slots.length ∧ (s.closed = true → s.slots = []) ∧
    0 ≤ s.rngCounter ∧ s.rngCounter < 2 ^ 63 ∧
    (state c r).2 = s := by
  obtain ⟨hi, hs, hcache⟩ := restore_inv h
  have hk : (r.rngCounter : Int) < 2 ^ 63 := by
    unfold restore at h
    split at h
    · rename_i hok
      have := hok.2.2.2.2.2.2.2.2.2.2.1
      simp only [Option.some.injEq] at h
      subst h
      simp only; omega
    · simp at h
  have hst : (state c r).2 = s := by unfold state; rw [hcache]
  rw [hst, hs]
  refine ⟨rfl, rfl, rfl, rfl, rfl, rfl, hi.len, hi.cap, hi.res, hi.nonneg, ?_, ?_, hi.closed, ?_, hk, rfl⟩
  · intro m hm; have := hi.bytes m hm; rw [hi.res] at this; exact this
  · have := hi.count; simp only [snapshot]; omega
  · simp only [snapshot]; omega

/-- **C13 (native).** The packed snapshot, including its byte encoding, restores the native state. -/
theorem C13_packed_snapshot_restores (H : Digest) (c : Cfg) (hc : c.Valid) (hu : c.capacity < 2 ^ 64)
    (hb : (rngBase H c).isSome) (ops : List POp) (ht : packedTotal ops < 2 ^ 64) (n : Native) (o : List UInt64)
    (h : packedRun H c ops Native.init = some (n, o)) (hk : n.rngCounter < 2 ^ 63) :
    packedRestore c (packedSnapshot c n) = some n := by
  obtain ⟨r, hr, e1, e2, e3, e4, e5, e6, _, _⟩ := C12_native_run_is_python_run H c hc hu hb ops ht n o h
  have hi := (run_spec hc _ _ _ _ (Inv.init c hc) hr).1
  have hcnt := hi.count
  have hpk := hi.peak
  have hcap := hi.cap
  have hl8 : (idsToBytes n.slots).length = 8 * n.slots.length := idsToBytes_length _
  have hdiv : (idsToBytes n.slots).length / 8 = n.slots.length := by omega
  have ho := n.offered.toNat_lt
  have hem := n.emitted.toNat_lt
  have hok : packedRestoreOk c (packedSnapshot c n) := by
    unfold packedRestoreOk packedSnapshot
    simp only [true_and, hdiv]
    rw [e1]
    refine ⟨?_, hi.cap, ⟨?_, ?_, ?_, ?_⟩, ?_, ⟨?_, ?_⟩, ?_, ⟨?_, ?_, ?_, ?_⟩, ?_⟩
    · rw [← e1]; omega
    all_goals first | omega | skip
    intro hclosed
    rw [e6] at hclosed
    simp [hi.closed hclosed]
  rw [packedRestore, if_pos hok]
  simp only [packedSnapshot, bytes_roundtrip, Int.toNat_natCast, UInt64.ofNat_toNat]

example : (run (fun _ => 3) exCfg exOps Res.init).map (fun q => decide (q.1.rngCounter < 2 ^ 63)) = some true := by
  decide +kernel

/-! ### C14 -/

/-- Reference queue: a plain list. Popping more than is queued raises; saving and restoring does nothing. -/
def fifo : List ROp → List UInt64 → Option (List UInt64 × List UInt64)
  | [], q => some (q, [])
  | .extend v :: ops, q => fifo ops (q ++ v)
  | .pop k :: ops, q =>
    if k ≤ q.length then (fifo ops (q.drop k)).map fun p => (p.1, q.take k ++ p.2) else none
  | .saveRestore :: ops, q => fifo ops q

/-- **C14.** For every sequence of extends, pops and save/restore round trips the buffer behaves as the plain
queue: same ids out in the same order, same ids remaining (as its saved bytes show), same errors. -/
theorem C14_fifo (ops : List ROp) :
    ((rrun ops Ready.init).map fun p => (p.1.size, p.1.state, p.2)) =
      (fifo ops []).map fun p => (p.1.length, idsToBytes p.1, p.2) := by
  have key : ∀ (ops : List ROp) (b : Ready), b.Inv →
      ((rrun ops b).map fun p => (p.1.size, p.1.state, p.2)) =
        (fifo ops b.content).map fun p => (p.1.length, idsToBytes p.1, p.2) := by
    intro ops
    induction ops with
    | nil => intro b hb; simp [rrun, fifo, hb.size, state_spec b hb]
    | cons op ops ih =>
      intro b hb
      cases op with
      | extend v =>
        obtain ⟨h1, h2⟩ := extend_spec b hb v
        simp only [rrun, rstep, Option.bind_eq_bind, Option.bind_some, fifo, List.nil_append]
        rw [← h2, ← ih _ h1]
        cases rrun ops (b.extend v) <;> rfl
      | pop k =>
        have hp := pop_spec b hb k
        simp only [rrun, rstep, Option.bind_eq_bind, fifo]
        by_cases hk : k ≤ b.content.length
        · rw [if_pos hk] at hp ⊢
          obtain ⟨b', e1, e2, e3⟩ := hp
          rw [e1]
          simp only [Option.bind_some]
          have := ih b' e2
          rw [e3] at this
          cases hf : fifo ops (b.content.drop k) with
          | none =>
            rw [hf] at this
            simp only [Option.map_none, Option.map_eq_none_iff] at this
            simp [this]
          | some q =>
            rw [hf] at this
            simp only [Option.map_some, Option.map_eq_some_iff, Prod.mk.injEq] at this
            obtain ⟨⟨b2, o2⟩, g1, g2, g3, g4⟩ := this
            simp only at g2 g3 g4
            simp [g1, g2, g3, g4]
        · rw [if_neg hk] at hp ⊢
          simp [hp]
      | saveRestore =>
        obtain ⟨b', e1, e2, e3⟩ := saveRestore_spec b hb
        simp only [rrun, rstep, e1, Option.map_some, Option.bind_eq_bind, Option.bind_some, fifo, List.nil_append]
        rw [← e3, ← ih _ e2]
        cases rrun ops b' <;> rfl
  exact key ops Ready.init Ready.Inv.init

/-- The saved bytes determine the queued ids, so the equality above compares the queues themselves. -/
theorem C14_saved_bytes_faithful (a b : List UInt64) (h : idsToBytes a = idsToBytes b) : a = b := by
  have := congrArg bytesToIds h
  rwa [bytes_roundtrip, bytes_roundtrip] at this

example : (rrun [.extend [1, 2, 3], .extend [], .extend [4, 5], .pop 2, .saveRestore, .pop 2] Ready.init).map
    (fun p => p.2) = some [1, 2, 3, 4] := by decide +kernel

end Verif.Reservoir
