import Verif.Reservoir.Lemmas
import Mathlib.Data.List.Nodup

namespace Verif.Reservoir
open Verif.Rng

theorem pyWord_eq (base c : Nat) :
    pyWord base c = (nativeWord (UInt64.ofNat base) c).toNat := by
  have h30 : (30 : UInt64).toNat = 30 := rfl
  have h27 : (27 : UInt64).toNat = 27 := rfl
  have h31 : (31 : UInt64).toNat = 31 := rfl
  have hA : (0xBF58476D1CE4E5B9 : UInt64).toNat = 0xBF58476D1CE4E5B9 := rfl
  have hB : (0x94D049BB133111EB : UInt64).toNat = 0x94D049BB133111EB := rfl
  have hG : rowGamma.toNat = 0x9E3779B97F4A7C15 := rfl
  have hs : (UInt64.ofNat base + UInt64.ofNat c * rowGamma).toNat = (base + c * 0x9E3779B97F4A7C15) % 2 ^ 64 := by
    simp only [UInt64.toNat_add, UInt64.toNat_mul, hG, UInt64.toNat_ofNat']
    rw [Nat.add_mod, Nat.mul_mod, Nat.mod_mod, Nat.mod_mod, Nat.mod_mod, ← Nat.mul_mod]
    rw [← Nat.add_mod]
  unfold pyWord nativeWord mix
  simp only [UInt64.toNat_xor, UInt64.toNat_mul, UInt64.toNat_shiftRight, h30, h27, h31, hA, hB, hs]

theorem accept_iff (upper : Nat) (hu : 0 < upper) (hu' : upper < 2 ^ 64) (v : UInt64) :
    (2 ^ 64 % upper = 0 ∨ v < 0 - UInt64.ofNat (2 ^ 64 % upper)) ↔ v.toNat < limit upper := by
  have hr : 2 ^ 64 % upper < upper := Nat.mod_lt _ hu
  have hv : v.toNat < 2 ^ 64 := v.toNat_lt
  unfold limit
  by_cases h0 : 2 ^ 64 % upper = 0
  · rw [h0]; simpa using hv
  · simp only [h0, false_or]
    rw [UInt64.lt_iff_toNat_lt, UInt64.toNat_sub]
    have : (UInt64.ofNat (2 ^ 64 % upper)).toNat = 2 ^ 64 % upper := by
      rw [UInt64.toNat_ofNat']; exact Nat.mod_eq_of_lt (by omega)
    rw [this]
    have h1 : (2 ^ 64 - 2 ^ 64 % upper + (0 : UInt64).toNat) % 2 ^ 64 = 2 ^ 64 - 2 ^ 64 % upper := by
      rw [show (0 : UInt64).toNat = 0 from rfl, Nat.add_zero]
      exact Nat.mod_eq_of_lt (by omega)
    rw [h1]

theorem nativeSlotLoop_eq (base upper : Nat) (hu : 0 < upper) (hu' : upper < 2 ^ 64) : ∀ fuel c,
    nativeSlotLoop (UInt64.ofNat base) upper (2 ^ 64 % upper) (0 - UInt64.ofNat (2 ^ 64 % upper)) fuel c
      = rejectLoop (pyWords base) upper fuel c := by
  intro fuel
  induction fuel with
  | zero => intro c; rfl
  | succ f ih =>
    intro c
    rw [nativeSlotLoop, rejectLoop, pyWords]
    by_cases hc : c < 2 ^ 63
    · rw [if_neg (by omega), if_pos hc]
      simp only [pyWord_eq, ih]
      have := accept_iff upper hu hu' (nativeWord (UInt64.ofNat base) c)
      by_cases ha : (nativeWord (UInt64.ofNat base) c).toNat < limit upper
      · rw [if_pos (this.mpr ha), if_pos ha]
      · rw [if_neg (fun h => ha (this.mp h)), if_neg ha]
    · rw [if_pos (by omega), if_neg hc]

theorem nativeSlot_eq (base upper c : Nat) (hu : 0 < upper) (hu' : upper < 2 ^ 64) :
    nativeSlot (UInt64.ofNat base) upper c = randomSlot base upper c :=
  nativeSlotLoop_eq base upper hu hu' _ c

theorem set_set_eq {β : Type} (l : List β) (i : Nat) (b item : β) (hi : i < l.length) (hb : l.getLast? = some b) :
    (l.set i b).set ((l.set i b).length - 1) item = removeSwap l i ++ [item] := by
  rcases List.eq_nil_or_concat l with rfl | ⟨init, y, rfl⟩
  · simp at hi
  simp only [List.concat_eq_append, List.getLast?_append, List.getLast?_singleton, Option.some_or,
    Option.some.injEq] at hb
  subst hb
  unfold removeSwap
  simp only [List.concat_eq_append, List.getLast?_append, List.getLast?_singleton, Option.some_or,
    List.length_append, List.length_singleton, Nat.add_sub_cancel, List.dropLast_concat, List.length_set]
  split
  · rename_i h
    rw [List.set_append_left _ _ h, List.set_append_right _ _ (by simp)]
    simp
  · rename_i h
    have : i = init.length := by simp at hi; omega
    subst this
    rw [List.set_append_right _ _ (Nat.le_refl _)]
    simp

/-- Field-level correspondence between the native object and the Python reservoir. -/
structure Rel (n : Native) (r : Res UInt64) : Prop where
  slots : n.slots = r.slots
  sizes : ∀ z ∈ r.sizes, z = 0
  counter : n.rngCounter = r.rngCounter
  offered : n.offered = UInt64.ofNat r.offered
  emitted : n.emitted = UInt64.ofNat r.emitted
  peak : n.peakOcc = r.peakOcc
  peakBytes : r.peakBytes = 0
  closed : n.closed = r.closed

theorem Rel.init : Rel Native.init Res.init := ⟨rfl, by simp [Res.init], rfl, rfl, rfl, rfl, rfl, rfl⟩

theorem nativeOfferLoop_eq (c : Cfg) (hc : 0 < c.capacity) (hu : c.capacity < 2 ^ 64) (base : Nat) :
    ∀ (input : List UInt64) (r : Res UInt64), r.slots.length = r.sizes.length → r.slots.length ≤ c.capacity →
      nativeOfferLoop (UInt64.ofNat base) c.capacity input r.slots r.rngCounter =
        (offerZeroLoop c base input r).map fun q => (q.1.slots, q.1.rngCounter, q.2) := by
  intro input
  induction input with
  | nil => intro r _ _; rfl
  | cons x rest ih =>
    intro r hl hcap
    rw [nativeOfferLoop, offerZeroLoop, evictIfFull]
    by_cases hf : r.slots.length < c.capacity
    · rw [if_pos hf, if_neg (by omega)]
      have := ih { r with slots := r.slots ++ [x], sizes := r.sizes ++ [0] } (by simp [hl]) (by simp; omega)
      simp only at this
      rw [this]
      simp only [Option.bind_eq_bind, Option.bind_some]
      cases offerZeroLoop c base rest { r with slots := r.slots ++ [x], sizes := r.sizes ++ [0] } <;> simp
    · have hlen : r.slots.length = c.capacity := by omega
      rw [if_neg hf, if_pos (by omega), nativeSlot_eq _ _ _ hc hu]
      simp only [evictRandom, hlen]
      cases hr : randomSlot base c.capacity r.rngCounter with
      | none => rfl
      | some ik =>
        obtain ⟨i, k⟩ := ik
        have hi := (randomSlot_spec hc hr).1
        have hi1 : i < r.slots.length := by omega
        have hi2 : i < r.sizes.length := by omega
        obtain ⟨b, hb⟩ : ∃ b, r.slots.getLast? = some b := by
          cases h : r.slots.getLast? with
          | none => rw [List.getLast?_eq_none_iff] at h; rw [h] at hi1; simp at hi1
          | some b => exact ⟨b, rfl⟩
        have hs := List.getElem?_eq_getElem hi1
        have hz := List.getElem?_eq_getElem hi2
        simp only [Option.bind_eq_bind, Option.bind_some, evictSlot, hs, hz, hb, Option.map_some]
        rw [set_set_eq _ _ _ _ hi1 hb]
        have := ih { r with
            rngCounter := k, slots := removeSwap r.slots i ++ [x], sizes := removeSwap r.sizes i ++ [0],
            resident := r.resident - r.sizes[i], emitted := r.emitted + 1 }
          (by simp [removeSwap_length, hl]) (by simp [removeSwap_length]; omega)
        simp only at this
        rw [this]
        cases offerZeroLoop c base rest { r with
            rngCounter := k, slots := removeSwap r.slots i ++ [x], sizes := removeSwap r.sizes i ++ [0],
            resident := r.resident - r.sizes[i], emitted := r.emitted + 1 } <;> simp

theorem preflight_eq (base : UInt64) (cap : Nat) (hc : 0 < cap) (hu : cap < 2 ^ 64) :
    ∀ (input slots : List UInt64) (k : Nat), slots.length ≤ cap →
      (nativeOfferLoop base cap input slots k).map (fun q => (q.2.1, q.2.2.length)) =
        (preflight base cap (input.length - (cap - slots.length)) k).map
          fun k' => (k', input.length - (cap - slots.length)) := by
  intro input
  induction input with
  | nil => intro slots k _; simp [nativeOfferLoop, preflight]
  | cons x rest ih =>
    intro slots k hl
    rw [nativeOfferLoop]
    by_cases hf : slots.length < cap
    · rw [if_pos hf, ih _ _ (by simp; omega)]
      have : rest.length - (cap - (slots ++ [x]).length) = (x :: rest).length - (cap - slots.length) := by
        simp; omega
      rw [this]
    · rw [if_neg hf]
      have h1 : (x :: rest).length - (cap - slots.length) = rest.length + 1 := by simp; omega
      rw [h1, preflight]
      cases hs : nativeSlot base cap k with
      | none => rfl
      | some ik =>
        obtain ⟨i, k'⟩ := ik
        have hb' : base = UInt64.ofNat base.toNat := by simp
        rw [hb', nativeSlot_eq _ _ _ hc hu] at hs
        have hi := (randomSlot_spec hc hs).1
        have hi1 : i < slots.length := by omega
        obtain ⟨b, hb⟩ : ∃ b, slots.getLast? = some b := by
          cases h : slots.getLast? with
          | none => rw [List.getLast?_eq_none_iff] at h; rw [h] at hi1; simp at hi1
          | some b => exact ⟨b, rfl⟩
        simp only [Option.bind_eq_bind, Option.bind_some, List.getElem?_eq_getElem hi1, hb]
        have hlen : ((slots.set i b).set ((slots.set i b).length - 1) x).length = slots.length := by simp
        have := ih ((slots.set i b).set ((slots.set i b).length - 1) x) k' (by rw [hlen]; omega)
        rw [hlen, show rest.length - (cap - slots.length) = rest.length by omega] at this
        cases hp : preflight base cap rest.length k' with
        | none =>
          rw [hp] at this
          simp only [Option.map_none, Option.map_eq_none_iff] at this
          rw [this]; rfl
        | some k2 =>
          rw [hp] at this
          simp only [Option.map_some, Option.map_eq_some_iff, Prod.mk.injEq] at this
          obtain ⟨⟨s2, k3, o⟩, h1, h2, h3⟩ := this
          simp only at h2 h3
          rw [h1]; simp [h2, h3]

theorem nativeGather_eq (slots : List UInt64) : ∀ (is seen : List Nat), is.Nodup → (∀ i ∈ is, i ∉ seen) →
    (∀ i ∈ is, i < slots.length) → nativeGather slots is seen = is.mapM fun i => slots[i]? := by
  intro is
  induction is with
  | nil => intro seen _ _ _; rfl
  | cons i is ih =>
    intro seen hn hs hl
    rw [nativeGather]
    have h1 : ¬ (slots.length ≤ i ∨ i ∈ seen) := by
      rintro (h | h)
      · have := hl i (by simp); omega
      · exact hs i (by simp) h
    rw [if_neg h1, ih (i :: seen) (List.nodup_cons.mp hn).2 ?_ fun j hj => hl j (by simp [hj])]
    · simp only [List.mapM_cons, Option.bind_eq_bind]; rfl
    · intro j hj hj'
      simp only [List.mem_cons] at hj'
      rcases hj' with rfl | hj'
      · exact (List.nodup_cons.mp hn).1 hj
      · exact hs j (by simp [hj]) hj'

theorem offerZeroLoop_fields (c : Cfg) (base : Nat) : ∀ (items : List UInt64) (r r' : Res UInt64) (o : List UInt64),
    offerZeroLoop c base items r = some (r', o) →
      r'.offered = r.offered ∧ r'.peakOcc = r.peakOcc ∧ r'.peakBytes = r.peakBytes ∧ r'.closed = r.closed ∧
      r'.emitted = r.emitted + o.length ∧ ((∀ z ∈ r.sizes, z = 0) → ∀ z ∈ r'.sizes, z = 0) := by
  intro items
  induction items with
  | nil => intro r r' o h; simp [offerZeroLoop] at h; obtain ⟨rfl, rfl⟩ := h; simp
  | cons x rest ih =>
    intro r r' o h
    simp only [offerZeroLoop, Option.bind_eq_bind, Option.bind_eq_some_iff] at h
    obtain ⟨⟨r1, o1⟩, h1, ⟨r2, o2⟩, h2, h3⟩ := h
    simp only [Option.some.injEq, Prod.mk.injEq] at h3
    obtain ⟨rfl, rfl⟩ := h3
    obtain ⟨a1, a2, a3, a4, a5, a6⟩ := ih _ r2 o2 h2
    obtain ⟨g1, g2, g3, g4, g5, g6, g7, g8⟩ := evictIfFull_fields h1
    have hem : r1.emitted = r.emitted + o1.length ∧ ((∀ z ∈ r.sizes, z = 0) → ∀ z ∈ r1.sizes, z = 0) := by
      unfold evictIfFull at h1
      split at h1
      · simp only [evictRandom, evictSlot, Option.bind_eq_bind, Option.map_eq_some_iff, Option.bind_eq_some_iff] at h1
        obtain ⟨⟨r3, x⟩, ⟨⟨i, k⟩, _, y, _, z, hz, he⟩, h1⟩ := h1
        simp only [Option.some.injEq, Prod.mk.injEq] at he h1
        obtain ⟨rfl, rfl⟩ := he
        obtain ⟨rfl, rfl⟩ := h1
        refine ⟨by simp, ?_⟩
        intro hz0 w hw
        exact hz0 w ((removeSwap_perm _ _ _ hz).subset (List.mem_cons_of_mem _ hw))
      · simp only [Option.some.injEq, Prod.mk.injEq] at h1
        obtain ⟨rfl, rfl⟩ := h1
        simp
    simp only at a1 a2 a3 a4 a5 a6
    refine ⟨by rw [a1, g1], by rw [a2, g2], by rw [a3, g3], by rw [a4, g4], ?_, ?_⟩
    · simp; omega
    · intro hz
      apply a6
      intro z hz'
      simp at hz'
      rcases hz' with hz' | rfl
      · exact hem.2 hz z hz'
      · rfl

/-- The Python call corresponding to a packed call. -/
def POp.toOp : POp → Op UInt64
  | .offer xs => .offerZero xs
  | .drain => .drain

def POp.count : POp → Nat
  | .offer xs => xs.length
  | .drain => 0

theorem packedOffer_sim {H : Digest} {c : Cfg} (hc : c.Valid) (hu : c.capacity < 2 ^ 64) {n : Native}
    {r : Res UInt64} (hi : Inv c r) (hr : Rel n r) (base : Nat) (hb : rngBase H c = some base)
    (xs : List UInt64) :
    (∀ n' o, packedOffer H c n xs = some (n', o) → ∃ r', offerZero H c r xs = some (r', o) ∧ Rel n' r') ∧
    (∀ r' o, offerZero H c r xs = some (r', o) → r'.rngCounter < 2 ^ 63 →
      ∃ n', packedOffer H c n xs = some (n', o) ∧ Rel n' r') := by
  obtain rfl : n = ⟨r.slots, r.rngCounter, UInt64.ofNat r.offered, UInt64.ofNat r.emitted, r.peakOcc, r.closed⟩ := by
    cases n; cases hr; simp_all
  have hcnt : (if c.capacity - r.slots.length < xs.length then xs.length - (c.capacity - r.slots.length) else 0)
      = xs.length - (c.capacity - r.slots.length) := by split <;> omega
  have heq := nativeOfferLoop_eq c hc.1 hu base xs { r with cache := none } hi.len hi.cap
  simp only at heq
  have hpre := preflight_eq (UInt64.ofNat base) c.capacity hc.1 hu xs r.slots r.rngCounter hi.cap
  have hpk := hi.peak
  by_cases hcl : r.closed = true
  · simp [packedOffer, nativeOffer, offerZero, hcl]
  by_cases hx : xs = []
  · subst hx
    simp only [packedOffer, hb, Option.bind_eq_bind, Option.bind_some, nativeOffer, offerZero, hcl,
      Bool.false_eq_true, if_false, if_true, List.length_nil, Nat.not_lt_zero, preflight, nativeOfferLoop]
    have hpeak : (if r.peakOcc < r.slots.length then r.slots.length else r.peakOcc) = r.peakOcc :=
      if_neg (by omega)
    have hz : UInt64.ofNat 0 = 0 := rfl
    rw [hpeak, hz, UInt64.add_zero, UInt64.add_zero]
    constructor
    · intro n' o h
      split at h
      · simp at h
      · simp only [Option.some.injEq, Prod.mk.injEq] at h
        obtain ⟨rfl, rfl⟩ := h
        simp only [hcl] at hr
        exact ⟨r, rfl, hr⟩
    · intro r' o h hk
      simp only [Option.some.injEq, Prod.mk.injEq] at h
      obtain ⟨rfl, rfl⟩ := h
      rw [if_neg (by omega)]
      simp only [hcl] at hr
      exact ⟨_, rfl, hr⟩
  have hzdef : offerZero H c r xs = (offerZeroLoop c base xs { r with cache := none }).map fun q =>
      (({ q.1 with offered := q.1.offered + xs.length, peakOcc := max q.1.peakOcc q.1.slots.length } : Res UInt64),
        q.2) := by
    unfold offerZero
    rw [if_neg hcl, if_neg hx]
    simp only [hb, Option.bind_eq_bind, Option.bind_some, Option.map_eq_bind]
    rfl
  have hndef : packedOffer H c ⟨r.slots, r.rngCounter, UInt64.ofNat r.offered, UInt64.ofNat r.emitted, r.peakOcc, r.closed⟩ xs =
      (preflight (UInt64.ofNat base) c.capacity (xs.length - (c.capacity - r.slots.length)) r.rngCounter).bind fun pre =>
        if 2 ^ 63 ≤ pre then none else
        (offerZeroLoop c base xs { r with cache := none }).map fun q =>
        ((⟨q.1.slots, q.1.rngCounter, UInt64.ofNat r.offered + UInt64.ofNat xs.length,
          UInt64.ofNat r.emitted + UInt64.ofNat (xs.length - (c.capacity - r.slots.length)),
          if r.peakOcc < q.1.slots.length then q.1.slots.length else r.peakOcc, r.closed⟩ : Native), q.2) := by
    simp only [packedOffer, hb, Option.bind_eq_bind, Option.bind_some, nativeOffer]
    rw [if_neg hcl]
    simp only [hcnt, heq]
    congr 1
    funext pre
    congr 1
    cases offerZeroLoop c base xs { r with cache := none } <;> rfl
  rw [hzdef, hndef]
  cases hz : offerZeroLoop c base xs { r with cache := none } with
  | none => 
    constructor
    · intro n' o h
      simp only [Option.map_none, Option.bind_eq_some_iff] at h
      obtain ⟨pre, _, h⟩ := h
      split at h <;> simp at h
    · intro r' o h; simp at h
  | some q =>
    obtain ⟨r1, o1⟩ := q
    rw [heq, hz] at hpre
    have hpre' := hpre.symm
    simp only [Option.map_some, Option.map_eq_some_iff, Prod.mk.injEq] at hpre'
    obtain ⟨k, hp, rfl, hlen⟩ := hpre'
    obtain ⟨f1, f2, f3, f4, f5, f6⟩ := offerZeroLoop_fields c base _ _ _ _ hz
    simp only at f1 f2 f3 f4 f5 f6
    have hrel : Rel ⟨r1.slots, r1.rngCounter, UInt64.ofNat r.offered + UInt64.ofNat xs.length,
          UInt64.ofNat r.emitted + UInt64.ofNat (xs.length - (c.capacity - r.slots.length)),
          if r.peakOcc < r1.slots.length then r1.slots.length else r.peakOcc, r.closed⟩
        { r1 with offered := r1.offered + xs.length, peakOcc := max r1.peakOcc r1.slots.length } := by
      refine ⟨rfl, f6 hr.sizes, rfl, ?_, ?_, ?_, ?_, ?_⟩
      · simp only [f1]; rw [UInt64.ofNat_add]
      · simp only [f5]; rw [UInt64.ofNat_add, hlen]
      · simp only [f2]; split <;> omega
      · simp only [f3, hr.peakBytes]
      · simp only [f4]
    simp only [Option.map_some, hp, Option.bind_some]
    constructor
    · intro n' o h
      split at h
      · simp at h
      · simp only [Option.some.injEq, Prod.mk.injEq] at h
        obtain ⟨rfl, rfl⟩ := h
        exact ⟨_, rfl, hrel⟩
    · intro r' o h hk
      simp only [Option.some.injEq, Prod.mk.injEq] at h
      obtain ⟨rfl, rfl⟩ := h
      simp only at hk
      rw [if_neg (by omega)]
      exact ⟨_, rfl, hrel⟩

theorem packedDrain_sim {H : Digest} {c : Cfg} {n : Native} {r : Res UInt64} (hr : Rel n r)
    (ho : r.offered < 2 ^ 64) :
    (∀ n' o, packedDrain H c n = some (n', o) → ∃ r', drain H c r = some (r', o) ∧ Rel n' r') ∧
    (∀ r' o, drain H c r = some (r', o) → ∃ n', packedDrain H c n = some (n', o) ∧ Rel n' r') := by
  have hoff : n.offered.toNat = r.offered := by
    rw [hr.offered, UInt64.toNat_ofNat']; exact Nat.mod_eq_of_lt ho
  unfold packedDrain drain
  by_cases hcl : r.closed = true
  · rw [if_pos hcl, if_pos (by rw [hr.closed]; exact hcl)]
    constructor
    · intro n' o h; simp at h; obtain ⟨rfl, rfl⟩ := h; exact ⟨r, rfl, hr⟩
    · intro r' o h; simp at h; obtain ⟨rfl, rfl⟩ := h; exact ⟨n, rfl, hr⟩
  · have hcl' : ¬ n.closed = true := by rw [hr.closed]; exact hcl
    rw [if_neg hcl, if_neg hcl', hoff, hr.slots, hr.counter]
    cases hp : deterministicPermutation H r.slots.length c.seed "shuffle_reservoir_drain"
        (drainKey c r.offered r.rngCounter) with
    | none => simp
    | some order =>
      have hperm := C04_permutation _ _ _ _ _ _ hp
      have hlen : order.length = r.slots.length := by simpa using hperm.length_eq
      have hnd : order.Nodup := hperm.nodup_iff.mpr List.nodup_range
      have hlt : ∀ i ∈ order, i < r.slots.length := fun i hi => by simpa using hperm.subset hi
      simp only [Option.bind_eq_bind, Option.bind_some, nativeDrain, if_neg hcl', hr.slots, hlen, ne_eq,
        not_true_eq_false, if_false]
      rw [nativeGather_eq r.slots order [] hnd (by simp) hlt]
      cases hm : order.mapM fun i => r.slots[i]? with
      | none => simp
      | some out =>
        have hl2 : out.length = r.slots.length := by
          have := congrArg List.length (mapM_getElem_eq _ _ _ hm); simpa [hlen] using this
        simp only [Option.bind_some, Option.some.injEq, Prod.mk.injEq]
        constructor
        · rintro n' o ⟨rfl, rfl⟩
          refine ⟨_, ⟨rfl, rfl⟩, ⟨rfl, by simp, hr.counter, hr.offered, ?_, hr.peak, hr.peakBytes, rfl⟩⟩
          simp only [hr.emitted, hl2]; rw [UInt64.ofNat_add]
        · rintro r' o ⟨rfl, rfl⟩
          refine ⟨_, ⟨rfl, rfl⟩, ⟨rfl, by simp, hr.counter, hr.offered, ?_, hr.peak, hr.peakBytes, rfl⟩⟩
          simp only [hr.emitted, hl2]; rw [UInt64.ofNat_add]

end Verif.Reservoir
