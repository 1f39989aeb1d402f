import Verif.Reservoir.Lemmas

/-! The reservoir does not look at its items: mapping items commutes with the operations. -/
namespace Verif.Reservoir
open Verif.Rng (Digest deterministicPermutation)

variable {α β : Type}

/-- The reservoir with mapped items and no cached snapshot. -/
def Res.map (f : α → β) (r : Res α) : Res β :=
  ⟨r.slots.map f, r.sizes, r.resident, r.rngCounter, r.offered, r.emitted, r.peakOcc, r.peakBytes, r.closed, none⟩

theorem removeSwap_map (f : α → β) (l : List α) (i : Nat) : removeSwap (l.map f) i = (removeSwap l i).map f := by
  unfold removeSwap
  rw [List.getLast?_map]
  cases l.getLast? with
  | none => rfl
  | some x =>
    simp only [Option.map_some, List.length_map]
    split <;> simp [List.map_dropLast, List.map_set]

theorem evictRandom_map (f : α → β) (base : Nat) (r : Res α) :
    evictRandom base (r.map f) = (evictRandom base r).map fun q => (q.1.map f, f q.2) := by
  unfold evictRandom evictSlot
  simp only [Res.map, List.length_map, Option.bind_eq_bind]
  cases randomSlot base r.slots.length r.rngCounter with
  | none => rfl
  | some ik =>
    obtain ⟨i, k⟩ := ik
    simp only [Option.bind_some, List.getElem?_map]
    cases r.slots[i]? with
    | none => rfl
    | some x =>
      simp only [Option.map_some, Option.bind_some]
      cases r.sizes[i]? with
      | none => rfl
      | some z => simp [Res.map, removeSwap_map]

theorem offerZeroLoop_map (f : α → β) (c : Cfg) (base : Nat) : ∀ (items : List α) (r : Res α),
    offerZeroLoop c base (items.map f) (r.map f) =
      (offerZeroLoop c base items r).map fun q => (q.1.map f, q.2.map f) := by
  intro items
  induction items with
  | nil => intro r; simp [offerZeroLoop]
  | cons x rest ih =>
    intro r
    rw [List.map_cons, offerZeroLoop, offerZeroLoop]
    have he : evictIfFull c base (r.map f) = (evictIfFull c base r).map fun q => (q.1.map f, q.2.map f) := by
      unfold evictIfFull
      have hl : (r.map f).slots.length = r.slots.length := by simp [Res.map]
      rw [hl, evictRandom_map]
      split
      · cases evictRandom base r <;> simp
      · simp
    rw [he]
    cases evictIfFull c base r with
    | none => rfl
    | some q =>
      obtain ⟨r1, o1⟩ := q
      simp only [Option.map_some, Option.bind_eq_bind, Option.bind_some]
      have hh : ({ Res.map f r1 with slots := (Res.map f r1).slots ++ [f x], sizes := (Res.map f r1).sizes ++ [0] } : Res β) =
          Res.map f { r1 with slots := r1.slots ++ [x], sizes := r1.sizes ++ [0] } := by simp [Res.map]
      rw [hh, ih]
      cases offerZeroLoop c base rest { r1 with slots := r1.slots ++ [x], sizes := r1.sizes ++ [0] } with
      | none => rfl
      | some q => simp

theorem offerZero_map (H : Digest) (f : α → β) (c : Cfg) (r : Res α) (items : List α) :
    offerZero H c (r.map f) (items.map f) = (offerZero H c r items).map fun q => (q.1.map f, q.2.map f) := by
  unfold offerZero
  by_cases hcl : r.closed = true
  · rw [if_pos hcl, if_pos (show (r.map f).closed = true from hcl)]; rfl
  rw [if_neg hcl, if_neg (show ¬ (r.map f).closed = true from hcl)]
  by_cases hx : items = []
  · subst hx; simp
  rw [if_neg hx, if_neg (by simpa using hx)]
  cases rngBase H c with
  | none => rfl
  | some base =>
    simp only [Option.bind_eq_bind, Option.bind_some]
    have hh : ({ Res.map f r with cache := none } : Res β) = Res.map f { r with cache := none } := rfl
    rw [hh, offerZeroLoop_map]
    cases offerZeroLoop c base items { r with cache := none } with
    | none => rfl
    | some q => simp [Res.map]

theorem drain_map (H : Digest) (f : α → β) (c : Cfg) (r : Res α) :
    drain H c (r.map f) = (drain H c r).map fun q => (q.1.map f, q.2.map f) := by
  unfold drain
  by_cases hcl : r.closed = true
  · rw [if_pos hcl, if_pos (show (r.map f).closed = true from hcl)]; simp
  rw [if_neg hcl, if_neg (show ¬ (r.map f).closed = true from hcl)]
  have h1 : (r.map f).slots.length = r.slots.length := by simp [Res.map]
  have h2 : drainKey c (r.map f).offered (r.map f).rngCounter = drainKey c r.offered r.rngCounter := rfl
  rw [h1, h2]
  cases deterministicPermutation H r.slots.length c.seed "shuffle_reservoir_drain" (drainKey c r.offered r.rngCounter) with
  | none => rfl
  | some order =>
    simp only [Option.bind_eq_bind, Option.bind_some]
    have hm : (order.mapM fun i => (r.map f).slots[i]?) = (order.mapM fun i => r.slots[i]?).map (List.map f) := by
      simp only [Res.map, List.getElem?_map]
      induction order with
      | nil => simp
      | cons i is ih =>
        simp only [List.mapM_cons, Option.bind_eq_bind, ih]
        cases r.slots[i]? with
        | none => rfl
        | some x =>
          simp only [Option.map_some, Option.bind_some]
          cases is.mapM fun i => r.slots[i]? <;> simp
    rw [hm]
    cases order.mapM fun i => r.slots[i]? with
    | none => rfl
    | some out => simp [Res.map]

theorem Inv.map {c : Cfg} {r : Res α} (f : α → β) (h : Inv c r) : Inv c (r.map f) :=
  ⟨by simp [Res.map, h.len], by simp [Res.map, h.cap], h.nonneg, h.res, h.bytes, by simp [Res.map, h.count],
    fun hc => by simp [Res.map, h.closed hc], h.counter, by simp [Res.map, h.peak], h.peakB, Or.inl rfl⟩

end Verif.Reservoir
