import Verif.Telemetry.Cache
import Mathlib.Tactic.SplitIfs
import Mathlib.Tactic.ByContra
import Mathlib.Logic.Basic
import Mathlib.Data.List.Basic

/-! C61: the decoded-array cache. -/
namespace Verif.Telemetry

variable {P α : Type} [DecidableEq P]

/-! ### Specification -/

/-- The budgets: at most so many memory-mapped entries; among the others at most so many entries and so
many bytes, except that a single entry is always allowed. -/
def WithinBudget (mmapCapacity capacity byteCapacity : Nat) (vs : Values P α) : Prop :=
  (vs.filter (·.2.mmap)).length ≤ mmapCapacity
  ∧ ((vs.filter (fun x => !x.2.mmap)).length ≤ 1
    ∨ ((vs.filter (fun x => !x.2.mmap)).length ≤ capacity
      ∧ ((vs.filter (fun x => !x.2.mmap)).map (·.2.bytes)).sum ≤ byteCapacity))

/-- `b` was used after the last use of `a`. -/
def UsedAfter (used : List P) (a b : P) : Prop := ∃ l r, used = l ++ b :: r ∧ a ∉ r ∧ a ≠ b

/-- Schedules in which every read of a file returns that file's arrays or fails. -/
def Faithful (files : P → Entry α) (d : Decoder P α) : List (LoadAct P α) → Prop
  | [] => True
  | a :: as =>
      (match a with
        | .fetch i (.ok e) => ∀ p, d.threads[i]? = some (.loading p) → e = files p
        | _ => True)
      ∧ ∀ d', d.step a = some d' → Faithful files d' as

/-- States of a decoder with `n` threads. -/
def Runs (files : P → Entry α) (n : Nat) (d : Decoder P α) : Prop :=
  ∃ as, Faithful files (Decoder.new P α n) as ∧ (Decoder.new P α n).exec as = some d

/-! ### Eviction -/

theorem evictOldest_spec (k : Bool) : ∀ vs : Values P α, 0 < vs.countP (fun x => x.2.mmap == k) →
    ∃ vs', evictOldest k vs = some vs' ∧ vs'.Sublist vs
      ∧ vs'.filter (fun x => x.2.mmap == k) = (vs.filter (fun x => x.2.mmap == k)).tail
      ∧ vs'.filter (fun x => x.2.mmap == !k) = vs.filter (fun x => x.2.mmap == !k)
  | [], h => by simp at h
  | x :: xs, h => by
      unfold evictOldest
      by_cases hx : (x.2.mmap == k) = true
      · rw [if_pos hx]
        refine ⟨xs, rfl, List.sublist_cons_self _ _, ?_, ?_⟩
        · simp only [List.filter_cons, hx, if_true, List.tail_cons]
        · rw [List.filter_cons_of_neg]
          cases hk : k <;> cases hm : x.2.mmap <;> simp_all
      · rw [if_neg hx]
        simp only [List.countP_cons, hx, if_false, Bool.false_eq_true, Nat.add_zero] at h
        obtain ⟨vs', h1, h2, h3, h4⟩ := evictOldest_spec k xs h
        refine ⟨x :: vs', by rw [h1]; rfl, h2.cons_cons x, ?_, ?_⟩
        · simp only [List.filter_cons, hx, if_false, Bool.false_eq_true, h3]
        · rw [List.filter_cons, List.filter_cons, h4]

theorem filter_true (vs : Values P α) : vs.filter (fun x => x.2.mmap == true) = vs.filter (·.2.mmap) := by
  congr 1; funext x; cases x.2.mmap <;> rfl

theorem filter_false (vs : Values P α) :
    vs.filter (fun x => x.2.mmap == false) = vs.filter (fun x => !x.2.mmap) := by
  congr 1; funext x; cases x.2.mmap <;> rfl

theorem evictMmap_spec (cap : Nat) : ∀ (n : Nat) (vs : Values P α),
    n = (vs.filter (·.2.mmap)).length →
    ∃ vs', evictMmap cap n vs = some vs' ∧ vs'.Sublist vs
      ∧ vs'.filter (·.2.mmap) = (vs.filter (·.2.mmap)).drop (n - cap)
      ∧ vs'.filter (fun x => !x.2.mmap) = vs.filter (fun x => !x.2.mmap)
  | 0, vs, h => ⟨vs, rfl, List.Sublist.refl _, by simp, rfl⟩
  | n + 1, vs, h => by
      unfold evictMmap
      by_cases hc : n + 1 > cap
      · rw [if_pos hc]
        obtain ⟨v1, h1, h2, h3, h4⟩ := evictOldest_spec true vs (by
          rw [List.countP_eq_length_filter, filter_true]; omega)
        rw [filter_true, filter_true] at h3
        simp only [Bool.not_true] at h4
        rw [filter_false, filter_false] at h4
        obtain ⟨v2, g1, g2, g3, g4⟩ := evictMmap_spec cap n v1 (by rw [h3, List.length_tail]; omega)
        refine ⟨v2, by simp [h1, g1], g2.trans h2, ?_, g4.trans h4⟩
        rw [g3, h3, ← List.drop_one, List.drop_drop]
        congr 1
        omega
      · rw [if_neg hc]
        refine ⟨vs, rfl, List.Sublist.refl _, ?_, rfl⟩
        rw [Nat.sub_eq_zero_of_le (by omega)]
        rfl

theorem oldestBytes_eq (vs : Values P α) :
    oldestBytes vs = (((vs.filter (fun x => !x.2.mmap)).head?).map (·.2.bytes)).getD 0 := by
  unfold oldestBytes
  rw [List.head?_filter]

/-- How many of the least recently used entries must go: the smallest number after which the rest fits. -/
theorem evictLoaded_spec (cap bcap : Nat) : ∀ (n b : Nat) (vs : Values P α),
    n = (vs.filter (fun x => !x.2.mmap)).length →
    b = ((vs.filter (fun x => !x.2.mmap)).map (·.2.bytes)).sum →
    ∃ vs' k, evictLoaded cap bcap n b vs = some vs' ∧ vs'.Sublist vs
      ∧ vs'.filter (·.2.mmap) = vs.filter (·.2.mmap)
      ∧ vs'.filter (fun x => !x.2.mmap) = (vs.filter (fun x => !x.2.mmap)).drop k
      ∧ (n - k ≤ 1 ∨ (n - k ≤ cap
          ∧ (((vs.filter (fun x => !x.2.mmap)).drop k).map (·.2.bytes)).sum ≤ bcap))
      ∧ (k = 0 ∨ k < n)
      ∧ ∀ j, j < k → ¬(n - j ≤ 1 ∨ (n - j ≤ cap
          ∧ (((vs.filter (fun x => !x.2.mmap)).drop j).map (·.2.bytes)).sum ≤ bcap))
  | 0, b, vs, h, hb => ⟨vs, 0, rfl, List.Sublist.refl _, rfl, rfl, .inl (by omega), .inl rfl, by omega⟩
  | n + 1, b, vs, h, hb => by
      unfold evictLoaded
      by_cases hc : n + 1 > 1 ∧ (n + 1 > cap ∨ b > bcap)
      · rw [if_pos hc]
        obtain ⟨v1, h1, h2, h3, h4⟩ := evictOldest_spec false vs (by
          rw [List.countP_eq_length_filter, filter_false]; omega)
        rw [filter_false, filter_false] at h3
        simp only [Bool.not_false] at h4
        rw [filter_true, filter_true] at h4
        have hbytes : b - oldestBytes vs = ((v1.filter (fun x => !x.2.mmap)).map (·.2.bytes)).sum := by
          rw [oldestBytes_eq, h3, hb]
          cases vs.filter (fun x => !x.2.mmap) with
          | nil => simp
          | cons y ys => simp
        obtain ⟨v2, k, g1, g2, g3, g4, g5, g6, g7⟩ := evictLoaded_spec cap bcap n (b - oldestBytes vs) v1
          (by rw [h3, List.length_tail]; omega) hbytes
        refine ⟨v2, k + 1, by simp [h1, g1], g2.trans h2, g3.trans h4, ?_, ?_, .inr (by omega), ?_⟩
        · rw [g4, h3, ← List.drop_one, List.drop_drop]
          congr 1
          omega
        · rw [h3, ← List.drop_one, List.drop_drop] at g5
          rw [Nat.add_comm 1 k] at g5
          have : n + 1 - (k + 1) = n - k := by omega
          rw [this]
          exact g5
        · intro j hj
          cases j with
          | zero =>
              simp only [List.drop_zero, ← hb]
              omega
          | succ j =>
              have := g7 j (by omega)
              rw [h3, ← List.drop_one, List.drop_drop, Nat.add_comm 1 j] at this
              have e : n + 1 - (j + 1) = n - j := by omega
              rw [e]
              exact this
      · rw [if_neg hc]
        refine ⟨vs, 0, rfl, List.Sublist.refl _, rfl, rfl, ?_, .inl rfl, by omega⟩
        simp only [List.drop_zero, ← hb]
        omega

theorem evict_spec (mcap cap bcap : Nat) (vs : Values P α) :
    ∃ vs' k, evict mcap cap bcap vs = some vs' ∧ vs'.Sublist vs ∧ WithinBudget mcap cap bcap vs'
      ∧ vs'.filter (·.2.mmap) = (vs.filter (·.2.mmap)).drop ((vs.filter (·.2.mmap)).length - mcap)
      ∧ vs'.filter (fun x => !x.2.mmap) = (vs.filter (fun x => !x.2.mmap)).drop k
      ∧ (k = 0 ∨ k < (vs.filter (fun x => !x.2.mmap)).length)
      ∧ ∀ j, j < k → ¬((vs.filter (fun x => !x.2.mmap)).length - j ≤ 1
          ∨ ((vs.filter (fun x => !x.2.mmap)).length - j ≤ cap
          ∧ (((vs.filter (fun x => !x.2.mmap)).drop j).map (·.2.bytes)).sum ≤ bcap)) := by
  have hlen : vs.length - vs.countP (·.2.mmap) = (vs.filter (fun x => !x.2.mmap)).length := by
    have := List.length_eq_countP_add_countP (p := fun x : P × Entry α => x.2.mmap) (l := vs)
    rw [← List.countP_eq_length_filter]
    simp only [Bool.not_eq_true, decide_eq_true_eq] at this
    have e : vs.countP (fun x => !x.2.mmap) = vs.countP (fun x => decide (x.2.mmap = false)) := by
      congr 1; funext x; cases x.2.mmap <;> rfl
    omega
  obtain ⟨v1, h1, h2, h3, h4⟩ := evictMmap_spec mcap (vs.countP (·.2.mmap)) vs
    (by rw [List.countP_eq_length_filter])
  obtain ⟨v2, k, g1, g2, g3, g4, g5, g6, g7⟩ := evictLoaded_spec cap bcap
    (vs.length - vs.countP (·.2.mmap)) (loadedBytes v1) v1 (by rw [hlen, h4]) rfl
  rw [hlen] at g5 g6 g7
  rw [List.countP_eq_length_filter] at h3
  refine ⟨v2, k, ?_, g2.trans h2, ⟨?_, ?_⟩, g3.trans h3, by rw [g4, h4], g6, by rw [h4] at g7; exact g7⟩
  · unfold evict
    simp only [h1, Option.bind_eq_bind, Option.bind_some, g1]
  · rw [g3, h3, List.length_drop]; omega
  · rw [g4, h4, List.length_drop]
    rw [h4] at g5
    exact g5

/-- **C61** (eviction).  Evicting never fails, brings the cache within its budgets, only removes entries,
removes the least recently used ones first (of each kind the remaining ones are the most recent), and
removes no more than necessary: keeping one more entry would exceed a budget. -/
theorem C61_evict (mcap cap bcap : Nat) (vs : Values P α) :
    ∃ vs' j k, evict mcap cap bcap vs = some vs' ∧ vs'.Sublist vs ∧ WithinBudget mcap cap bcap vs'
      ∧ vs'.filter (·.2.mmap) = (vs.filter (·.2.mmap)).drop j
      ∧ (j = 0 ∨ (vs'.filter (·.2.mmap)).length = mcap)
      ∧ vs'.filter (fun x => !x.2.mmap) = (vs.filter (fun x => !x.2.mmap)).drop k
      ∧ (k = 0 ∨ (1 ≤ (vs'.filter (fun x => !x.2.mmap)).length
          ∧ ((vs'.filter (fun x => !x.2.mmap)).length + 1 > cap
            ∨ (((vs.filter (fun x => !x.2.mmap)).drop (k - 1)).map (·.2.bytes)).sum > bcap))) := by
  obtain ⟨vs', k, h1, h2, h3, h4, h5, h6, h7⟩ := evict_spec mcap cap bcap vs
  refine ⟨vs', _, k, h1, h2, h3, h4, ?_, h5, ?_⟩
  · rw [h4, List.length_drop]; omega
  · rcases Nat.eq_zero_or_pos k with hk | hk
    · exact .inl hk
    · right
      have := h7 (k - 1) (by omega)
      rw [h5, List.length_drop]
      omega

/-! ### The invariant -/

/-- A thread that holds the right to load a path. -/
def loadsPath (p : P) : LoadPhase P α → Bool
  | .loading q => decide (q = p)
  | .loaded q _ => decide (q = p)
  | _ => false

structure CacheInv (files : P → Entry α) (d : Decoder P α) : Prop where
  /-- cached arrays are the file's -/
  content : ∀ x ∈ d.values, x.2 = files x.1
  nodup : (d.values.map (·.1)).Nodup
  budget : WithinBudget d.mmapCapacity d.capacity d.byteCapacity d.values
  order : (d.values.map (·.1)).Pairwise (UsedAfter d.used)
  results : ∀ t ∈ d.threads, ∀ p e, (t = .out (some (p, .ok e)) ∨ t = .loaded p (.ok e)) → e = files p
  /-- the loading set is exactly the paths being loaded, each by one thread -/
  flight : ∀ p, d.threads.countP (loadsPath p) = if p ∈ d.loading then 1 else 0
  /-- a path being loaded is not cached -/
  apart : ∀ p ∈ d.loading, p ∉ d.values.map (·.1)
  mmapCap : d.mmapCapacity = 16
  /-- sleepers wait for a path being loaded -/
  sleepers : ∀ p, LoadPhase.asleep p ∈ d.threads → p ∈ d.loading

theorem countP_setL (q : LoadPhase P α → Bool) : ∀ (l : List (LoadPhase P α)) (i : Nat) (a b : LoadPhase P α),
    l[i]? = some a → (l.set i b).countP q + (q a).toNat = l.countP q + (q b).toNat
  | [], i, a, b, h => by simp at h
  | x :: l, 0, a, b, h => by
      simp at h
      subst h
      simp only [List.set_cons_zero, List.countP_cons]
      cases q x <;> cases q b <;> simp <;> omega
  | x :: l, i + 1, a, b, h => by
      simp only [List.getElem?_cons_succ] at h
      have := countP_setL q l i a b h
      simp only [List.set_cons_succ, List.countP_cons]
      omega

theorem countP_wakeLoads (p : P) (l : List (LoadPhase P α)) :
    (wakeLoads l).countP (loadsPath p) = l.countP (loadsPath p) := by
  unfold wakeLoads
  rw [List.countP_map]
  congr 1
  funext x
  cases x <;> rfl

theorem asleep_wakeLoads (p : P) (l : List (LoadPhase P α)) : LoadPhase.asleep p ∉ wakeLoads l := by
  unfold wakeLoads
  intro h
  rw [List.mem_map] at h
  obtain ⟨x, _, hx⟩ := h
  cases x <;> simp at hx

theorem mem_wakeLoads {t : LoadPhase P α} {l : List (LoadPhase P α)} (h : t ∈ wakeLoads l) :
    t ∈ l ∨ ∃ p, t = .entering p := by
  unfold wakeLoads at h
  rw [List.mem_map] at h
  obtain ⟨x, hx, rfl⟩ := h
  cases x <;> simp_all

theorem usedAfter_snoc {used : List P} {a b x : P} (h : UsedAfter used a b) (hx : a ≠ x) :
    UsedAfter (used ++ [x]) a b := by
  obtain ⟨l, r, h1, h2, h3⟩ := h
  refine ⟨l, r ++ [x], by rw [h1]; simp, ?_, h3⟩
  rw [List.mem_append]
  rintro (h | h)
  · exact h2 h
  · simp at h; exact hx h

theorem usedAfter_last (used : List P) {a x : P} (hx : a ≠ x) : UsedAfter (used ++ [x]) a x :=
  ⟨used, [], rfl, by simp, hx⟩

theorem moveToEnd_keys (vs : Values P α) (p : P) (e : Entry α) :
    (moveToEnd vs p e).map (·.1) = (vs.map (·.1)).filter (· ≠ p) ++ [p] := by
  unfold moveToEnd
  rw [List.map_append, List.filter_map]
  rfl

theorem order_moveToEnd {used : List P} (vs : Values P α) (p : P) (e : Entry α)
    (h : (vs.map (·.1)).Pairwise (UsedAfter used)) :
    ((moveToEnd vs p e).map (·.1)).Pairwise (UsedAfter (used ++ [p])) := by
  rw [moveToEnd_keys, List.pairwise_append]
  refine ⟨?_, List.pairwise_singleton _ _, ?_⟩
  · have h2 := h.filter (fun x => decide (x ≠ p))
    refine List.Pairwise.imp_of_mem ?_ h2
    intro a b ha _ hab
    exact usedAfter_snoc hab (by simpa using (List.mem_filter.1 ha).2)
  · intro a ha b hb
    simp at hb
    subst hb
    exact usedAfter_last used (by simpa using (List.mem_filter.1 ha).2)

theorem nodup_moveToEnd (vs : Values P α) (p : P) (e : Entry α) (h : (vs.map (·.1)).Nodup) :
    ((moveToEnd vs p e).map (·.1)).Nodup := by
  rw [moveToEnd_keys, List.nodup_append]
  refine ⟨h.filter _, by simp, ?_⟩
  intro a ha b hb
  simp at hb
  subst hb
  simpa using (List.mem_filter.1 ha).2

theorem content_moveToEnd {files : P → Entry α} (vs : Values P α) (p : P) (e : Entry α)
    (h : ∀ x ∈ vs, x.2 = files x.1) (he : e = files p) : ∀ x ∈ moveToEnd vs p e, x.2 = files x.1 := by
  intro x hx
  unfold moveToEnd at hx
  rw [List.mem_append] at hx
  rcases hx with hx | hx
  · exact h x (List.mem_filter.1 hx).1
  · simp at hx; subst hx; exact he

/-- A hit only reorders. -/
theorem moveToEnd_perm (vs : Values P α) (p : P) (e : Entry α) (h : (vs.map (·.1)).Nodup)
    (hm : (p, e) ∈ vs) : (moveToEnd vs p e).Perm vs := by
  unfold moveToEnd
  induction vs with
  | nil => simp at hm
  | cons x xs ih =>
      rw [List.map_cons, List.nodup_cons] at h
      rcases List.mem_cons.1 hm with hx | hx
      · subst hx
        have : xs.filter (fun y => decide (y.1 ≠ p)) = xs := by
          rw [List.filter_eq_self]
          intro y hy
          simp only [decide_eq_true_eq]
          intro hyp
          exact h.1 (List.mem_map.2 ⟨y, hy, hyp⟩)
        rw [List.filter_cons_of_neg (by simp), this]
        exact (List.perm_append_singleton _ _)
      · have hne : x.1 ≠ p := by
          intro hxp
          exact h.1 (List.mem_map.2 ⟨(p, e), hx, hxp.symm⟩)
        rw [List.filter_cons_of_pos (by simpa using hne)]
        exact (ih h.2 hx).cons x

theorem budget_perm {mcap cap bcap : Nat} {vs vs' : Values P α} (h : vs'.Perm vs)
    (hb : WithinBudget mcap cap bcap vs) : WithinBudget mcap cap bcap vs' := by
  unfold WithinBudget at hb ⊢
  have h1 := (h.filter (fun x => x.2.mmap)).length_eq
  have h2 := (h.filter (fun x => !x.2.mmap)).length_eq
  have h3 := ((h.filter (fun x => !x.2.mmap)).map (·.2.bytes)).sum_nat
  rw [h1, h2, h3]
  exact hb

theorem loading_step {files : P → Entry α} {d d' : Decoder P α} {a : LoadAct P α} (hi : CacheInv files d)
    (hf : match a with
      | .fetch i (.ok e) => ∀ p, d.threads[i]? = some (.loading p) → e = files p
      | _ => True)
    (h : d.step a = some d') : CacheInv files d' := by
  cases a with
  | call i p =>
      unfold Decoder.step at h
      simp only at h
      split at h
      · next l hl =>
        cases h
        refine { hi with results := ?_, flight := ?_, sleepers := ?_ }
        · intro t ht p' e hte
          rcases List.mem_or_eq_of_mem_set ht with ht | ht
          · exact hi.results t ht p' e hte
          · subst ht; rcases hte with hte | hte <;> cases hte
        · intro q
          have := countP_setL (loadsPath q) d.threads i _ (.entering p) hl
          have := hi.flight q
          simp only [loadsPath, Bool.toNat_false] at *
          omega
        · intro q hq
          rcases List.mem_or_eq_of_mem_set hq with hq | hq
          · exact hi.sleepers q hq
          · cases hq
      · cases h
  | test i =>
      unfold Decoder.step at h
      simp only at h
      split at h
      · next p hl =>
        split_ifs at h with hc
        · cases h
          refine { hi with results := ?_, flight := ?_, sleepers := ?_ }
          · intro t ht p' e hte
            rcases List.mem_or_eq_of_mem_set ht with ht | ht
            · exact hi.results t ht p' e hte
            · subst ht; rcases hte with hte | hte <;> cases hte
          · intro q
            have := countP_setL (loadsPath q) d.threads i _ (.asleep p) hl
            have := hi.flight q
            simp only [loadsPath, Bool.toNat_false] at *
            omega
          · intro q hq
            rcases List.mem_or_eq_of_mem_set hq with hq | hq
            · exact hi.sleepers q hq
            · cases hq; exact hc
        · split at h
          · next p0 e hfind =>
            cases h
            have hmem := List.mem_of_find?_eq_some hfind
            have hpe : p0 = p := by simpa using List.find?_some hfind
            subst hpe
            have he := hi.content _ hmem
            simp only at he
            refine ⟨content_moveToEnd _ _ _ hi.content he, nodup_moveToEnd _ _ _ hi.nodup,
              budget_perm (moveToEnd_perm _ _ _ hi.nodup hmem) hi.budget, order_moveToEnd _ _ _ hi.order,
              ?_, ?_, ?_, hi.mmapCap, ?_⟩
            · intro t ht p' e' hte
              rcases List.mem_or_eq_of_mem_set ht with ht | ht
              · exact hi.results t ht p' e' hte
              · subst ht
                rcases hte with hte | hte
                · cases hte; exact he
                · cases hte
            · intro q
              have := countP_setL (loadsPath q) d.threads i _ (.out (some (p0, .ok e))) hl
              have := hi.flight q
              simp only [loadsPath, Bool.toNat_false] at *
              omega
            · intro q hq hm
              rw [moveToEnd_keys, List.mem_append] at hm
              rcases hm with hm | hm
              · exact hi.apart q hq (List.mem_filter.1 hm).1
              · simp at hm; subst hm; exact hc hq
            · intro q hq
              rcases List.mem_or_eq_of_mem_set hq with hq | hq
              · exact hi.sleepers q hq
              · cases hq
          · next hfind =>
            cases h
            refine { hi with results := ?_, flight := ?_, sleepers := ?_, apart := ?_ }
            · intro t ht p' e hte
              rcases List.mem_or_eq_of_mem_set ht with ht | ht
              · exact hi.results t ht p' e hte
              · subst ht; rcases hte with hte | hte <;> cases hte
            · intro q
              have h1 := countP_setL (loadsPath q) d.threads i _ (.loading p) hl
              have h2 := hi.flight q
              simp only [loadsPath, Bool.toNat_false, List.mem_append, List.mem_singleton] at *
              by_cases hq : q = p
              · subst hq
                simp only [hc, if_false, decide_true, Bool.toNat_true, or_true, if_true] at *
                omega
              · have hq' : ¬p = q := fun h => hq h.symm
                simp only [hq', decide_false, Bool.toNat_false] at h1
                simp only [hq, or_false]
                omega
            · intro q hq hm
              rw [List.mem_append] at hq
              rcases hq with hq | hq
              · exact hi.apart q hq hm
              · simp at hq
                subst hq
                rw [List.find?_eq_none] at hfind
                obtain ⟨x, hx, hxq⟩ := List.mem_map.1 hm
                exact hfind x hx (by simpa using hxq)
            · intro q hq
              rcases List.mem_or_eq_of_mem_set hq with hq | hq
              · exact List.mem_append_left _ (hi.sleepers q hq)
              · cases hq
      · cases h
  | fetch i r =>
      unfold Decoder.step at h
      simp only at h
      split at h
      · next p hl =>
        cases h
        refine { hi with results := ?_, flight := ?_, sleepers := ?_ }
        · intro t ht p' e hte
          rcases List.mem_or_eq_of_mem_set ht with ht | ht
          · exact hi.results t ht p' e hte
          · subst ht
            rcases hte with hte | hte
            · cases hte
            · cases hte
              exact hf _ hl
        · intro q
          have := countP_setL (loadsPath q) d.threads i _ (.loaded p r) hl
          have := hi.flight q
          simp only [loadsPath] at *
          omega
        · intro q hq
          rcases List.mem_or_eq_of_mem_set hq with hq | hq
          · exact hi.sleepers q hq
          · cases hq
      · cases h
  | publish i =>
      unfold Decoder.step at h
      simp only at h
      have flight : ∀ (p : P) (r : Outcome α) (o : Option (P × Outcome α)),
          d.threads[i]? = some (.loaded p r) → ∀ q,
          (wakeLoads (d.threads.set i (.out o))).countP (loadsPath q)
            = if q ∈ d.loading.filter (fun x => decide (x ≠ p)) then 1 else 0 := by
        intro p r o hl q
        rw [countP_wakeLoads]
        have h1 := countP_setL (loadsPath q) d.threads i _ (.out o) hl
        have h2 := hi.flight q
        simp only [loadsPath, Bool.toNat_false, List.mem_filter, decide_eq_true_eq] at *
        by_cases hq : p = q
        · subst hq
          simp only [decide_true, Bool.toNat_true, ne_eq, not_true, and_false, if_false] at *
          split_ifs at h2 <;> omega
        · have hq' : q ≠ p := fun h => hq h.symm
          simp only [hq, decide_false, Bool.toNat_false, ne_eq, hq', not_false_iff, and_true] at *
          omega
      have results : ∀ (p : P) (r : Outcome α), d.threads[i]? = some (.loaded p r) →
          ∀ t ∈ wakeLoads (d.threads.set i (.out (some (p, r)))), ∀ p' e,
          (t = .out (some (p', .ok e)) ∨ t = .loaded p' (.ok e)) → e = files p' := by
        intro p r hl t ht p' e hte
        rcases mem_wakeLoads ht with ht | ⟨q, rfl⟩
        · rcases List.mem_or_eq_of_mem_set ht with ht | ht
          · exact hi.results t ht p' e hte
          · subst ht
            rcases hte with hte | hte
            · cases hte
              exact hi.results _ (List.mem_of_getElem? hl) _ _ (.inr rfl)
            · cases hte
        · rcases hte with hte | hte <;> cases hte
      split at h
      · next p hl =>
        cases h
        exact ⟨hi.content, hi.nodup, hi.budget, hi.order, results _ _ hl, flight _ _ _ hl,
          fun q hq => hi.apart q (List.mem_filter.1 hq).1, hi.mmapCap,
          fun q hq => absurd hq (asleep_wakeLoads _ _)⟩
      · next p e hl =>
        obtain ⟨vs', k, h1, h2, h3, _⟩ := evict_spec d.mmapCapacity d.capacity d.byteCapacity
          (moveToEnd d.values p e)
        simp only [h1, Option.bind_eq_bind, Option.bind_some, Option.some.injEq] at h
        subst h
        have he : e = files p := hi.results _ (List.mem_of_getElem? hl) _ _ (.inr rfl)
        exact ⟨fun x hx => content_moveToEnd _ _ _ hi.content he x (h2.subset hx),
          (h2.map _).nodup (nodup_moveToEnd _ _ _ hi.nodup), h3,
          (order_moveToEnd _ _ _ hi.order).sublist (h2.map _), results _ _ hl, flight _ _ _ hl,
          fun q hq hm => by
            rw [List.mem_filter] at hq
            have hm' := (h2.map (·.1)).subset hm
            rw [moveToEnd_keys, List.mem_append] at hm'
            rcases hm' with hm' | hm'
            · exact hi.apart q hq.1 (List.mem_filter.1 hm').1
            · simp at hm'; simp [hm'] at hq,
          hi.mmapCap,
          fun q hq => absurd hq (asleep_wakeLoads _ _)⟩
      · cases h
  | configure n b =>
      unfold Decoder.step at h
      simp only at h
      split_ifs at h with hc
      obtain ⟨vs', k, h1, h2, h3, _⟩ := evict_spec d.mmapCapacity n b d.values
      simp only [h1, Option.bind_eq_bind, Option.bind_some, Option.some.injEq] at h
      subst h
      exact ⟨fun x hx => hi.content x (h2.subset hx), (h2.map _).nodup hi.nodup, h3,
        hi.order.sublist (h2.map _), hi.results, hi.flight,
        fun q hq hm => hi.apart q hq ((h2.map (·.1)).subset hm), hi.mmapCap, hi.sleepers⟩

theorem new_cacheInv (files : P → Entry α) (n : Nat) : CacheInv files (Decoder.new P α n) := by
  refine ⟨?_, ?_, ?_, ?_, ?_, ?_, ?_, rfl, ?_⟩ <;> unfold Decoder.new
  · simp
  · simp
  · unfold WithinBudget; simp
  · simp
  · intro t ht p e hte
    rw [List.mem_replicate] at ht
    rw [ht.2] at hte
    rcases hte with hte | hte <;> cases hte
  · intro p
    simp [List.countP_replicate, loadsPath]
  · simp
  · intro p hp
    rw [List.mem_replicate] at hp
    cases hp.2

theorem exec_cacheInv {files : P → Entry α} (as : List (LoadAct P α)) : ∀ {d d' : Decoder P α},
    CacheInv files d → Faithful files d as → d.exec as = some d' → CacheInv files d' := by
  induction as with
  | nil => intro d d' hi _ h; cases h; exact hi
  | cons a as ih =>
      intro d d' hi hf h
      unfold Decoder.exec at h
      cases hs : d.step a with
      | none => rw [hs] at h; simp at h
      | some d1 =>
          rw [hs] at h
          unfold Faithful at hf
          exact ih (loading_step hi hf.1 hs) (hf.2 d1 hs) h

theorem runs_inv {files : P → Entry α} {n : Nat} {d : Decoder P α} (h : Runs files n d) :
    CacheInv files d := by
  obtain ⟨as, hf, h⟩ := h
  exact exec_cacheInv as (new_cacheInv files n) hf h

/-- **C61** (right arrays).  In every interleaving, a load of a path that succeeds returns that file's
arrays, whether they came from the cache or from disk. -/
theorem C61_content {files : P → Entry α} {n : Nat} {d : Decoder P α} (hr : Runs files n d) (i : Nat)
    (p : P) (e : Entry α) (h : d.threads[i]? = some (.out (some (p, .ok e)))) : e = files p :=
  (runs_inv hr).results _ (List.mem_of_getElem? h) p e (.inl rfl)

/-- **C61** (budgets).  At every moment the cache is within its budgets, for the limits now configured. -/
theorem C61_budget {files : P → Entry α} {n : Nat} {d : Decoder P α} (hr : Runs files n d) :
    WithinBudget 16 d.capacity d.byteCapacity d.values := by
  have h := (runs_inv hr).budget
  rw [(runs_inv hr).mmapCap] at h
  exact h

/-- **C61** (recency).  The cache is ordered by last use, so `C61_evict` removes what was least recently
used; no path occurs twice. -/
theorem C61_recency {files : P → Entry α} {n : Nat} {d : Decoder P α} (hr : Runs files n d) :
    (d.values.map (·.1)).Pairwise (UsedAfter d.used) ∧ (d.values.map (·.1)).Nodup :=
  ⟨(runs_inv hr).order, (runs_inv hr).nodup⟩

/-- **C61** (single flight).  No file is read by two threads at once, and no file that is in the cache is
being read. -/
theorem C61_single_flight {files : P → Entry α} {n : Nat} {d : Decoder P α} (hr : Runs files n d)
    (i : Nat) (p : P) (h : d.threads[i]? = some (.loading p)) :
    p ∉ d.values.map (·.1) ∧ ∀ j, d.threads[j]? = some (.loading p) → j = i := by
  have hi := runs_inv hr
  have hpos : 0 < d.threads.countP (loadsPath p) :=
    List.countP_pos_iff.2 ⟨_, List.mem_of_getElem? h, by simp [loadsPath]⟩
  have hfl := hi.flight p
  have hin : p ∈ d.loading := by
    by_contra hn
    rw [if_neg hn] at hfl
    omega
  rw [if_pos hin] at hfl
  refine ⟨hi.apart p hin, fun j hj => ?_⟩
  by_contra hne
  have h1 := countP_setL (loadsPath p) d.threads i _ (.out none) h
  simp only [loadsPath, decide_true, Bool.toNat_true, Bool.toNat_false] at h1
  have h2 : 0 < (d.threads.set i (.out none)).countP (loadsPath p) := by
    refine List.countP_pos_iff.2 ⟨.loading p, ?_, by simp [loadsPath]⟩
    refine List.mem_of_getElem? (i := j) ?_
    rw [List.getElem?_set_ne (Ne.symm hne)]
    exact hj
  omega

/-- **C61** (hits).  A load of a path in the cache returns at once, without reading the file. -/
theorem C61_hit {files : P → Entry α} {n : Nat} {d : Decoder P α} (hr : Runs files n d) (i : Nat) (p : P)
    (h : d.threads[i]? = some (.entering p)) (hc : p ∈ d.values.map (·.1)) :
    ∃ d', d.step (.test i) = some d' ∧ d'.threads[i]? = some (.out (some (p, .ok (files p))))
      ∧ d'.loading = d.loading := by
  have hi := runs_inv hr
  have hnl : p ∉ d.loading := fun hl => hi.apart p hl hc
  obtain ⟨x, hx, hxp⟩ := List.mem_map.1 hc
  have hlt : i < d.threads.length := by
    by_contra hn
    rw [List.getElem?_eq_none (by omega)] at h
    cases h
  unfold Decoder.step
  simp only [h, if_neg hnl]
  cases hf : d.values.find? (fun x => decide (x.1 = p)) with
  | none =>
      rw [List.find?_eq_none] at hf
      exact absurd (by simpa using hxp) (hf x hx)
  | some y =>
      have hy := hi.content _ (List.mem_of_find?_eq_some hf)
      have hyp : y.1 = p := by simpa using List.find?_some hf
      refine ⟨_, rfl, ?_, rfl⟩
      simp only [List.getElem?_set_self hlt]
      rw [← hyp, ← hy]

theorem drop_last {β : Type} (l : List β) (x : β) (k : Nat) (h : k ≤ l.length) :
    x ∈ (l ++ [x]).drop k := by
  rw [List.drop_append_of_le_length h]
  simp

/-- **C61** (kept).  The entry just read is in the cache afterwards, however large it is. -/
theorem C61_kept {files : P → Entry α} {n : Nat} {d : Decoder P α} (hr : Runs files n d) (i : Nat) (p : P)
    (e : Entry α) (h : d.threads[i]? = some (.loaded p (.ok e))) :
    ∃ d', d.step (.publish i) = some d' ∧ (p, e) ∈ d'.values
      ∧ d'.threads[i]? = some (.out (some (p, .ok e))) := by
  have hi := runs_inv hr
  obtain ⟨vs', k, h1, h2, h3, h4, h5, h6, _⟩ := evict_spec d.mmapCapacity d.capacity d.byteCapacity
    (moveToEnd d.values p e)
  have hlt : i < d.threads.length := by
    by_contra hn
    rw [List.getElem?_eq_none (by omega)] at h
    cases h
  unfold Decoder.step
  simp only [h, h1, Option.bind_eq_bind, Option.bind_some]
  refine ⟨_, rfl, ?_, ?_⟩
  · simp only
    rw [hi.mmapCap] at h4
    cases hm : e.mmap
    · have hf : (moveToEnd d.values p e).filter (fun x => !x.2.mmap)
          = (d.values.filter (·.1 ≠ p)).filter (fun x => !x.2.mmap) ++ [(p, e)] := by
        unfold moveToEnd
        rw [List.filter_append]
        simp [hm]
      rw [hf] at h5 h6
      have hmem : (p, e) ∈ vs'.filter (fun x => !x.2.mmap) := by
        rw [h5]
        apply drop_last
        simp only [List.length_append, List.length_singleton] at h6
        omega
      exact (List.mem_filter.1 hmem).1
    · have hf : (moveToEnd d.values p e).filter (·.2.mmap)
          = (d.values.filter (·.1 ≠ p)).filter (·.2.mmap) ++ [(p, e)] := by
        unfold moveToEnd
        rw [List.filter_append]
        simp [hm]
      rw [hf] at h4
      have hmem : (p, e) ∈ vs'.filter (·.2.mmap) := by
        rw [h4]
        apply drop_last
        simp only [List.length_append, List.length_singleton]
        omega
      exact (List.mem_filter.1 hmem).1
  · simp [wakeLoads, List.getElem?_map, List.getElem?_set, hlt]

/-- Remaining work of a call. -/
def loadWeight (n : Nat) : LoadPhase P α → Nat
  | .out _ => 0
  | .loaded _ _ => n + 1
  | .loading _ => n + 2
  | .asleep _ => n + 3
  | .entering _ => n + 4

theorem sum_setL (w : LoadPhase P α → Nat) : ∀ (l : List (LoadPhase P α)) (i : Nat) (a b : LoadPhase P α),
    l[i]? = some a → ((l.set i b).map w).sum + w a = (l.map w).sum + w b
  | [], i, a, b, h => by simp at h
  | x :: l, 0, a, b, h => by
      simp at h
      subst h
      simp only [List.set_cons_zero, List.map_cons, List.sum_cons]
      omega
  | x :: l, i + 1, a, b, h => by
      simp only [List.getElem?_cons_succ] at h
      have := sum_setL w l i a b h
      simp only [List.set_cons_succ, List.map_cons, List.sum_cons]
      omega

theorem sum_wakeLoads (n : Nat) (l : List (LoadPhase P α)) :
    ((wakeLoads l).map (loadWeight n)).sum ≤ (l.map (loadWeight n)).sum + l.length := by
  induction l with
  | nil => simp [wakeLoads]
  | cons x l ih =>
      unfold wakeLoads at ih ⊢
      simp only [List.map_cons, List.sum_cons, List.length_cons]
      cases x <;> simp only [loadWeight] <;> omega

/-- Steps of the loads already requested. -/
def LoadAct.settles : LoadAct P α → Bool
  | .call _ _ => false
  | .configure _ _ => false
  | _ => true

theorem load_weight {d d' : Decoder P α} {a : LoadAct P α} (h : d.step a = some d')
    (hs : a.settles = true) :
    (d'.threads.map (loadWeight d.threads.length)).sum < (d.threads.map (loadWeight d.threads.length)).sum
      ∧ d'.threads.length = d.threads.length := by
  cases a with
  | call i p => cases hs
  | configure m b => cases hs
  | test i =>
      unfold Decoder.step at h
      simp only at h
      split at h
      · next p hl =>
        split_ifs at h with hc
        · cases h
          have := sum_setL (loadWeight d.threads.length) d.threads i _ (.asleep p) hl
          simp only [loadWeight] at this
          exact ⟨by simp only; omega, by simp⟩
        · split at h
          · next p0 e _ =>
            cases h
            have := sum_setL (loadWeight d.threads.length) d.threads i _ (.out (some (p, .ok e))) hl
            simp only [loadWeight] at this
            exact ⟨by simp only; omega, by simp⟩
          · cases h
            have := sum_setL (loadWeight d.threads.length) d.threads i _ (.loading p) hl
            simp only [loadWeight] at this
            exact ⟨by simp only; omega, by simp⟩
      · cases h
  | fetch i r =>
      unfold Decoder.step at h
      simp only at h
      split at h
      · next p hl =>
        cases h
        have := sum_setL (loadWeight d.threads.length) d.threads i _ (.loaded p r) hl
        simp only [loadWeight] at this
        exact ⟨by simp only; omega, by simp⟩
      · cases h
  | publish i =>
      unfold Decoder.step at h
      simp only at h
      have key : ∀ (p : P) (r : Outcome α) (o : Option (P × Outcome α)),
          d.threads[i]? = some (.loaded p r) →
          ((wakeLoads (d.threads.set i (.out o))).map (loadWeight d.threads.length)).sum
            < (d.threads.map (loadWeight d.threads.length)).sum := by
        intro p r o hl
        have h1 := sum_setL (loadWeight d.threads.length) d.threads i _ (.out o) hl
        have h2 := sum_wakeLoads d.threads.length (d.threads.set i (.out o))
        simp only [loadWeight, List.length_set] at h1 h2
        omega
      split at h
      · next p hl =>
        cases h
        exact ⟨key _ _ _ hl, by simp [wakeLoads]⟩
      · next p e hl =>
        obtain ⟨vs', k, h1, _⟩ := evict_spec d.mmapCapacity d.capacity d.byteCapacity
          (moveToEnd d.values p e)
        simp only [h1, Option.bind_eq_bind, Option.bind_some, Option.some.injEq] at h
        subst h
        exact ⟨key _ _ _ hl, by simp [wakeLoads]⟩
      · cases h

theorem exec_loadWeight (as : List (LoadAct P α)) : ∀ {d d' : Decoder P α},
    (∀ a ∈ as, LoadAct.settles a = true) → d.exec as = some d' →
    as.length ≤ (d.threads.map (loadWeight d.threads.length)).sum := by
  induction as with
  | nil => intro d d' _ _; exact Nat.zero_le _
  | cons a as ih =>
      intro d d' hs h
      unfold Decoder.exec at h
      cases hst : d.step a with
      | none => rw [hst] at h; simp at h
      | some d1 =>
          rw [hst] at h
          obtain ⟨h1, h2⟩ := load_weight hst (hs a List.mem_cons_self)
          have := ih (fun x hx => hs x (List.mem_cons_of_mem _ hx)) h
          rw [h2] at this
          rw [List.length_cons]
          omega

/-- **C61** (every load finishes).  The steps of the loads already requested form only finite schedules,
and as long as a load is unfinished one of its steps is possible — also after failed reads, which are
reported to their caller only.  The cache's consistency check never fails. -/
theorem C61_all_finish {files : P → Entry α} {n : Nat} {d : Decoder P α} (hr : Runs files n d) :
    (∃ N, ∀ as d', (∀ a ∈ as, LoadAct.settles a = true) → d.exec as = some d' → as.length ≤ N)
    ∧ ((∃ t ∈ d.threads, ∀ o, t ≠ .out o) →
        ∃ a : LoadAct P α, a.settles = true ∧ (d.step a).isSome = true) := by
  refine ⟨⟨_, fun as d' hs h => exec_loadWeight as hs h⟩, ?_⟩
  rintro ⟨t, ht, hout⟩
  have hi := runs_inv hr
  have active : ∀ q ∈ d.threads, (∀ p, q ≠ .asleep p) → (∀ o, q ≠ .out o) →
      ∃ a : LoadAct P α, a.settles = true ∧ (d.step a).isSome = true := by
    intro q hq h1 h2
    obtain ⟨i, hgi⟩ := List.mem_iff_getElem?.1 hq
    cases q with
    | out o => exact absurd rfl (h2 o)
    | asleep p => exact absurd rfl (h1 p)
    | entering p =>
        refine ⟨.test i, rfl, ?_⟩
        unfold Decoder.step
        simp only [hgi]
        split_ifs
        · rfl
        · split <;> rfl
    | loading p =>
        refine ⟨.fetch i .error, rfl, ?_⟩
        unfold Decoder.step
        simp only [hgi]
        rfl
    | loaded p r =>
        refine ⟨.publish i, rfl, ?_⟩
        unfold Decoder.step
        cases r with
        | error => simp only [hgi]; rfl
        | ok e =>
            obtain ⟨vs', k, h1, _⟩ := evict_spec d.mmapCapacity d.capacity d.byteCapacity
              (moveToEnd d.values p e)
            simp only [hgi, h1, Option.bind_eq_bind, Option.bind_some]
            rfl
  cases t with
  | asleep p =>
      have hl := hi.sleepers p ht
      have hf := hi.flight p
      rw [if_pos hl] at hf
      obtain ⟨q, hq, hb⟩ := List.countP_pos_iff.1 (show 0 < d.threads.countP (loadsPath p) by omega)
      refine active q hq ?_ ?_ <;> intro x hx <;> subst hx <;> cases hb
  | out o => exact absurd rfl (hout o)
  | entering p => exact active _ ht (by simp) hout
  | loading p => exact active _ ht (by simp) hout
  | loaded p r => exact active _ ht (by simp) hout

/-- **C61** (failed reads).  A failed read leaves the cache as it was, lets the next thread try, and is
reported to its caller. -/
theorem C61_failed_read {files : P → Entry α} {n : Nat} {d : Decoder P α} (hr : Runs files n d) (i : Nat)
    (p : P) (h : d.threads[i]? = some (.loaded p .error)) :
    ∃ d', d.step (.publish i) = some d' ∧ d'.values = d.values ∧ p ∉ d'.loading
      ∧ d'.threads[i]? = some (.out (some (p, .error))) ∧ ∀ q, LoadPhase.asleep q ∉ d'.threads := by
  have hlt : i < d.threads.length := by
    by_contra hn
    rw [List.getElem?_eq_none (by omega)] at h
    cases h
  unfold Decoder.step
  simp only [h]
  refine ⟨_, rfl, rfl, by simp, ?_, fun q => asleep_wakeLoads _ _⟩
  simp [wakeLoads, List.getElem?_map, List.getElem?_set, hlt]

/-! ### Non-vacuity -/

/-- Two threads ask for the same file: one reads, the other waits and gets the cached arrays. -/
example : ((Decoder.new Nat Nat 2).exec [.call 0 7, .call 1 7, .test 0, .test 1,
    .fetch 0 (.ok ⟨70, false, 100⟩), .publish 0, .test 1]).map (fun d => (d.values, d.threads))
    = some ([(7, ⟨70, false, 100⟩)],
        [.out (some (7, .ok ⟨70, false, 100⟩)), .out (some (7, .ok ⟨70, false, 100⟩))]) := by decide

/-- Byte budget 100: the older loaded entry goes, the memory-mapped one stays. -/
example : evict 16 6 100 [((1 : Nat), (⟨10, true, 500⟩ : Entry Nat)), (2, ⟨20, false, 60⟩), (3, ⟨30, false, 70⟩)]
    = some [(1, ⟨10, true, 500⟩), (3, ⟨30, false, 70⟩)] := by decide

end Verif.Telemetry
