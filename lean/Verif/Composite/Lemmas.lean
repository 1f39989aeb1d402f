import Verif.Composite.Weights

/-!
# What a composite cursor will still deliver
-/
namespace Verif.Composite
variable {σ ρ : Type}

/-- What is assumed of the children: child `i` in state `s` delivers the records `rem i s`, in that order, whatever
the sizes of the requests.  (`C15` and `C20` prove this of the file sources, `C23_composite_child` of a composite.) -/
structure Streams (S : Src σ ρ) where
  rem : Nat → σ → List ρ
  one : ∀ i s, (S.next1 i s).1 = (rem i s).head? ∧ rem i (S.next1 i s).2 = (rem i s).tail
  many : ∀ i f, S.many i = some f → ∀ k s, 0 < k →
    rem i s = (f k s).1 ++ rem i (f k s).2 ∧ (f k s).1.length ≤ k ∧ ((f k s).1 = [] → rem i s = [])

/-- Queue update. -/
def upd (Q : Nat → List ρ) (i : Nat) (l : List ρ) : Nat → List ρ := fun j => if j = i then l else Q j

/-- One pass over the schedule, each child giving its next record if it has one. -/
def wout : List Nat → (Nat → List ρ) → List (Nat × ρ)
  | [], _ => []
  | i :: r, Q => (Q i).head?.toList.map (fun x => (i, x)) ++ wout r (upd Q i (Q i).tail)

/-- Queues after a pass. -/
def after (sched : List Nat) (Q : Nat → List ρ) : Nat → List ρ := fun i => (Q i).drop (sched.count i)

/-- `n` passes. -/
def wcyc (sched : List Nat) : Nat → (Nat → List ρ) → List (Nat × ρ)
  | 0, _ => []
  | n + 1, Q => wout sched Q ++ wcyc sched n (after sched Q)

theorem upd_tail (Q : Nat → List ρ) (i : Nat) (r : List Nat) :
    after r (upd Q i (Q i).tail) = after (i :: r) Q := by
  funext j
  unfold after upd
  by_cases h : j = i
  · subst h; simp [List.count_cons, Nat.add_comm]
  · have : (i == j) = false := by simpa using fun h' => h h'.symm
    simp [h, List.count_cons, this]

theorem wout_congr : ∀ (sched : List Nat) (Q Q' : Nat → List ρ),
    (∀ i, (Q i).take (sched.count i) = (Q' i).take (sched.count i)) → wout sched Q = wout sched Q'
  | [], _, _, _ => rfl
  | i :: r, Q, Q', h => by
    have hi := h i
    simp only [List.count_cons_self] at hi
    have hh : (Q i).head? = (Q' i).head? := by
      have := congrArg List.head? hi
      simpa [List.head?_take] using this
    simp only [wout, hh]
    congr 1
    apply wout_congr
    intro j
    unfold upd
    by_cases hj : j = i
    · subst hj
      simp only [if_true]
      have := congrArg List.tail hi
      rw [← List.drop_one, ← List.drop_one, List.drop_take, List.drop_take, List.drop_one, List.drop_one] at this
      simpa using this
    · have h2 : (i == j) = false := by simpa using fun h' => hj h'.symm
      have := h j
      simp only [List.count_cons, h2, Bool.false_eq_true, if_false, Nat.add_zero] at this
      simpa [hj] using this

theorem wcyc_congr (sched : List Nat) : ∀ (n : Nat) (Q Q' : Nat → List ρ),
    (∀ i, (Q i).take (n * sched.count i) = (Q' i).take (n * sched.count i)) → wcyc sched n Q = wcyc sched n Q'
  | 0, _, _, _ => rfl
  | n + 1, Q, Q', h => by
    simp only [wcyc]
    have h1 : wout sched Q = wout sched Q' := by
      apply wout_congr
      intro i
      have := congrArg (List.take (sched.count i)) (h i)
      rw [List.take_take, List.take_take] at this
      have e : min (sched.count i) ((n + 1) * sched.count i) = sched.count i :=
        Nat.min_eq_left (by rw [Nat.add_mul]; omega)
      rwa [e] at this
    rw [h1, wcyc_congr sched n (after sched Q) (after sched Q')]
    intro i
    have := congrArg (List.drop (sched.count i)) (h i)
    rw [List.drop_take, List.drop_take] at this
    have e : (n + 1) * sched.count i - sched.count i = n * sched.count i := by rw [Nat.add_mul]; omega
    rwa [e] at this

theorem wcyc_add (sched : List Nat) : ∀ (a b : Nat) (Q : Nat → List ρ),
    wcyc sched (a + b) Q = wcyc sched a Q ++ wcyc sched b (fun i => (Q i).drop (a * sched.count i))
  | 0, b, Q => by simp [wcyc]
  | a + 1, b, Q => by
    rw [Nat.succ_add]
    simp only [wcyc, List.append_assoc]
    rw [wcyc_add sched a b]
    congr 3
    funext i
    unfold after
    rw [List.drop_drop, Nat.add_mul]
    congr 1; omega

theorem wout_nil : ∀ (sched : List Nat) (Q : Nat → List ρ), wout sched Q = [] ↔ ∀ i ∈ sched, Q i = []
  | [], Q => by simp [wout]
  | i :: r, Q => by
    simp only [wout, List.append_eq_nil_iff, List.map_eq_nil_iff, List.mem_cons, forall_eq_or_imp]
    rw [wout_nil r]
    cases hq : Q i with
    | nil =>
      simp only [List.head?_nil, Option.toList_none, true_and]
      constructor
      · intro h j hj
        have := h j hj
        unfold upd at this
        by_cases hji : j = i
        · subst hji; exact hq
        · simpa [hji] using this
      · intro h j hj
        unfold upd
        by_cases hji : j = i
        · simp [hji]
        · simpa [hji] using h j hj
    | cons a t => simp

theorem wcyc_nil (sched : List Nat) : ∀ (n : Nat) (Q : Nat → List ρ), (∀ i ∈ sched, Q i = []) → wcyc sched n Q = []
  | 0, _, _ => rfl
  | n + 1, Q, h => by
    simp only [wcyc]
    rw [(wout_nil sched Q).mpr h, wcyc_nil sched n]
    · rfl
    · intro i hi; simp [after, h i hi]

/-- Number of records left in children `0 .. n-1`. -/
def qtotal (n : Nat) (Q : Nat → List ρ) : Nat := ((List.range n).map fun i => (Q i).length).sum

theorem qtotal_ge (n : Nat) (Q : Nat → List ρ) (i : Nat) (h : i < n) : (Q i).length ≤ qtotal n Q := by
  unfold qtotal
  induction n with
  | zero => omega
  | succ n ih =>
    simp only [List.range_succ, List.map_append, List.sum_append, List.map_cons, List.map_nil, List.sum_cons,
      List.sum_nil]
    by_cases hi : i = n
    · subst hi; omega
    · have := ih (by omega); omega

theorem qtotal_mono (n : Nat) (Q Q' : Nat → List ρ) (h : ∀ i < n, (Q' i).length ≤ (Q i).length) :
    qtotal n Q' ≤ qtotal n Q := by
  unfold qtotal
  induction n with
  | zero => simp
  | succ n ih =>
    simp only [List.range_succ, List.map_append, List.sum_append, List.map_cons, List.map_nil, List.sum_cons,
      List.sum_nil]
    have := ih fun i hi => h i (by omega)
    have := h n (by omega)
    omega

theorem wcyc_stable (sched : List Nat) (n : Nat) (hs : ∀ i ∈ sched, i < n) (Q : Nat → List ρ) (a : Nat)
    (h : qtotal n Q ≤ a) : wcyc sched a Q = wcyc sched (qtotal n Q) Q := by
  obtain ⟨b, rfl⟩ := Nat.exists_eq_add_of_le h
  rw [wcyc_add, wcyc_nil sched b, List.append_nil]
  intro i hi
  rw [List.drop_eq_nil_iff]
  have h1 := qtotal_ge n Q i (hs i hi)
  have h2 : 1 ≤ sched.count i := List.one_le_count_iff.mpr hi
  calc (Q i).length ≤ qtotal n Q := h1
    _ = qtotal n Q * 1 := by omega
    _ ≤ qtotal n Q * sched.count i := Nat.mul_le_mul_left _ h2

/-- Complete cycles that children `0 .. n-1` can still fill: the least `length / weight`. -/
def qfull (weights : List Nat) (Q : Nat → List ρ) : Nat :=
  completed ((List.range weights.length).map Q) weights

theorem foldl_min_le (l : List Nat) : ∀ (a k : Nat), k ≤ l.foldl min a ↔ k ≤ a ∧ ∀ x ∈ l, k ≤ x := by
  induction l with
  | nil => intro a k; simp
  | cons b l ih =>
    intro a k
    rw [List.foldl_cons, ih]
    simp only [List.mem_cons, forall_eq_or_imp]
    constructor
    · rintro ⟨h1, h2⟩; exact ⟨by omega, by omega, h2⟩
    · rintro ⟨h1, h2, h3⟩; exact ⟨by omega, h3⟩

theorem completed_le (envs : List (List ρ)) (weights : List Nat) (hl : envs.length = weights.length)
    (hne : weights ≠ []) (k : Nat) :
    k ≤ completed envs weights ↔ ∀ i < weights.length, k ≤ (envs.getD i []).length / weights.getD i 0 := by
  have hall : (∀ i < weights.length, k ≤ (envs.getD i []).length / weights.getD i 0) ↔
      ∀ x ∈ (envs.zip weights).map (fun x => x.1.length / x.2), k ≤ x := by
    constructor
    · intro h x hx
      rw [List.mem_map] at hx
      obtain ⟨y, hy, rfl⟩ := hx
      obtain ⟨i, hi, rfl⟩ := List.getElem_of_mem hy
      have hi' : i < weights.length := by simp [hl] at hi; exact hi
      have := h i hi'
      simpa [List.getD_eq_getElem?_getD, hi', hl] using this
    · intro h i hi
      have := h ((envs[i]'(by omega)).length / weights[i]) (by
        rw [List.mem_map]
        exact ⟨(envs[i]'(by omega), weights[i]), by
          rw [List.mem_iff_getElem]; exact ⟨i, by simp [hl, hi], by simp⟩, rfl⟩)
      simpa [List.getD_eq_getElem?_getD, hi, hl] using this
  rw [hall]
  unfold completed
  cases hz : (envs.zip weights).map (fun x => x.1.length / x.2) with
  | nil =>
    exfalso
    have := congrArg List.length hz
    simp [hl] at this
    exact hne this
  | cons a rest => simp only [foldl_min_le, List.mem_cons, forall_eq_or_imp]

theorem qfull_le {weights : List Nat} (hne : weights ≠ []) (hpos : ∀ w ∈ weights, 0 < w) (Q : Nat → List ρ) (k : Nat) :
    k ≤ qfull weights Q ↔ ∀ i < weights.length, k * weights.getD i 0 ≤ (Q i).length := by
  unfold qfull
  rw [completed_le _ _ (by simp) hne]
  constructor
  · intro h i hi
    have := h i hi
    simp only [List.getD_eq_getElem?_getD, List.getElem?_map, List.getElem?_range, hi, Option.map_some,
      Option.getD_some] at this
    rw [Nat.le_div_iff_mul_le (by simp [List.getElem?_eq_getElem hi, hpos])] at this
    simpa [List.getD_eq_getElem?_getD] using this
  · intro h i hi
    have := h i hi
    simp only [List.getD_eq_getElem?_getD, List.getElem?_map, List.getElem?_range, hi, Option.map_some,
      Option.getD_some]
    rw [Nat.le_div_iff_mul_le (by simp [List.getElem?_eq_getElem hi, hpos])]
    simpa [List.getD_eq_getElem?_getD] using this

/-! ### Children -/

theorem childManyLoop_spec {S : Src σ ρ} (L : Streams S) (i limit : Nat) : ∀ (fuel : Nat) (acc : List ρ) (s : σ),
    acc.length ≤ limit → limit < fuel + acc.length →
    (childManyLoop S i limit fuel acc s).1 = acc ++ (L.rem i s).take (limit - acc.length) ∧
    L.rem i (childManyLoop S i limit fuel acc s).2.1 = (L.rem i s).drop (limit - acc.length) ∧
    ((childManyLoop S i limit fuel acc s).2.2 = true → L.rem i (childManyLoop S i limit fuel acc s).2.1 = [])
  | 0, acc, s, h1, h2 => by omega
  | fuel + 1, acc, s, h1, h2 => by
    unfold childManyLoop
    by_cases hlt : acc.length < limit
    · rw [if_pos hlt]
      cases hm : S.many i with
      | some f =>
        simp only
        obtain ⟨m1, m2, m3⟩ := L.many i f hm (limit - acc.length) s (by omega)
        by_cases he : (f (limit - acc.length) s).1 = []
        · rw [if_pos he]
          have hr := m3 he
          rw [he, hr, List.nil_append] at m1
          simp only [hr, ← m1]
          simp
        · rw [if_neg he]
          have hpos : 0 < (f (limit - acc.length) s).1.length := List.length_pos_iff.mpr he
          obtain ⟨i1, i2, i3⟩ := childManyLoop_spec L i limit fuel (acc ++ (f (limit - acc.length) s).1)
            (f (limit - acc.length) s).2 (by simp; omega) (by simp; omega)
          simp only [List.length_append] at i1 i2
          refine ⟨?_, ?_, i3⟩
          · rw [i1, m1, List.take_append, List.append_assoc, List.take_of_length_le m2]
            congr 3; omega
          · rw [i2]
            conv_rhs => rw [m1]
            rw [List.drop_append, List.drop_eq_nil_of_le m2, List.nil_append]
            congr 1; omega
      | none =>
        simp only
        obtain ⟨o1, o2⟩ := L.one i s
        cases hn : (S.next1 i s).1 with
        | none =>
          rw [hn] at o1
          have hr : L.rem i s = [] := List.head?_eq_none_iff.mp o1.symm
          rw [hr] at o2
          simp only [hr, o2]
          simp
        | some x =>
          rw [hn] at o1
          simp only
          have hr : L.rem i s = x :: (L.rem i s).tail := by
            cases hl : L.rem i s with
            | nil => rw [hl] at o1; simp at o1
            | cons a t => rw [hl] at o1; simp at o1; simp [o1]
          obtain ⟨i1, i2, i3⟩ := childManyLoop_spec L i limit fuel (acc ++ [x]) (S.next1 i s).2
            (by simp; omega) (by simp; omega)
          simp only [List.length_append, List.length_singleton] at i1 i2
          have e : limit - acc.length = limit - (acc.length + 1) + 1 := by omega
          refine ⟨?_, ?_, i3⟩
          · rw [i1, o2, hr, e, List.take_succ_cons]; simp
          · rw [i2, o2]
            conv_rhs => rw [hr, e, List.drop_succ_cons]
    · rw [if_neg hlt]
      have : limit - acc.length = 0 := by omega
      simp [this]

theorem childMany_spec {S : Src σ ρ} (L : Streams S) (i limit : Nat) (s : σ) (e : Bool)
    (he : e = true → L.rem i s = []) :
    (childMany S i limit s e).1 = (L.rem i s).take limit ∧
    L.rem i (childMany S i limit s e).2.1 = (L.rem i s).drop limit ∧
    ((childMany S i limit s e).2.2 = true → L.rem i (childMany S i limit s e).2.1 = []) := by
  unfold childMany
  cases e with
  | true => have := he rfl; simp [this]
  | false =>
    have := childManyLoop_spec L i limit (limit + 1) [] s (by simp) (by simp)
    simpa using this

/-! ### The buffered walk -/

theorem walkPos_spec (envs : List (List ρ)) : ∀ (sched positions : List Nat),
    (∀ i ∈ sched, i < positions.length) →
    (walkPos envs sched positions).1 = wout sched (fun i => (envs.getD i []).drop (positions.getD i 0)) ∧
    (walkPos envs sched positions).2.length = positions.length ∧
    ∀ i, (envs.getD i []).drop ((walkPos envs sched positions).2.getD i 0) =
      ((envs.getD i []).drop (positions.getD i 0)).drop (sched.count i)
  | [], positions, _ => by simp [walkPos, wout]
  | i :: r, positions, h => by
    have hi := h i (by simp)
    have hr : ∀ j ∈ r, j < positions.length := fun j hj => h j (by simp [hj])
    unfold walkPos wout
    set Q : Nat → List ρ := fun i => (envs.getD i []).drop (positions.getD i 0) with hQ
    have hhead : (Q i).head? = (envs.getD i [])[positions.getD i 0]? := by
      rw [hQ]; simp [List.head?_drop]
    cases hx : (envs.getD i [])[positions.getD i 0]? with
    | none =>
      simp only
      have hQi : Q i = [] := by rw [← List.head?_eq_none_iff, hhead, hx]
      obtain ⟨i1, i2, i3⟩ := walkPos_spec envs r positions hr
      have hupd : upd Q i (Q i).tail = Q := by
        funext j; unfold upd; split
        · rename_i hj; subst hj; simp [hQi]
        · rfl
      refine ⟨?_, i2, ?_⟩
      · rw [hupd, hQi, i1]; rfl
      · intro j
        rw [i3 j]
        by_cases hj : j = i
        · subst hj
          have : (envs.getD j []).drop (positions.getD j 0) = [] := hQi
          rw [this, List.drop_nil, List.drop_nil]
        · have : (i == j) = false := by simpa using fun h' => hj h'.symm
          simp [List.count_cons, this]
    | some x =>
      simp only
      have hp : ∀ j, (positions.modify i (· + 1)).getD j 0 = positions.getD j 0 + if j = i then 1 else 0 := by
        intro j
        simp only [List.getD_eq_getElem?_getD, List.getElem?_modify]
        by_cases hj : j = i
        · subst hj; simp [List.getElem?_eq_getElem hi]
        · have : ¬ i = j := fun h' => hj h'.symm
          simp [hj, this]
      obtain ⟨i1, i2, i3⟩ := walkPos_spec envs r (positions.modify i (· + 1)) (by simpa using hr)
      have hupd : upd Q i (Q i).tail =
          fun j => (envs.getD j []).drop ((positions.modify i (· + 1)).getD j 0) := by
        funext j
        rw [hp j]
        unfold upd
        by_cases hj : j = i
        · subst hj; simp [hQ, List.tail_drop]
        · simp [hj, hQ]
      refine ⟨?_, by simp [i2], ?_⟩
      · rw [hupd, hhead, hx, i1]; simp
      · intro j
        rw [i3 j, hp j]
        by_cases hj : j = i
        · subst hj; simp [List.drop_drop, List.count_cons]; congr 1; omega
        · have : (i == j) = false := by simpa using fun h' => hj h'.symm
          simp [hj, List.count_cons, this]

theorem walkCycles_spec (envs : List (List ρ)) (sched : List Nat) : ∀ (n : Nat) (positions : List Nat),
    (∀ i ∈ sched, i < positions.length) →
    (walkCycles envs sched n positions).1 = wcyc sched n (fun i => (envs.getD i []).drop (positions.getD i 0))
  | 0, _, _ => rfl
  | n + 1, positions, h => by
    obtain ⟨h1, h2, h3⟩ := walkPos_spec envs sched positions h
    simp only [walkCycles, wcyc]
    rw [walkCycles_spec envs sched n _ (by rw [h2]; exact h), h1]
    congr 2
    funext i
    exact h3 i

/-! ### Cursors -/

/-- Records child `i` will still deliver. -/
def queue {S : Src σ ρ} (L : Streams S) (kids : List σ) (i : Nat) : List ρ :=
  match kids[i]? with
  | none => []
  | some s => L.rem i s

/-- Complete or partial cycles still to come from the children. -/
def restOf {S : Src σ ρ} (_ : Streams S) (Q : Nat → List ρ) : List (Nat × ρ) :=
  wcyc S.schedule (if S.sync then qfull S.weights Q else qtotal S.weights.length Q) Q

/-- What the cursor will still deliver. -/
def remaining {S : Src σ ρ} (L : Streams S) (c : Cursor σ ρ) : List (Nat × ρ) :=
  c.pending.drop c.pos ++ if c.terminal then [] else restOf L (queue L c.kids)

structure Inv {S : Src σ ρ} (L : Streams S) (c : Cursor σ ρ) : Prop where
  kids : c.kids.length = S.weights.length
  exh : c.exhausted.length = S.weights.length
  flag : ∀ i, c.exhausted.getD i false = true → queue L c.kids i = []
  term : c.terminal = true → c.pending.drop c.pos = []

/-- The source was constructed (lines 52-69). -/
def Src.Built (S : Src σ ρ) : Prop := weightedCycle S.weights = some S.schedule

theorem built_count {S : Src σ ρ} (hb : S.Built) (i : Nat) : S.schedule.count i = S.weights.getD i 0 := by
  obtain ⟨_, _, _, h4, h5, _⟩ := weightedCycle_spec hb
  by_cases hi : i < S.weights.length
  · exact h5 i hi
  · rw [List.count_eq_zero_of_not_mem fun h => hi (h4 i h)]
    simp [List.getD_eq_getElem?_getD, List.getElem?_eq_none (Nat.le_of_not_lt hi)]

theorem built_mem {S : Src σ ρ} (hb : S.Built) (i : Nat) : i ∈ S.schedule ↔ i < S.weights.length := by
  obtain ⟨_, h2, _, h4, h5, _⟩ := weightedCycle_spec hb
  refine ⟨h4 i, fun hi => ?_⟩
  have := h5 i hi
  have hp : 0 < S.weights.getD i 0 := by
    have := h2 _ (List.getElem_mem hi)
    simpa [List.getD_eq_getElem?_getD, List.getElem?_eq_getElem hi] using this
  exact List.count_pos_iff.mp (by omega)

/-- The outcome of filling the buffer. -/
def FillSpec {S : Src σ ρ} (L : Streams S) (c : Cursor σ ρ) (r : Bool × Cursor σ ρ) : Prop :=
  r.2.epoch = c.epoch ∧ r.2.cycle = c.cycle ∧ r.2.rank = c.rank ∧ Inv L r.2 ∧
  (r.1 = true → r.2.terminal = false ∧ r.2.pos = 0 ∧ r.2.pending ≠ [] ∧
    restOf L (queue L c.kids) = r.2.pending ++ restOf L (queue L r.2.kids)) ∧
  (r.1 = false → r.2.terminal = true ∧ r.2.pending = [] ∧ restOf L (queue L c.kids) = [])

theorem pulled_getElem {S : Src σ ρ} {L : Streams S} {c : Cursor σ ρ} (hi : Inv L c) (count i : Nat)
    (h : i < S.weights.length) :
    (pulled S c count)[i]? = some (childMany S i (S.weights.getD i 0 * count) (c.kids[i]'(by rw [hi.kids]; exact h))
      (c.exhausted[i]'(by rw [hi.exh]; exact h))) := by
  unfold pulled
  have h1 : i < c.kids.length := by rw [hi.kids]; exact h
  have h2 : i < c.exhausted.length := by rw [hi.exh]; exact h
  simp [List.getElem?_mapIdx, List.getElem?_zip_eq_some, List.getD_eq_getElem?_getD, h, h1, h2]

theorem pulled_length {S : Src σ ρ} {L : Streams S} {c : Cursor σ ρ} (hi : Inv L c) (count : Nat) :
    (pulled S c count).length = S.weights.length := by
  simp [pulled, hi.kids, hi.exh]

theorem pulled_queues {S : Src σ ρ} {L : Streams S} {c : Cursor σ ρ} (hi : Inv L c) (count : Nat) (i : Nat) :
    ((pulled S c count).map (·.1)).getD i [] = (queue L c.kids i).take (S.weights.getD i 0 * count) ∧
    queue L ((pulled S c count).map (·.2.1)) i = (queue L c.kids i).drop (S.weights.getD i 0 * count) ∧
    (((pulled S c count).map (·.2.2)).getD i false = true → queue L ((pulled S c count).map (·.2.1)) i = []) := by
  by_cases h : i < S.weights.length
  · have hg := pulled_getElem hi count i h
    have h1 : i < c.kids.length := by rw [hi.kids]; exact h
    have h2 : i < c.exhausted.length := by rw [hi.exh]; exact h
    have hq : queue L c.kids i = L.rem i c.kids[i] := by simp [queue, List.getElem?_eq_getElem h1]
    obtain ⟨s1, s2, s3⟩ := childMany_spec L i (S.weights.getD i 0 * count) c.kids[i] c.exhausted[i] (by
      intro he
      rw [← hq]
      apply hi.flag
      simp [List.getD_eq_getElem?_getD, List.getElem?_eq_getElem h2, he])
    have hq2 : queue L ((pulled S c count).map (·.2.1)) i =
        L.rem i (childMany S i (S.weights.getD i 0 * count) c.kids[i] c.exhausted[i]).2.1 := by
      simp [queue, List.getElem?_map, hg]
    refine ⟨?_, ?_, ?_⟩
    · rw [List.getD_eq_getElem?_getD, List.getElem?_map, hg, hq]; simpa using s1
    · rw [hq2, hq, s2]
    · rw [hq2, List.getD_eq_getElem?_getD, List.getElem?_map, hg]; simpa using s3
  · have h1 : c.kids.length ≤ i := by rw [hi.kids]; omega
    have h2 : (pulled S c count).length ≤ i := by rw [pulled_length hi]; omega
    refine ⟨?_, ?_, ?_⟩ <;> simp [queue, List.getD_eq_getElem?_getD, List.getElem?_eq_none h1, List.getElem?_eq_none h2]

theorem fillCycles_spec {S : Src σ ρ} (hb : S.Built) (L : Streams S) (c : Cursor σ ρ) (hi : Inv L c) (count : Nat)
    (hc : 0 < count) (ht : c.terminal = false) (hp : c.pending = []) : FillSpec L c (fillCycles S c count) := by
  obtain ⟨hne, hpos, _, hmem, hcnt, _⟩ := weightedCycle_spec hb
  set Q := queue L c.kids with hQ
  set envs := (pulled S c count).map (·.1) with henvs
  set kids' := (pulled S c count).map (·.2.1) with hkids'
  set Q' := queue L kids' with hQ'
  have henv : ∀ i, envs.getD i [] = (Q i).take (S.weights.getD i 0 * count) := fun i => (pulled_queues hi count i).1
  have hdrop : ∀ i, Q' i = (Q i).drop (S.weights.getD i 0 * count) := fun i => (pulled_queues hi count i).2.1
  have hlen : envs.length = S.weights.length := by rw [henvs, List.length_map, pulled_length hi]
  have hwalk : ∀ n ≤ count, (walkCycles envs S.schedule n (List.replicate S.weights.length 0)).1 =
      wcyc S.schedule n Q := by
    intro n hn
    rw [walkCycles_spec _ _ _ _ (by simpa using hmem)]
    apply wcyc_congr
    intro i
    have e0 : (List.replicate S.weights.length 0).getD i 0 = 0 := by
      rw [List.getD_eq_getElem?_getD, List.getElem?_replicate]; split <;> rfl
    rw [e0, List.drop_zero, henv i, List.take_take, built_count hb i]
    congr 1
    rw [Nat.mul_comm n]
    exact Nat.min_eq_left (Nat.mul_le_mul_left _ hn)
  have hQ'e : Q' = fun i => (Q i).drop (count * S.schedule.count i) := by
    funext i; rw [hdrop i, built_count hb i, Nat.mul_comm]
  have invOf : ∀ (p : List (Nat × ρ)) (k ci : Nat) (t : Bool), (t = true → p.drop k = []) →
      Inv L ⟨c.epoch, c.cycle, c.rank, kids', (pulled S c count).map (·.2.2), p, k, ci, t⟩ := by
    intro p k ci t hpk
    refine ⟨?_, ?_, fun i => (pulled_queues hi count i).2.2, hpk⟩
    · simp only [hkids', List.length_map]; exact pulled_length hi count
    · simp only [List.length_map]; exact pulled_length hi count
  -- an empty walk of the whole request means that nothing is left
  have hempty : ∀ n, 0 < n → wcyc S.schedule n Q = [] → ∀ a, wcyc S.schedule a Q = [] := by
    intro n hn h a
    cases n with
    | zero => omega
    | succ n =>
      simp only [wcyc, List.append_eq_nil_iff] at h
      exact wcyc_nil _ _ _ ((wout_nil _ _).mp h.1)
  unfold fillCycles
  simp only
  by_cases hsync : S.sync = true
  · have hcomp : completed envs S.weights = min count (qfull S.weights Q) := by
      have key : ∀ k, k ≤ completed envs S.weights ↔ k ≤ min count (qfull S.weights Q) := by
        intro k
        rw [completed_le _ _ hlen hne, Nat.le_min, qfull_le hne hpos]
        have hw : ∀ i < S.weights.length, 0 < S.weights.getD i 0 := by
          intro i h
          have := hpos _ (List.getElem_mem h)
          simpa [List.getD_eq_getElem?_getD, List.getElem?_eq_getElem h] using this
        constructor
        · intro h
          refine ⟨?_, ?_⟩
          · have h0 : 0 < S.weights.length := List.length_pos_iff.mpr hne
            have := h 0 h0
            rw [Nat.le_div_iff_mul_le (hw 0 h0), henv 0, List.length_take, Nat.le_min] at this
            have := this.1
            rw [Nat.mul_comm] at this
            exact Nat.le_of_mul_le_mul_left this (hw 0 h0)
          · intro i hi'
            have := h i hi'
            rw [Nat.le_div_iff_mul_le (hw i hi'), henv i, List.length_take, Nat.le_min] at this
            exact this.2
        · rintro ⟨h1, h2⟩ i hi'
          rw [Nat.le_div_iff_mul_le (hw i hi'), henv i, List.length_take, Nat.le_min]
          refine ⟨?_, h2 i hi'⟩
          rw [Nat.mul_comm]
          exact Nat.mul_le_mul_left _ h1
      apply Nat.le_antisymm
      · exact (key _).mp le_rfl
      · exact (key _).mpr le_rfl
    simp only [hsync, if_true, true_and]
    by_cases h0 : completed envs S.weights = 0
    · rw [if_pos h0]
      refine ⟨rfl, rfl, rfl, invOf [] 0 c.cycleIndex true (by simp), by simp, ?_⟩
      intro _
      refine ⟨rfl, rfl, ?_⟩
      unfold restOf
      rw [if_pos hsync]
      have : qfull S.weights Q = 0 := by omega
      rw [this]; rfl
    · rw [if_neg h0, if_neg (by simp)]
      have hle : completed envs S.weights ≤ count := by omega
      have hnonempty : wcyc S.schedule (completed envs S.weights) Q ≠ [] := by
        intro hw
        obtain ⟨m, hm⟩ : ∃ m, completed envs S.weights = m + 1 := ⟨completed envs S.weights - 1, by omega⟩
        rw [hm] at hw
        simp only [wcyc, List.append_eq_nil_iff] at hw
        have hnil := (wout_nil _ _).mp hw.1
        have h0' : 0 < S.weights.length := List.length_pos_iff.mpr hne
        have h1 : 1 ≤ qfull S.weights Q := by omega
        rw [qfull_le hne hpos] at h1
        have h2 := h1 0 h0'
        rw [hnil 0 ((built_mem hb 0).mpr h0')] at h2
        have := hpos _ (List.getElem_mem h0')
        simp [List.getD_eq_getElem?_getD, List.getElem?_eq_getElem h0'] at h2
        omega
      rw [hwalk _ hle, if_neg hnonempty]
      refine ⟨rfl, rfl, rfl, invOf _ _ _ _ (by simp [ht]), ?_, by simp⟩
      intro _
      refine ⟨ht, rfl, hnonempty, ?_⟩
      simp only
      change restOf L Q = _ ++ restOf L Q'
      unfold restOf
      rw [if_pos hsync, if_pos hsync, hcomp]
      by_cases hcm : count ≤ qfull S.weights Q
      · rw [Nat.min_eq_left hcm]
        have hq : qfull S.weights Q' = qfull S.weights Q - count := by
          have key : ∀ k, k ≤ qfull S.weights Q' ↔ k ≤ qfull S.weights Q - count := by
            intro k
            have e : k ≤ qfull S.weights Q - count ↔ k + count ≤ qfull S.weights Q := by omega
            rw [e, qfull_le hne hpos, qfull_le hne hpos]
            have hall := (qfull_le hne hpos Q count).mp hcm
            apply forall_congr'; intro i; apply imp_congr_right; intro h
            rw [hdrop i, List.length_drop, Nat.add_mul, Nat.mul_comm count]
            have := hall i h
            rw [Nat.mul_comm] at this
            omega
          exact Nat.le_antisymm ((key _).mp le_rfl) ((key _).mpr le_rfl)
        rw [hq, hQ'e, ← wcyc_add]
        congr 1; omega
      · rw [Nat.min_eq_right (by omega)]
        have hq : qfull S.weights Q' = 0 := by
          by_contra hne0
          have h1 : 1 ≤ qfull S.weights Q' := by omega
          rw [qfull_le hne hpos] at h1
          apply hcm
          rw [qfull_le hne hpos]
          intro i h
          have := h1 i h
          rw [hdrop i, List.length_drop] at this
          have hw := hpos _ (List.getElem_mem h)
          have hw' : 0 < S.weights.getD i 0 := by
            simpa [List.getD_eq_getElem?_getD, List.getElem?_eq_getElem h] using hw
          rw [Nat.mul_comm]
          omega
        rw [hq]; simp [wcyc]
  · have hs : S.sync = false := by simpa using hsync
    simp only [hs, Bool.false_eq_true, if_false, false_and, true_and]
    have hz : ∀ a, (∀ i ∈ S.schedule, Q i = []) → wcyc S.schedule a Q = [] := fun a h => wcyc_nil _ _ _ h
    by_cases hall : envs.all (·.isEmpty) = true
    · rw [if_pos hall]
      refine ⟨rfl, rfl, rfl, by simpa [hp] using invOf [] c.pos c.cycleIndex true (by simp), by simp, ?_⟩
      intro _
      refine ⟨rfl, hp, ?_⟩
      apply hz
      intro i hi'
      have hlt := hmem i hi'
      have h1 := henv i
      have h2 : envs.getD i [] = [] := by
        rw [List.all_eq_true] at hall
        have := hall (envs[i]'(by omega)) (List.getElem_mem _)
        simpa [List.getD_eq_getElem?_getD, hlen, hlt] using this
      rw [h2] at h1
      have hw := hpos _ (List.getElem_mem hlt)
      have hw' : 0 < S.weights.getD i 0 := by
        simpa [List.getD_eq_getElem?_getD, List.getElem?_eq_getElem hlt] using hw
      have h3 := h1.symm
      rw [List.take_eq_nil_iff] at h3
      rcases h3 with h3 | h3
      · have := Nat.mul_pos hw' hc; omega
      · exact h3
    · rw [if_neg hall, hwalk count le_rfl]
      by_cases hw : wcyc S.schedule count Q = []
      · rw [if_pos hw]
        refine ⟨rfl, rfl, rfl, by simpa [hp] using invOf [] c.pos c.cycleIndex true (by simp), by simp, ?_⟩
        intro _
        exact ⟨rfl, hp, hempty count hc hw _⟩
      · rw [if_neg hw]
        refine ⟨rfl, rfl, rfl, invOf _ _ _ _ (by simp [ht]), ?_, by simp⟩
        intro _
        refine ⟨ht, rfl, hw, ?_⟩
        simp only
        change restOf L Q = _ ++ restOf L Q'
        unfold restOf
        simp only [hs, Bool.false_eq_true, if_false]
        rw [← wcyc_stable _ _ hmem Q (count + qtotal S.weights.length Q) (by omega), wcyc_add,
          ← wcyc_stable _ _ hmem Q' (qtotal S.weights.length Q), hQ'e]
        apply qtotal_mono
        intro i _
        rw [hdrop i, List.length_drop]; omega

/-! ### One cycle at a time -/

theorem queue_set {S : Src σ ρ} (L : Streams S) (kids : List σ) (i j : Nat) (s : σ) (h : i < kids.length) :
    queue L (kids.set i s) j = if j = i then L.rem i s else queue L kids j := by
  unfold queue
  by_cases hj : j = i
  · subst hj; simp [h]
  · have : ¬ i = j := fun h' => hj h'.symm
    simp [hj, this]

/-- Reading one record from child `i`. -/
theorem nextChild_spec {S : Src σ ρ} (L : Streams S) (c : Cursor σ ρ) (hi : Inv L c) (i : Nat) (h : i < S.weights.length) :
    (nextChild S c i).1 = (queue L c.kids i).head?.map (fun x => (i, x)) ∧
    (∀ j, queue L (nextChild S c i).2.kids j = upd (queue L c.kids) i (queue L c.kids i).tail j) ∧
    Inv L (nextChild S c i).2 ∧ (nextChild S c i).2.epoch = c.epoch ∧ (nextChild S c i).2.cycle = c.cycle ∧
    (nextChild S c i).2.rank = c.rank ∧ (nextChild S c i).2.terminal = c.terminal ∧
    (nextChild S c i).2.pending = c.pending ∧ (nextChild S c i).2.pos = c.pos ∧
    (nextChild S c i).2.cycleIndex = c.cycleIndex := by
  have hk : i < c.kids.length := by rw [hi.kids]; exact h
  have hq : queue L c.kids i = L.rem i c.kids[i] := by simp [queue, List.getElem?_eq_getElem hk]
  obtain ⟨o1, o2⟩ := L.one i c.kids[i]
  have hqs : ∀ j, queue L (c.kids.set i (S.next1 i c.kids[i]).2) j =
      upd (queue L c.kids) i (queue L c.kids i).tail j := by
    intro j
    rw [queue_set L _ _ _ _ hk, hq, ← o2]; rfl
  unfold nextChild
  rw [List.getElem?_eq_getElem hk]
  simp only
  cases hn : (S.next1 i c.kids[i]).1 with
  | none =>
    rw [hn, ← hq] at o1
    have hnil : queue L c.kids i = [] := List.head?_eq_none_iff.mp o1.symm
    refine ⟨by simp [← o1], hqs, ⟨?_, ?_, ?_, hi.term⟩, rfl, rfl, rfl, rfl, rfl, rfl, rfl⟩
    · simp [hi.kids]
    · simp [hi.exh]
    · intro j hj
      simp only at hj ⊢
      rw [hqs j]
      unfold upd
      by_cases hji : j = i
      · simp [hji, hnil]
      · rw [if_neg hji]
        apply hi.flag
        have : ¬ i = j := fun h' => hji h'.symm
        simpa [List.getD_eq_getElem?_getD, List.getElem?_set, this] using hj
  | some x =>
    rw [hn, ← hq] at o1
    refine ⟨by simp [← o1], hqs, ⟨?_, hi.exh, ?_, hi.term⟩, rfl, rfl, rfl, rfl, rfl, rfl, rfl⟩
    · simp [hi.kids]
    · intro j hj
      simp only at hj ⊢
      rw [hqs j]
      have := hi.flag j hj
      unfold upd
      by_cases hji : j = i
      · subst hji; rw [this]; simp
      · rw [if_neg hji]; exact this

/-- What one pass keeps. -/
structure Kept {S : Src σ ρ} (L : Streams S) (c c' : Cursor σ ρ) : Prop where
  inv : Inv L c'
  epoch : c'.epoch = c.epoch
  cycle : c'.cycle = c.cycle
  rank : c'.rank = c.rank
  terminal : c'.terminal = c.terminal
  pending : c'.pending = c.pending
  pos : c'.pos = c.pos
  cycleIndex : c'.cycleIndex = c.cycleIndex

theorem Kept.trans {S : Src σ ρ} {L : Streams S} {a b c : Cursor σ ρ} (h : Kept L a b) (g : Kept L b c) : Kept L a c :=
  ⟨g.inv, g.epoch.trans h.epoch, g.cycle.trans h.cycle, g.rank.trans h.rank, g.terminal.trans h.terminal,
    g.pending.trans h.pending, g.pos.trans h.pos, g.cycleIndex.trans h.cycleIndex⟩

theorem nextChild_kept {S : Src σ ρ} (L : Streams S) (c : Cursor σ ρ) (hi : Inv L c) (i : Nat) (h : i < S.weights.length) :
    Kept L c (nextChild S c i).2 := by
  obtain ⟨_, _, h3, h4, h5, h6, h7, h8, h9, h10⟩ := nextChild_spec L c hi i h
  exact ⟨h3, h4, h5, h6, h7, h8, h9, h10⟩

theorem cycleSync_spec {S : Src σ ρ} (L : Streams S) : ∀ (sched : List Nat) (c : Cursor σ ρ), Inv L c →
    (∀ i ∈ sched, i < S.weights.length) →
    Kept L c (cycleSync S sched c).2 ∧
    ((∃ out, (cycleSync S sched c).1 = some out ∧ out = wout sched (queue L c.kids) ∧
        (∀ i, sched.count i ≤ (queue L c.kids i).length) ∧
        ∀ i, queue L (cycleSync S sched c).2.kids i = (queue L c.kids i).drop (sched.count i)) ∨
      ((cycleSync S sched c).1 = none ∧ ∃ i, (queue L c.kids i).length < sched.count i))
  | [], c, hi, _ => by
    refine ⟨⟨hi, rfl, rfl, rfl, rfl, rfl, rfl, rfl⟩, Or.inl ⟨[], rfl, rfl, by simp, by simp [cycleSync]⟩⟩
  | i :: r, c, hi, h => by
    obtain ⟨n1, n2, n3, -⟩ := nextChild_spec L c hi i (h i (by simp))
    have nk := nextChild_kept L c hi i (h i (by simp))
    unfold cycleSync
    simp only
    have n2' : queue L (nextChild S c i).2.kids = upd (queue L c.kids) i (queue L c.kids i).tail := funext n2
    cases hq : queue L c.kids i with
    | nil =>
      rw [hq] at n1
      simp only [List.head?_nil, Option.map_none] at n1
      simp only [n1]
      refine ⟨nk, Or.inr ⟨trivial, i, ?_⟩⟩
      rw [hq]; simp [List.count_cons_self]
    | cons a t =>
      rw [hq] at n1
      simp only [List.head?_cons, Option.map_some] at n1
      simp only [n1]
      obtain ⟨k1, k2⟩ := cycleSync_spec L r (nextChild S c i).2 n3 fun j hj => h j (by simp [hj])
      have hcount : ∀ j, (upd (queue L c.kids) i t j).length + (if j = i then 1 else 0) = (queue L c.kids j).length := by
        intro j
        unfold upd
        by_cases hj : j = i
        · subst hj; simp [hq]
        · simp [hj]
      have hcc : ∀ j, (i :: r).count j = r.count j + if j = i then 1 else 0 := by
        intro j
        by_cases hj : j = i
        · subst hj; simp
        · have : (i == j) = false := by simpa using fun h' => hj h'.symm
          simp [List.count_cons, this, hj]
      rw [n2', hq, List.tail_cons] at k2
      refine ⟨nk.trans k1, ?_⟩
      rcases k2 with ⟨out, e1, e2, e3, e4⟩ | ⟨e1, j, e2⟩
      · left
        refine ⟨(i, a) :: out, by simp [e1], ?_, ?_, ?_⟩
        · simp [wout, hq, e2]
        · intro j
          have h1 := e3 j
          have h2 := hcount j
          have h3 := hcc j
          omega
        · intro j
          rw [e4 j]
          unfold upd
          rw [hcc j]
          by_cases hj : j = i
          · subst hj; simp [hq]
          · simp [hj]
      · right
        refine ⟨by simp [e1], j, ?_⟩
        have h2 := hcount j
        have h3 := hcc j
        omega

theorem cycleFree_spec {S : Src σ ρ} (L : Streams S) : ∀ (sched : List Nat) (c : Cursor σ ρ), Inv L c →
    (∀ i ∈ sched, i < S.weights.length) →
    Kept L c (cycleFree S sched c).2 ∧ (cycleFree S sched c).1 = wout sched (queue L c.kids) ∧
      ∀ i, queue L (cycleFree S sched c).2.kids i = (queue L c.kids i).drop (sched.count i)
  | [], c, hi, _ => ⟨⟨hi, rfl, rfl, rfl, rfl, rfl, rfl, rfl⟩, rfl, by simp [cycleFree]⟩
  | i :: r, c, hi, h => by
    have hr : ∀ j ∈ r, j < S.weights.length := fun j hj => h j (by simp [hj])
    unfold cycleFree
    by_cases he : c.exhausted.getD i false = true
    · rw [if_pos he]
      have hq := hi.flag i he
      obtain ⟨k1, k2, k3⟩ := cycleFree_spec L r c hi hr
      refine ⟨k1, ?_, ?_⟩
      · have hupd : upd (queue L c.kids) i (queue L c.kids i).tail = queue L c.kids := by
          funext j; unfold upd; split
          · rename_i hj; subst hj; simp [hq]
          · rfl
        rw [k2]; simp only [wout]; rw [hupd, hq]; rfl
      · intro j
        rw [k3 j]
        by_cases hj : j = i
        · subst hj; simp [hq]
        · have : (i == j) = false := by simpa using fun h' => hj h'.symm
          simp [List.count_cons, this]
    · rw [if_neg he]
      obtain ⟨n1, n2, n3, -⟩ := nextChild_spec L c hi i (h i (by simp))
      have nk := nextChild_kept L c hi i (h i (by simp))
      have n2' : queue L (nextChild S c i).2.kids = upd (queue L c.kids) i (queue L c.kids i).tail := funext n2
      obtain ⟨k1, k2, k3⟩ := cycleFree_spec L r (nextChild S c i).2 n3 hr
      have hdrop : ∀ j, queue L (cycleFree S r (nextChild S c i).2).2.kids j =
          (queue L c.kids j).drop ((i :: r).count j) := by
        intro j
        rw [k3 j, n2']
        have := congrFun (upd_tail (queue L c.kids) i r) j
        exact this
      simp only
      cases hx : (nextChild S c i).1 with
      | none =>
        rw [hx] at n1
        have hh : (queue L c.kids i).head? = none := by
          cases h' : (queue L c.kids i).head? with
          | none => rfl
          | some a => rw [h'] at n1; simp at n1
        refine ⟨nk.trans k1, ?_, hdrop⟩
        simp only
        rw [k2, n2']; simp [wout, hh]
      | some x =>
        rw [hx] at n1
        simp only
        refine ⟨nk.trans k1, ?_, hdrop⟩
        rw [k2, n2']
        cases h' : (queue L c.kids i).head? with
        | none => rw [h'] at n1; simp at n1
        | some a => rw [h'] at n1; simp at n1; simp [wout, h', n1]

theorem fillCycle_spec {S : Src σ ρ} (hb : S.Built) (L : Streams S) (c : Cursor σ ρ) (hi : Inv L c)
    (ht : c.terminal = false) (hp : c.pending = []) : FillSpec L c (fillCycle S c) := by
  obtain ⟨hne, hpos, hlen, hmem, hcnt, _⟩ := weightedCycle_spec hb
  have hn0 : 0 < S.weights.length := List.length_pos_iff.mpr hne
  unfold fillCycle
  by_cases hsync : S.sync = true
  · rw [if_pos hsync]
    simp only
    obtain ⟨k, hk⟩ := cycleSync_spec L S.schedule c hi hmem
    rcases hk with ⟨out, e1, e2, e3, e4⟩ | ⟨e1, j, e2⟩
    · simp only [e1]
      have hout : out ≠ [] := by
        rw [e2, Ne, wout_nil]
        intro hall
        have h0 := hall 0 ((built_mem hb 0).mpr hn0)
        have h1 := e3 0
        have h2 : 0 < S.schedule.count 0 := List.count_pos_iff.mpr ((built_mem hb 0).mpr hn0)
        rw [h0] at h1; simp at h1; omega
      refine ⟨k.epoch, k.cycle, k.rank, ⟨k.inv.kids, k.inv.exh, k.inv.flag, ?_⟩, ?_, by simp⟩
      · intro h; simp only at h; rw [k.terminal, ht] at h; simp at h
      · intro _
        refine ⟨k.terminal.trans ht, rfl, hout, ?_⟩
        simp only
        have hQ' : queue L (cycleSync S S.schedule c).2.kids =
            fun i => (queue L c.kids i).drop (1 * S.schedule.count i) := by
          funext i; rw [e4 i, Nat.one_mul]
        have hq : qfull S.weights (queue L c.kids) = 1 + qfull S.weights (queue L (cycleSync S S.schedule c).2.kids) := by
          have h1 : 1 ≤ qfull S.weights (queue L c.kids) := by
            rw [qfull_le hne hpos]; intro i _; have := e3 i; rw [built_count hb] at this; omega
          have key : ∀ m, m ≤ qfull S.weights (queue L (cycleSync S S.schedule c).2.kids) ↔
              m ≤ qfull S.weights (queue L c.kids) - 1 := by
            intro m
            have e : m ≤ qfull S.weights (queue L c.kids) - 1 ↔ m + 1 ≤ qfull S.weights (queue L c.kids) := by omega
            rw [e, qfull_le hne hpos, qfull_le hne hpos]
            apply forall_congr'; intro i; apply imp_congr_right; intro _
            have h3 := e3 i
            rw [e4 i, List.length_drop, Nat.add_mul, Nat.one_mul]
            rw [built_count hb i] at h3 ⊢
            omega
          have := Nat.le_antisymm ((key _).mp le_rfl) ((key _).mpr le_rfl)
          omega
        unfold restOf
        rw [if_pos hsync, if_pos hsync, hq, wcyc_add, ← hQ', e2]
        simp [wcyc]
    · simp only [e1]
      refine ⟨k.epoch, k.cycle, k.rank, ⟨k.inv.kids, k.inv.exh, k.inv.flag, by simp⟩, by simp, ?_⟩
      intro _
      refine ⟨rfl, rfl, ?_⟩
      have hq : qfull S.weights (queue L c.kids) = 0 := by
        by_contra h0
        have h1 : 1 ≤ qfull S.weights (queue L c.kids) := by omega
        rw [qfull_le hne hpos] at h1
        have hj : j < S.weights.length := by
          by_contra hj
          rw [List.count_eq_zero_of_not_mem fun h => hj (hmem j h)] at e2
          omega
        have := h1 j hj
        rw [hcnt j hj] at e2
        omega
      unfold restOf
      rw [if_pos hsync, hq]; rfl
  · rw [if_neg hsync]
    have hrest : ∀ Q : Nat → List ρ, restOf L Q = wcyc S.schedule (qtotal S.weights.length Q) Q := by
      intro Q; unfold restOf; rw [if_neg hsync]
    by_cases hall : c.exhausted.all id = true
    · rw [if_pos hall]
      refine ⟨rfl, rfl, rfl, ⟨hi.kids, hi.exh, hi.flag, by simp [hp]⟩, by simp, ?_⟩
      intro _
      refine ⟨rfl, hp, ?_⟩
      rw [hrest]
      apply wcyc_nil
      intro i hi'
      have hlt := hmem i hi'
      apply hi.flag
      rw [List.all_eq_true] at hall
      have h2 : i < c.exhausted.length := by rw [hi.exh]; exact hlt
      have := hall c.exhausted[i] (List.getElem_mem h2)
      simpa [List.getD_eq_getElem?_getD, List.getElem?_eq_getElem h2] using this
    · rw [if_neg hall]
      simp only
      obtain ⟨k, e1, e2⟩ := cycleFree_spec L S.schedule c hi hmem
      rw [e1]
      by_cases hw : wout S.schedule (queue L c.kids) = []
      · rw [if_pos hw]
        refine ⟨k.epoch, k.cycle, k.rank, ⟨k.inv.kids, k.inv.exh, k.inv.flag, by simp [k.pending, hp]⟩, by simp, ?_⟩
        intro _
        refine ⟨rfl, k.pending.trans hp, ?_⟩
        rw [hrest]
        exact wcyc_nil _ _ _ ((wout_nil _ _).mp hw)
      · rw [if_neg hw]
        refine ⟨k.epoch, k.cycle, k.rank, ⟨k.inv.kids, k.inv.exh, k.inv.flag, ?_⟩, ?_, by simp⟩
        · intro h; simp only at h; rw [k.terminal, ht] at h; simp at h
        · intro _
          refine ⟨k.terminal.trans ht, rfl, hw, ?_⟩
          simp only
          have hQ' : queue L (cycleFree S S.schedule c).2.kids =
              fun i => (queue L c.kids i).drop (1 * S.schedule.count i) := by
            funext i; rw [e2 i, Nat.one_mul]
          rw [hrest, hrest, ← wcyc_stable _ _ hmem (queue L c.kids) (1 + qtotal S.weights.length (queue L c.kids)) (by omega),
            wcyc_add, ← wcyc_stable _ _ hmem (queue L (cycleFree S S.schedule c).2.kids)
              (qtotal S.weights.length (queue L c.kids)), ← hQ']
          · simp [wcyc]
          · apply qtotal_mono
            intro i _
            rw [e2 i, List.length_drop]; omega

/-! ### Reading -/

/-- Reading `k` records. -/
structure ReadSpec {S : Src σ ρ} (L : Streams S) (c c' : Cursor σ ρ) (k : Nat) (out : List (Nat × ρ)) : Prop where
  out : out = (remaining L c).take k
  rest : remaining L c' = (remaining L c).drop k
  inv : Inv L c'
  epoch : c'.epoch = c.epoch
  cycle : c'.cycle = c.cycle
  rank : c'.rank = c.rank

theorem clearIfDone_spec {S : Src σ ρ} (L : Streams S) (c : Cursor σ ρ) (hi : Inv L c) :
    remaining L (clearIfDone c) = remaining L c ∧ Inv L (clearIfDone c) ∧ (clearIfDone c).epoch = c.epoch ∧
    (clearIfDone c).cycle = c.cycle ∧ (clearIfDone c).rank = c.rank := by
  unfold clearIfDone
  by_cases h : c.pending.length ≤ c.pos
  · rw [if_pos h]
    refine ⟨?_, ⟨hi.kids, hi.exh, hi.flag, by simp⟩, rfl, rfl, rfl⟩
    simp [remaining, List.drop_eq_nil_of_le h]
  · rw [if_neg h]; exact ⟨rfl, hi, rfl, rfl, rfl⟩

theorem takeSome_spec {S : Src σ ρ} (L : Streams S) (c : Cursor σ ρ) (hi : Inv L c) (ht : c.terminal = false) (k : Nat) :
    ReadSpec L c (takeSome c k).2 (takeSome c k).1.length (takeSome c k).1 ∧
    (takeSome c k).1.length = min k (c.pending.length - c.pos) := by
  have hlen : (takeSome c k).1.length = min k (c.pending.length - c.pos) := by
    simp [takeSome]
  refine ⟨?_, hlen⟩
  set a := min k (c.pending.length - c.pos) with ha
  have hi2 : Inv L { c with pos := c.pos + a } := ⟨hi.kids, hi.exh, hi.flag, by simp [ht]⟩
  obtain ⟨h1, h2, h3, h4, h5⟩ := clearIfDone_spec L { c with pos := c.pos + a } hi2
  have hle : a ≤ (c.pending.drop c.pos).length := by rw [List.length_drop]; omega
  refine ⟨?_, ?_, h2, h3, h4, h5⟩
  · rw [hlen]
    unfold remaining takeSome
    rw [List.take_append, show a - (c.pending.drop c.pos).length = 0 by omega]
    simp [ha]
  · rw [hlen]
    change remaining L (clearIfDone { c with pos := c.pos + a }) = _
    rw [h1]
    unfold remaining
    rw [List.drop_append, show a - (c.pending.drop c.pos).length = 0 by omega, List.drop_drop]
    simp

theorem takeOne_spec {S : Src σ ρ} (L : Streams S) (c : Cursor σ ρ) (hi : Inv L c) (ht : c.terminal = false)
    (h : c.pos < c.pending.length) :
    (takeOne c).1 = (remaining L c).head? ∧ remaining L (takeOne c).2 = (remaining L c).tail ∧ Inv L (takeOne c).2 ∧
    (takeOne c).2.epoch = c.epoch ∧ (takeOne c).2.cycle = c.cycle ∧ (takeOne c).2.rank = c.rank := by
  have hi2 : Inv L { c with pos := c.pos + 1 } := ⟨hi.kids, hi.exh, hi.flag, by simp [ht]⟩
  obtain ⟨h1, h2, h3, h4, h5⟩ := clearIfDone_spec L { c with pos := c.pos + 1 } hi2
  have hd : c.pending.drop c.pos = c.pending[c.pos] :: c.pending.drop (c.pos + 1) := List.drop_eq_getElem_cons h
  refine ⟨?_, ?_, h2, h3, h4, h5⟩
  · unfold takeOne remaining
    rw [hd, List.cons_append, List.head?_cons, List.getElem?_eq_getElem h]
  · change remaining L (clearIfDone { c with pos := c.pos + 1 }) = _
    rw [h1]
    unfold remaining
    rw [hd, List.cons_append, List.tail_cons]

theorem remaining_fill {S : Src σ ρ} {L : Streams S} {c : Cursor σ ρ} {r : Bool × Cursor σ ρ}
    (h : FillSpec L c r) (ht : c.terminal = false) (hp : c.pending.drop c.pos = []) (h1 : r.1 = true) :
    remaining L r.2 = remaining L c := by
  obtain ⟨_, _, _, _, h5, _⟩ := h
  obtain ⟨a, b, _, d⟩ := h5 h1
  simp [remaining, hp, ht, a, b, d]

theorem nextEnvelope_spec {S : Src σ ρ} (hb : S.Built) (L : Streams S) (c : Cursor σ ρ) (hi : Inv L c) :
    (nextEnvelope S c).1 = (remaining L c).head? ∧ remaining L (nextEnvelope S c).2 = (remaining L c).tail ∧
    Inv L (nextEnvelope S c).2 ∧ (nextEnvelope S c).2.epoch = c.epoch ∧ (nextEnvelope S c).2.cycle = c.cycle ∧
    (nextEnvelope S c).2.rank = c.rank := by
  unfold nextEnvelope
  by_cases ht : c.terminal = true
  · rw [if_pos ht]
    have : remaining L c = [] := by simp [remaining, hi.term ht, ht]
    simp [this, hi]
  rw [if_neg ht]
  have ht : c.terminal = false := by simpa using ht
  by_cases hp : c.pending.length ≤ c.pos
  · rw [if_pos hp]
    simp only
    have hi0 : Inv L { c with pending := [], pos := 0 } := ⟨hi.kids, hi.exh, hi.flag, by simp⟩
    have hf := fillCycle_spec hb L { c with pending := [], pos := 0 } hi0 ht rfl
    have hr0 : remaining L { c with pending := [], pos := 0 } = remaining L c := by
      simp [remaining, List.drop_eq_nil_of_le hp]
    by_cases h1 : (fillCycle S { c with pending := [], pos := 0 }).1 = true
    · rw [if_pos h1]
      have hr := remaining_fill hf ht (by simp) h1
      obtain ⟨f1, f2, f3, f4, f5, _⟩ := hf
      obtain ⟨g1, g2, g3, _⟩ := f5 h1
      obtain ⟨t1, t2, t3, t4, t5, t6⟩ := takeOne_spec L _ f4 g1 (by rw [g2]; exact List.length_pos_iff.mpr g3)
      rw [hr, hr0] at t1 t2
      exact ⟨t1, t2, t3, t4.trans f1, t5.trans f2, t6.trans f3⟩
    · rw [if_neg h1]
      obtain ⟨f1, f2, f3, f4, _, f6⟩ := hf
      obtain ⟨g1, g2, g3⟩ := f6 (by simpa using h1)
      have : remaining L c = [] := by rw [← hr0]; simp only [remaining, ht]; simpa using g3
      refine ⟨by rw [this]; rfl, ?_, f4, f1, f2, f3⟩
      rw [this]
      simp [remaining, g1, g2]
  · rw [if_neg hp]
    exact takeOne_spec L c hi ht (by omega)

theorem manyLoop_spec {S : Src σ ρ} (hb : S.Built) (L : Streams S) : ∀ (fuel k : Nat) (c : Cursor σ ρ), Inv L c →
    k < fuel → ReadSpec L c (manyLoop S fuel k c).2 k (manyLoop S fuel k c).1
  | 0, k, c, _, h => by omega
  | fuel + 1, k, c, hi, hf => by
    unfold manyLoop
    by_cases h0 : k = 0 ∨ c.terminal = true
    · rw [if_pos h0]
      rcases h0 with rfl | ht
      · exact ⟨by simp, by simp, hi, rfl, rfl, rfl⟩
      · have : remaining L c = [] := by simp [remaining, hi.term ht, ht]
        exact ⟨by simp [this], by simp [this], hi, rfl, rfl, rfl⟩
    rw [if_neg h0]
    simp only [not_or] at h0
    have ht : c.terminal = false := by simpa using h0.2
    have step : ∀ d : Cursor σ ρ, Inv L d → d.terminal = false → d.pos < d.pending.length →
        remaining L d = remaining L c → d.epoch = c.epoch → d.cycle = c.cycle → d.rank = c.rank →
        ReadSpec L c (manyLoop S fuel (k - (takeSome d k).1.length) (takeSome d k).2).2 k
          ((takeSome d k).1 ++ (manyLoop S fuel (k - (takeSome d k).1.length) (takeSome d k).2).1) := by
      intro d hd hdt hdp hdr e1 e2 e3
      obtain ⟨s, hl⟩ := takeSome_spec L d hd hdt k
      have hpos : 0 < (takeSome d k).1.length := by rw [hl]; omega
      have hle : (takeSome d k).1.length ≤ k := by rw [hl]; omega
      have ih := manyLoop_spec hb L fuel (k - (takeSome d k).1.length) (takeSome d k).2 s.inv (by omega)
      refine ⟨?_, ?_, ih.inv, ih.epoch.trans (s.epoch.trans e1), ih.cycle.trans (s.cycle.trans e2),
        ih.rank.trans (s.rank.trans e3)⟩
      · rw [ih.out, s.rest]
        have hso := s.out
        rw [hdr] at hso ⊢
        conv_lhs => lhs; rw [hso]
        rw [← List.take_add, Nat.add_sub_cancel' hle]
      · rw [ih.rest, s.rest, List.drop_drop, hdr, Nat.add_sub_cancel' hle]
    by_cases hp : c.pending.length ≤ c.pos
    · rw [if_pos hp]
      simp only
      have hi0 : Inv L { c with pending := [], pos := 0 } := ⟨hi.kids, hi.exh, hi.flag, by simp⟩
      have hf := fillCycles_spec hb L { c with pending := [], pos := 0 } hi0
        (max 1 ((k + S.schedule.length - 1) / S.schedule.length)) (by omega) ht rfl
      have hr0 : remaining L { c with pending := [], pos := 0 } = remaining L c := by
        simp [remaining, List.drop_eq_nil_of_le hp]
      generalize fillCycles S { c with pending := [], pos := 0 }
        (max 1 ((k + S.schedule.length - 1) / S.schedule.length)) = g at *
      by_cases h1 : g.1 = true
      · rw [if_pos h1]
        have hr := remaining_fill hf ht (by simp) h1
        obtain ⟨f1, f2, f3, f4, f5, _⟩ := hf
        obtain ⟨g1, g2, g3, _⟩ := f5 h1
        exact step g.2 f4 g1 (by rw [g2]; exact List.length_pos_iff.mpr g3) (hr.trans hr0) f1 f2 f3
      · rw [if_neg h1]
        obtain ⟨f1, f2, f3, f4, _, f6⟩ := hf
        obtain ⟨g1, g2, g3⟩ := f6 (by simpa using h1)
        have : remaining L c = [] := by rw [← hr0]; simp only [remaining, ht]; simpa using g3
        refine ⟨by rw [this]; simp, ?_, f4, f1, f2, f3⟩
        rw [this]
        simp [remaining, g1, g2]
    · rw [if_neg hp]
      exact step c hi ht (by omega) rfl rfl rfl rfl

end Verif.Composite
