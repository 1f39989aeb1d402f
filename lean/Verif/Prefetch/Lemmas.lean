import Verif.Prefetch.Model
import Mathlib.Tactic.Linarith
import Mathlib.Tactic.Ring

namespace Verif.Prefetch
variable {α β : Type}

/-- Items of the pending chunks. -/
def itemsOf (p : List (List α × Status)) : List α := p.flatMap (·.1)

theorem itemsOf_append (p q : List (List α × Status)) : itemsOf (p ++ q) = itemsOf p ++ itemsOf q := by
  simp [itemsOf]

/-- The invariant.  `dec` decodes one batch. -/
structure Inv (c : Cfg α β) (dec : α → Option β) (plan0 : List α) (s : St α β) : Prop where
  items : ∃ done cur lost, plan0 = done ++ cur ++ lost ++ itemsOf s.pending ++ s.plan ∧ done.mapM dec = some s.out ∧
    cur.mapM dec = some s.cur ∧ (s.phase ≠ .failed → lost = []) ∧
    (s.phase = .failed → lost.mapM dec = none ∧ lost.length ≤ c.chunk ∧ cur = [])
  count : s.phase ≠ .failed → s.count = (itemsOf s.pending).length + s.cur.length
  bound : s.count ≤ c.depth
  chunks : ∀ p ∈ s.pending, p.1 ≠ [] ∧ p.1.length ≤ c.chunk
  cur : s.phase ≠ .emit → s.cur = []
  exhausted : s.exhausted = true → s.plan = []
  drained : s.phase = .drain → c.depth ≤ s.count ∨ s.exhausted = true
  finished : s.phase = .finished → s.pending = [] ∧ s.plan = []

theorem inv_start (c : Cfg α β) (dec : α → Option β) (plan : List α) : Inv c dec plan (start plan : St α β) := by
  refine ⟨⟨[], [], [], by simp [start, itemsOf], rfl, rfl, by simp, by simp [start]⟩, by simp [start, itemsOf], by simp [start],
    by simp [start], by simp [start], by simp [start], by simp [start], by simp [start]⟩

theorem mapM_append_some {dec : α → Option β} {a b : List α} {x y : List β} (h : a.mapM dec = some x) (h' : b.mapM dec = some y) :
    (a ++ b).mapM dec = some (x ++ y) := by
  rw [List.mapM_append, h, h']
  rfl

theorem mapM_length {dec : α → Option β} : ∀ {a : List α} {x : List β}, a.mapM dec = some x → x.length = a.length
  | [], x, h => by simp at h; rw [h]; rfl
  | a :: l, x, h => by
    rw [List.mapM_cons] at h
    cases hd : dec a with
    | none => rw [hd] at h; simp at h
    | some y =>
      rw [hd] at h
      cases hl : l.mapM dec with
      | none => rw [hl] at h; simp at h
      | some ys =>
        rw [hl] at h
        simp at h
        rw [← h, List.length_cons, List.length_cons, mapM_length hl]

theorem inv_submit {c : Cfg α β} {dec : α → Option β} {plan0 : List α} {s : St α β} (hi : Inv c dec plan0 s)
    (hph : s.phase = .fill) (hlt : s.count < c.depth) : Inv c dec plan0 (submit c s) := by
  have hne : s.phase ≠ .failed := by rw [hph]; simp
  have hcur : s.cur = [] := hi.cur (by rw [hph]; simp)
  have hcount := hi.count hne
  have hitems : itemsOf (submit c s).pending = itemsOf s.pending ++ s.plan.take (min c.chunk (c.depth - s.count)) := by
    unfold submit
    simp only
    split
    · next h => rw [h, List.append_nil]
    · rw [itemsOf_append]; simp [itemsOf]
  refine ⟨?_, ?_, ?_, ?_, ?_, ?_, ?_, ?_⟩
  · obtain ⟨done, cur, lost, h1, h2, h3, h4, h5⟩ := hi.items
    refine ⟨done, cur, lost, ?_, h2, h3, h4, h5⟩
    rw [hitems, h1]
    simp only [submit, List.append_assoc, List.take_append_drop]
  · intro _
    rw [hitems]
    show s.count + (s.plan.take _).length = _ + s.cur.length
    rw [List.length_append, hcount]
    omega
  · show s.count + (s.plan.take _).length ≤ c.depth
    rw [List.length_take]
    omega
  · intro p hp
    unfold submit at hp
    simp only at hp
    split at hp
    · exact hi.chunks p hp
    · next h =>
      rcases List.mem_append.mp hp with hp | hp
      · exact hi.chunks p hp
      · simp only [List.mem_singleton] at hp
        subst hp
        refine ⟨h, ?_⟩
        rw [List.length_take]
        omega
  · exact fun _ => hcur
  · intro h
    show s.plan.drop _ = []
    have h' : (s.exhausted || decide (s.plan.length < min c.chunk (c.depth - s.count))) = true := h
    simp only [Bool.or_eq_true, decide_eq_true_eq] at h'
    rcases h' with h' | h'
    · rw [hi.exhausted h']; simp
    · rw [List.drop_eq_nil_iff]; omega
  · intro h
    have : s.phase = .drain := h
    rw [hph] at this; simp at this
  · intro h
    have : s.phase = .finished := h
    rw [hph] at this; simp at this

theorem inv_main {c : Cfg α β} {dec : α → Option β} (hdec : ∀ l, c.decode l = l.mapM dec) (hd : 0 < c.depth) {plan0 : List α}
    {s s' : St α β} (hi : Inv c dec plan0 s) (h : mainStep c s = some s') : Inv c dec plan0 s' := by
  unfold mainStep at h
  cases hph : s.phase with
  | finished => rw [hph] at h; simp at h
  | failed => rw [hph] at h; simp at h
  | fill =>
    rw [hph] at h
    simp only at h
    split at h
    · next hc =>
      simp only [Option.some.injEq] at h
      rw [← h]
      exact inv_submit hi hph hc.1
    · next hc =>
      simp only [Option.some.injEq] at h
      subst h
      have hcur := hi.cur (by rw [hph]; simp)
      have hcount := hi.count (by rw [hph]; simp)
      obtain ⟨done, cur, lost, h1, h2, h3, h4, _⟩ := hi.items
      refine ⟨⟨done, cur, lost, h1, h2, h3, fun _ => h4 (by rw [hph]; simp), by simp⟩, fun _ => hcount, hi.bound, hi.chunks, fun _ => hcur,
        hi.exhausted, fun _ => ?_, by simp⟩
      by_cases hlt : s.count < c.depth
      · right
        show s.exhausted = true
        cases he : s.exhausted with
        | true => rfl
        | false => exact absurd ⟨hlt, he⟩ hc
      · left; exact Nat.le_of_not_lt hlt
  | drain =>
    rw [hph] at h
    simp only at h
    have hcur := hi.cur (by rw [hph]; simp)
    have hcount := hi.count (by rw [hph]; simp)
    obtain ⟨done, cur, lost, h1, h2, h3, h4, _⟩ := hi.items
    have hl : lost = [] := h4 (by rw [hph]; simp)
    have hc0 : cur = [] := by
      have := mapM_length h3
      rw [hcur] at this
      exact List.eq_nil_of_length_eq_zero this.symm
    subst hl hc0
    simp only [List.append_nil] at h1
    cases hp : s.pending with
    | nil =>
      have h : some { s with phase := Phase.finished } = some s' := by rw [← h]; simp [hp]
      simp only [Option.some.injEq] at h
      subst h
      have hplan : s.plan = [] := by
        rcases hi.drained hph with hdr | he
        · rw [hcount, hp, hcur] at hdr
          simp [itemsOf] at hdr
          omega
        · exact hi.exhausted he
      refine ⟨⟨done, [], [], by simpa using h1, h2, h3, fun _ => rfl, by simp⟩, fun _ => hcount, hi.bound,
        hi.chunks, fun _ => hcur, hi.exhausted, by simp, fun _ => ⟨hp, hplan⟩⟩
    | cons p rest =>
      obtain ⟨items, stt⟩ := p
      rw [hp] at h
      cases stt with
      | queued => simp at h
      | running => simp at h
      | done =>
        simp only at h
        rw [hp] at h1 hcount
        have hi1 : itemsOf ((items, Status.done) :: rest) = items ++ itemsOf rest := rfl
        rw [hi1] at h1 hcount
        have hch := hi.chunks (items, .done) (by rw [hp]; exact List.mem_cons_self ..)
        cases hdc : c.decode items with
        | none =>
          rw [hdc] at h
          simp only [Option.some.injEq] at h
          subst h
          refine ⟨⟨done, [], items, by simpa using h1, h2, h3, by simp, fun _ => ⟨by rw [← hdec]; exact hdc, hch.2, rfl⟩⟩, by simp, hi.bound,
            fun p hp' => hi.chunks p (by rw [hp]; exact List.mem_cons_of_mem _ hp'), fun _ => hcur, hi.exhausted, by simp, by simp⟩
        | some ds =>
          rw [hdc] at h
          rw [hdec] at hdc
          have hlen := mapM_length hdc
          simp only at h
          rw [if_neg (by simpa using hlen)] at h
          simp only [Option.some.injEq] at h
          subst h
          refine ⟨⟨done, items, [], by simpa using h1, h2, hdc, fun _ => rfl, by simp⟩, fun _ => ?_, hi.bound,
            fun p hp' => hi.chunks p (by rw [hp]; exact List.mem_cons_of_mem _ hp'), by simp, hi.exhausted, by simp, by simp⟩
          show s.count = _
          rw [hcount, hcur, List.length_append, hlen]
          simp
          omega
  | emit =>
    rw [hph] at h
    simp only at h
    have hcount := hi.count (by rw [hph]; simp)
    obtain ⟨done, cur, lost, h1, h2, h3, h4, _⟩ := hi.items
    have hl : lost = [] := h4 (by rw [hph]; simp)
    subst hl
    cases hc : s.cur with
    | nil =>
      have h : some { s with phase := Phase.fill } = some s' := by rw [← h]; simp [hc]
      simp only [Option.some.injEq] at h
      subst h
      exact ⟨⟨done, cur, [], h1, h2, by rw [h3], fun _ => rfl, by simp⟩, fun _ => hcount, hi.bound, hi.chunks, fun _ => hc, hi.exhausted,
        by simp, by simp⟩
    | cons d ds =>
      rw [hc] at h hcount h3
      simp only [Option.some.injEq] at h
      subst h
      cases cur with
      | nil => simp at h3
      | cons x xs =>
        rw [List.mapM_cons] at h3
        cases hx : dec x with
        | none => rw [hx] at h3; simp at h3
        | some y =>
          rw [hx] at h3
          cases hxs : xs.mapM dec with
          | none => rw [hxs] at h3; simp at h3
          | some ys =>
            rw [hxs] at h3
            simp at h3
            obtain ⟨rfl, rfl⟩ := h3
            refine ⟨⟨done ++ [x], xs, [], by rw [h1]; simp, mapM_append_some h2 (by simp [hx]), hxs, fun _ => rfl, by simp [hph]⟩,
              fun _ => ?_, ?_, hi.chunks, by simp [hph], hi.exhausted, by simp [hph], by simp [hph]⟩
            · show s.count - 1 = (itemsOf s.pending).length + ys.length
              simp only [List.length_cons] at hcount
              omega
            · show s.count - 1 ≤ _
              have := hi.bound
              omega

theorem inv_step {c : Cfg α β} {dec : α → Option β} (hdec : ∀ l, c.decode l = l.mapM dec) (hd : 0 < c.depth) {plan0 : List α}
    {s s' : St α β} (hi : Inv c dec plan0 s) (h : Step c s s') : Inv c dec plan0 s' := by
  have key : ∀ (a b : List (List α × Status)) (items : List α) (x y : Status), s.pending = a ++ (items, x) :: b →
      Inv c dec plan0 { s with pending := a ++ (items, y) :: b } := by
    intro a b items x y hp
    have he : itemsOf (a ++ (items, y) :: b) = itemsOf s.pending := by rw [hp]; simp [itemsOf]
    refine ⟨?_, ?_, hi.bound, ?_, hi.cur, hi.exhausted, hi.drained, ?_⟩
    · simp only [he]; exact hi.items
    · simp only [he]; exact hi.count
    · intro p hp'
      simp only [List.mem_append, List.mem_cons] at hp'
      rcases hp' with hp' | rfl | hp'
      · exact hi.chunks p (by rw [hp]; simp [hp'])
      · exact hi.chunks (items, x) (by rw [hp]; simp)
      · exact hi.chunks p (by rw [hp]; simp [hp'])
    · intro hf
      have := (hi.finished hf).1
      rw [hp] at this
      simp at this
  cases h with
  | main h => exact inv_main hdec hd hi h
  | take hp _ _ => exact key _ _ _ _ _ hp
  | finish hp => exact key _ _ _ _ _ hp

theorem inv_exec {c : Cfg α β} {dec : α → Option β} (hdec : ∀ l, c.decode l = l.mapM dec) (hd : 0 < c.depth) {plan0 : List α}
    {n : Nat} {s : St α β} (h : Exec c (start plan0) n s) : Inv c dec plan0 s := by
  induction h with
  | refl => exact inv_start c dec plan0
  | step _ hs ih => exact inv_step hdec hd ih hs

/-! ### Progress and termination -/

def wStatus : Status → Nat
  | .queued => 3
  | .running => 2
  | .done => 1

def wPhase : Phase → Nat
  | .fill => 2
  | .drain => 1
  | .emit => 3
  | .finished => 0
  | .failed => 0

def wPending (p : List (List α × Status)) : Nat := (p.map fun q => 8 * q.1.length + wStatus q.2).sum

/-- Decreases with every step. -/
def weight (s : St α β) : Nat :=
  20 * s.plan.length + (if s.exhausted then 0 else 1) + wPending s.pending + 2 * s.cur.length + wPhase s.phase

theorem wPending_append (p q : List (List α × Status)) : wPending (p ++ q) = wPending p + wPending q := by simp [wPending]

theorem chunk_pos (c : Cfg α β) : 0 < c.chunk := by unfold Cfg.chunk; omega

theorem weight_step {c : Cfg α β} {dec : α → Option β} (hdec : ∀ l, c.decode l = l.mapM dec) {plan0 : List α}
    {s s' : St α β} (hi : Inv c dec plan0 s) (h : Step c s s') : weight s' < weight s := by
  cases h with
  | @take a items b hp _ _ =>
    unfold weight
    simp only [hp, wPending_append]
    simp [wPending, wStatus]
  | @finish a items b hp =>
    unfold weight
    simp only [hp, wPending_append]
    simp [wPending, wStatus]
  | main h =>
    unfold mainStep at h
    cases hph : s.phase with
    | finished => rw [hph] at h; simp at h
    | failed => rw [hph] at h; simp at h
    | fill =>
      rw [hph] at h
      simp only at h
      split at h
      · next hc =>
        simp only [Option.some.injEq] at h
        subst h
        have hk : 0 < min c.chunk (c.depth - s.count) := by have := chunk_pos c; omega
        unfold weight submit
        simp only [hph, hc.2, Bool.false_eq_true, if_false]
        by_cases hn : s.plan = []
        · simp [hn, hk]
        · have hl : 0 < s.plan.length := List.length_pos_iff.mpr hn
          have ht : s.plan.take (min c.chunk (c.depth - s.count)) ≠ [] := by
            intro h0
            have := congrArg List.length h0
            rw [List.length_take] at this
            rw [List.length_nil] at this
            omega
          rw [if_neg ht, wPending_append]
          have hw : wPending [(s.plan.take (min c.chunk (c.depth - s.count)), Status.queued)] =
              8 * (s.plan.take (min c.chunk (c.depth - s.count))).length + 3 := by simp [wPending, wStatus]
          rw [hw, List.length_drop, List.length_take]
          split <;> omega
      · simp only [Option.some.injEq] at h
        subst h
        unfold weight
        simp only [hph, wPhase]
        omega
    | drain =>
      rw [hph] at h
      simp only at h
      cases hp : s.pending with
      | nil =>
        rw [hp] at h
        simp only [Option.some.injEq] at h
        subst h
        unfold weight
        simp only [hph, hp, wPhase]
        omega
      | cons p rest =>
        obtain ⟨items, stt⟩ := p
        rw [hp] at h
        cases stt with
        | queued => simp at h
        | running => simp at h
        | done =>
          simp only at h
          have hch := hi.chunks (items, .done) (by rw [hp]; exact List.mem_cons_self ..)
          have hl : 0 < items.length := List.length_pos_iff.mpr hch.1
          have hw : wPending ((items, Status.done) :: rest) = 8 * items.length + 1 + wPending rest := by simp [wPending, wStatus]
          cases hdc : c.decode items with
          | none =>
            rw [hdc] at h
            simp only [Option.some.injEq] at h
            subst h
            unfold weight
            simp only [hph, hp, wPhase, hw]
            omega
          | some ds =>
            rw [hdc] at h
            rw [hdec] at hdc
            have hlen := mapM_length hdc
            simp only at h
            rw [if_neg (by simpa using hlen)] at h
            simp only [Option.some.injEq] at h
            subst h
            have hcur := hi.cur (by rw [hph]; simp)
            unfold weight
            simp only [hph, hp, wPhase, hw, hcur, hlen]
            omega
    | emit =>
      rw [hph] at h
      simp only at h
      cases hc : s.cur with
      | nil =>
        rw [hc] at h
        simp only [Option.some.injEq] at h
        subst h
        unfold weight
        simp only [hph, hc, wPhase]
        omega
      | cons d ds =>
        rw [hc] at h
        simp only [Option.some.injEq] at h
        subst h
        unfold weight
        simp only [hph, hc, List.length_cons]
        omega

theorem split_at_first {γ : Type} (p : γ → Bool) : ∀ (l : List γ), (∃ x ∈ l, p x = true) →
    ∃ a x b, l = a ++ x :: b ∧ p x = true ∧ ∀ y ∈ a, p y = false
  | [], h => by simp at h
  | x :: l, h => by
    cases hx : p x with
    | true => exact ⟨[], x, l, rfl, hx, by simp⟩
    | false =>
      obtain ⟨y, hy, hpy⟩ := h
      rcases List.mem_cons.mp hy with rfl | hy
      · rw [hx] at hpy; simp at hpy
      · obtain ⟨a, z, b, h1, h2, h3⟩ := split_at_first p l ⟨y, hy, hpy⟩
        refine ⟨x :: a, z, b, by rw [h1]; rfl, h2, ?_⟩
        intro w hw
        rcases List.mem_cons.mp hw with rfl | hw
        · exact hx
        · exact h3 w hw

/-- No deadlock: only ended iterations have no step. -/
theorem progress {c : Cfg α β} (hw : 0 < c.workers) {s : St α β} (hstuck : ∀ s', ¬ Step c s s') :
    s.phase = .finished ∨ s.phase = .failed := by
  have hmain : mainStep c s = none := by
    cases h : mainStep c s with
    | none => rfl
    | some s' => exact absurd (.main h) (hstuck s')
  unfold mainStep at hmain
  cases hph : s.phase with
  | finished => exact Or.inl rfl
  | failed => exact Or.inr rfl
  | fill =>
    rw [hph] at hmain
    simp only at hmain
    split at hmain <;> simp at hmain
  | emit =>
    rw [hph] at hmain
    simp only at hmain
    split at hmain <;> simp at hmain
  | drain =>
    exfalso
    rw [hph] at hmain
    simp only at hmain
    have hnorun : ∀ p ∈ s.pending, p.2 ≠ .running := by
      intro p hp hr
      obtain ⟨a, b, hab⟩ := List.append_of_mem hp
      obtain ⟨items, st⟩ := p
      simp only at hr
      subst hr
      exact hstuck _ (.finish hab)
    have hrun0 : running s = 0 := by
      unfold running
      rw [List.countP_eq_zero]
      intro p hp h
      exact hnorun p hp (by simpa using h)
    have hnoq : ∀ p ∈ s.pending, p.2 ≠ .queued := by
      intro p hp hq
      obtain ⟨a, x, b, h1, h2, h3⟩ := split_at_first (fun p => p.2 == Status.queued) s.pending ⟨p, hp, by simp [hq]⟩
      obtain ⟨items, st⟩ := x
      simp only [beq_iff_eq] at h2
      subst h2
      exact hstuck _ (.take h1 (fun y hy => by simpa using h3 y hy) (by omega))
    cases hp : s.pending with
    | nil => rw [hp] at hmain; simp at hmain
    | cons p rest =>
      obtain ⟨items, st⟩ := p
      have h1 := hnoq (items, st) (by rw [hp]; exact List.mem_cons_self ..)
      have h2 := hnorun (items, st) (by rw [hp]; exact List.mem_cons_self ..)
      cases st with
      | queued => simp at h1
      | running => simp at h2
      | done =>
        rw [hp] at hmain
        simp only at hmain
        split at hmain
        · simp at hmain
        · split at hmain <;> simp at hmain

theorem exec_weight {c : Cfg α β} {dec : α → Option β} (hdec : ∀ l, c.decode l = l.mapM dec) (hd : 0 < c.depth) {plan0 : List α}
    {n : Nat} {s : St α β} (h : Exec c (start plan0) n s) : n + weight s ≤ weight (start plan0 : St α β) := by
  induction h with
  | refl => omega
  | step he hs ih =>
    have := weight_step hdec (inv_exec hdec hd he) hs
    omega

/-- The synchronous iterator. -/
theorem syncRun_eq (dec : α → Option β) : ∀ (l : List α), ∃ k, k ≤ l.length ∧ (l.take k).mapM dec = some (syncRun dec l).1 ∧
    ((syncRun dec l).2 = true → k = l.length) ∧ ((syncRun dec l).2 = false → ∃ x, l[k]? = some x ∧ dec x = none)
  | [] => ⟨0, by simp, rfl, fun _ => rfl, by simp [syncRun]⟩
  | x :: xs => by
    rw [syncRun]
    cases hx : dec x with
    | none => exact ⟨0, by simp, rfl, by simp, fun _ => ⟨x, rfl, hx⟩⟩
    | some y =>
      obtain ⟨k, h1, h2, h3, h4⟩ := syncRun_eq dec xs
      refine ⟨k + 1, by simpa using h1, ?_, fun h => by rw [h3 h]; rfl, fun h => by simpa using h4 h⟩
      rw [List.take_succ_cons, List.mapM_cons, hx, h2]
      rfl

end Verif.Prefetch
