import Verif.Prefetch.Lemmas

/-!
# C31: prefetching does not change the batch stream

The reference is `syncRun`, the synchronous iterator: the decoded batches in planning order, up to the first one whose
decoding raises (second component `false`).  An execution is any interleaving of the consumer, workers taking tasks and
workers finishing tasks in any order.
-/
namespace Verif.Prefetch
variable {α β : Type}

theorem mapM_all_prefix {dec : α → Option β} {a b : List α} {x : List β} (h : (a ++ b).mapM dec = some x) :
    ∃ y z, a.mapM dec = some y ∧ b.mapM dec = some z ∧ x = y ++ z := by
  rw [List.mapM_append] at h
  cases ha : a.mapM dec with
  | none => rw [ha] at h; simp at h
  | some y =>
    cases hb : b.mapM dec with
    | none => rw [ha, hb] at h; simp at h
    | some z =>
      rw [ha, hb] at h
      simp at h
      exact ⟨y, z, rfl, rfl, h.symm⟩

theorem mapM_none_append {dec : α → Option β} {a b : List α} (h : a.mapM dec = none) : (a ++ b).mapM dec = none := by
  rw [List.mapM_append, h]; rfl

theorem mapM_none_append_right {dec : α → Option β} {a b : List α} (h : b.mapM dec = none) : (a ++ b).mapM dec = none := by
  rw [List.mapM_append, h]
  cases a.mapM dec <;> rfl

theorem mapM_none_of_mem {dec : α → Option β} {a : List α} {x : α} (hx : x ∈ a) (h : dec x = none) : a.mapM dec = none := by
  obtain ⟨l, r, rfl⟩ := List.append_of_mem hx
  refine mapM_none_append_right ?_
  rw [List.mapM_cons, h]
  rfl

/-- Decoding of `k` leading items succeeds only up to the synchronous output. -/
theorem sync_prefix {dec : α → Option β} {plan a b : List α} {x : List β} (hp : plan = a ++ b) (h : a.mapM dec = some x) :
    ∃ t, (syncRun dec plan).1 = x ++ t := by
  obtain ⟨k, h1, h2, h3, h4⟩ := syncRun_eq dec plan
  by_cases hk : a.length ≤ k
  · have : plan.take k = a ++ b.take (k - a.length) := by
      rw [hp, List.take_append, List.take_of_length_le hk]
    rw [this] at h2
    obtain ⟨y, z, e1, _, e3⟩ := mapM_all_prefix h2
    rw [h] at e1
    simp at e1
    exact ⟨z, by rw [e3, e1]⟩
  · exfalso
    cases hs : (syncRun dec plan).2 with
    | true =>
      have := h3 hs
      rw [hp] at this
      simp at this
      omega
    | false =>
      obtain ⟨y, hy, hd⟩ := h4 hs
      have : y ∈ a := by
        rw [hp, List.getElem?_append_left (by omega)] at hy
        exact List.mem_of_getElem? hy
      rw [mapM_none_of_mem this hd] at h
      simp at h

/-- Length of the synchronous output when some decoding fails: the failing index is outside any decodable prefix and inside
any failing one. -/
theorem sync_fail_len {dec : α → Option β} {plan a l b : List α} {x : List β} (hp : plan = a ++ l ++ b) (h : a.mapM dec = some x)
    (hl : l.mapM dec = none) : (syncRun dec plan).2 = false ∧ (syncRun dec plan).1.length < x.length + l.length := by
  obtain ⟨k, h1, h2, h3, _⟩ := syncRun_eq dec plan
  have hx := mapM_length h
  have hlt : k < a.length + l.length := by
    by_contra hk
    have hk : a.length + l.length ≤ k := by omega
    have : plan.take k = (a ++ l) ++ b.take (k - (a ++ l).length) := by
      rw [hp, List.take_append, List.take_of_length_le (by simpa using hk)]
    rw [this, mapM_none_append (mapM_none_append_right hl)] at h2
    simp at h2
  have hlen := mapM_length h2
  rw [List.length_take] at hlen
  refine ⟨?_, by omega⟩
  cases hs : (syncRun dec plan).2 with
  | false => rfl
  | true =>
    have := h3 hs
    rw [hp] at this
    simp at this
    omega

/-- **C31 (order and content).** At every moment of every execution the batches yielded so far are an initial part of what
synchronous iteration yields. -/
theorem C31_prefix_of_sync (c : Cfg α β) (dec : α → Option β) (hdec : ∀ l, c.decode l = l.mapM dec) (hd : 0 < c.depth)
    (plan : List α) (n : Nat) (s : St α β) (h : Exec c (start plan) n s) : s.out <+: (syncRun dec plan).1 := by
  obtain ⟨done, cur, lost, h1, h2, _⟩ := (inv_exec hdec hd h).items
  obtain ⟨t, ht⟩ := sync_prefix (plan := plan) (b := cur ++ lost ++ itemsOf s.pending ++ s.plan) (by rw [h1]; simp) h2
  exact ⟨t, ht.symm⟩

/-- **C31 (completion).** An execution that can go no further has ended.  If synchronous iteration decodes everything, it has
returned normally after yielding exactly the synchronous batches; if synchronous iteration raises at batch `i`, it has raised
too, after yielding the synchronous batches except possibly some of the fewer than `chunk` batches before `i` that were
decoded in the same chunk. -/
theorem C31_complete (c : Cfg α β) (dec : α → Option β) (hdec : ∀ l, c.decode l = l.mapM dec) (hd : 0 < c.depth)
    (hw : 0 < c.workers) (plan : List α) (n : Nat) (s : St α β) (h : Exec c (start plan) n s) (hstuck : ∀ s', ¬ Step c s s') :
    ((syncRun dec plan).2 = true → s.phase = .finished ∧ s.out = (syncRun dec plan).1) ∧
    ((syncRun dec plan).2 = false → s.phase = .failed ∧
      ∃ t, (syncRun dec plan).1 = s.out ++ t ∧ t.length < c.chunk) := by
  have hi := inv_exec hdec hd h
  obtain ⟨done, cur, lost, h1, h2, h3, h4, h5⟩ := hi.items
  rcases progress hw hstuck with hp | hp
  · obtain ⟨hpe, hpl⟩ := hi.finished hp
    have hl := h4 (by rw [hp]; simp)
    have hcur := hi.cur (by rw [hp]; simp)
    have hc0 : cur = [] := by
      have := mapM_length h3
      rw [hcur] at this
      exact List.eq_nil_of_length_eq_zero this.symm
    rw [hpe, hpl, hl, hc0] at h1
    simp [itemsOf] at h1
    subst h1
    obtain ⟨k, e1, e2, e3, e4⟩ := syncRun_eq dec plan
    have hs : (syncRun dec plan).2 = true := by
      cases hs : (syncRun dec plan).2 with
      | true => rfl
      | false =>
        obtain ⟨x, hx, hxd⟩ := e4 hs
        rw [mapM_none_of_mem (List.mem_of_getElem? hx) hxd] at h2
        simp at h2
    rw [e3 hs, List.take_length, h2] at e2
    simp at e2
    exact ⟨fun _ => ⟨hp, e2⟩, fun hf => by rw [hs] at hf; simp at hf⟩
  · obtain ⟨hl, hlen, hcur⟩ := h5 hp
    subst hcur
    simp only [List.append_nil] at h1
    have h1' : plan = done ++ lost ++ (itemsOf s.pending ++ s.plan) := by rw [h1]; simp
    obtain ⟨hs, hlt⟩ := sync_fail_len h1' h2 hl
    refine ⟨fun ht => by rw [hs] at ht; simp at ht, fun _ => ⟨hp, ?_⟩⟩
    obtain ⟨t, ht⟩ := sync_prefix (plan := plan) (b := lost ++ (itemsOf s.pending ++ s.plan)) (by rw [h1']; simp) h2
    refine ⟨t, ht, ?_⟩
    rw [ht, List.length_append] at hlt
    omega

/-- **C31 (bounded).** The batches taken from the planner and not yet yielded never exceed `prefetch_batches`. -/
theorem C31_in_flight (c : Cfg α β) (dec : α → Option β) (hdec : ∀ l, c.decode l = l.mapM dec) (hd : 0 < c.depth)
    (plan : List α) (n : Nat) (s : St α β) (h : Exec c (start plan) n s) :
    s.plan.length ≤ plan.length ∧ plan.length - s.plan.length ≤ s.out.length + c.depth := by
  have hgen : ∀ {n : Nat} {s : St α β}, Exec c (start plan) n s → s.phase ≠ .failed →
      plan.length ≤ s.plan.length + s.out.length + c.depth := by
    intro n s h hne
    have hi := inv_exec hdec hd h
    obtain ⟨done, cur, lost, h1, h2, h3, h4, _⟩ := hi.items
    have hl := h4 hne
    have e2 := mapM_length h2
    have e3 := mapM_length h3
    have hc := hi.count hne
    have hb := hi.bound
    subst hl
    have := congrArg List.length h1
    simp only [List.length_append, List.length_nil] at this
    omega
  have hall : plan.length ≤ s.plan.length + s.out.length + c.depth := by
    induction h with
    | refl => simp [start]
    | @step n s s' he hs ih =>
      by_cases hne : s'.phase = .failed
      · cases hs with
        | take => exact ih
        | finish => exact ih
        | main hm =>
          have hkeep : s'.plan = s.plan ∧ s'.out = s.out := by
            unfold mainStep at hm
            cases hph : s.phase with
            | finished => rw [hph] at hm; simp at hm
            | failed => rw [hph] at hm; simp at hm
            | fill =>
              rw [hph] at hm
              simp only at hm
              split at hm
              · simp only [Option.some.injEq] at hm
                subst hm
                have : s.phase = .failed := hne
                rw [hph] at this; simp at this
              · simp only [Option.some.injEq] at hm
                subst hm
                simp at hne
            | emit =>
              rw [hph] at hm
              simp only at hm
              split at hm <;> (simp only [Option.some.injEq] at hm; subst hm; simp [hph] at hne)
            | drain =>
              rw [hph] at hm
              simp only at hm
              split at hm
              · simp only [Option.some.injEq] at hm
                subst hm
                simp at hne
              · split at hm
                · simp only [Option.some.injEq] at hm
                  subst hm
                  exact ⟨rfl, rfl⟩
                · split at hm <;> (simp only [Option.some.injEq] at hm; subst hm; exact ⟨rfl, rfl⟩)
              · simp at hm
          rw [hkeep.1, hkeep.2]
          exact ih
      · exact hgen (.step he hs) hne
  have hi := inv_exec hdec hd h
  obtain ⟨done, cur, lost, h1, _⟩ := hi.items
  have := congrArg List.length h1
  simp only [List.length_append] at this
  omega

/-- **C31 (termination).** Every execution is finite: at most `20·|plan| + 3` steps. -/
theorem C31_terminates (c : Cfg α β) (dec : α → Option β) (hdec : ∀ l, c.decode l = l.mapM dec) (hd : 0 < c.depth)
    (plan : List α) (n : Nat) (s : St α β) (h : Exec c (start plan) n s) : n ≤ 20 * plan.length + 3 := by
  have := exec_weight hdec hd h
  have he : weight (start plan : St α β) = 20 * plan.length + 3 := by simp [weight, start, wPending, wPhase]
  omega

/-! ### Non-vacuity: batches 0..4 with two workers and depth 4 (chunks of 2); batch 3 fails to decode -/

def demoDec (n : Nat) : Option Nat := if n = 3 then none else some (n * 10)
def demoCfg : Cfg Nat Nat := ⟨4, 2, fun l => l.mapM demoDec⟩

example : demoCfg.chunk = 2 ∧ syncRun demoDec [0, 1, 2, 3, 4] = ([0, 10, 20], false) ∧ syncRun demoDec [0, 1, 2] = ([0, 10, 20], true) := by
  decide

/-- An execution in which the second chunk finishes first and which yields batch 0. -/
example : Exec demoCfg (start [0, 1, 2]) 9 ⟨[], true, [([2], .done)], 2, .emit, [10], [0]⟩ := by
  have e1 := Exec.step .refl (.main (c := demoCfg) (s := start [0, 1, 2]) (s' := ⟨[2], false, [([0, 1], .queued)], 2, .fill, [], []⟩) rfl)
  have e2 := Exec.step e1 (.main (s' := ⟨[], true, [([0, 1], .queued), ([2], .queued)], 3, .fill, [], []⟩) rfl)
  have e3 := Exec.step e2 (.take (a := []) (items := [0, 1]) (b := [([2], .queued)]) rfl (by simp) (by decide))
  have e4 := Exec.step e3 (.take (a := [([0, 1], .running)]) (items := [2]) (b := []) rfl (by simp) (by decide))
  have e5 := Exec.step e4 (.finish (a := [([0, 1], .running)]) (items := [2]) (b := []) rfl)
  have e6 := Exec.step e5 (.finish (a := []) (items := [0, 1]) (b := [([2], .done)]) rfl)
  have e7 := Exec.step e6 (.main (s' := ⟨[], true, [([0, 1], .done), ([2], .done)], 3, .drain, [], []⟩) rfl)
  have e8 := Exec.step e7 (.main (s' := ⟨[], true, [([2], .done)], 3, .emit, [0, 10], []⟩) rfl)
  exact Exec.step e8 (.main rfl)

end Verif.Prefetch
