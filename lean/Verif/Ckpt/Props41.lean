import Verif.Ckpt.Writer

/-!
# C41: the asynchronous checkpoint writer keeps order and never loses an error
-/
namespace Verif.Ckpt.Writer

/-- Everything a job does when nothing fails: its files in order, then its hook. -/
def full (J : Job) : List Ev := (List.range J.n).map (.write J.id) ++ if J.hook then [.hook J.id] else []

/-- The effects of a finished job: all of them, or some first part of them followed by the failure. -/
def Finished (J : Job) (b : List Ev) : Prop := b = full J ∨ ∃ k, k < (full J).length ∧ b = (full J).take k ++ [.fail J.id]

def accepted (log : List Ev) : List Job := log.filterMap fun | .accept J _ => some J | _ => none
/-- Effects of jobs: what is written, hooks and failures, in the order they happened. -/
def effects (log : List Ev) : List Ev := log.filter fun | .write .. | .hook _ | .fail _ => true | _ => false
def isAsync (log : List Ev) (j : Nat) : Prop := ∃ J, J.id = j ∧ .accept J true ∈ log
def fails (log : List Ev) : List Nat := log.filterMap fun | .fail j => some j | _ => none
/-- Failures told to the caller: by `flush`/`submit` or directly from the synchronous path. -/
def told (log : List Ev) : List Nat := log.filterMap fun | .report j | .raised j => some j | _ => none

/-- Effects seen in the log when the jobs before have finished with the blocks `bs` and the last one has done `cur`. -/
structure Trace (log : List Ev) (bs : List (Job × List Ev)) (cur : Option (Job × List Ev)) : Prop where
  jobs : accepted log = bs.map (·.1) ++ (cur.map (·.1)).toList
  effs : effects log = (bs.map (·.2)).flatten ++ (cur.elim [] (·.2))
  fin : ∀ b ∈ bs, Finished b.1 b.2

/-- The run in progress, if any. -/
def active (w : Writer) : Option Run := match w.sync with
  | some r => some r
  | none => match w.thread with
    | some r => if r.fin then none else some r
    | none => none

structure Inv (w : Writer) : Prop where
  trace : ∃ bs, Trace w.log bs ((active w).map fun r => (r.job, (full r.job).take r.pos))
  pos : ∀ r, active w = some r → r.pos ≤ (full r.job).length
  excl : w.sync ≠ none → joinable w
  errs : fails w.log = told w.log ++ w.error.toList
  syncErr : (∃ r, w.sync = some r) → w.error = none
  thrErr : (∃ r, w.thread = some r ∧ r.fin = false) → w.error = none

theorem full_length (J : Job) : (full J).length = J.n + if J.hook then 1 else 0 := by
  unfold full
  cases J.hook <;> simp

theorem next_eq (r : Run) (h : r.pos ≤ (full r.job).length) : next r = (full r.job)[r.pos]? := by
  rw [full_length] at h
  unfold next full
  by_cases h1 : r.pos < r.job.n
  · rw [if_pos h1, List.getElem?_append_left (by simpa using h1)]
    simp [h1]
  · rw [if_neg h1, List.getElem?_append_right (by simpa using Nat.le_of_not_lt h1)]
    cases hh : r.job.hook
    · simp
    · simp only [Bool.and_true, if_true, List.length_map, List.length_range]
      by_cases h2 : r.pos = r.job.n
      · simp [h2]
      · rw [hh] at h; simp only [if_true] at h
        have : r.pos - r.job.n = 1 := by omega
        simp [h2, this]

theorem next_effect {r : Run} {e : Ev} (h : next r = some e) :
    effects [e] = [e] ∧ accepted [e] = [] ∧ fails [e] = [] ∧ told [e] = [] := by
  unfold next at h
  split at h
  · cases h; simp [effects, accepted, fails, told]
  · split at h
    · cases h; simp [effects, accepted, fails, told]
    · cases h

theorem effects_append (a b : List Ev) : effects (a ++ b) = effects a ++ effects b := List.filter_append ..
theorem accepted_append (a b : List Ev) : accepted (a ++ b) = accepted a ++ accepted b := List.filterMap_append ..
theorem fails_append (a b : List Ev) : fails (a ++ b) = fails a ++ fails b := List.filterMap_append ..
theorem told_append (a b : List Ev) : told (a ++ b) = told a ++ told b := List.filterMap_append ..

/-- Progress of the active run by one operation. -/
theorem Trace.work {log : List Ev} {bs : List (Job × List Ev)} {r : Run} {e : Ev} (hp : r.pos ≤ (full r.job).length)
    (h : Trace log bs (some (r.job, (full r.job).take r.pos))) (hn : next r = some e) :
    Trace (log ++ [e]) bs (some (r.job, (full r.job).take (r.pos + 1))) ∧ r.pos + 1 ≤ (full r.job).length := by
  have h1 := next_eq r hp
  rw [hn] at h1
  obtain ⟨hlt, he⟩ := List.getElem?_eq_some_iff.mp h1.symm
  obtain ⟨e1, e2, _⟩ := next_effect hn
  refine ⟨⟨?_, ?_, h.fin⟩, hlt⟩
  · rw [accepted_append, e2, List.append_nil]; exact h.jobs
  · rw [effects_append, e1, h.effs]
    simp only [Option.elim_some]
    rw [List.append_assoc]
    congr 1
    rw [List.take_add_one, ← h1]
    rfl

theorem Trace.fail {log : List Ev} {bs : List (Job × List Ev)} {r : Run} {e : Ev} (hp : r.pos ≤ (full r.job).length)
    (h : Trace log bs (some (r.job, (full r.job).take r.pos))) (hn : next r = some e) (more : List Ev)
    (hm : effects more = [] ∧ accepted more = []) :
    Trace (log ++ .fail r.job.id :: more) (bs ++ [(r.job, (full r.job).take r.pos ++ [.fail r.job.id])]) none := by
  have h1 := next_eq r hp
  rw [hn] at h1
  obtain ⟨hlt, _⟩ := List.getElem?_eq_some_iff.mp h1.symm
  have e1 : effects (.fail r.job.id :: more) = [.fail r.job.id] := by
    have : effects (.fail r.job.id :: more) = .fail r.job.id :: effects more := by simp [effects]
    rw [this, hm.1]
  have e2 : accepted (.fail r.job.id :: more) = [] := by
    have : accepted (.fail r.job.id :: more) = accepted more := by simp [accepted]
    rw [this, hm.2]
  refine ⟨?_, ?_, ?_⟩
  · rw [accepted_append, e2, List.append_nil, h.jobs]; simp
  · rw [effects_append, e1, h.effs]; simp
  · intro b hb
    rcases List.mem_append.mp hb with hb | hb
    · exact h.fin b hb
    · rw [List.mem_singleton] at hb
      subst hb
      exact Or.inr ⟨r.pos, hlt, rfl⟩

theorem Trace.done {log : List Ev} {bs : List (Job × List Ev)} {r : Run} (hp : r.pos ≤ (full r.job).length)
    (h : Trace log bs (some (r.job, (full r.job).take r.pos))) (hn : next r = none) :
    Trace log (bs ++ [(r.job, full r.job)]) none := by
  have h1 := next_eq r hp
  rw [hn] at h1
  have := List.getElem?_eq_none_iff.mp h1.symm
  refine ⟨by rw [h.jobs]; simp, ?_, ?_⟩
  · rw [h.effs]; simp [List.take_of_length_le this]
  · intro b hb
    rcases List.mem_append.mp hb with hb | hb
    · exact h.fin b hb
    · rw [List.mem_singleton] at hb
      subst hb
      exact Or.inl rfl

theorem Trace.silent {log : List Ev} {bs : List (Job × List Ev)} {cur} (h : Trace log bs cur) (more : List Ev)
    (hm : effects more = [] ∧ accepted more = []) : Trace (log ++ more) bs cur := by
  refine ⟨?_, ?_, h.fin⟩
  · rw [accepted_append, hm.2, List.append_nil]; exact h.jobs
  · rw [effects_append, hm.1, List.append_nil]; exact h.effs

theorem Trace.accept {log : List Ev} {bs : List (Job × List Ev)} (h : Trace log bs none) (J : Job) (a : Bool) :
    Trace (log ++ [.accept J a]) bs (some (J, [])) := by
  refine ⟨?_, ?_, h.fin⟩
  · rw [accepted_append, h.jobs]; simp [accepted]
  · rw [effects_append, h.effs]; simp [effects]

theorem joinable_active {w : Writer} (hs : w.sync = none) (hj : joinable w) : active w = none := by
  unfold active
  rw [hs]
  cases ht : w.thread with
  | none => rfl
  | some r => simp [hj r ht]

theorem active_thread {w : Writer} {r : Run} (hi : Inv w) (ht : w.thread = some r) (hf : r.fin = false) :
    w.sync = none ∧ active w = some r := by
  have hs : w.sync = none := by
    by_contra h
    have := hi.excl h r ht
    rw [hf] at this; cases this
  refine ⟨hs, ?_⟩
  unfold active
  rw [hs, ht]
  simp [hf]

theorem flush_inv {w : Writer} (hi : Inv w) (hs : w.sync = none) (hj : joinable w) :
    (∃ bs, Trace (flush w).1.log bs none) ∧ (flush w).1.thread = none ∧ (flush w).1.sync = none ∧ (flush w).1.error = none ∧
    fails (flush w).1.log = told (flush w).1.log := by
  obtain ⟨bs, htr⟩ := hi.trace
  rw [joinable_active hs hj] at htr
  have he := hi.errs
  unfold flush
  cases h : w.error with
  | none =>
    rw [h] at he
    refine ⟨⟨bs, htr⟩, rfl, hs, rfl, by simpa using he⟩
  | some j =>
    rw [h] at he
    refine ⟨⟨bs, htr.silent [.report j] (by simp [effects, accepted])⟩, rfl, hs, rfl, ?_⟩
    simp only [fails_append, told_append, he]
    simp [fails, told]

theorem inv_idle {w : Writer} (htr : ∃ bs, Trace w.log bs none) (h1 : w.thread = none) (h2 : w.sync = none) (h3 : w.error = none)
    (h4 : fails w.log = told w.log) : Inv w := by
  have ha : active w = none := by unfold active; rw [h1, h2]
  exact ⟨by rw [ha]; exact htr, by simp [ha], by simp [h2], by simp [h3, h4], by simp [h2], by simp [h1]⟩

theorem inv_step {w w' : Writer} (hi : Inv w) (hs : Step w w') : Inv w' := by
  cases hs with
  | work ht hf hn =>
    rename_i r e
    obtain ⟨hsn, ha⟩ := active_thread hi ht hf
    obtain ⟨bs, htr⟩ := hi.trace
    rw [ha] at htr
    obtain ⟨h1, h2⟩ := htr.work (hi.pos r ha) hn
    obtain ⟨_, _, e3, e4⟩ := next_effect hn
    have ha' : active { w with thread := some { r with pos := r.pos + 1 }, log := w.log ++ [e] } = some { r with pos := r.pos + 1 } := by
      unfold active; simp [hsn, hf]
    refine ⟨⟨bs, by rw [ha']; exact h1⟩, ?_, ?_, ?_, ?_, ?_⟩
    · rw [ha']; intro r' hr'; cases hr'; exact h2
    · intro h; exact absurd hsn h
    · simp only [fails_append, told_append, e3, e4, List.append_nil]; exact hi.errs
    · rintro ⟨r', hr'⟩; rw [hsn] at hr'; cases hr'
    · intro _; exact hi.thrErr ⟨r, ht, hf⟩
  | workFail ht hf hn =>
    rename_i r e
    obtain ⟨hsn, ha⟩ := active_thread hi ht hf
    obtain ⟨bs, htr⟩ := hi.trace
    rw [ha] at htr
    have h1 := htr.fail (hi.pos r ha) hn [] (by simp [effects, accepted])
    have he : w.error = none := hi.thrErr ⟨r, ht, hf⟩
    have ha' : active { w with thread := some { r with fin := true }, error := some r.job.id, log := w.log ++ [.fail r.job.id] } = none := by
      unfold active; simp [hsn]
    refine ⟨⟨_, by rw [ha']; exact h1⟩, ?_, ?_, ?_, ?_, ?_⟩
    · rw [ha']; intro r' hr'; cases hr'
    · intro h; exact absurd hsn h
    · have := hi.errs
      rw [he] at this
      simp only [fails_append, told_append, this]
      simp [fails, told]
    · rintro ⟨r', hr'⟩; rw [hsn] at hr'; cases hr'
    · rintro ⟨r', hr', hf'⟩; cases hr'; cases hf'
  | workEnd ht hf hn =>
    rename_i r
    obtain ⟨hsn, ha⟩ := active_thread hi ht hf
    obtain ⟨bs, htr⟩ := hi.trace
    rw [ha] at htr
    have h1 := htr.done (hi.pos r ha) hn
    have ha' : active { w with thread := some { r with fin := true } } = none := by
      unfold active; simp [hsn]
    refine ⟨⟨_, by rw [ha']; exact h1⟩, ?_, ?_, hi.errs, ?_, ?_⟩
    · rw [ha']; intro r' hr'; cases hr'
    · intro h; exact absurd hsn h
    · rintro ⟨r', hr'⟩; rw [hsn] at hr'; cases hr'
    · rintro ⟨r', hr', hf'⟩; cases hr'; cases hf'
  | flushCall hsn hj =>
    obtain ⟨⟨bs, h1⟩, h2, h3, h4, h5⟩ := flush_inv hi hsn hj
    split
    · refine inv_idle ⟨bs, h1.silent [.flushed] (by simp [effects, accepted])⟩ h2 h3 h4 ?_
      simp only [fails_append, told_append, h5]
      simp [fails, told]
    · exact inv_idle ⟨bs, h1⟩ h2 h3 h4 h5
  | submitFail J hsn hj hr =>
    obtain ⟨h1, h2, h3, h4, h5⟩ := flush_inv hi hsn hj
    exact inv_idle h1 h2 h3 h4 h5
  | submitAsync J hsn hj hr hc hd =>
    obtain ⟨⟨bs, h1⟩, h2, h3, h4, h5⟩ := flush_inv hi hsn hj
    have ha' : active { (flush w).1 with thread := some ⟨J, 0, false⟩, log := (flush w).1.log ++ [.accept J true] } = some ⟨J, 0, false⟩ := by
      unfold active; simp [h3]
    refine ⟨⟨bs, by rw [ha']; exact h1.accept J true⟩, ?_, ?_, ?_, ?_, ?_⟩
    · rw [ha']; intro r' hr'; cases hr'; exact Nat.zero_le _
    · intro h; exact absurd h3 h
    · simp only [fails_append, told_append, h4, h5]; simp [fails, told]
    · intro _; exact h4
    · intro _; exact h4
  | submitSync J oom hsn hj hr =>
    obtain ⟨⟨bs, h1⟩, h2, h3, h4, h5⟩ := flush_inv hi hsn hj
    have ha' : active { (flush w).1 with sync := some ⟨J, 0, false⟩, disabled := w.disabled || oom, log := (flush w).1.log ++ [.accept J false] } = some ⟨J, 0, false⟩ := by
      unfold active; simp
    refine ⟨⟨bs, by rw [ha']; exact h1.accept J false⟩, ?_, ?_, ?_, ?_, ?_⟩
    · rw [ha']; intro r' hr'; cases hr'; exact Nat.zero_le _
    · intro _ r' hr'; rw [show (flush w).1.thread = none from h2] at hr'; cases hr'
    · simp only [fails_append, told_append, h4, h5]; simp [fails, told]
    · intro _; exact h4
    · intro _; exact h4
  | syncWork hsr hn =>
    rename_i r e
    have ha : active w = some r := by unfold active; rw [hsr]
    obtain ⟨bs, htr⟩ := hi.trace
    rw [ha] at htr
    obtain ⟨h1, h2⟩ := htr.work (hi.pos r ha) hn
    obtain ⟨_, _, e3, e4⟩ := next_effect hn
    have ha' : active { w with sync := some { r with pos := r.pos + 1 }, log := w.log ++ [e] } = some { r with pos := r.pos + 1 } := by
      unfold active; simp
    refine ⟨⟨bs, by rw [ha']; exact h1⟩, ?_, ?_, ?_, ?_, hi.thrErr⟩
    · rw [ha']; intro r' hr'; cases hr'; exact h2
    · intro _; exact hi.excl (by rw [hsr]; simp)
    · simp only [fails_append, told_append, e3, e4, List.append_nil]; exact hi.errs
    · intro _; exact hi.syncErr ⟨r, hsr⟩
  | syncFail hsr hn =>
    rename_i r e
    have ha : active w = some r := by unfold active; rw [hsr]
    obtain ⟨bs, htr⟩ := hi.trace
    rw [ha] at htr
    have h1 := htr.fail (hi.pos r ha) hn [.raised r.job.id] (by simp [effects, accepted])
    have he : w.error = none := hi.syncErr ⟨r, hsr⟩
    have hj := hi.excl (by rw [hsr]; simp)
    have ha' : active { w with sync := none, log := w.log ++ [.fail r.job.id, .raised r.job.id] } = none :=
      joinable_active rfl hj
    refine ⟨⟨_, by rw [ha']; exact h1⟩, ?_, ?_, ?_, ?_, hi.thrErr⟩
    · rw [ha']; intro r' hr'; cases hr'
    · intro h; exact absurd rfl h
    · have := hi.errs
      rw [he] at this
      simp only [fails_append, told_append, this, he]
      simp [fails, told]
    · intro _; exact he
  | syncEnd hsr hn =>
    rename_i r
    have ha : active w = some r := by unfold active; rw [hsr]
    obtain ⟨bs, htr⟩ := hi.trace
    rw [ha] at htr
    have h1 := htr.done (hi.pos r ha) hn
    have hj := hi.excl (by rw [hsr]; simp)
    have ha' : active { w with sync := none } = none := joinable_active rfl hj
    refine ⟨⟨_, by rw [ha']; exact h1⟩, ?_, ?_, hi.errs, ?_, hi.thrErr⟩
    · rw [ha']; intro r' hr'; cases hr'
    · intro h; exact absurd rfl h
    · rintro ⟨r', hr'⟩; cases hr'

theorem inv_exec {cuda : Bool} {w : Writer} (h : Exec cuda w) : Inv w := by
  induction h with
  | init => exact inv_idle ⟨[], ⟨rfl, rfl, by simp⟩⟩ rfl rfl rfl rfl
  | step _ hs ih => exact inv_step ih hs

/-- **C41 (order, one at a time, hook last).** At every moment of every interleaving, what has happened on disk is exactly: for the jobs
accepted by `submit`, in that order, the complete effects of each earlier job (all its files in order and then its hook, or a first part of
that and then its failure), followed by a first part of the effects of the last one.  So jobs never interleave or overtake each other, no
job is lost, and a hook runs only after every file of its job has been written. -/
theorem C41_order {cuda : Bool} {w : Writer} (h : Exec cuda w) : ∃ bs cur, Trace w.log bs cur ∧
    (∀ J b, cur = some (J, b) → b <+: full J) := by
  obtain ⟨bs, h1⟩ := (inv_exec h).trace
  refine ⟨bs, _, h1, ?_⟩
  intro J b hb
  cases ha : active w with
  | none => rw [ha] at hb; cases hb
  | some r => rw [ha] at hb; cases hb; exact List.take_prefix _ _

/-- **C41 (errors).** Failures and the errors raised to the caller correspond one to one, in order, except for at most one failure not yet
raised, which is the stored error: none is lost, none is raised twice. -/
theorem C41_errors {cuda : Bool} {w : Writer} (h : Exec cuda w) : fails w.log = told w.log ++ w.error.toList := (inv_exec h).errs

/-- **C41 (reported at the next call).** A `flush` or `submit` made while a failure is pending raises exactly that failure and does nothing
else (the new job is not accepted); and whenever `flush` returns normally or `submit` accepts a job, every earlier failure has been raised
and every earlier job has finished. -/
theorem C41_next_call {cuda : Bool} {w w' : Writer} (h : Exec cuda w) (hs : Step w w') :
    (∀ j, w.error = some j → (∃ J a, w'.log = w.log ++ [.accept J a]) ∨ w'.log = w.log ++ [.flushed] → False) ∧
    (((∃ J a, w'.log = w.log ++ [.accept J a]) ∨ w'.log = w.log ++ [.flushed]) →
      fails w.log = told w.log ∧ ∃ bs, Trace w.log bs none) ∧
    (∀ j, w'.log = w.log ++ [.report j] → w.error = some j ∧ w'.error = none ∧ w'.thread = none) := by
  have hi := inv_exec h
  have hquiet : ∀ (w : Writer), Inv w → w.sync = none → joinable w → (flush w).2 = true →
      w.error = none ∧ fails w.log = told w.log ∧ ∃ bs, Trace w.log bs none := by
    intro w hi hsn hj hr
    have he : w.error = none := by
      unfold flush at hr
      cases h : w.error with
      | none => rfl
      | some j => rw [h] at hr; cases hr
    obtain ⟨bs, htr⟩ := hi.trace
    rw [joinable_active hsn hj] at htr
    have := hi.errs
    rw [he] at this
    exact ⟨he, by simpa using this, bs, htr⟩
  -- adding an event that is neither an acceptance, a normal flush nor a report
  have other : ∀ e : Ev, (∀ J a, e ≠ .accept J a) → e ≠ .flushed → (∀ j, e ≠ .report j) → ∀ more : List Ev,
      (¬ ((∃ J a, w.log ++ e :: more = w.log ++ [.accept J a]) ∨ w.log ++ e :: more = w.log ++ [.flushed])) ∧
      ∀ j, w.log ++ e :: more ≠ w.log ++ [.report j] := by
    intro e h1 h2 h3 more
    refine ⟨?_, ?_⟩
    · rintro (⟨J, a, hh⟩ | hh)
      · have := List.append_cancel_left hh
        simp only [List.cons.injEq] at this
        exact h1 J a this.1
      · have := List.append_cancel_left hh
        simp only [List.cons.injEq] at this
        exact h2 this.1
    · intro j hh
      have := List.append_cancel_left hh
      simp only [List.cons.injEq] at this
      exact h3 j this.1
  have same : ¬ ((∃ J a, w.log = w.log ++ [.accept J a]) ∨ w.log = w.log ++ [.flushed]) ∧ ∀ j, w.log ≠ w.log ++ [.report j] := by
    refine ⟨?_, ?_⟩
    · rintro (⟨J, a, hh⟩ | hh) <;> have := congrArg List.length hh <;> simp at this
    · intro j hh; have := congrArg List.length hh; simp at this
  cases hs with
  | work ht hf hn =>
    rename_i r e
    have hne : (∀ J a, e ≠ .accept J a) ∧ e ≠ .flushed ∧ ∀ j, e ≠ .report j := by
      unfold next at hn
      split at hn
      · cases hn; simp
      · split at hn
        · cases hn; simp
        · cases hn
    obtain ⟨o1, o2⟩ := other e hne.1 hne.2.1 hne.2.2 []
    exact ⟨fun _ _ hh => o1 hh, fun hh => absurd hh o1, fun j hh => absurd hh (o2 j)⟩
  | workFail ht hf hn =>
    rename_i r e
    obtain ⟨o1, o2⟩ := other (.fail r.job.id) (by simp) (by simp) (by simp) []
    exact ⟨fun _ _ hh => o1 hh, fun hh => absurd hh o1, fun j hh => absurd hh (o2 j)⟩
  | workEnd ht hf hn => exact ⟨fun _ _ hh => same.1 hh, fun hh => absurd hh same.1, fun j hh => absurd hh (same.2 j)⟩
  | flushCall hsn hj =>
    cases hr : (flush w).2 with
    | true =>
      obtain ⟨he, hq⟩ := hquiet w hi hsn hj hr
      have hl : (flush w).1.log = w.log := by unfold flush; rw [he]
      simp only [if_true, hl]
      refine ⟨fun j hj' => ?_, fun _ => hq, fun j hh => ?_⟩
      · rw [he] at hj'; cases hj'
      · have := List.append_cancel_left hh; simp at this
    | false =>
      simp only [Bool.false_eq_true, if_false]
      unfold flush at hr ⊢
      cases he : w.error with
      | none => rw [he] at hr; cases hr
      | some j =>
        simp only
        refine ⟨fun _ _ hh => ?_, fun hh => ?_, fun j' hh => ?_⟩
        · rcases hh with ⟨J, a, hh⟩ | hh <;> have := List.append_cancel_left hh <;> simp at this
        · rcases hh with ⟨J, a, hh⟩ | hh <;> have := List.append_cancel_left hh <;> simp at this
        · have := List.append_cancel_left hh
          simp only [List.cons.injEq, Ev.report.injEq, and_true] at this
          exact ⟨by rw [this], by trivial, by trivial⟩
  | submitFail J hsn hj hr =>
    unfold flush at hr ⊢
    cases he : w.error with
    | none => rw [he] at hr; cases hr
    | some j =>
      simp only
      refine ⟨fun _ _ hh => ?_, fun hh => ?_, fun j' hh => ?_⟩
      · rcases hh with ⟨J, a, hh⟩ | hh <;> have := List.append_cancel_left hh <;> simp at this
      · rcases hh with ⟨J, a, hh⟩ | hh <;> have := List.append_cancel_left hh <;> simp at this
      · have := List.append_cancel_left hh
        simp only [List.cons.injEq, Ev.report.injEq, and_true] at this
        exact ⟨by rw [this], by trivial, by trivial⟩
  | submitAsync J hsn hj hr hc hd =>
    obtain ⟨he, hq⟩ := hquiet w hi hsn hj hr
    have hl : (flush w).1.log = w.log := by unfold flush; rw [he]
    refine ⟨fun j hj' => (by rw [he] at hj'; cases hj'), fun _ => hq, fun j hh => ?_⟩
    simp only [hl] at hh
    have := List.append_cancel_left hh; simp at this
  | submitSync J oom hsn hj hr =>
    obtain ⟨he, hq⟩ := hquiet w hi hsn hj hr
    have hl : (flush w).1.log = w.log := by unfold flush; rw [he]
    refine ⟨fun j hj' => (by rw [he] at hj'; cases hj'), fun _ => hq, fun j hh => ?_⟩
    simp only [hl] at hh
    have := List.append_cancel_left hh; simp at this
  | syncWork hsr hn =>
    rename_i r e
    have hne : (∀ J a, e ≠ .accept J a) ∧ e ≠ .flushed ∧ ∀ j, e ≠ .report j := by
      unfold next at hn
      split at hn
      · cases hn; simp
      · split at hn
        · cases hn; simp
        · cases hn
    obtain ⟨o1, o2⟩ := other e hne.1 hne.2.1 hne.2.2 []
    exact ⟨fun _ _ hh => o1 hh, fun hh => absurd hh o1, fun j hh => absurd hh (o2 j)⟩
  | syncFail hsr hn =>
    rename_i r e
    obtain ⟨o1, o2⟩ := other (.fail r.job.id) (by simp) (by simp) (by simp) [.raised r.job.id]
    exact ⟨fun _ _ hh => o1 hh, fun hh => absurd hh o1, fun j hh => absurd hh (o2 j)⟩
  | syncEnd hsr hn => exact ⟨fun _ _ hh => same.1 hh, fun hh => absurd hh same.1, fun j hh => absurd hh (same.2 j)⟩

/-- **C41 (every failure is reported or pending).** -/
theorem C41_flush_succeeds {cuda : Bool} {w : Writer} (h : Exec cuda w) (hsn : w.sync = none) (hj : joinable w) :
    ∃ w', Step w w' ∧ w'.error = none ∧ w'.thread = none ∧
      (w'.log = w.log ++ [.flushed] ∨ ∃ j, w.error = some j ∧ w'.log = w.log ++ [.report j]) := by
  refine ⟨_, .flushCall hsn hj, ?_⟩
  have := (flush_inv (inv_exec h) hsn hj)
  cases he : w.error with
  | none => simp [flush, he]
  | some j => simp [flush, he]

/-- **C41 (the writer always ends).** While the writer thread is running, it can always take a step, every step of the system is one of its
own (the caller cannot overtake it), and each such step ends it or brings it one operation nearer to its end. -/
theorem C41_writer_ends {cuda : Bool} {w : Writer} (h : Exec cuda w) (r : Run) (ht : w.thread = some r) (hf : r.fin = false) :
    (∃ w', Step w w') ∧ ∀ w', Step w w' →
      w'.thread = some { r with fin := true } ∨ (w'.thread = some { r with pos := r.pos + 1 } ∧ r.pos + 1 ≤ (full r.job).length) := by
  have hi := inv_exec h
  obtain ⟨hs0, ha⟩ := active_thread hi ht hf
  refine ⟨?_, ?_⟩
  · cases hn : next r with
    | none => exact ⟨_, .workEnd ht hf hn⟩
    | some e => exact ⟨_, .work ht hf hn⟩
  · intro w' hs
    have hnj : ¬ joinable w := fun hj => by have := hj r ht; rw [hf] at this; cases this
    cases hs with
    | work h1 h2 h3 =>
      rw [ht] at h1; cases h1
      refine Or.inr ⟨rfl, ?_⟩
      rw [next_eq r (hi.pos r ha)] at h3
      exact (List.getElem?_eq_some_iff.mp h3).1
    | workFail h1 h2 h3 => rw [ht] at h1; cases h1; exact Or.inl rfl
    | workEnd h1 h2 h3 => rw [ht] at h1; cases h1; exact Or.inl rfl
    | flushCall _ hj => exact absurd hj hnj
    | submitFail _ _ hj => exact absurd hj hnj
    | submitAsync _ _ hj => exact absurd hj hnj
    | submitSync _ _ _ hj => exact absurd hj hnj
    | syncWork h1 => rw [hs0] at h1; cases h1
    | syncFail h1 => rw [hs0] at h1; cases h1
    | syncEnd h1 => rw [hs0] at h1; cases h1

/-- A history: job 0 (two files and a hook) succeeds, job 1 fails at its second file, the next `submit` raises that failure, the one after
is accepted. -/
example : ∃ w, Exec true w ∧ w.log = [.accept ⟨0, 2, true⟩ true, .write 0 0, .write 0 1, .hook 0, .accept ⟨1, 2, true⟩ true, .write 1 0,
    .fail 1, .report 1, .accept ⟨3, 1, false⟩ true] := by
  have h0 := (Exec.init (cuda := true)).step (.submitAsync ⟨0, 2, true⟩ rfl (by intro r h; cases h) rfl rfl rfl)
  have h1 := ((h0.step (.work rfl rfl rfl)).step (.work rfl rfl rfl)).step (.work rfl rfl rfl)
  have h2 := h1.step (.workEnd rfl rfl rfl)
  have h3 := h2.step (.submitAsync ⟨1, 2, true⟩ rfl (by intro r h; cases h; rfl) rfl rfl rfl)
  have h4 := (h3.step (.work rfl rfl rfl)).step (.workFail rfl rfl rfl)
  have h5 := h4.step (.submitFail ⟨2, 1, false⟩ rfl (by intro r h; cases h; rfl) rfl)
  have h6 := h5.step (.submitAsync ⟨3, 1, false⟩ rfl (by intro r h; cases h) rfl rfl rfl)
  exact ⟨_, h6, rfl⟩

end Verif.Ckpt.Writer
