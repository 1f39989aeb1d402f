import Verif.Ranks.Final

/-!
# C83 — in a multi-process run all processes stop together

For any number of processes, any pattern of local errors, non-finite values, differing data and failing checkpoints: no process is left
waiting in a collective, all processes end with the same exception (or none) and the same counters, no optimizer is given a gradient unless
every process passed every check, and every saved checkpoint is the state after a whole number of completed steps.
-/

namespace Verif.Ranks

variable {n : Nat} {α : Type}

/-! ## Specification -/

/-- the processes complete, and with only one possible result -/
def Terminates (p : Fin n → Prog n α) : Prop := ∃ out, Runs p out ∧ ∀ out', Runs p out' → out' = out

/-- this process passed every check of an iteration that precedes the use of its gradient -/
def PassedChecks (c : Cfg) (e : Iter) : Prop :=
  (∀ j, j < c.accumulation → (∃ d, (e.micro j).fetch = .batch d) ∧ (e.micro j).hook = [] ∧
    (e.micro j).before.errors = [] ∧ (e.micro j).before.lossValid = true ∧ (e.micro j).before.finite = true) ∧
  (e.micro (c.accumulation - 1)).clip = [] ∧
  (c.scaled = false → (e.micro (c.accumulation - 1)).after.errors = [] ∧ (e.micro (c.accumulation - 1)).after.lossValid = true ∧
    (e.micro (c.accumulation - 1)).after.finite = true) ∧
  (c.resumable = true → (e.micro (c.accumulation - 1)).prepare = [])

/-- the step itself went through on this process: optimizers, schedulers and the post-step hook -/
def StepDone (c : Cfg) (e : Iter) : Prop := (∀ j, j < c.accumulation → (e.micro j).optimizer = []) ∧ e.afterHook = []

/-- nothing went wrong on this process in iteration `i`; `rank` is its number -/
structure NoError (c : Cfg) (rank i : Nat) (e : Iter) (s : Save) : Prop where
  checks : PassedChecks c e
  step : StepDone c e
  log : c.logInterval ∣ i → e.log = []
  display : c.showInterval ∣ i → e.display = []
  validation : c.hasVal = true → c.valInterval ∣ i → e.validation = []
  profiler : c.profiled = true → e.profiler = []
  save : c.saveDue i = true → s.Clean (rank = 0) (c.savesState i = true)

/-! ## Theorems -/

theorem Runs.unique (hn : 0 < n) {p : Fin n → Prog n α} {a b : Fin n → α} (h : Runs p a) (g : Runs p b) : b = a := by
  induction h generalizing b with
  | done out =>
    generalize hp : (fun r => Prog.done (out r) : Fin n → Prog n α) = p at g
    cases g with
    | done out' =>
      funext r
      have := congrFun hp r
      injection this with this
      exact this.symm
    | coll kind send recv _ _ => exact absurd (congrFun hp ⟨0, hn⟩) (by simp)
  | coll kind send recv out h ih =>
    generalize hp : (fun r => Prog.coll kind (send r) (recv r) : Fin n → Prog n α) = p at g
    cases g with
    | done out' => exact absurd (congrFun hp ⟨0, hn⟩) (by simp)
    | coll kind' send' recv' _ h' =>
      have hs : send' = send := by
        funext r
        have := congrFun hp r
        injection this with _ h2 h3
        exact h2.symm
      have hr : recv' = recv := by
        funext r
        have := congrFun hp r
        injection this with _ h2 h3
        exact h3.symm
      subst hs; subst hr
      exact ih h'

theorem passedChecks_of (c : Cfg) (hacc : 0 < c.accumulation) (e : Fin n → Iter) (hf : ∀ r, ((e r).micro 0).fetch.Ok)
    (h : ∀ j, j < c.accumulation → Passed c c.accumulation j e) (r : Fin n) : PassedChecks c (e r) := by
  have hlast := (h (c.accumulation - 1) (by omega) r).1.2.2 (by simp; omega)
  refine ⟨fun j hj => ?_, hlast.1, fun hs => hlast.2.1 hs, hlast.2.2⟩
  have hp := h j hj r
  refine ⟨?_, hp.1.1, hp.1.2.1.1, hp.1.2.1.2.1, hp.1.2.1.2.2⟩
  by_cases h0 : j = 0
  · subst h0; exact hf r
  · exact hp.2 h0

theorem stepDone_of (c : Cfg) (e : Fin n → Iter) (h : StepOk c e) (r : Fin n) : StepDone c (e r) :=
  ⟨fun j hj => h.optimizer j hj r, h.afterHook r⟩

theorem mem_steps (a b i : Nat) : i ∈ steps a b ↔ a < i ∧ i ≤ b := by
  unfold steps
  rw [List.mem_map]
  constructor
  · rintro ⟨j, hj, rfl⟩
    rw [List.mem_range] at hj
    omega
  · rintro ⟨h1, h2⟩
    exact ⟨i - a - 1, List.mem_range.2 (by omega), by omega⟩

/-- **C83** whatever goes wrong on whichever processes, the run comes to an end on all of them -/
theorem C83_no_hang (hn : 0 < n) (c : Cfg) (hacc : 0 < c.accumulation) (env : Fin n → Env) (hsh : Shared env) (s : St) :
    Terminates (fun r => run r.1 c (env r) s) := by
  obtain ⟨s', x', w, h1, -⟩ := run_lock hn c hacc env hsh s (fun _ => s.schema)
  exact ⟨_, h1, fun out' h' => Runs.unique hn h1 h'⟩

/-- the run as `run_lock` describes it -/
theorem run_result (hn : 0 < n) (c : Cfg) (hacc : 0 < c.accumulation) (env : Fin n → Env) (hsh : Shared env) (s : St)
    (out : Fin n → St × Option Failure) (h : Runs (fun r => run r.1 c (env r) s) out) :
    ∃ (s' : St) (x' : Fin n → Option Nat) (w : Option Failure), (∀ r, out r = (fam s' x' r, w)) ∧ Ended c env s s' w ∧
      (w = none → s'.iteration = max s.iteration c.iterations ∧ s'.lastState = some s'.iteration ∧ (∀ r, (env r).close = []) ∧
        ∃ needed : Prop, FinishOk env needed) ∧
      ((∃ S, ∀ i, s.iteration < i → i ≤ c.iterations → IterFine c S (iters env i) (saves env i) i) → FinishOk env True → (∀ r, (env r).close = []) → w = none) := by
  obtain ⟨s', x', w, h1, h2, h3, h4⟩ := run_lock hn c hacc env hsh s (fun _ => s.schema)
  have := Runs.unique hn h1 h
  exact ⟨s', x', w, fun r => congrFun this r, h2, h3, h4⟩

/-- **C83** all processes end with the same exception, the same counters, the same steps taken and the same checkpoints -/
theorem C83_agree (hn : 0 < n) (c : Cfg) (hacc : 0 < c.accumulation) (env : Fin n → Env) (hsh : Shared env) (s : St)
    (out : Fin n → St × Option Failure) (h : Runs (fun r => run r.1 c (env r) s) out) (r q : Fin n) :
    (out r).2 = (out q).2 ∧ { (out r).1 with schema := none } = { (out q).1 with schema := none } := by
  obtain ⟨s', x', w, h1, -⟩ := run_result hn c hacc env hsh s out h
  rw [h1 r, h1 q]
  exact ⟨rfl, rfl⟩

/-- **C83** the optimizers of a process are given the gradient of an iteration only if every process passed every check of it; the steps are
taken once each and in order, and at most the last one of them is incomplete -/
theorem C83_whole_steps (hn : 0 < n) (c : Cfg) (hacc : 0 < c.accumulation) (env : Fin n → Env) (hsh : Shared env) (s : St)
    (out : Fin n → St × Option Failure) (h : Runs (fun r => run r.1 c (env r) s) out) (r : Fin n) :
    ∃ last, (out r).1.stepped = s.stepped ++ steps s.iteration last ∧
      (∀ i, s.iteration < i → i ≤ last → ∀ q, PassedChecks c ((env q).iter i)) ∧
      (∀ i, s.iteration < i → i ≤ (out r).1.iteration → ∀ q, StepDone c ((env q).iter i)) ∧
      s.iteration ≤ (out r).1.iteration ∧
      (last = (out r).1.iteration ∨ (last = (out r).1.iteration + 1 ∧ (out r).2 ≠ none ∧ ∀ p ∈ (out r).1.committed, p ∈ s.committed ∨ p.1 < last)) := by
  obtain ⟨s', x', w, h1, h2, -, -⟩ := run_result hn c hacc env hsh s out h
  rw [h1 r]
  have hdone : ∀ i, s.iteration < i → i ≤ s'.iteration → ∀ q, StepDone c ((env q).iter i) := fun i g1 g2 q => stepDone_of c _ (h2.completed i g1 g2).step q
  have hpass : ∀ i, s.iteration < i → i ≤ s'.iteration → ∀ q, PassedChecks c ((env q).iter i) := fun i g1 g2 q =>
    passedChecks_of c hacc _ (h2.completed i g1 g2).fetch (h2.completed i g1 g2).step.passed q
  rcases h2.failed with hf | ⟨-, f2, f3, f4, f5⟩
  · exact ⟨s'.iteration, hf, hpass, hdone, h2.le, Or.inl rfl⟩
  · refine ⟨s'.iteration + 1, f3, fun i g1 g2 q => ?_, hdone, h2.le, Or.inr ⟨rfl, f2, fun p hp => ?_⟩⟩
    · by_cases hi : i ≤ s'.iteration
      · exact hpass i g1 hi q
      · obtain rfl : i = s'.iteration + 1 := by omega
        exact passedChecks_of c hacc _ f4 f5 q
    · rcases h2.committed p hp with g | ⟨-, g, -⟩
      · exact Or.inl g
      · exact Or.inr (by show p.1 < s'.iteration + 1; omega)

/-- **C83** every checkpoint written, including the emergency one, holds exactly the steps up to its iteration, and each of these steps
went through on every process -/
theorem C83_saved (hn : 0 < n) (c : Cfg) (hacc : 0 < c.accumulation) (env : Fin n → Env) (hsh : Shared env) (s : St)
    (out : Fin n → St × Option Failure) (h : Runs (fun r => run r.1 c (env r) s) out) (r : Fin n) (p : Nat × List Nat)
    (hp : p ∈ (out r).1.committed) : p ∈ s.committed ∨
      (s.iteration ≤ p.1 ∧ p.1 ≤ (out r).1.iteration ∧ p.2 = s.stepped ++ steps s.iteration p.1 ∧
        ∀ i, s.iteration < i → i ≤ p.1 → ∀ q, PassedChecks c ((env q).iter i) ∧ StepDone c ((env q).iter i)) := by
  obtain ⟨s', x', w, h1, h2, -, -⟩ := run_result hn c hacc env hsh s out h
  rw [h1 r] at hp ⊢
  rcases h2.committed p hp with g | ⟨g1, g2, g3⟩
  · exact Or.inl g
  · refine Or.inr ⟨g1, g2, g3, fun i k1 k2 q => ?_⟩
    have hc := h2.completed i k1 (Nat.le_trans k2 g2)
    exact ⟨passedChecks_of c hacc _ hc.fetch hc.step.passed q, stepDone_of c _ hc.step q⟩

/-- **C83** no error is swallowed: a run that ends normally on some process did all its iterations, without an error on any process, and
ended with a saved training state -/
theorem C83_no_swallow (hn : 0 < n) (c : Cfg) (hacc : 0 < c.accumulation) (env : Fin n → Env) (hsh : Shared env) (s : St)
    (out : Fin n → St × Option Failure) (h : Runs (fun r => run r.1 c (env r) s) out) (r : Fin n) (hr : (out r).2 = none) :
    (out r).1.iteration = max s.iteration c.iterations ∧ (out r).1.lastState = some (out r).1.iteration ∧
      (∀ i, s.iteration < i → i ≤ c.iterations → ∀ q : Fin n, NoError c q.1 i ((env q).iter i) ((env q).save i)) ∧
      (∀ q, (env q).close = []) ∧ (∀ q : Fin n, q.1 = 0 → (env q).finalFlush = []) := by
  obtain ⟨s', x', w, h1, h2, h3, -⟩ := run_result hn c hacc env hsh s out h
  rw [h1 r] at hr ⊢
  dsimp only at hr
  obtain ⟨g1, g2, g3, nd, g4⟩ := h3 hr
  refine ⟨g1, g2, fun i k1 k2 q => ?_, g3, g4.flush⟩
  have hk := (h2.ok hr).2 i k1 (by rw [g1]; omega)
  have hrep := hk.report
  refine ⟨passedChecks_of c hacc _ hk.completed.fetch hk.completed.step.passed q, stepDone_of c _ hk.completed.step q,
    fun hd => hrep.log (Nat.dvd_iff_mod_eq_zero.1 hd) q, fun hd => hrep.display (Nat.dvd_iff_mod_eq_zero.1 hd) q,
    fun hv hd => hrep.validation hv (Nat.dvd_iff_mod_eq_zero.1 hd) q, fun hp => hrep.profiler hp q, fun hd => hk.save hd q⟩

/-- **C83** there are no false alarms: if nothing goes wrong anywhere and the processes see the same data and metrics, the run ends normally -/
theorem C83_quiet (hn : 0 < n) (c : Cfg) (hacc : 0 < c.accumulation) (env : Fin n → Env) (hsh : Shared env) (s : St)
    (out : Fin n → St × Option Failure) (h : Runs (fun r => run r.1 c (env r) s) out)
    (hfine : ∃ S, ∀ i, s.iteration < i → i ≤ c.iterations → IterFine c S (fun r => (env r).iter i) (fun r => (env r).save i) i)
    (hfin : FinishOk env True) (hcl : ∀ r, (env r).close = []) (r : Fin n) : (out r).2 = none := by
  obtain ⟨s', x', w, h1, -, -, h4⟩ := run_result hn c hacc env hsh s out h
  rw [h1 r]
  exact h4 hfine hfin hcl

/-- **C83** an exchange of errors names exactly the processes that failed, each with its own messages -/
theorem C83_blame (phase : String) (errs : Fin n → List String) :
    (verdict phase errs = none ↔ ∀ r, errs r = []) ∧
    (∀ f, verdict phase errs = some f → f.phase = phase ∧ ∀ q m, (q, m) ∈ f.ranks ↔ ∃ r : Fin n, r.1 = q ∧ errs r = m ∧ m ≠ []) ∧
    (∀ d s x, Reaches (α := α) (fun k r => syncPhase r.1 phase (errs r) d (fam s x r) (k r)) (afterPhase d s (verdict phase errs)) x (verdict phase errs)) ∧
    (∀ s x, Reaches (α := α) (fun k r => gatherPhase r.1 phase (errs r) (fam s x r) (k r)) s x (verdict phase errs)) ∧
    (∀ s x, Reaches (α := α) (fun k r => runSync r.1 phase false (errs r) (fam s x r) (k r)) s x (verdict phase errs)) := by
  refine ⟨verdict_none phase errs, fun f hf => ?_, fun d s x => syncPhase_lock phase errs d s x, fun s x => gatherPhase_lock phase errs s x, fun s x => ?_⟩
  · unfold verdict at hf
    split_ifs at hf with hall
    injection hf with hf
    subst hf
    refine ⟨rfl, fun q m => ?_⟩
    show (q, m) ∈ blame errs ↔ _
    unfold blame
    rw [List.mem_filterMap]
    constructor
    · rintro ⟨r, -, hr⟩
      split_ifs at hr with he
      injection hr with hr
      injection hr with h1 h2
      exact ⟨r, h1, h2, by rw [← h2]; exact he⟩
    · rintro ⟨r, rfl, rfl, hm⟩
      exact ⟨r, List.mem_finRange r, by rw [if_neg hm]⟩
  · have := runSync_lock (α := α) phase false errs s x
    simpa using this

end Verif.Ranks
