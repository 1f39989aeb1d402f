import Verif.Ranks.Run

namespace Verif.Ranks

variable {n : Nat} {α : Type}

/-- the iterations after `a` up to `b` -/
def steps (a b : Nat) : List Nat := (List.range (b - a)).map (fun i => a + 1 + i)

theorem steps_self (a : Nat) : steps a a = [] := by simp [steps]

theorem steps_succ (a b : Nat) (h : a ≤ b) : steps a (b + 1) = steps a b ++ [b + 1] := by
  unfold steps
  rw [show b + 1 - a = (b - a) + 1 by omega, List.range_succ, List.map_append]
  rw [List.map_singleton, show a + 1 + (b - a) = b + 1 by omega]

/-- every process meets the same things in every iteration, as seen from the group -/
abbrev iters (env : Fin n → Env) (i : Nat) : Fin n → Iter := fun r => (env r).iter i
abbrev saves (env : Fin n → Env) (i : Nat) : Fin n → Save := fun r => (env r).save i

/-- what is known about the common state `s` of a run that began in state `b` -/
structure Ended (c : Cfg) (env : Fin n → Env) (b s : St) (v : Option Failure) : Prop where
  le : b.iteration ≤ s.iteration
  completed : ∀ j, b.iteration < j → j ≤ s.iteration → Completed c (iters env j)
  ok : v = none → s.stepped = b.stepped ++ steps b.iteration s.iteration ∧
    ∀ j, b.iteration < j → j ≤ s.iteration → IterOk c (iters env j) (saves env j) j
  failed : s.stepped = b.stepped ++ steps b.iteration s.iteration ∨
    (s.safe = false ∧ v ≠ none ∧ s.stepped = b.stepped ++ steps b.iteration (s.iteration + 1) ∧ (∀ r, ((iters env (s.iteration + 1) r).micro 0).fetch.Ok) ∧
      ∀ j, j < c.accumulation → Passed c c.accumulation j (iters env (s.iteration + 1)))
  committed : ∀ p ∈ s.committed, p ∈ b.committed ∨ (b.iteration ≤ p.1 ∧ p.1 ≤ s.iteration ∧ p.2 = b.stepped ++ steps b.iteration p.1)

theorem loop_lock (hn0 : 0 < n) (c : Cfg) (hacc : 0 < c.accumulation) (env : Fin n → Env) (hsh : Shared env) (b : St) (rem : Nat) (s : St)
    (x : Fin n → Option Nat) (hx : Const x) (hs : Ended c env b s none) :
    ∃ (s' : St) (x' : Fin n → Option Nat) (v : Option Failure),
      Reaches (α := α) (fun k r => loop r.1 c (env r) rem (fam s x r) (k r)) s' x' v ∧ Ended c env b s' v ∧
      (v = none → s'.iteration = s.iteration + rem) ∧
      (∀ S, (∀ i, s.iteration < i → i ≤ s.iteration + rem → IterFine c S (iters env i) (saves env i) i) → (∀ r, x r = none ∨ x r = some S) → v = none) := by
  induction rem generalizing s x with
  | zero => exact ⟨s, x, none, fun k out h => h, hs, fun _ => rfl, fun _ _ _ => rfl⟩
  | succ rem ih =>
    obtain ⟨s1, x1, v1, a1, a2, a3, a4⟩ := iteration_lock (α := α) hn0 c hacc (iters env (s.iteration + 1)) (hsh.micro _) (saves env (s.iteration + 1)) (hsh.save _) s x hx
    obtain ⟨e1, e2⟩ := hs.ok rfl
    have hle := hs.le
    -- the loop is the iteration followed by the loop
    have hprog : ∀ {s' : St} {x' : Fin n → Option Nat} {v : Option Failure},
        Reaches (α := α) (fun k r => chain (iteration r.1 c (iters env (s.iteration + 1) r) (saves env (s.iteration + 1) r)) (loop r.1 c (env r) rem) (fam s x r) (k r)) s' x' v →
        Reaches (α := α) (fun k r => loop r.1 c (env r) (rem + 1) (fam s x r) (k r)) s' x' v := fun h => h
    have hcommit : ∀ p ∈ s1.committed, p ∈ b.committed ∨ (b.iteration ≤ p.1 ∧ p.1 ≤ s1.iteration ∧ p.2 = b.stepped ++ steps b.iteration p.1) := by
      intro p hp
      have hit : s.iteration ≤ s1.iteration := by
        by_cases hv : v1 = none
        · rw [(a2.ok hv).2.1]; omega
        · rcases a2.failed hv with h | h
          · rw [h.1]
          · rw [h.1]; omega
      rcases a2.commit with h | ⟨h, h'⟩
      · rw [h] at hp
        rcases hs.committed p hp with g | ⟨g1, g2, g3⟩
        · exact Or.inl g
        · exact Or.inr ⟨g1, by omega, g3⟩
      · rw [h, List.mem_append, List.mem_singleton] at hp
        rcases hp with hp | hp
        · rcases hs.committed p hp with g | ⟨g1, g2, g3⟩
          · exact Or.inl g
          · exact Or.inr ⟨g1, by omega, g3⟩
        · refine Or.inr ?_
          subst hp
          refine ⟨by dsimp only; omega, by dsimp only; omega, ?_⟩
          dsimp only
          rw [steps_succ _ _ hle, e1, List.append_assoc]
    cases v1 with
    | some f =>
      refine ⟨s1, x1, some f, hprog (Reaches.chainFail a1), ?_, fun h => absurd h (by simp), ?_⟩
      · rcases a2.failed (by simp) with ⟨h1, h2, h3⟩ | ⟨h1, h2, h3⟩
        · refine ⟨by omega, fun j g1 g2 => hs.completed j g1 (by omega), fun h => absurd h (by simp), ?_, hcommit⟩
          rcases h3 with h3 | ⟨h3, h4, h5⟩
          · exact Or.inl (by rw [h3, h1]; exact e1)
          · refine Or.inr ⟨h2, by simp, ?_, by rw [h1]; exact h4, by rw [h1]; exact h5⟩
            rw [h3, h1, steps_succ _ _ hle, e1, List.append_assoc]
        · refine ⟨by omega, fun j g1 g2 => ?_, fun h => absurd h (by simp), Or.inl ?_, hcommit⟩
          · by_cases hj : j ≤ s.iteration
            · exact hs.completed j g1 hj
            · obtain rfl : j = s.iteration + 1 := by omega
              exact h2
          · rw [h3, h1, steps_succ _ _ hle, e1, List.append_assoc]
      · intro S hS hxS
        exact absurd (a4 S (hS _ (by omega) (by omega)) hxS).1 (by simp)
    | none =>
      obtain ⟨h1, h2, h3, h4⟩ := a2.ok rfl
      have hs1 : Ended c env b s1 none := by
        have hst : s1.stepped = b.stepped ++ steps b.iteration s1.iteration := by rw [h3, h2, steps_succ _ _ hle, e1, List.append_assoc]
        refine ⟨by omega, fun j g1 g2 => ?_, fun _ => ⟨hst, fun j g1 g2 => ?_⟩, Or.inl hst, hcommit⟩
        · by_cases hj : j ≤ s.iteration
          · exact hs.completed j g1 hj
          · obtain rfl : j = s.iteration + 1 := by omega
            exact h1.completed
        · by_cases hj : j ≤ s.iteration
          · exact e2 j g1 hj
          · obtain rfl : j = s.iteration + 1 := by omega
            exact h1
      obtain ⟨s2, x2, v2, b1, b2, b3, b4⟩ := ih s1 x1 (a3 rfl) hs1
      refine ⟨s2, x2, v2, hprog (Reaches.chainOk a1 b1), b2, fun h => by rw [b3 h, h2]; omega, ?_⟩
      intro S hS hxS
      exact b4 S (fun i g1 g2 => hS i (by omega) (by omega)) (a4 S (hS _ (by omega) (by omega)) hxS).2

/-- a checkpoint attempt of the group in a completed state keeps what is known -/
theorem Ended.saved {c : Cfg} {env : Fin n → Env} {b s s' : St} {v : Option Failure} {ok state wrote : Prop} (h : Ended c env b s none)
    (hs : Saved s s' v ok state wrote) : Ended c env b s' v := by
  obtain ⟨h1, h2⟩ := h.ok rfl
  have hi := hs.kept.iteration
  have hst : s'.stepped = b.stepped ++ steps b.iteration s'.iteration := by rw [hi, hs.kept.stepped]; exact h1
  refine ⟨by rw [hi]; exact h.le, by rw [hi]; exact h.completed, fun _ => ⟨hst, by rw [hi]; exact h2⟩, Or.inl hst, ?_⟩
  intro p hp
  have hold : s'.committed = s.committed → p ∈ b.committed ∨ (b.iteration ≤ p.1 ∧ p.1 ≤ s'.iteration ∧ p.2 = b.stepped ++ steps b.iteration p.1) :=
    fun g => by rw [g] at hp; rw [hi]; exact h.committed p hp
  by_cases hv : v = none
  · by_cases hw : wrote
    · rw [(hs.wrote hv).1 hw, List.mem_append, List.mem_singleton] at hp
      rcases hp with hp | hp
      · rw [hi]; exact h.committed p hp
      · subst hp
        exact Or.inr ⟨h.le, by rw [hi], h1⟩
    · exact hold ((hs.wrote hv).2 hw)
  · exact hold (hs.failed hv).1

/-- the end of the run works on every process -/
structure FinishOk (env : Fin n → Env) (needed : Prop) : Prop where
  save : needed → ∀ r, ((env r).finalSave).Clean (r.1 = 0) True
  flush : ∀ r : Fin n, r.1 = 0 → (env r).finalFlush = []

theorem finish_lock (hn0 : 0 < n) (c : Cfg) (env : Fin n → Env) (hsh : Shared env) (b s : St) (x : Fin n → Option Nat) (hs : Ended c env b s none) :
    ∃ (s' : St) (v : Option Failure),
      Reaches (α := α) (fun k r => finish r.1 c (env r) (fam s x r) (k r)) s' x v ∧ Ended c env b s' v ∧ s'.iteration = s.iteration ∧
      (v = none ↔ FinishOk env (s.lastState ≠ some s.iteration)) ∧ (v = none → s'.lastState = some s'.iteration) := by
  -- the final checkpoint
  have hsave : ∃ (s1 : St) (v1 : Option Failure),
      Reaches (α := α) (fun k r => whenDue (decide ((fam s x r).lastState ≠ some (fam s x r).iteration)) (save r.1 c true (env r).finalSave) (fam s x r) (k r)) s1 x v1 ∧
      Ended c env b s1 v1 ∧ s1.iteration = s.iteration ∧ (v1 = none ↔ (s.lastState ≠ some s.iteration → ∀ r, ((env r).finalSave).Clean (r.1 = 0) True)) ∧
      (v1 = none → s1.lastState = some s1.iteration) := by
    by_cases hd : s.lastState ≠ some s.iteration
    · obtain ⟨s1, v1, g1, g2⟩ := save_lock (α := α) hn0 c true (fun r => (env r).finalSave) hsh.finalSave s x
      refine ⟨s1, v1, ?_, hs.saved g2, g2.kept.iteration, ?_, ?_⟩
      · intro k out hk
        have he : (fun r : Fin n => whenDue (decide ((fam s x r).lastState ≠ some (fam s x r).iteration)) (save r.1 c true (env r).finalSave) (fam s x r) (k r)) =
            fun r => save r.1 c true (env r).finalSave (fam s x r) (k r) := by
          funext r; unfold whenDue; rw [if_pos (decide_eq_true (show (fam s x r).lastState ≠ some (fam s x r).iteration from hd))]
        show Runs (fun r : Fin n => whenDue (decide ((fam s x r).lastState ≠ some (fam s x r).iteration)) (save r.1 c true (env r).finalSave) (fam s x r) (k r)) out
        rw [he]; exact g1 k out hk
      · rw [g2.iff]
        simp [hd]
      · intro hv
        rw [(g2.state hv).1 (Or.inl rfl), g2.kept.iteration]
    · refine ⟨s, none, ?_, hs, rfl, by simp [hd], fun _ => by simpa using hd⟩
      intro k out hk
      have he : (fun r : Fin n => whenDue (decide ((fam s x r).lastState ≠ some (fam s x r).iteration)) (save r.1 c true (env r).finalSave) (fam s x r) (k r)) =
          fun r => k r (fam s x r) none := by
        funext r; unfold whenDue
        rw [if_neg (by rw [decide_eq_true_eq]; exact (show ¬ (fam s x r).lastState ≠ some (fam s x r).iteration from hd))]
      show Runs (fun r : Fin n => whenDue (decide ((fam s x r).lastState ≠ some (fam s x r).iteration)) (save r.1 c true (env r).finalSave) (fam s x r) (k r)) out
      rw [he]; exact hk
  have hmain : (∀ r : Fin n, r.1 = 0 → (env r).finalFlush = []) ↔ (env ⟨0, hn0⟩).finalFlush = [] := by
    refine ⟨fun h => h ⟨0, hn0⟩ rfl, fun h r hr => ?_⟩
    have : r = ⟨0, hn0⟩ := Fin.ext hr
    rw [this]; exact h
  obtain ⟨s1, v1, a1, a2, a3, a4, a5⟩ := hsave
  cases v1 with
  | some f =>
    refine ⟨s1, some f, Reaches.chainFail (A := fun r st => whenDue (decide (st.lastState ≠ some st.iteration)) (save r.1 c true (env r).finalSave) st)
      (B := fun r => guarded (runSync r.1 "async checkpoint flush" true (env r).finalFlush) (fun st k => k st none)) a1, a2, a3, ⟨fun h => absurd h (by simp), fun h => ?_⟩, fun h => absurd h (by simp)⟩
    exact absurd (a4.2 h.save) (by simp)
  | none =>
    have hB : Attempt (α := α) (n := n) (fun _ st k => k st none) s1 x True False False :=
      ⟨s1, none, fun k out hk => hk, ⟨Kept.refl s1, by simp, fun h => absurd rfl h, fun _ => ⟨fun h => h.elim, fun _ => rfl⟩, fun _ => ⟨fun h => h.elim, fun _ => rfl⟩⟩⟩
    obtain ⟨s2, v2, b1, b2⟩ := Attempt.guard (A := fun r => runSync r.1 "async checkpoint flush" true (env r).finalFlush)
      (runSync_lock (α := α) "async checkpoint flush" true (fun r => (env r).finalFlush) s1 x) (runSync_main_iff hn0 _ (fun r => (env r).finalFlush)) hB
    refine ⟨s2, v2, Reaches.chainOk (A := fun r st => whenDue (decide (st.lastState ≠ some st.iteration)) (save r.1 c true (env r).finalSave) st)
      (B := fun r => guarded (runSync r.1 "async checkpoint flush" true (env r).finalFlush) (fun st k => k st none)) a1 b1, a2.saved b2, b2.kept.iteration.trans a3, ?_, ?_⟩
    · rw [b2.iff]
      exact ⟨fun h => ⟨a4.1 rfl, hmain.2 h.1⟩, fun h => ⟨hmain.1 h.flush, trivial⟩⟩
    · intro hv
      rw [(b2.state hv).2 (fun h => h.elim), b2.kept.iteration]
      exact a5 rfl

/-- the emergency checkpoint and the shutdown -/
theorem conclude_lock (hn0 : 0 < n) (c : Cfg) (env : Fin n → Env) (hsh : Shared env) (b s : St) (x : Fin n → Option Nat) (v : Option Failure)
    (hs : Ended c env b s v) :
    ∃ (s' : St) (w : Option Failure), Runs (fun r => conclude r.1 c (env r) (fam s x r) v) (fun r => (fam s' x r, w)) ∧ Ended c env b s' w ∧
      s'.iteration = s.iteration ∧ (v ≠ none → w = v) ∧ (w = none ↔ v = none ∧ ∀ r, (env r).close = []) ∧ (v = none → s'.lastState = s.lastState) := by
  have hshut : ∀ (t : St), Ended c env b t v → t.iteration = s.iteration → (v = none → t.lastState = s.lastState) →
      ∃ w : Option Failure, Runs (fun r : Fin n => runSync r.1 "final resource shutdown" false (env r).close (fam t x r) fun st closing =>
          Prog.done (st, primary v closing)) (fun r => (fam t x r, w)) ∧ Ended c env b t w ∧ (v ≠ none → w = v) ∧
        (w = none ↔ v = none ∧ ∀ r, (env r).close = []) := by
    intro t ht hti htl
    obtain ⟨u, g1, g2⟩ := runSync_neutral (α := St × Option Failure) "final resource shutdown" (fun r : Fin n => (env r).close) t x
    have hrun : Runs (fun r : Fin n => runSync r.1 "final resource shutdown" false (env r).close (fam t x r) fun st closing =>
          Prog.done (st, primary v closing)) (fun r => (fam t x r, primary v u)) :=
      g1 (fun r st closing => Prog.done (st, primary v closing)) _ (Runs.done _)
    refine ⟨_, hrun, ?_⟩
    cases v with
    | some f => exact ⟨ht, fun _ => rfl, by simp [primary]⟩
    | none =>
      refine ⟨⟨ht.le, ht.completed, fun _ => ht.ok rfl, Or.inl (ht.ok rfl).1, ht.committed⟩, fun h => absurd rfl h, by simp [primary, g2]⟩
  by_cases hc : (v.isSome && s.safe && !s.known && !s.attemptFailed && decide (s.lastState ≠ some s.iteration)) = true
  · have hv : v ≠ none := by
      intro h; rw [h] at hc; simp at hc
    have hsafe : s.safe = true := by
      revert hc; cases s.safe <;> simp
    have hclean : s.stepped = b.stepped ++ steps b.iteration s.iteration := by
      rcases hs.failed with h | h
      · exact h
      · rw [hsafe] at h; exact absurd h.1 (by simp)
    obtain ⟨s1, v1, g1, g2⟩ := save_lock (α := St × Option Failure) hn0 c true (fun r => (env r).emergencySave) hsh.emergencySave s x
    have hs1 : Ended c env b s1 v := by
      have hi := g2.kept.iteration
      have hst : s1.stepped = b.stepped ++ steps b.iteration s1.iteration := by rw [hi, g2.kept.stepped]; exact hclean
      refine ⟨by rw [hi]; exact hs.le, by rw [hi]; exact hs.completed, fun h => absurd h hv, Or.inl hst, ?_⟩
      intro p hp
      by_cases h1 : v1 = none
      · by_cases hw : ¬ ((true = true ∨ c.savesState s.iteration = true) ∧ ((env ⟨0, hn0⟩).emergencySave).fileExists = true)
        · rw [(g2.wrote h1).1 hw, List.mem_append, List.mem_singleton] at hp
          rcases hp with hp | hp
          · rw [hi]; exact hs.committed p hp
          · subst hp
            exact Or.inr ⟨hs.le, by rw [hi], hclean⟩
        · rw [(g2.wrote h1).2 hw] at hp
          rw [hi]; exact hs.committed p hp
      · rw [(g2.failed h1).1] at hp
        rw [hi]; exact hs.committed p hp
    obtain ⟨w, h1, h2, h3, h4⟩ := hshut s1 hs1 g2.kept.iteration (fun h => absurd h hv)
    refine ⟨s1, w, ?_, h2, g2.kept.iteration, h3, h4, fun h => absurd h hv⟩
    have he : (fun r : Fin n => conclude (n := n) r.1 c (env r) (fam s x r) v) = fun r => save r.1 c true (env r).emergencySave (fam s x r) fun st _ =>
        runSync r.1 "final resource shutdown" false (env r).close st fun st closing => Prog.done (st, primary v closing) := by
      funext r
      unfold conclude
      exact if_pos hc
    rw [he]
    exact g1 (fun r st _ => runSync r.1 "final resource shutdown" false (env r).close st fun st closing =>
      Prog.done (st, primary v closing)) _ h1
  · obtain ⟨w, h1, h2, h3, h4⟩ := hshut s hs rfl (fun _ => rfl)
    refine ⟨s, w, ?_, h2, rfl, h3, h4, fun _ => rfl⟩
    have he : (fun r : Fin n => conclude (n := n) r.1 c (env r) (fam s x r) v) = fun r =>
        runSync r.1 "final resource shutdown" false (env r).close (fam s x r) fun st closing => Prog.done (st, primary v closing) := by
      funext r
      unfold conclude
      exact if_neg hc
    rw [he]
    exact h1

/-- the whole run -/
theorem run_lock (hn0 : 0 < n) (c : Cfg) (hacc : 0 < c.accumulation) (env : Fin n → Env) (hsh : Shared env) (s : St) (x : Fin n → Option Nat) :
    ∃ (s' : St) (x' : Fin n → Option Nat) (w : Option Failure), Runs (fun r => run r.1 c (env r) (fam s x r)) (fun r => (fam s' x' r, w)) ∧
      Ended c env s s' w ∧
      (w = none → s'.iteration = max s.iteration c.iterations ∧ s'.lastState = some s'.iteration ∧ (∀ r, (env r).close = []) ∧
        ∃ needed : Prop, FinishOk env needed) ∧
      ((∃ S, ∀ i, s.iteration < i → i ≤ c.iterations → IterFine c S (iters env i) (saves env i) i) → FinishOk env True → (∀ r, (env r).close = []) → w = none) := by
  obtain ⟨s0, hs0⟩ : ∃ s0 : St, s0 = { s with known := false, safe := true, schema := none } := ⟨_, rfl⟩
  have hini : Ended c env s s0 none := by
    rw [hs0]
    have hst : s.stepped = s.stepped ++ steps s.iteration s.iteration := by rw [steps_self, List.append_nil]
    exact ⟨Nat.le_refl _, fun j g1 g2 => absurd g2 (by dsimp only; omega), fun _ => ⟨hst, fun j g1 g2 => absurd g2 (by dsimp only; omega)⟩, Or.inl hst,
      fun p hp => Or.inl hp⟩
  have hit0 : s0.iteration = s.iteration := by rw [hs0]
  obtain ⟨s1, x1, v1, a1, a2, a3, a4⟩ := loop_lock (α := St × Option Failure) hn0 c hacc env hsh s (c.iterations - s.iteration) s0 (fun _ => none) (fun _ _ => rfl) hini
  have hprog : ∀ out, Runs (fun r : Fin n => chain (loop r.1 c (env r) (c.iterations - s.iteration)) (finish r.1 c (env r)) (fam s0 (fun _ => none) r)
      fun st failed => conclude r.1 c (env r) st failed) out → Runs (fun r : Fin n => run r.1 c (env r) (fam s x r)) out := by
    intro out h
    rw [hs0] at h
    exact h
  cases v1 with
  | some f =>
    obtain ⟨s2, w, b1, b2, b3, b4, b5, b6⟩ := conclude_lock hn0 c env hsh s s1 x1 (some f) a2
    refine ⟨s2, x1, w, hprog _ (Reaches.chainFail (B := fun r => finish r.1 c (env r)) a1 (fun r st failed => conclude r.1 c (env r) st failed) _ b1), b2, ?_, ?_⟩
    · intro hw
      rw [b4 (by simp)] at hw
      exact absurd hw (by simp)
    · rintro ⟨S, hS⟩ _ _
      have := a4 S (fun i g1 g2 => hS i (by omega) (by omega)) (fun r => Or.inl rfl)
      exact absurd this (by simp)
  | none =>
    obtain ⟨s2, v2, d1, d2, d3, d4, d5⟩ := finish_lock (α := St × Option Failure) hn0 c env hsh s s1 x1 a2
    obtain ⟨s3, w, b1, b2, b3, b4, b5, b6⟩ := conclude_lock hn0 c env hsh s s2 x1 v2 d2
    refine ⟨s3, x1, w, hprog _ (Reaches.chainOk a1 d1 (fun r st failed => conclude r.1 c (env r) st failed) _ b1), b2, ?_, ?_⟩
    · intro hw
      obtain ⟨g1, g2⟩ := b5.1 hw
      refine ⟨?_, ?_, g2, _, d4.1 g1⟩
      · rw [b3, d3, a3 rfl, hit0]; omega
      · rw [b6 g1, d5 g1, b3]
    · rintro _ hf hcl
      exact b5.2 ⟨d4.2 ⟨fun _ => hf.save trivial, hf.flush⟩, hcl⟩

end Verif.Ranks
