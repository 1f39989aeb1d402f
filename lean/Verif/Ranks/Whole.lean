import Verif.Ranks.Loop

namespace Verif.Ranks

variable {n : Nat} {α : Type}

/-! ### checkpoints -/

/-- the group runs `op` on every process from the common state -/
abbrev Op (n : Nat) (α : Type) := Fin n → St → (St → Option Failure → Prog n α) → Prog n α

theorem Reaches.guardFail {A B : Op n α} {s s1 : St} {x : Fin n → Option Nat} {f : Failure} (h : Reaches (fun k r => A r (fam s x r) (k r)) s1 x (some f)) :
    Reaches (fun k r => guarded (A r) (B r) (fam s x r) (k r)) { s1 with attemptFailed := true } x (some f) :=
  fun k out hk => h (fun r st v => marked (k r) (fun st => B r st (k r)) st v) out hk

theorem Reaches.guardOk {A B : Op n α} {s s1 s' : St} {x x' : Fin n → Option Nat} {v : Option Failure} (h : Reaches (fun k r => A r (fam s x r) (k r)) s1 x none)
    (g : Reaches (fun k r => B r (fam s1 x r) (k r)) s' x' v) :
    Reaches (fun k r => guarded (A r) (B r) (fam s x r) (k r)) s' x' v :=
  fun k out hk => h (fun r st v => marked (k r) (fun st => B r st (k r)) st v) out (g k out hk)

/-- what a checkpoint leaves alone -/
structure Kept (s s' : St) : Prop where
  iteration : s'.iteration = s.iteration
  safe : s'.safe = s.safe
  known : s'.known = s.known
  stepped : s'.stepped = s.stepped
  mutated : s'.mutated = s.mutated

theorem Kept.refl (s : St) : Kept s s := ⟨rfl, rfl, rfl, rfl, rfl⟩
theorem Kept.trans {a b c : St} (h : Kept a b) (g : Kept b c) : Kept a c :=
  ⟨g.1.trans h.1, g.2.trans h.2, g.3.trans h.3, g.4.trans h.4, g.5.trans h.5⟩

/-- the outcome of a checkpoint attempt of which `ok` says whether it worked and `wrote` whether files were written -/
structure Saved (s s' : St) (v : Option Failure) (ok : Prop) (state wrote : Prop) : Prop where
  kept : Kept s s'
  iff : v = none ↔ ok
  failed : v ≠ none → s'.committed = s.committed ∧ s'.lastState = s.lastState
  state : v = none → (state → s'.lastState = some s.iteration) ∧ (¬ state → s'.lastState = s.lastState)
  wrote : v = none → (wrote → s'.committed = s.committed ++ [(s.iteration, s.stepped)]) ∧ (¬ wrote → s'.committed = s.committed)

/-- the checkpoint attempt `op` on all processes -/
def Attempt (op : Op n α) (s : St) (x : Fin n → Option Nat) (ok state wrote : Prop) : Prop :=
  ∃ (s' : St) (v : Option Failure), Reaches (fun k r => op r (fam s x r) (k r)) s' x v ∧ Saved s s' v ok state wrote

/-- prefix a checkpoint attempt with a guarded phase -/
theorem Attempt.guard {A B : Op n α} {s : St} {x : Fin n → Option Nat} {v : Option Failure} {okA okB state wrote : Prop}
    (h : Reaches (fun k r => A r (fam s x r) (k r)) s x v) (hv : v = none ↔ okA) (g : Attempt B s x okB state wrote) :
    Attempt (fun r => guarded (A r) (B r)) s x (okA ∧ okB) state wrote := by
  cases v with
  | some f =>
    refine ⟨_, some f, Reaches.guardFail h, ⟨⟨rfl, rfl, rfl, rfl, rfl⟩, ⟨fun h => absurd h (by simp), fun h => absurd (hv.2 h.1) (by simp)⟩,
      fun _ => ⟨rfl, rfl⟩, fun h => absurd h (by simp), fun h => absurd h (by simp)⟩⟩
  | none =>
    obtain ⟨s', v', g1, g2⟩ := g
    exact ⟨s', v', Reaches.guardOk h g1, ⟨g2.kept, ⟨fun h => ⟨hv.1 rfl, g2.iff.1 h⟩, fun h => g2.iff.2 h.2⟩, g2.failed, g2.state, g2.wrote⟩⟩

theorem Attempt.congr {A B : Op n α} {s : St} {x : Fin n → Option Nat} {ok ok' state state' wrote wrote' : Prop} (h : Attempt A s x ok state wrote)
    (he : ∀ r k, B r (fam s x r) k = A r (fam s x r) k) (h1 : ok ↔ ok') (h2 : state ↔ state') (h3 : wrote ↔ wrote') : Attempt B s x ok' state' wrote' := by
  obtain ⟨s', v, g1, g2⟩ := h
  refine ⟨s', v, ?_, by rw [← propext h1, ← propext h2, ← propext h3]; exact g2⟩
  have : (fun (k : Fin n → St → Option Failure → Prog n α) r => B r (fam s x r) (k r)) = fun k r => A r (fam s x r) (k r) := by
    funext k r; exact he r (k r)
  rw [this]; exact g1

theorem runSync_main_iff (hn0 : 0 < n) (op : String) (errs : Fin n → List String) :
    verdict op (fun r : Fin n => if (true && decide (r.1 ≠ 0)) = true then [] else errs r) = none ↔ errs ⟨0, hn0⟩ = [] := by
  rw [verdict_none]
  constructor
  · intro h; simpa using h ⟨0, hn0⟩
  · intro h r
    by_cases hr : r.1 = 0
    · have : r = ⟨0, hn0⟩ := Fin.ext hr
      subst this; simpa using h
    · rw [if_pos (by simpa using hr)]

theorem runSync_all_iff (op : String) (errs : Fin n → List String) :
    verdict op (fun r : Fin n => if (false && decide (r.1 ≠ 0)) = true then [] else errs r) = none ↔ ∀ r, errs r = [] := by
  rw [verdict_none]
  simp

theorem commitPhase_lock (hn0 : 0 < n) (saves : Bool) (sv : Fin n → Save) (s : St) (x : Fin n → Option Nat) :
    Attempt (α := α) (fun r => commitPhase r.1 saves (sv r)) s x ((sv ⟨0, hn0⟩).commit = []) (saves = true) True := by
  have hB : Attempt (α := α) (n := n) (fun _ st k => k { st with
      committed := st.committed ++ [(st.iteration, st.stepped)]
      lastState := if saves = true then some st.iteration else st.lastState } none) s x True (saves = true) True := by
    refine ⟨{ s with committed := s.committed ++ [(s.iteration, s.stepped)], lastState := if saves = true then some s.iteration else s.lastState }, none,
      fun k out hk => hk, ⟨⟨rfl, rfl, rfl, rfl, rfl⟩, ⟨fun _ => trivial, fun _ => rfl⟩, fun h => absurd rfl h, fun _ => ⟨fun g => ?_, fun g => ?_⟩,
        fun _ => ⟨fun _ => rfl, fun g => absurd trivial g⟩⟩⟩
    · dsimp only; rw [if_pos g]
    · dsimp only; rw [if_neg g]
  have := Attempt.guard (A := fun r => runSync r.1 "checkpoint commit" true (sv r).commit)
    (runSync_lock (α := α) "checkpoint commit" true (fun r => (sv r).commit) s x) (runSync_main_iff hn0 "checkpoint commit" (fun r => (sv r).commit)) hB
  exact this.congr (fun r k => rfl) (by simp) Iff.rfl Iff.rfl

/-- nothing goes wrong on this process during a checkpoint; `main`: it is process 0; `state`: the training state is saved too -/
def Save.Clean (main state : Prop) (s : Save) : Prop :=
  (main → s.flush = []) ∧
  (state ∧ s.fileExists = true → s.collision = []) ∧
  (state ∧ s.fileExists = false → s.directory = [] ∧ (main → s.generation = []) ∧ s.capture = [] ∧ s.resume = [] ∧ s.rejected = false ∧ s.validation = []) ∧
  (¬ (state ∧ s.fileExists = true) → main → s.commit = [])

/-- all processes see the same files and compute the same verdict on the gathered states -/
structure Save.Shared (sv : Fin n → Save) : Prop where
  files : ∀ r q, (sv r).fileExists = (sv q).fileExists
  rejected : ∀ r q, (sv r).rejected = (sv q).rejected

/-- one exchange of errors among all processes, then the rest -/
theorem Attempt.gather {B : Op n α} {s : St} {x : Fin n → Option Nat} {okB state wrote : Prop} (phase : String) (errs : Fin n → List String)
    (g : Attempt B s x okB state wrote) :
    Attempt (fun r => guarded (gatherPhase r.1 phase (errs r)) (B r)) s x ((∀ r, errs r = []) ∧ okB) state wrote :=
  Attempt.guard (A := fun r => gatherPhase r.1 phase (errs r)) (gatherPhase_lock phase errs s x) (verdict_none phase errs) g

theorem saveGathered_lock (hn0 : 0 < n) (sv : Fin n → Save) (hsh : Save.Shared sv) (s : St) (x : Fin n → Option Nat) :
    Attempt (α := α) (fun r => saveGathered r.1 (sv r)) s x
      ((∀ r, (sv r).rejected = false) ∧ (∀ r, (sv r).validation = []) ∧ (sv ⟨0, hn0⟩).commit = []) True True := by
  cases hr : (sv ⟨0, hn0⟩).rejected with
  | true =>
    have hall : ∀ r, (sv r).rejected = true := fun r => (hsh.rejected r _).trans hr
    refine ⟨s, some ⟨"rank continuation states", []⟩, ?_, ⟨Kept.refl s, ⟨fun h => absurd h (by simp), fun h => ?_⟩, fun _ => ⟨rfl, rfl⟩,
      fun h => absurd h (by simp), fun h => absurd h (by simp)⟩⟩
    · intro k out h
      have : (fun r : Fin n => saveGathered r.1 (sv r) (fam s x r) (k r)) = fun r => k r (fam s x r) (some ⟨"rank continuation states", []⟩) := by
        funext r; unfold saveGathered; rw [if_pos (hall r)]
      show Runs (fun r : Fin n => saveGathered r.1 (sv r) (fam s x r) (k r)) out
      rw [this]; exact h
    · have := h.1 ⟨0, hn0⟩
      rw [hr] at this
      exact absurd this (by simp)
  | false =>
    have hall : ∀ r, (sv r).rejected = false := fun r => (hsh.rejected r _).trans hr
    refine (Attempt.gather "checkpoint runtime-sidecar validation" (fun r => (sv r).validation) (commitPhase_lock (α := α) hn0 true sv s x)).congr
      (fun r k => ?_) ?_ (by simp) Iff.rfl
    · show saveGathered r.1 (sv r) _ k = _
      unfold saveGathered
      rw [if_neg (by rw [hall r]; simp)]
    · exact ⟨fun h => ⟨hall, h.1, h.2⟩, fun h => ⟨h.2.1, h.2.2⟩⟩

theorem save_lock (hn0 : 0 < n) (c : Cfg) (force : Bool) (sv : Fin n → Save) (hsh : Save.Shared sv) (s : St) (x : Fin n → Option Nat) :
    Attempt (α := α) (fun r => save r.1 c force (sv r)) s x (∀ r, (sv r).Clean (r.1 = 0) (force = true ∨ c.savesState s.iteration = true))
      (force = true ∨ c.savesState s.iteration = true)
      (¬ ((force = true ∨ c.savesState s.iteration = true) ∧ (sv ⟨0, hn0⟩).fileExists = true)) := by
  have hmain : ∀ (g : Save → List String), (∀ r : Fin n, r.1 = 0 → g (sv r) = []) ↔ g (sv ⟨0, hn0⟩) = [] := by
    intro g
    refine ⟨fun h => h ⟨0, hn0⟩ rfl, fun h r hr => ?_⟩
    have : r = ⟨0, hn0⟩ := Fin.ext hr
    rw [this]; exact h
  obtain ⟨P, hP⟩ : ∃ P : Prop, P = (force = true ∨ c.savesState s.iteration = true) := ⟨_, rfl⟩
  rw [← hP]
  have hbool : (force || c.savesState s.iteration) = false ↔ ¬ P := by rw [hP]; cases force <;> simp
  have hflush : ∀ {B : Op n α} {okB state wrote : Prop}, Attempt B s x okB state wrote →
      Attempt (fun r => guarded (runSync r.1 "async checkpoint flush" true (sv r).flush) (B r)) s x ((sv ⟨0, hn0⟩).flush = [] ∧ okB) state wrote :=
    fun g => Attempt.guard (A := fun r => runSync r.1 "async checkpoint flush" true (sv r).flush)
      (runSync_lock (α := α) "async checkpoint flush" true (fun r => (sv r).flush) s x) (runSync_main_iff hn0 _ (fun r => (sv r).flush)) g
  have hsplit : (∀ r, (sv r).Clean (r.1 = 0) P) ↔ (sv ⟨0, hn0⟩).flush = [] ∧ (∀ r : Fin n, (P ∧ (sv r).fileExists = true → (sv r).collision = []) ∧
      (P ∧ (sv r).fileExists = false → (sv r).directory = [] ∧ (r.1 = 0 → (sv r).generation = []) ∧ (sv r).capture = [] ∧ (sv r).resume = [] ∧
        (sv r).rejected = false ∧ (sv r).validation = []) ∧ (¬ (P ∧ (sv r).fileExists = true) → r.1 = 0 → (sv r).commit = [])) := by
    rw [← hmain Save.flush]
    exact ⟨fun h => ⟨fun r => (h r).1, fun r => (h r).2⟩, fun h r => ⟨h.1 r, h.2 r⟩⟩
  by_cases hst : P
  swap
  · refine (hflush (B := fun r => saveBody r.1 c force (sv r)) ((commitPhase_lock (α := α) hn0 false sv s x).congr (fun r k => ?_) Iff.rfl Iff.rfl Iff.rfl)).congr
      (fun r k => rfl) ?_ (by simp [hst]) (by simp [hst])
    · show saveBody r.1 c force (sv r) (fam s x r) k = _
      unfold saveBody
      rw [if_pos (show (force || c.savesState (fam s x r).iteration) = false from hbool.2 hst)]
    · rw [hsplit]
      refine and_congr Iff.rfl ?_
      rw [← hmain Save.commit]
      exact ⟨fun h r => ⟨fun g => absurd g.1 hst, fun g => absurd g.1 hst, fun _ => h r⟩, fun h r => (h r).2.2 (fun g => hst g.1)⟩
  · have hnb : ¬ (force || c.savesState s.iteration) = false := fun h => hbool.1 h hst
    cases hfe : (sv ⟨0, hn0⟩).fileExists with
    | true =>
      have hall : ∀ r, (sv r).fileExists = true := fun r => (hsh.files r _).trans hfe
      have hB : Attempt (α := α) (n := n) (fun _ st k => k { st with lastState := some st.iteration } none) s x True P False :=
        ⟨{ s with lastState := some s.iteration }, none, fun k out hk => hk, ⟨⟨rfl, rfl, rfl, rfl, rfl⟩, ⟨fun _ => trivial, fun _ => rfl⟩,
          fun h => absurd rfl h, fun _ => ⟨fun _ => rfl, fun g => absurd hst g⟩, fun _ => ⟨fun g => g.elim, fun _ => rfl⟩⟩⟩
      refine (hflush (B := fun r => saveBody r.1 c force (sv r))
        ((Attempt.gather "checkpoint collision validation" (fun r => (sv r).collision) hB).congr (fun r k => ?_) Iff.rfl Iff.rfl Iff.rfl)).congr
        (fun r k => rfl) ?_ Iff.rfl (by simp [hst])
      · show saveBody r.1 c force (sv r) (fam s x r) k = _
        unfold saveBody
        rw [if_neg (show ¬ (force || c.savesState (fam s x r).iteration) = false from hnb), if_pos (hall r)]
      · rw [hsplit]
        refine and_congr Iff.rfl ?_
        exact ⟨fun h r => ⟨fun _ => h.1 r, fun g => by rw [hall r] at g; exact absurd g.2 (by simp), fun g => absurd ⟨hst, hall r⟩ g⟩,
          fun h => ⟨fun r => (h r).1 ⟨hst, hall r⟩, trivial⟩⟩
    | false =>
      have hall : ∀ r, (sv r).fileExists = false := fun r => (hsh.files r _).trans hfe
      have hchain := Attempt.gather "checkpoint directory preparation" (fun r => (sv r).directory)
        (Attempt.gather "checkpoint runtime generation" (fun r => if r.1 = 0 then (sv r).generation else [])
          (Attempt.gather "checkpoint runtime-sidecar capture" (fun r => (sv r).capture)
            (Attempt.gather "checkpoint continuation-state capture" (fun r => (sv r).resume) (saveGathered_lock (α := α) hn0 sv hsh s x))))
      refine (hflush (B := fun r => saveBody r.1 c force (sv r)) (hchain.congr (fun r k => ?_) Iff.rfl Iff.rfl Iff.rfl)).congr
        (fun r k => rfl) ?_ (by simp [hst]) (by simp)
      · show saveBody r.1 c force (sv r) (fam s x r) k = _
        unfold saveBody
        rw [if_neg (show ¬ (force || c.savesState (fam s x r).iteration) = false from hnb), if_neg (by rw [hall r]; simp)]
      · rw [hsplit]
        refine and_congr Iff.rfl ?_
        constructor
        · rintro ⟨h1, h2, h3, h4, h5, h6, h7⟩ r
          refine ⟨fun g => by rw [hall r] at g; exact absurd g.2 (by simp), fun _ => ⟨h1 r, fun h0 => ?_, h3 r, h4 r, h5 r, h6 r⟩, fun _ h0 => (hmain Save.commit).2 h7 r h0⟩
          have := h2 r
          rwa [if_pos h0] at this
        · intro h
          have h' := fun r => (h r).2.1 ⟨hst, hall r⟩
          refine ⟨fun r => (h' r).1, fun r => ?_, fun r => (h' r).2.2.1, fun r => (h' r).2.2.2.1, fun r => (h' r).2.2.2.2.1, fun r => (h' r).2.2.2.2.2,
            (h ⟨0, hn0⟩).2.2 (fun g => by rw [hall] at g; exact absurd g.2 (by simp)) rfl⟩
          by_cases h0 : r.1 = 0
          · rw [if_pos h0]; exact (h' r).2.1 h0
          · rw [if_neg h0]

end Verif.Ranks
