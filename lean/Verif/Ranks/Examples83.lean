import Verif.Ranks.Props83

/-!
# C83: concrete runs, and two runs that hang when the hypothesis on shared failures is dropped
-/

namespace Verif.Ranks

/-- two processes that can never complete: one has ended or is in another collective -/
def stuck {α : Type} : Nat → (Fin 2 → Prog 2 α) → Bool
  | 0, _ => false
  | m + 1, p =>
    match p 0, p 1 with
    | .done _, .done _ => false
    | .done _, .coll .. => true
    | .coll .., .done _ => true
    | .coll k0 s0 r0, .coll k1 s1 r1 =>
      if k0 = k1 then stuck m (fun r => (if r = 0 then r0 else r1) (fun q => if q = 0 then s0 else s1)) else true

theorem stuck_hangs {α : Type} (m : Nat) (p : Fin 2 → Prog 2 α) (h : stuck m p = true) : ¬ ∃ out, Runs p out := by
  rintro ⟨out, hr⟩
  induction hr generalizing m with
  | done out =>
    cases m with
    | zero => simp [stuck] at h
    | succ m => simp [stuck] at h
  | coll kind send recv out _ ih =>
    cases m with
    | zero => simp [stuck] at h
    | succ m =>
      unfold stuck at h
      dsimp only at h
      rw [if_pos rfl] at h
      refine ih m ?_
      have hs : (fun q : Fin 2 => if q = 0 then send 0 else send 1) = send := by
        funext q
        by_cases hq : q = 0
        · rw [if_pos hq, hq]
        · have : q = 1 := by omega
          rw [if_neg hq, this]
      have hf : (fun r : Fin 2 => recv r send) = fun r => (if r = 0 then recv 0 else recv 1) (fun q => if q = 0 then send 0 else send 1) := by
        funext r
        rw [hs]
        by_cases hq : r = 0
        · rw [if_pos hq, hq]
        · have : r = 1 := by omega
          rw [if_neg hq, this]
      rw [hf]
      exact h

/-- run two processes to their end -/
def exec {α : Type} : Nat → (Fin 2 → Prog 2 α) → Option (Fin 2 → α)
  | 0, _ => none
  | m + 1, p =>
    match p 0, p 1 with
    | .done a, .done b => some (fun r => if r = 0 then a else b)
    | .coll k0 s0 r0, .coll k1 s1 r1 =>
      if k0 = k1 then exec m (fun r => (if r = 0 then r0 else r1) (fun q => if q = 0 then s0 else s1)) else none
    | _, _ => none

theorem exec_runs {α : Type} (m : Nat) (p : Fin 2 → Prog 2 α) (out : Fin 2 → α) (h : exec m p = some out) : Runs p out := by
  induction m generalizing p with
  | zero => simp [exec] at h
  | succ m ih =>
    have hp : p = fun r => if r = 0 then p 0 else p 1 := by
      funext r
      by_cases hr : r = 0
      · rw [if_pos hr, hr]
      · have : r = 1 := by omega
        rw [if_neg hr, this]
    unfold exec at h
    cases h0 : p 0 with
    | done a =>
      cases h1 : p 1 with
      | done b =>
        rw [h0, h1] at h hp
        dsimp only at h
        injection h with h
        subst h
        have : p = fun r => Prog.done (if r = 0 then a else b) := by
          rw [hp]; funext r; by_cases hr : r = 0 <;> simp [hr]
        rw [this]
        exact Runs.done _
      | coll k1 s1 r1 => rw [h0, h1] at h; simp at h
    | coll k0 s0 r0 =>
      cases h1 : p 1 with
      | done b => rw [h0, h1] at h; simp at h
      | coll k1 s1 r1 =>
        rw [h0, h1] at h hp
        dsimp only at h
        by_cases hk : k0 = k1
        · subst hk
          rw [if_pos rfl] at h
          have : p = fun r => Prog.coll k0 ((fun q : Fin 2 => if q = 0 then s0 else s1) r) ((fun q : Fin 2 => if q = 0 then r0 else r1) r) := by
            rw [hp]; funext r; by_cases hr : r = 0 <;> simp [hr]
          rw [this]
          exact Runs.coll k0 _ _ _ (ih _ h)
        · rw [if_neg hk] at h; simp at h

set_option synthInstance.maxHeartbeats 400000
set_option synthInstance.maxSize 1000

namespace Examples83

def check : Check := ⟨7, true, true, []⟩
def micro : Micro := ⟨.batch 3, [], check, [], check, [], 4, []⟩
def iter : Iter := ⟨fun _ => micro, [], [], [], [], []⟩
def sv : Save := ⟨[], false, [], [], [], [], [], false, [], []⟩
def cfg : Cfg := ⟨3, 2, true, true, false, 2, 2, 2, true, true, fun i => i % 2 == 0, fun _ => true⟩
def st : St := ⟨0, none, false, true, false, none, false, [], []⟩
def env : Env := ⟨fun _ => iter, fun _ => sv, sv, [], sv, []⟩

/-- process 1 meets a non-finite loss in the second micro-step of iteration 3 -/
def bad : Env := { env with iter := fun i => if i = 3 then { iter with micro := fun j => if j = 1 then { micro with before := { check with finite := false } } else micro } else iter }

theorem shared_of (a b : Env) (ha : ∀ i j, ((a.iter i).micro j).clip = [] ∧ ((a.iter i).micro j).prepare = []) (hb : ∀ i j, ((b.iter i).micro j).clip = [] ∧ ((b.iter i).micro j).prepare = [])
    (hs : ∀ i, a.save i = sv ∧ b.save i = sv) (hf : a.finalSave = sv ∧ b.finalSave = sv) (he : a.emergencySave = sv ∧ b.emergencySave = sv) :
    Shared (fun r : Fin 2 => if r = 0 then a else b) := by
  have hc : ∀ (P : Env → Prop), P a → P b → ∀ r : Fin 2, P (if r = 0 then a else b) := by
    intro P h1 h2 r
    by_cases hr : r = 0 <;> simp [hr, h1, h2]
  refine ⟨fun i j => ⟨fun r q => ?_, fun r q => ?_⟩, fun i => ⟨fun r q => ?_, fun r q => ?_⟩, ⟨fun r q => ?_, fun r q => ?_⟩, ⟨fun r q => ?_, fun r q => ?_⟩⟩
  · exact iff_of_true (hc (fun e => ((e.iter i).micro j).clip = []) (ha i j).1 (hb i j).1 r) (hc (fun e => ((e.iter i).micro j).clip = []) (ha i j).1 (hb i j).1 q)
  · exact iff_of_true (hc (fun e => ((e.iter i).micro j).prepare = []) (ha i j).2 (hb i j).2 r) (hc (fun e => ((e.iter i).micro j).prepare = []) (ha i j).2 (hb i j).2 q)
  all_goals
    first
    | exact (hc (fun e => (e.save i).fileExists = false) (by rw [(hs i).1]; rfl) (by rw [(hs i).2]; rfl) r).trans
        (hc (fun e => (e.save i).fileExists = false) (by rw [(hs i).1]; rfl) (by rw [(hs i).2]; rfl) q).symm
    | exact (hc (fun e => (e.save i).rejected = false) (by rw [(hs i).1]; rfl) (by rw [(hs i).2]; rfl) r).trans
        (hc (fun e => (e.save i).rejected = false) (by rw [(hs i).1]; rfl) (by rw [(hs i).2]; rfl) q).symm
    | exact (hc (fun e => e.finalSave.fileExists = false) (by rw [hf.1]; rfl) (by rw [hf.2]; rfl) r).trans
        (hc (fun e => e.finalSave.fileExists = false) (by rw [hf.1]; rfl) (by rw [hf.2]; rfl) q).symm
    | exact (hc (fun e => e.finalSave.rejected = false) (by rw [hf.1]; rfl) (by rw [hf.2]; rfl) r).trans
        (hc (fun e => e.finalSave.rejected = false) (by rw [hf.1]; rfl) (by rw [hf.2]; rfl) q).symm
    | exact (hc (fun e => e.emergencySave.fileExists = false) (by rw [he.1]; rfl) (by rw [he.2]; rfl) r).trans
        (hc (fun e => e.emergencySave.fileExists = false) (by rw [he.1]; rfl) (by rw [he.2]; rfl) q).symm
    | exact (hc (fun e => e.emergencySave.rejected = false) (by rw [he.1]; rfl) (by rw [he.2]; rfl) r).trans
        (hc (fun e => e.emergencySave.rejected = false) (by rw [he.1]; rfl) (by rw [he.2]; rfl) q).symm

/-- the hypotheses hold of a run in which one process fails -/
example : Shared (fun r : Fin 2 => if r = 0 then env else bad) := by
  refine shared_of env bad (fun i j => ⟨rfl, rfl⟩) (fun i j => ?_) (fun i => ⟨rfl, rfl⟩) ⟨rfl, rfl⟩ ⟨rfl, rfl⟩
  unfold bad
  dsimp only
  by_cases hi : i = 3
  · by_cases hj : j = 1 <;> simp [hi, hj, micro]
  · simp [hi, iter, micro]

/-- both processes stop with the same error, after two steps and one checkpoint -/
example : (exec 100 (fun r : Fin 2 => run r.1 cfg (if r = 0 then env else bad) st)).map
      (fun out => ((out 0).2.map Failure.phase, (out 1).2.map Failure.phase, (out 0).1.stepped, (out 1).1.stepped, (out 0).1.committed, (out 1).1.iteration)) =
    some (some "before backward", some "before backward", [1, 2], [1, 2], [(2, [1, 2])], 2) := by decide +kernel

/-- the same run without the failure ends normally, with the final checkpoint -/
example : (exec 100 (fun r : Fin 2 => run r.1 cfg env st)).map
      (fun out => ((out 0).2, (out 1).2, (out 0).1.stepped, (out 1).1.committed, (out 1).1.lastState)) =
    some (none, none, [1, 2, 3], [(2, [1, 2]), (3, [1, 2, 3])], some 3) := by decide +kernel

theorem fineIter : ∀ i, IterFine (n := 2) cfg 7 (fun _ => iter) (fun _ => sv) i := by
  intro i
  refine ⟨fun r j => ⟨⟨3, rfl⟩, rfl, ⟨rfl, rfl, rfl⟩, rfl, ⟨rfl, rfl, rfl⟩, rfl, rfl⟩, fun j => ⟨fun r => rfl, fun r => rfl, fun r q => rfl, fun r q => rfl⟩, fun r => rfl,
    ⟨fun _ r => rfl, fun _ r => rfl, fun _ _ r => rfl, fun _ r => rfl⟩,
    fun _ r => ⟨fun _ => rfl, fun _ => rfl, fun _ => ⟨rfl, fun _ => rfl, rfl, rfl, rfl, rfl⟩, fun _ _ => rfl⟩⟩

/-- the hypotheses of `C83_quiet` -/
example : ∃ S, ∀ i, st.iteration < i → i ≤ cfg.iterations → IterFine cfg S (fun _ : Fin 2 => env.iter i) (fun _ => env.save i) i := ⟨7, fun i _ _ => fineIter i⟩
example : FinishOk (fun _ : Fin 2 => env) True :=
  ⟨fun _ r => ⟨fun _ => rfl, fun _ => rfl, fun _ => ⟨rfl, fun _ => rfl, rfl, rfl, rfl, rfl⟩, fun _ _ => rfl⟩, fun _ _ => rfl⟩

/-- process 1 fails to prepare its commit in iteration 1 -/
def unprepared : Env := { env with iter := fun _ => { iter with micro := fun _ => { micro with prepare := ["cursor"] } } }

/-- process 1 sees a state file of iteration 2 that process 0 does not see -/
def seesFile : Env := { env with save := fun _ => { sv with fileExists := true } }

end Examples83

open Examples83 in
/-- **C83 (finding)** commit preparation that fails on one process only leaves the processes in different collectives for ever -/
theorem C83_prepare_gap : ¬ Terminates (fun r : Fin 2 => run r.1 cfg (if r = 0 then env else unprepared) st) :=
  fun ⟨out, h, _⟩ => stuck_hangs 100 _ (by decide +kernel) ⟨out, h⟩

open Examples83 in
/-- **C83 (finding)** so does a state file that only one process sees, since every process looks by itself -/
theorem C83_exists_gap : ¬ Terminates (fun r : Fin 2 => run r.1 cfg (if r = 0 then env else seesFile) st) :=
  fun ⟨out, h, _⟩ => stuck_hangs 100 _ (by decide +kernel) ⟨out, h⟩

end Verif.Ranks
