import Verif.Train.Model
import Mathlib.Tactic.SplitIfs
import Mathlib.Data.List.Nodup

namespace Verif.Train

/-- what the slots hold once every copy has landed -/
def eventual (s : St) : Nat → Bool := land s.slots s.pending

theorem land_append (sl : Nat → Bool) (a b : List (Nat × Bool)) : land sl (a ++ b) = land (land sl a) b := by
  induction a generalizing sl with
  | nil => rfl
  | cons p a ih => exact ih _

theorem land_not_mem (slot : Nat) (l : List (Nat × Bool)) (h : slot ∉ l.map Prod.fst) (sl : Nat → Bool) :
    land sl l slot = sl slot := by
  induction l generalizing sl with
  | nil => rfl
  | cons p l ih =>
    rw [List.map_cons, List.mem_cons, not_or] at h
    show land (Function.update sl p.1 p.2) l slot = _
    rw [ih h.2, Function.update_of_ne h.1]

theorem eventPos_zero (slot : Nat) (l : List (Nat × Bool)) (h : eventPos slot l = 0) : slot ∉ l.map Prod.fst := by
  induction l with
  | nil => simp
  | cons p l ih =>
    obtain ⟨i, b⟩ := p
    unfold eventPos at h
    by_cases h1 : eventPos slot l = 0
    · rw [if_pos h1] at h
      by_cases h2 : i = slot
      · rw [if_pos h2] at h; omega
      · rw [List.map_cons, List.mem_cons, not_or]
        exact ⟨fun e => h2 e.symm, ih h1⟩
    · rw [if_neg h1] at h; omega

theorem drop_eventPos (slot : Nat) (l : List (Nat × Bool)) : slot ∉ (l.drop (eventPos slot l)).map Prod.fst := by
  induction l with
  | nil => simp
  | cons p l ih =>
    obtain ⟨i, b⟩ := p
    by_cases h1 : eventPos slot l = 0
    · by_cases h2 : i = slot
      · have : eventPos slot ((i, b) :: l) = 1 := by simp [eventPos, h1, h2]
        rw [this]
        exact eventPos_zero slot l h1
      · have : eventPos slot ((i, b) :: l) = 0 := by simp [eventPos, h1, h2]
        rw [this]
        exact eventPos_zero slot _ this
    · have : eventPos slot ((i, b) :: l) = eventPos slot l + 1 := by simp [eventPos, h1]
      rw [this]
      exact ih

theorem landN_eventual (n : Nat) (s : St) : eventual (landN n s) = eventual s := by
  show land (land s.slots (s.pending.take n)) (s.pending.drop n) = _
  rw [← land_append, List.take_append_drop]
  rfl

theorem synchronize_eventual (slot : Nat) (s : St) : eventual (synchronize slot s) = eventual s := landN_eventual _ _

theorem synchronize_slot (slot : Nat) (s : St) : (synchronize slot s).slots slot = eventual s slot := by
  rw [← synchronize_eventual slot s]
  show _ = land _ _ slot
  rw [land_not_mem]
  exact drop_eventPos slot s.pending

/-- the fields that draining leaves alone -/
structure Same (s s' : St) : Prop where
  iteration : s'.iteration = s.iteration
  rows : s'.rows = s.rows
  counter : s'.counter = s.counter
  safe : s'.safe = s.safe
  attemptFailed : s'.attemptFailed = s.attemptFailed
  lastState : s'.lastState = s.lastState
  events : s'.events = s.events

theorem Same.refl (s : St) : Same s s := ⟨rfl, rfl, rfl, rfl, rfl, rfl, rfl⟩

theorem Same.trans {a b c : St} (h : Same a b) (g : Same b c) : Same a c :=
  ⟨g.1.trans h.1, g.2.trans h.2, g.3.trans h.3, g.4.trans h.4, g.5.trans h.5, g.6.trans h.6, g.7.trans h.7⟩

theorem Same.landN (n : Nat) (s : St) : Same s (landN n s) := ⟨rfl, rfl, rfl, rfl, rfl, rfl, rfl⟩

theorem Same.synchronize (slot : Nat) (s : St) : Same s (synchronize slot s) := Same.landN _ _

theorem discard_same (s : St) : Same s (discard s) := by
  have h : ∀ (l : List (Nat × Nat)) (s : St), Same s (l.foldl (fun s e => synchronize e.1 s) s) := by
    intro l
    induction l with
    | nil => exact Same.refl
    | cons e l ih => exact fun s => (Same.synchronize e.1 s).trans (ih _)
  obtain ⟨h1, h2, h3, h4, h5, h6, h7⟩ := h s.inFlight s
  exact ⟨h1, h2, h3, h4, h5, h6, h7⟩

theorem discard_inFlight (s : St) : (discard s).inFlight = [] := rfl

theorem discard_known (s : St) : (discard s).known = s.known := by
  have h : ∀ (l : List (Nat × Nat)) (s : St), (l.foldl (fun s e => synchronize e.1 s) s).known = s.known := by
    intro l
    induction l with
    | nil => exact fun s => rfl
    | cons e l ih => exact fun s => (ih _).trans rfl
  exact h _ _

/-- every queued check will read what was queued for it -/
def Queue (fin : Nat → Bool) (s : St) : Prop := ∀ e ∈ s.inFlight, eventual s e.1 = fin e.2

theorem drainN_ok (fin : Nat → Bool) (n : Nat) (s s' : St) (hq : Queue fin s) (h : drainN n s = .ok s') :
    Same s s' ∧ s'.known = s.known ∧ s'.inFlight = s.inFlight.drop n ∧ eventual s' = eventual s ∧
      ∀ e ∈ s.inFlight.take n, fin e.2 = true := by
  induction n generalizing s with
  | zero =>
    injection h with h
    subst h
    exact ⟨Same.refl _, rfl, rfl, rfl, by simp⟩
  | succ n ih =>
    unfold drainN at h
    cases hf : s.inFlight with
    | nil =>
      rw [hf] at h
      injection h with h
      subst h
      exact ⟨Same.refl _, rfl, by simp [hf], rfl, by simp⟩
    | cons e rest =>
      obtain ⟨slot, it⟩ := e
      rw [hf] at h
      dsimp only at h
      obtain ⟨s1, hs1⟩ : ∃ s1, s1 = synchronize slot { s with inFlight := rest } := ⟨_, rfl⟩
      rw [← hs1] at h
      have he : eventual s1 = eventual s := by rw [hs1]; exact synchronize_eventual _ _
      have hsl : s1.slots slot = fin it := by
        rw [hs1, synchronize_slot]
        exact hq (slot, it) (by rw [hf]; simp)
      have hin : s1.inFlight = rest := by rw [hs1]; rfl
      have hsame : Same s s1 := by rw [hs1]; exact ⟨rfl, rfl, rfl, rfl, rfl, rfl, rfl⟩
      have hkn : s1.known = s.known := by rw [hs1]; rfl
      by_cases hb : s1.slots slot = true
      · rw [if_pos hb] at h
        obtain ⟨g1, g2, g3, g4, g5⟩ := ih s1 (fun e hm => by rw [he]; exact hq e (by rw [hf]; exact List.mem_cons_of_mem _ (hin ▸ hm))) h
        refine ⟨hsame.trans g1, g2.trans hkn, by rw [g3, hin]; rfl, g4.trans he, ?_⟩
        intro e hm
        rw [List.take_succ_cons, List.mem_cons] at hm
        rcases hm with rfl | hm
        · exact hsl.symm.trans hb
        · exact g5 e (by rw [hin]; exact hm)
      · rw [if_neg hb] at h
        exact absurd h (by simp)

theorem drainN_error (fin : Nat → Bool) (n : Nat) (s s' : St) (err : Err) (hq : Queue fin s) (h : drainN n s = .error (s', err)) :
    Same s s' ∧ s'.known = true ∧ ∃ a e b, s.inFlight = a ++ e :: b ∧ a.length < n ∧ (∀ x ∈ a, fin x.2 = true) ∧ fin e.2 = false ∧
      err = .nonFinite e.2 := by
  induction n generalizing s with
  | zero => exact absurd h (by simp [drainN])
  | succ n ih =>
    unfold drainN at h
    cases hf : s.inFlight with
    | nil => rw [hf] at h; exact absurd h (by simp)
    | cons e rest =>
      obtain ⟨slot, it⟩ := e
      rw [hf] at h
      dsimp only at h
      obtain ⟨s1, hs1⟩ : ∃ s1, s1 = synchronize slot { s with inFlight := rest } := ⟨_, rfl⟩
      rw [← hs1] at h
      have he : eventual s1 = eventual s := by rw [hs1]; exact synchronize_eventual _ _
      have hsl : s1.slots slot = fin it := by
        rw [hs1, synchronize_slot]
        exact hq (slot, it) (by rw [hf]; simp)
      have hin : s1.inFlight = rest := by rw [hs1]; rfl
      have hsame : Same s s1 := by rw [hs1]; exact ⟨rfl, rfl, rfl, rfl, rfl, rfl, rfl⟩
      by_cases hb : s1.slots slot = true
      · rw [if_pos hb] at h
        obtain ⟨g1, g2, a, e, b, g3, g4, g5, g6, g7⟩ := ih s1 (fun e hm => by rw [he]; exact hq e (by rw [hf]; exact List.mem_cons_of_mem _ (hin ▸ hm))) h
        refine ⟨hsame.trans g1, g2, (slot, it) :: a, e, b, by rw [← hin, g3]; rfl, by simpa using g4, ?_, g6, g7⟩
        intro x hx
        rcases List.mem_cons.1 hx with rfl | hx
        · exact hsl.symm.trans hb
        · exact g5 x hx
      · rw [if_neg hb] at h
        injection h with h
        injection h with h1 h2
        subst h1
        refine ⟨⟨hsame.1, hsame.2, hsame.3, hsame.4, hsame.5, hsame.6, hsame.7⟩, rfl, [], (slot, it), rest, rfl, by simp, by simp, ?_, h2.symm⟩
        rw [hsl] at hb
        simpa using hb

/-- off CUDA every copy is immediate -/
def Cpu (c : Cfg) (s : St) : Prop := c.cuda = false → s.pending = []

theorem Cpu.landN {c : Cfg} {s : St} (h : Cpu c s) (n : Nat) : Cpu c (landN n s) := by
  intro hc
  show s.pending.drop n = []
  rw [h hc]
  exact List.drop_nil

theorem Cpu.enqueue {c : Cfg} {s : St} (h : Cpu c s) (b : Bool) : Cpu c (enqueue c b s) := by
  intro hc
  unfold Verif.Train.enqueue
  simp only [hc]
  exact h hc

theorem drainN_cpu (c : Cfg) (n : Nat) (s s' : St) (hc : Cpu c s) (h : drainN n s = .ok s') : Cpu c s' := by
  induction n generalizing s with
  | zero => injection h with h; exact h ▸ hc
  | succ n ih =>
    unfold drainN at h
    cases hf : s.inFlight with
    | nil => rw [hf] at h; injection h with h; exact h ▸ hc
    | cons e rest =>
      rw [hf] at h
      dsimp only at h
      split at h
      · exact ih _ (Cpu.landN (s := { s with inFlight := rest }) hc _) h
      · exact absurd h (by simp)

theorem discard_cpu (c : Cfg) (s : St) (hc : Cpu c s) : Cpu c (discard s) := by
  have h : ∀ (l : List (Nat × Nat)) (s : St), Cpu c s → Cpu c (l.foldl (fun s e => synchronize e.1 s) s) := by
    intro l
    induction l with
    | nil => exact fun s h => h
    | cons e l ih => exact fun s h => ih _ (h.landN _)
  exact h _ _ hc

/-- queueing a check keeps what the other slots will hold -/
theorem enqueue_eventual (c : Cfg) (b : Bool) (s : St) (hp : Cpu c s) (j : Nat) :
    eventual (enqueue c b s) j = if j = s.counter % 2 then b else eventual s j := by
  unfold enqueue eventual
  by_cases hc : c.cuda = true
  · simp only [if_pos hc]
    rw [land_append]
    exact Function.update_apply _ _ _ _
  · simp only [if_neg hc, hp (by simpa using hc)]
    exact Function.update_apply _ _ _ _

theorem enqueue_same (c : Cfg) (b : Bool) (s : St) :
    (enqueue c b s).iteration = s.iteration ∧ (enqueue c b s).rows = s.rows ∧ (enqueue c b s).counter = s.counter + 1 ∧
      (enqueue c b s).inFlight = s.inFlight ++ [(s.counter % 2, s.iteration)] ∧ (enqueue c b s).known = s.known ∧
      (enqueue c b s).safe = s.safe ∧ (enqueue c b s).attemptFailed = s.attemptFailed ∧ (enqueue c b s).lastState = s.lastState ∧
      (enqueue c b s).events = s.events := by
  by_cases hc : c.cuda = true <;> simp [enqueue, hc]

/-- every step of this run up to `k` had a finite check -/
def Good (env : Env) (start k : Nat) : Prop := ∀ j, start < j → j ≤ k → (env.iter j).finite = true

/-- only weights after finite steps were validated or saved -/
def Clean (env : Env) (start : Nat) (ev : List Event) : Prop :=
  ∀ k, Event.validated k ∈ ev ∨ Event.committed k ∈ ev → Good env start k

/-- what holds however the run goes on -/
structure Base (env : Env) (c : Cfg) (start rows0 : Nat) (s : St) : Prop where
  le : start ≤ s.iteration
  rows : s.rows = rows0 + c.rowsPerStep * (s.iteration - start)
  clean : Clean env start s.events
  all : ∀ j, start < j → j ≤ s.iteration → Event.stepped j ∈ s.events
  last : ∀ k, s.lastState = some k → k ≤ s.iteration ∧ Good env start k ∧ (Event.committed k ∈ s.events ∨ k ≤ start)

/-- loop-head invariant -/
structure Head (env : Env) (c : Cfg) (start rows0 : Nat) (s : St) : Prop extends Base env c start rows0 s where
  cpu : Cpu c s
  steps : ∀ j, Event.stepped j ∈ s.events → start < j ∧ j ≤ s.iteration
  past : ∀ j, start < j → j < s.iteration → (env.iter j).finite = true
  known : s.known = false
  noScale : c.scaled = true → s.inFlight = []
  queue : (s.inFlight = [] ∧ Good env start s.iteration) ∨
    (∃ slot, s.inFlight = [(slot, s.iteration)] ∧ slot ≠ s.counter % 2 ∧ eventual s slot = (env.iter s.iteration).finite ∧
      start < s.iteration)

/-- what holds when an exception leaves the loop -/
structure Fail (env : Env) (c : Cfg) (start rows0 : Nat) (s : St) (err : Err) : Prop extends Base env c start rows0 s where
  steps : ∀ j, Event.stepped j ∈ s.events → start < j ∧ j ≤ s.iteration + 1 ∧ ∀ k, start < k → k + 1 < j → (env.iter k).finite = true
  report : ∀ k, err = .nonFinite k → start < k ∧ (env.iter k).finite = false ∧ Good env start (k - 1)
  safe : s.safe = true → s.known = false → err ≠ .interrupted → Good env start s.iteration

theorem mem_append_single {α} {a b : α} {l : List α} : a ∈ l ++ [b] ↔ a ∈ l ∨ a = b := by simp

theorem Good.of_past {env : Env} {start i : Nat} (h : ∀ j, start < j → j < i → (env.iter j).finite = true) (hi : start < i → (env.iter i).finite = true) :
    Good env start i := by
  intro j h1 h2
  rcases Nat.lt_or_eq_of_le h2 with h3 | h3
  · exact h j h1 h3
  · subst h3; exact hi h1

/-- a state whose current weights have been checked -/
structure Checked (env : Env) (c : Cfg) (start rows0 : Nat) (s : St) : Prop extends Base env c start rows0 s where
  cpu : Cpu c s
  steps : ∀ j, Event.stepped j ∈ s.events → start < j ∧ j ≤ s.iteration
  known : s.known = false
  good : Good env start s.iteration
  queue : s.inFlight = []

theorem Checked.head {env : Env} {c : Cfg} {start rows0 : Nat} {s : St} (h : Checked env c start rows0 s) : Head env c start rows0 s :=
  ⟨h.toBase, h.cpu, h.steps, fun j h1 h2 => h.good j h1 (Nat.le_of_lt h2), h.known, fun _ => h.queue, Or.inl ⟨h.queue, h.good⟩⟩

theorem Checked.fail {env : Env} {c : Cfg} {start rows0 : Nat} {s : St} (h : Checked env c start rows0 s) (err : Err)
    (he : ∀ k, err ≠ .nonFinite k) : Fail env c start rows0 s err :=
  ⟨h.toBase, fun j hj => ⟨(h.steps j hj).1, by have := (h.steps j hj).2; omega, fun k h1 h2 => h.good k h1 (by have := (h.steps j hj).2; omega)⟩,
    fun k hk => absurd hk (he k), fun _ _ _ => h.good⟩

/-- a successful or failed save keeps a checked state checked -/
theorem Checked.save {env : Env} {c : Cfg} {start rows0 : Nat} {s : St} (h : Checked env c start rows0 s) (o : SaveOutcome) (force : Bool) :
    (∀ s', save c o force s = .ok s' → Checked env c start rows0 s' ∧ s'.iteration = s.iteration) ∧
    (∀ s' err, save c o force s = .error (s', err) → Checked env c start rows0 s' ∧ s'.iteration = s.iteration ∧ err = .other) := by
  cases o with
  | ok =>
    refine ⟨?_, fun s' err hs => by simp [Verif.Train.save] at hs⟩
    intro s' hs
    injection hs with hs
    subst hs
    refine ⟨⟨⟨h.le, h.rows, ?_, ?_, ?_⟩, h.cpu, ?_, h.known, h.good, h.queue⟩, rfl⟩
    · intro k hk
      simp only [mem_append_single] at hk
      rcases hk with (hk | hk) | (hk | hk)
      · exact h.clean k (Or.inl hk)
      · exact absurd hk (by simp)
      · exact h.clean k (Or.inr hk)
      · injection hk with hk; exact hk ▸ h.good
    · exact fun j h1 h2 => List.mem_append_left _ (h.all j h1 h2)
    · intro k hk
      have hk : (if savesState c force s.iteration then some s.iteration else s.lastState) = some k := hk
      by_cases hss : savesState c force s.iteration = true
      · rw [if_pos hss] at hk
        injection hk with hk
        subst hk
        exact ⟨Nat.le_refl _, h.good, Or.inl (by simp)⟩
      · rw [if_neg hss] at hk
        obtain ⟨g1, g2, g3⟩ := h.last k hk
        exact ⟨g1, g2, g3.imp (List.mem_append_left _) id⟩
    · intro j hj
      simp only [mem_append_single] at hj
      rcases hj with hj | hj
      · exact h.steps j hj
      · exact absurd hj (by simp)
  | failMarked =>
    refine ⟨fun s' hs => by simp [Verif.Train.save] at hs, ?_⟩
    intro s' err hs
    injection hs with hs
    injection hs with h1 h2
    subst h1
    exact ⟨⟨⟨h.le, h.rows, h.clean, h.all, h.last⟩, h.cpu, h.steps, h.known, h.good, h.queue⟩, rfl, h2.symm⟩
  | failUnmarked =>
    refine ⟨fun s' hs => by simp [Verif.Train.save] at hs, ?_⟩
    intro s' err hs
    injection hs with hs
    injection hs with h1 h2
    subst h1
    exact ⟨h, rfl, h2.symm⟩

/-- the state after the drain of an iteration: checked, or one check behind -/
theorem tail_inv {env : Env} {c : Cfg} {start rows0 : Nat} {e : Iter} {s : St} (h : Head env c start rows0 s)
    (hc : saveDue c s.iteration || valDue c s.iteration → Checked env c start rows0 s) (hsafe : s.safe = false) :
    (∀ s', tail c e s = .ok s' → Head env c start rows0 s' ∧ s'.iteration = s.iteration) ∧
    (∀ s' err, tail c e s = .error (s', err) → Fail env c start rows0 s' err) := by
  have hgen : ∀ (b : Bool), Head env c start rows0 { s with safe := b } := fun b =>
    ⟨⟨h.le, h.rows, h.clean, h.all, h.last⟩, h.cpu, h.steps, h.past, h.known, h.noScale, h.queue⟩
  have hfail : ∀ err, (∀ k, err ≠ .nonFinite k) → ∀ b : Bool, (b = true → err = .interrupted) → Fail env c start rows0 { s with safe := b } err := by
    intro err he b hb
    refine ⟨⟨h.le, h.rows, h.clean, h.all, h.last⟩, ?_, fun k hk => absurd hk (he k), fun h1 _ h3 => absurd (hb h1) h3⟩
    intro j hj
    have h1 := h.steps j hj
    exact ⟨h1.1, by dsimp only; omega, fun k h2 h3 => h.past k h2 (by omega)⟩
  have hs0 : s = { s with safe := false } := by rw [← hsafe]
  unfold tail
  dsimp only
  by_cases hv : valDue c s.iteration = true
  · have hk := hc (by simp [hv])
    obtain ⟨s1, hs1⟩ : ∃ s1, s1 = { s with events := s.events ++ [Event.validated s.iteration] } := ⟨_, rfl⟩
    simp only [if_pos hv, ← hs1]
    have hit : s1.iteration = s.iteration := by rw [hs1]
    have hs1k : Checked env c start rows0 s1 := by
      rw [hs1]
      refine ⟨⟨hk.le, hk.rows, ?_, fun j h1 h2 => List.mem_append_left _ (hk.all j h1 h2),
        fun k g => ⟨(hk.last k g).1, (hk.last k g).2.1, (hk.last k g).2.2.imp (List.mem_append_left _) id⟩⟩, hk.cpu, ?_, hk.known, hk.good, hk.queue⟩
      · intro k hm
        simp only [mem_append_single] at hm
        rcases hm with (hm | hm) | (hm | hm)
        · exact hk.clean k (Or.inl hm)
        · injection hm with hm; exact hm ▸ hk.good
        · exact hk.clean k (Or.inr hm)
        · exact absurd hm (by simp)
      · intro j hj
        simp only [mem_append_single] at hj
        rcases hj with hj | hj
        · exact hk.steps j hj
        · exact absurd hj (by simp)
    have hs2 : Checked env c start rows0 { s1 with safe := true } :=
      ⟨⟨hs1k.le, hs1k.rows, hs1k.clean, hs1k.all, hs1k.last⟩, hs1k.cpu, hs1k.steps, hs1k.known, hs1k.good, hs1k.queue⟩
    rw [hv]
    by_cases h1 : e.valOk = true
    · rw [if_neg (by simp [h1])]
      by_cases h2 : e.profOk = true
      · rw [if_neg (by simp [h2])]
        by_cases h3 : e.interrupt = true
        · rw [if_pos h3]
          refine ⟨fun s' hs => by simp at hs, fun s' err hs => ?_⟩
          injection hs with hs
          injection hs with g1 g2
          subst g1; subst g2
          exact hs2.fail _ (by simp)
        · rw [if_neg h3]
          by_cases h4 : saveDue c s1.iteration = true
          · rw [if_pos h4]
            have := hs2.save e.save false
            refine ⟨fun s' hs => ⟨(this.1 s' hs).1.head, (this.1 s' hs).2.trans hit⟩, fun s' err hs => ?_⟩
            obtain ⟨g1, -, g3⟩ := this.2 s' err hs
            exact g1.fail err (by rw [g3]; simp)
          · rw [if_neg h4]
            refine ⟨fun s' hs => ?_, fun s' err hs => by simp at hs⟩
            injection hs with hs
            subst hs
            exact ⟨hs2.head, hit⟩
      · rw [if_pos (by simpa using h2)]
        refine ⟨fun s' hs => by simp at hs, fun s' err hs => ?_⟩
        injection hs with hs
        injection hs with g1 g2
        subst g1; subst g2
        exact hs1k.fail _ (by simp)
    · rw [if_pos (by simpa using h1)]
      refine ⟨fun s' hs => by simp at hs, fun s' err hs => ?_⟩
      injection hs with hs
      injection hs with g1 g2
      subst g1; subst g2
      exact hs1k.fail _ (by simp)
  · simp only [if_neg hv]
    rw [if_neg (by simp [hv])]
    by_cases h2 : e.profOk = true
    · rw [if_neg (by simp [h2])]
      by_cases h3 : e.interrupt = true
      · rw [if_pos h3]
        refine ⟨fun s' hs => by simp at hs, fun s' err hs => ?_⟩
        injection hs with hs
        injection hs with g1 g2
        subst g1; subst g2
        exact hfail _ (by simp) true (fun _ => rfl)
      · rw [if_neg h3]
        by_cases h4 : saveDue c s.iteration = true
        · rw [if_pos h4]
          have hk := hc (by simp [h4])
          have hs2 : Checked env c start rows0 { s with safe := true } :=
            ⟨⟨hk.le, hk.rows, hk.clean, hk.all, hk.last⟩, hk.cpu, hk.steps, hk.known, hk.good, hk.queue⟩
          have := hs2.save e.save false
          refine ⟨fun s' hs => ⟨(this.1 s' hs).1.head, (this.1 s' hs).2⟩, fun s' err hs => ?_⟩
          obtain ⟨g1, -, g3⟩ := this.2 s' err hs
          exact g1.fail err (by rw [g3]; simp)
        · rw [if_neg h4]
          refine ⟨fun s' hs => ?_, fun s' err hs => by simp at hs⟩
          injection hs with hs
          subst hs
          exact ⟨hgen true, rfl⟩
    · rw [if_pos (by simpa using h2)]
      refine ⟨fun s' hs => by simp at hs, fun s' err hs => ?_⟩
      injection hs with hs
      injection hs with g1 g2
      subst g1; subst g2
      rw [hs0]
      exact hfail _ (by simp) false (by simp)

theorem body_inv {env : Env} {c : Cfg} {start rows0 : Nat} {s : St} (h : Head env c start rows0 s) :
    (∀ s', body c (env.iter (s.iteration + 1)) s = .ok s' → Head env c start rows0 s' ∧ s'.iteration = s.iteration + 1) ∧
    (∀ s' err, body c (env.iter (s.iteration + 1)) s = .error (s', err) → Fail env c start rows0 s' err) := by
  obtain ⟨e, he⟩ : ∃ e, e = env.iter (s.iteration + 1) := ⟨_, rfl⟩
  rw [← he]
  unfold body
  dsimp only
  have hstart : start < s.iteration + 1 := Nat.lt_succ_of_le h.le
  by_cases h1 : e.fetchOk = true
  swap
  · rw [if_pos (by simpa using h1)]
    refine ⟨fun s' hs => by simp at hs, fun s' err hs => ?_⟩
    injection hs with hs
    injection hs with g1 g2
    subst g1; subst g2
    refine ⟨⟨h.le, h.rows, h.clean, h.all, h.last⟩, fun j hj => ?_, by simp, by simp⟩
    have g1 := h.steps j hj
    exact ⟨g1.1, by dsimp only; omega, fun k h2 h3 => h.past k h2 (by omega)⟩
  rw [if_neg (by simp [h1])]
  obtain ⟨s1, hs1⟩ : ∃ s1 : St, s1 = { s with iteration := s.iteration + 1, rows := s.rows + c.rowsPerStep, safe := false } := ⟨_, rfl⟩
  rw [← hs1]
  -- before the check is queued
  have hback : ∀ (s2 : St) (err : Err), s2.iteration = s.iteration + 1 → s2.rows = s.rows + c.rowsPerStep → s2.safe = false →
      (s2.events = s.events ∨ s2.events = s.events ++ [Event.stepped (s.iteration + 1)]) → s2.lastState = s.lastState →
      (∀ k, err = .nonFinite k → start < k ∧ (env.iter k).finite = false ∧ Good env start (k - 1)) →
      Fail env c start rows0 { s2 with iteration := s2.iteration - 1, rows := s2.rows - c.rowsPerStep } err := by
    intro s2 err g1 g2 g3 g4 g6 g5
    have hev : ∀ x, x ∈ s2.events → x ∈ s.events ∨ x = Event.stepped (s.iteration + 1) := by
      intro x hx
      rcases g4 with g4 | g4 <;> rw [g4] at hx
      · exact Or.inl hx
      · exact mem_append_single.1 hx
    have hev' : ∀ x, x ∈ s.events → x ∈ s2.events := by
      intro x hx
      rcases g4 with g4 | g4 <;> rw [g4]
      · exact hx
      · exact List.mem_append_left _ hx
    refine ⟨⟨?_, ?_, ?_, ?_, ?_⟩, ?_, g5, ?_⟩
    · show start ≤ s2.iteration - 1
      rw [g1]; exact h.le
    · show s2.rows - c.rowsPerStep = rows0 + c.rowsPerStep * (s2.iteration - 1 - start)
      rw [g1, g2, Nat.add_sub_cancel, Nat.add_sub_cancel]; exact h.rows
    · intro k hk
      refine h.clean k ?_
      rcases hk with hk | hk
      · rcases hev _ hk with hk | hk
        · exact Or.inl hk
        · exact absurd hk (by simp)
      · rcases hev _ hk with hk | hk
        · exact Or.inr hk
        · exact absurd hk (by simp)
    · intro j h2 h3
      have h3' : j ≤ s.iteration := by
        have h3 : j ≤ s2.iteration - 1 := h3
        omega
      exact hev' _ (h.all j h2 h3')
    · intro k hk
      have hk : s2.lastState = some k := hk
      rw [g6] at hk
      obtain ⟨m1, m2, m3⟩ := h.last k hk
      refine ⟨?_, m2, m3.imp (hev' _) id⟩
      show k ≤ s2.iteration - 1
      rw [g1]; exact m1
    · intro j hj
      show start < j ∧ j ≤ s2.iteration - 1 + 1 ∧ _
      rw [g1]
      rcases hev _ hj with hj | hj
      · have := h.steps j hj
        exact ⟨this.1, by omega, fun k h2 h3 => h.past k h2 (by omega)⟩
      · injection hj with hj
        subst hj
        exact ⟨hstart, by omega, fun k h2 h3 => h.past k h2 (by omega)⟩
    · intro h2
      have h2 : s2.safe = true := h2
      rw [g3] at h2
      exact absurd h2 (by simp)
  unfold trainStep
  by_cases h2 : e.beforeOk = true
  swap
  · simp only [show (!e.beforeOk) = true by simpa using h2, if_true]
    refine ⟨fun s' hs => by simp at hs, fun s' err hs => ?_⟩
    injection hs with hs
    injection hs with g1 g2
    rw [← g1, ← g2]
    exact hback s1 .other (by rw [hs1]) (by rw [hs1]) (by rw [hs1]) (Or.inl (by rw [hs1])) (by rw [hs1]) (by simp)
  simp only [show (!e.beforeOk) = false by simp [h2], Bool.false_eq_true, if_false]
  by_cases h3 : (c.scaled && !e.finite) = true
  · simp only [h3, if_true]
    refine ⟨fun s' hs => by simp at hs, fun s' err hs => ?_⟩
    injection hs with hs
    injection hs with g1 g2
    rw [← g1, ← g2]
    simp only [Bool.and_eq_true, Bool.not_eq_true'] at h3
    refine hback { s1 with known := true } _ (by rw [hs1]) (by rw [hs1]) (by rw [hs1]) (Or.inl (by rw [hs1])) (by rw [hs1]) ?_
    intro k hk
    have hi : s1.iteration = s.iteration + 1 := by rw [hs1]
    rw [hi] at hk
    injection hk with hk
    subst hk
    refine ⟨hstart, by rw [← he]; exact h3.2, ?_⟩
    rw [Nat.add_sub_cancel]
    rcases h.queue with q | ⟨slot, q, -⟩
    · exact q.2
    · rw [h.noScale h3.1] at q; exact absurd q (by simp)
  simp only [if_neg h3]
  -- the state handed to the optimizers
  obtain ⟨s2, hs2⟩ : ∃ s2 : St, s2 = (if c.scaled = true then s1 else enqueue c e.finite s1) := ⟨_, rfl⟩
  obtain ⟨s3, hs3⟩ : ∃ s3 : St, s3 = { s2 with events := s2.events ++ [Event.stepped s2.iteration] } := ⟨_, rfl⟩
  simp only [← hs2]
  rw [← hs3]
  have hcpu1 : Cpu c s1 := by rw [hs1]; exact h.cpu
  have hfld : s2.iteration = s.iteration + 1 ∧ s2.rows = s.rows + c.rowsPerStep ∧ s2.known = false ∧ s2.safe = false ∧
      s2.events = s.events ∧ s2.lastState = s.lastState := by
    rw [hs2]
    by_cases hsc : c.scaled = true
    · rw [if_pos hsc, hs1]; exact ⟨rfl, rfl, h.known, rfl, rfl, rfl⟩
    · rw [if_neg hsc]
      obtain ⟨g1, g2, g3, g4, g5, g6, g7, g8, g9⟩ := enqueue_same c e.finite s1
      rw [g1, g2, g5, g6, g8, g9, hs1]
      exact ⟨rfl, rfl, h.known, rfl, rfl, rfl⟩
  obtain ⟨f1, f2, f3, f4, f5, f6⟩ := hfld
  by_cases h4 : (!e.mutateOk || !e.afterOk) = true
  · rw [if_pos h4]
    refine ⟨fun s' hs => by simp at hs, fun s' err hs => ?_⟩
    injection hs with hs
    injection hs with g1 g2
    rw [← g1, ← g2]
    refine hback { s2 with known := true, events := s2.events ++ [Event.stepped s2.iteration] } .other f1 f2 f4 (Or.inr ?_) f6 (by simp)
    show s2.events ++ _ = _
    rw [f5, f1]
  rw [if_neg h4]
  dsimp only
  -- the step is done
  have e1 : s3.iteration = s.iteration + 1 := by rw [hs3]; exact f1
  have e2 : s3.rows = s.rows + c.rowsPerStep := by rw [hs3]; exact f2
  have e3 : s3.known = false := by rw [hs3]; exact f3
  have e4 : s3.safe = false := by rw [hs3]; exact f4
  have e5 : s3.events = s.events ++ [Event.stepped (s.iteration + 1)] := by
    rw [hs3]; show s2.events ++ _ = _; rw [f5, f1]
  have e6 : Cpu c s3 := by
    rw [hs3]
    show Cpu c s2
    rw [hs2]
    split
    · exact hcpu1
    · exact hcpu1.enqueue _
  -- the queue
  have hq : (c.scaled = true → s3.inFlight = []) ∧
      (c.scaled = false → (s3.inFlight = s.inFlight ++ [(s.counter % 2, s.iteration + 1)] ∧ s3.counter = s.counter + 1 ∧
        ∀ j, eventual s3 j = if j = s.counter % 2 then e.finite else eventual s j)) := by
    constructor
    · intro hsc
      rw [hs3]
      show s2.inFlight = []
      rw [hs2, if_pos hsc, hs1]
      exact h.noScale hsc
    · intro hsc
      have hsc' : ¬ c.scaled = true := by simp [hsc]
      have g := enqueue_same c e.finite s1
      have g0 : s3.inFlight = s2.inFlight ∧ s3.counter = s2.counter ∧ eventual s3 = eventual s2 := by
        rw [hs3]; exact ⟨rfl, rfl, rfl⟩
      have g0' : s2 = enqueue c e.finite s1 := by rw [hs2, if_neg hsc']
      rw [g0.1, g0.2.1, g0.2.2, g0', g.2.2.2.1, g.2.2.1]
      have g1 : s1.inFlight = s.inFlight ∧ s1.counter = s.counter ∧ s1.iteration = s.iteration + 1 ∧ eventual s1 = eventual s := by
        rw [hs1]; exact ⟨rfl, rfl, rfl, rfl⟩
      refine ⟨by rw [g1.1, g1.2.1, g1.2.2.1], by rw [g1.2.1], fun j => ?_⟩
      rw [enqueue_eventual c e.finite s1 hcpu1 j, g1.2.1, g1.2.2.2]
  have hfin : c.scaled = true → (env.iter (s.iteration + 1)).finite = true := by
    intro hsc
    rw [hsc] at h3
    rw [← he]
    simpa using h3
  have hqueue : Queue (fun k => (env.iter k).finite) s3 := by
    intro x hx
    by_cases hsc : c.scaled = true
    · rw [hq.1 hsc] at hx; exact absurd hx (by simp)
    · obtain ⟨g1, g2, g3⟩ := hq.2 (by simpa using hsc)
      rw [g1] at hx
      rcases mem_append_single.1 hx with hx | rfl
      · rcases h.queue with q | ⟨slot, q, q2, q3, q4⟩
        · rw [q.1] at hx; exact absurd hx (by simp)
        · rw [q] at hx
          rw [List.mem_singleton] at hx
          subst hx
          rw [g3, if_neg q2]
          exact q3
      · rw [g3, if_pos rfl, he]
  have hall : ∀ j, start < j → j ≤ s.iteration + 1 → Event.stepped j ∈ s3.events := by
    intro j g1 g2
    rw [e5]
    rcases Nat.lt_or_eq_of_le g2 with g2 | g2
    · exact List.mem_append_left _ (h.all j g1 (by omega))
    · rw [g2]; simp
  have hclean : ∀ k, Event.validated k ∈ s3.events ∨ Event.committed k ∈ s3.events → Event.validated k ∈ s.events ∨ Event.committed k ∈ s.events := by
    intro k hk
    rw [e5] at hk
    simp only [mem_append_single] at hk
    rcases hk with (hk | hk) | (hk | hk)
    · exact Or.inl hk
    · exact absurd hk (by simp)
    · exact Or.inr hk
    · exact absurd hk (by simp)
  have hsteps : ∀ j, Event.stepped j ∈ s3.events → start < j ∧ j ≤ s.iteration + 1 := by
    intro j hj
    rw [e5] at hj
    rcases mem_append_single.1 hj with hj | hj
    · have := h.steps j hj; exact ⟨this.1, by omega⟩
    · injection hj with hj; subst hj; exact ⟨hstart, Nat.le_refl _⟩
  have hbase : Base env c start rows0 s3 := by
    refine ⟨by rw [e1]; exact Nat.le_of_lt hstart, ?_, fun k hk => h.clean k (hclean k hk), by rw [e1]; exact hall, ?_⟩
    swap
    · intro k hk
      have hl3 : s3.lastState = s.lastState := by rw [hs3]; exact f6
      rw [hl3] at hk
      obtain ⟨m1, m2, m3⟩ := h.last k hk
      exact ⟨by rw [e1]; omega, m2, m3.imp (fun g => by rw [e5]; exact List.mem_append_left _ g) id⟩
    rw [e1, e2, h.rows, Nat.succ_sub h.le, Nat.mul_succ, Nat.add_assoc]
  by_cases h5 : e.logOk = true
  swap
  · simp only [show (!e.logOk) = true by simpa using h5, if_true]
    refine ⟨fun s' hs => by simp at hs, fun s' err hs => ?_⟩
    injection hs with hs
    injection hs with g1 g2
    subst g1; subst g2
    refine ⟨hbase, fun j hj => ?_, by simp, by simp [e4]⟩
    have := hsteps j hj
    exact ⟨this.1, by rw [e1]; omega, fun k g1 g2 => h.past k g1 (by omega)⟩
  simp only [show (!e.logOk) = false by simp [h5], Bool.false_eq_true, if_false]
  -- drain
  obtain ⟨s4, hs4⟩ : ∃ s4, s4 = landN e.landed s3 := ⟨_, rfl⟩
  have hsame4 : Same s3 s4 := by rw [hs4]; exact Same.landN _ _
  have hin4 : s4.inFlight = s3.inFlight := by rw [hs4]; rfl
  have hkn4 : s4.known = false := by rw [hs4]; exact e3
  have hq4 : Queue (fun k => (env.iter k).finite) s4 := by
    intro x hx
    rw [hs4, landN_eventual]
    exact hqueue x (hin4 ▸ hx)
  have hcpu4 : Cpu c s4 := by rw [hs4]; exact e6.landN _
  have hev4 : eventual s4 = eventual s3 := by rw [hs4]; exact landN_eventual _ _
  rw [← hs4]
  obtain ⟨n, hn⟩ : ∃ n, n = (if (saveDue c s3.iteration || valDue c s3.iteration) = true then s4.inFlight.length else s4.inFlight.length - 1) := ⟨_, rfl⟩
  have hdr : drain (saveDue c s3.iteration || valDue c s3.iteration) s4 = drainN n s4 := by rw [hn]; rfl
  rw [hdr]
  cases hd : drainN n s4 with
  | error r =>
    obtain ⟨s5, er⟩ := r
    dsimp only
    refine ⟨fun s' hs => by simp at hs, fun s' err hs => ?_⟩
    injection hs with hs
    injection hs with g1 g2
    subst g1; subst g2
    obtain ⟨k1, k2, a, x, b, k3, k4, k5, k6, k7⟩ := drainN_error _ n s4 s5 er hq4 hd
    have ks := hsame4.trans k1
    refine ⟨⟨?_, ?_, ?_, ?_, ?_⟩, ?_, ?_, ?_⟩
    · rw [ks.iteration]; exact hbase.le
    · rw [ks.iteration, ks.rows]; exact hbase.rows
    · rw [ks.events]; exact hbase.clean
    · rw [ks.iteration, ks.events]; exact hbase.all
    · rw [ks.iteration, ks.events, ks.lastState]; exact hbase.last
    · intro j hj
      rw [ks.events] at hj
      have := hsteps j hj
      exact ⟨this.1, by rw [ks.iteration, e1]; omega, fun k g1 g2 => h.past k g1 (by omega)⟩
    · intro k hk
      rw [k7] at hk
      injection hk with hk
      subst hk
      have hmem : x ∈ s3.inFlight := by rw [← hin4, k3]; simp
      by_cases hsc : c.scaled = true
      · rw [hq.1 hsc] at hmem; exact absurd hmem (by simp)
      · obtain ⟨g1, g2, g3⟩ := hq.2 (by simpa using hsc)
        rw [hin4, g1] at k3
        rcases h.queue with q | ⟨slot, q, q2, q3, q4⟩
        · rw [q.1, List.nil_append] at k3
          have hx : x = (s.counter % 2, s.iteration + 1) := by
            rw [← hin4, hin4, g1, q.1, List.nil_append, List.mem_singleton] at hmem; exact hmem
          subst hx
          exact ⟨hstart, k6, by rw [Nat.add_sub_cancel]; exact q.2⟩
        · rw [q] at k3
          cases a with
          | nil =>
            rw [List.nil_append, List.singleton_append] at k3
            injection k3 with k3 _
            rw [← k3]
            refine ⟨q4, ?_, fun j g4 g5 => h.past j g4 ?_⟩
            · rw [← k3] at k6; exact k6
            · have g5 : j ≤ s.iteration - 1 := g5
              omega
          | cons y a =>
            rw [List.singleton_append, List.cons_append] at k3
            injection k3 with k3 k3'
            cases a with
            | nil =>
              rw [List.nil_append] at k3'
              injection k3' with k3' _
              rw [← k3']
              refine ⟨hstart, by rw [← k3'] at k6; exact k6, ?_⟩
              show Good env start (s.iteration + 1 - 1)
              rw [Nat.add_sub_cancel]
              refine Good.of_past h.past (fun _ => ?_)
              have := k5 y (by simp)
              rw [← k3] at this
              exact this
            | cons z a =>
              rw [List.cons_append] at k3'
              injection k3' with _ k3'
              exact absurd k3' (by simp)
    · intro _ h6
      rw [k2] at h6
      exact absurd h6 (by simp)
  | ok s5 =>
    dsimp only
    obtain ⟨k1, k2, k3, k4, k5⟩ := drainN_ok _ n s4 s5 hq4 hd
    have ks := hsame4.trans k1
    have hcpu5 := drainN_cpu c n s4 s5 hcpu4 hd
    have hev5 : eventual s5 = eventual s3 := k4.trans hev4
    have hb5 : Base env c start rows0 s5 := by
      refine ⟨?_, ?_, ?_, ?_, ?_⟩
      · rw [ks.iteration]; exact hbase.le
      · rw [ks.iteration, ks.rows]; exact hbase.rows
      · rw [ks.events]; exact hbase.clean
      · rw [ks.iteration, ks.events]; exact hbase.all
      · rw [ks.iteration, ks.events, ks.lastState]; exact hbase.last
    have hs5 : ∀ j, Event.stepped j ∈ s5.events → start < j ∧ j ≤ s5.iteration := by
      rw [ks.events, ks.iteration, e1]; exact hsteps
    have hit5 : s5.iteration = s.iteration + 1 := ks.iteration.trans e1
    have hfull : (saveDue c s5.iteration || valDue c s5.iteration) = true → Checked env c start rows0 s5 := by
      intro hdue
      rw [ks.iteration] at hdue
      rw [hdue, if_pos rfl] at hn
      refine ⟨hb5, hcpu5, hs5, k2.trans hkn4, ?_, by rw [k3, hn]; simp⟩
      rw [hit5]
      rw [hn, List.take_length, hin4] at k5
      by_cases hsc : c.scaled = true
      · refine Good.of_past (i := s.iteration + 1) (fun j g1 g2 => ?_) (fun _ => hfin hsc)
        rcases h.queue with q | ⟨slot, q, -⟩
        · exact q.2 j g1 (by omega)
        · rw [h.noScale hsc] at q; exact absurd q (by simp)
      · obtain ⟨g1, g2, g3⟩ := hq.2 (by simpa using hsc)
        rw [g1] at k5
        refine Good.of_past (i := s.iteration + 1) (fun j g4 g5 => ?_) (fun _ => k5 (s.counter % 2, s.iteration + 1) (List.mem_append_right _ (by simp)))
        rcases h.queue with q | ⟨slot, q, q2, q3, q4⟩
        · exact q.2 j g4 (by omega)
        · rcases Nat.lt_or_eq_of_le (Nat.le_of_lt_succ g5) with g6 | g6
          · exact h.past j g4 g6
          · rw [g6]; exact k5 (slot, s.iteration) (List.mem_append_left _ (by rw [q]; simp))
    have hhead : Head env c start rows0 s5 := by
      by_cases hdue : (saveDue c s5.iteration || valDue c s5.iteration) = true
      · exact (hfull hdue).head
      · rw [ks.iteration] at hdue
        rw [if_neg hdue, hin4] at hn
        by_cases hsc : c.scaled = true
        · have hgood : Good env start s5.iteration := by
            rw [hit5]
            refine Good.of_past (i := s.iteration + 1) (fun j g1 g2 => ?_) (fun _ => hfin hsc)
            rcases h.queue with q | ⟨slot, q, -⟩
            · exact q.2 j g1 (by omega)
            · rw [h.noScale hsc] at q; exact absurd q (by simp)
          have hi5 : s5.inFlight = [] := by rw [k3, hin4, hq.1 hsc]; simp
          exact Checked.head ⟨hb5, hcpu5, hs5, k2.trans hkn4, hgood, hi5⟩
        · obtain ⟨g1, g2, g3⟩ := hq.2 (by simpa using hsc)
          have hlen : n = s.inFlight.length := by rw [hn, g1]; simp
          have hi5 : s5.inFlight = [(s.counter % 2, s.iteration + 1)] := by
            rw [k3, hin4, g1, hlen, List.drop_left]
          rw [hin4, g1, hlen, List.take_left] at k5
          have hpast : Good env start s.iteration := by
            rcases h.queue with q | ⟨slot, q, q2, q3, q4⟩
            · exact q.2
            · exact Good.of_past h.past (fun _ => k5 (slot, s.iteration) (by rw [q]; simp))
          refine ⟨hb5, hcpu5, hs5, fun j g4 g5 => hpast j g4 (by omega), k2.trans hkn4, fun g => absurd g hsc, Or.inr ⟨s.counter % 2, ?_, ?_, ?_, ?_⟩⟩
          · rw [hi5, hit5]
          · have : s5.counter = s.counter + 1 := by rw [ks.counter]; exact g2
            rw [this]; omega
          · rw [hev5, g3, if_pos rfl, hit5, he]
          · rw [hit5]; exact hstart
    have ht := tail_inv (e := e) hhead (fun g => hfull g) (by rw [ks.safe]; exact e4)
    exact ⟨fun s' hs => ⟨(ht.1 s' hs).1, (ht.1 s' hs).2.trans hit5⟩, fun s' err hs => ht.2 s' err hs⟩

theorem loop_inv {env : Env} {c : Cfg} {start rows0 : Nat} (n : Nat) {s : St} (h : Head env c start rows0 s) :
    (∀ s', loop c env n s = .ok s' → Head env c start rows0 s' ∧ s'.iteration = s.iteration + n) ∧
    (∀ s' err, loop c env n s = .error (s', err) → Fail env c start rows0 s' err) := by
  induction n generalizing s with
  | zero =>
    refine ⟨fun s' hs => ?_, fun s' err hs => by simp [loop] at hs⟩
    injection hs with hs
    subst hs
    exact ⟨h, rfl⟩
  | succ n ih =>
    unfold loop
    have hb := body_inv h
    cases hbd : body c (env.iter (s.iteration + 1)) s with
    | error r =>
      obtain ⟨s1, e1⟩ := r
      refine ⟨fun s' hs => by simp at hs, fun s' err hs => ?_⟩
      injection hs with hs
      rw [hs] at hbd
      exact hb.2 s' err hbd
    | ok s1 =>
      obtain ⟨g1, g2⟩ := hb.1 s1 hbd
      have := ih g1
      exact ⟨fun s' hs => ⟨(this.1 s' hs).1, by rw [(this.1 s' hs).2, g2]; omega⟩, this.2⟩

/-- draining everything leaves a checked state -/
theorem Head.drainAll {env : Env} {c : Cfg} {start rows0 : Nat} {s : St} (h : Head env c start rows0 s) (m : Nat) :
    (∀ s', drain true (landN m s) = .ok s' → Checked env c start rows0 s' ∧ Same s s') ∧
    (∀ s' err, drain true (landN m s) = .error (s', err) → Fail env c start rows0 s' err) := by
  have hq : Queue (fun k => (env.iter k).finite) (landN m s) := by
    intro x hx
    rw [landN_eventual]
    rcases h.queue with q | ⟨slot, q, q2, q3, q4⟩
    · have hx : x ∈ s.inFlight := hx
      rw [q.1] at hx; exact absurd hx (by simp)
    · have hx : x ∈ s.inFlight := hx
      rw [q, List.mem_singleton] at hx
      subst hx
      exact q3
  have hd : drain true (landN m s) = drainN s.inFlight.length (landN m s) := rfl
  rw [hd]
  constructor
  · intro s' hs
    obtain ⟨k1, k2, k3, k4, k5⟩ := drainN_ok _ _ _ _ hq hs
    have ks := (Same.landN m s).trans k1
    have hin : (landN m s).inFlight = s.inFlight := rfl
    refine ⟨⟨⟨?_, ?_, ?_, ?_, ?_⟩, drainN_cpu c _ _ _ (h.cpu.landN m) hs, ?_, k2.trans h.known, ?_, by rw [k3, hin]; simp⟩, ks⟩
    · rw [ks.iteration]; exact h.le
    · rw [ks.iteration, ks.rows]; exact h.rows
    · rw [ks.events]; exact h.clean
    · rw [ks.iteration, ks.events]; exact h.all
    · rw [ks.iteration, ks.events, ks.lastState]; exact h.last
    · rw [ks.iteration, ks.events]; exact h.steps
    · rw [ks.iteration]
      rw [hin, List.take_length] at k5
      rcases h.queue with q | ⟨slot, q, q2, q3, q4⟩
      · exact q.2
      · exact Good.of_past h.past (fun _ => k5 (slot, s.iteration) (by rw [q]; simp))
  · intro s' err hs
    obtain ⟨k1, k2, a, x, b, k3, k4, k5, k6, k7⟩ := drainN_error _ _ _ _ _ hq hs
    have ks := (Same.landN m s).trans k1
    have hin : (landN m s).inFlight = s.inFlight := rfl
    refine ⟨⟨?_, ?_, ?_, ?_, ?_⟩, ?_, ?_, ?_⟩
    · rw [ks.iteration]; exact h.le
    · rw [ks.iteration, ks.rows]; exact h.rows
    · rw [ks.events]; exact h.clean
    · rw [ks.iteration, ks.events]; exact h.all
    · rw [ks.iteration, ks.events, ks.lastState]; exact h.last
    · intro j hj
      rw [ks.events] at hj
      have := h.steps j hj
      exact ⟨this.1, by rw [ks.iteration]; omega, fun k g1 g2 => h.past k g1 (by omega)⟩
    · intro k hk
      rw [k7] at hk
      injection hk with hk
      subst hk
      have hmem : x ∈ s.inFlight := by rw [← hin, k3]; simp
      rcases h.queue with q | ⟨slot, q, q2, q3, q4⟩
      · rw [q.1] at hmem; exact absurd hmem (by simp)
      · rw [q, List.mem_singleton] at hmem
        subst hmem
        refine ⟨q4, k6, fun j g1 g2 => h.past j g1 ?_⟩
        have g2 : j ≤ s.iteration - 1 := g2
        omega
    · intro _ g
      rw [k2] at g
      exact absurd g (by simp)

/-- a run that starts from any state begins with nothing queued -/
theorem start_checked (env : Env) (c : Cfg) (s : St) (hcpu : Cpu c s) (hev : s.events = []) (hlast : ∀ k, s.lastState = some k → k ≤ s.iteration)
    (b : Bool) : Checked env c s.iteration s.rows (begin s b) := by
  have hs := discard_same { s with known := false }
  have e1 : (begin s b).iteration = s.iteration := hs.iteration
  have e2 : (begin s b).events = [] := hs.events.trans hev
  have e3 : (begin s b).rows = s.rows := hs.rows
  have e4 : (begin s b).lastState = s.lastState := hs.lastState
  refine ⟨⟨?_, ?_, ?_, ?_, ?_⟩, ?_, ?_, ?_, ?_, rfl⟩
  · rw [e1]; exact Nat.le_refl _
  · rw [e1, e3]; simp
  · intro k hk
    rw [e2] at hk; simp at hk
  · intro j h1 h2
    rw [e1] at h2
    omega
  · intro k hk
    rw [e4] at hk
    have := hlast k hk
    exact ⟨by rw [e1]; exact this, fun j h1 h2 => by omega, Or.inr this⟩
  · exact discard_cpu c _ hcpu
  · intro j hj
    rw [e2] at hj; simp at hj
  · exact discard_known _
  · intro j h1 h2
    rw [e1] at h2
    omega

theorem attempt_inv (env : Env) (c : Cfg) (s : St) (hcpu : Cpu c s) (hev : s.events = [])
    (hlast : ∀ k, s.lastState = some k → k ≤ s.iteration) :
    (∀ s', attempt c env s = .ok s' → Head env c s.iteration s.rows s' ∧ s'.lastState = some s'.iteration ∧
      s'.iteration = s.iteration + (c.iterations - s.iteration)) ∧
    (∀ s' err, attempt c env s = .error (s', err) → Fail env c s.iteration s.rows s' err) := by
  unfold attempt
  by_cases h1 : env.restoreOk = true
  swap
  · rw [if_pos (by simpa using h1)]
    refine ⟨fun s' hs => by simp at hs, fun s' err hs => ?_⟩
    injection hs with hs
    injection hs with g1 g2
    subst g1; subst g2
    exact (start_checked env c s hcpu hev hlast false).fail _ (by simp)
  rw [if_neg (by simp [h1])]
  obtain ⟨s0, hs0⟩ : ∃ s0, s0 = begin s true := ⟨_, rfl⟩
  have hk0 : Checked env c s.iteration s.rows s0 := by rw [hs0]; exact start_checked env c s hcpu hev hlast true
  have hit0 : s0.iteration = s.iteration := by rw [hs0]; exact (discard_same { s with known := false }).iteration
  rw [← hs0]
  have hl := loop_inv (c.iterations - s.iteration) hk0.head
  cases hlp : loop c env (c.iterations - s.iteration) s0 with
  | error r =>
    obtain ⟨s1, e1⟩ := r
    refine ⟨fun s' hs => by simp at hs, fun s' err hs => ?_⟩
    injection hs with hs
    rw [hs] at hlp
    exact hl.2 s' err hlp
  | ok s1 =>
    obtain ⟨g1, g2⟩ := hl.1 s1 hlp
    rw [hit0] at g2
    dsimp only
    unfold finish
    dsimp only
    by_cases h2 : s1.lastState ≠ some s1.iteration
    · rw [if_pos h2]
      have hda := g1.drainAll env.finalLanded
      cases hd : drain true (landN env.finalLanded s1) with
      | error r =>
        obtain ⟨s2, e2⟩ := r
        refine ⟨fun s' hs => by simp at hs, fun s' err hs => ?_⟩
        injection hs with hs
        rw [hs] at hd
        exact hda.2 s' err hd
      | ok s2 =>
        obtain ⟨k1, k2⟩ := hda.1 s2 hd
        have hsv := k1.save env.finalSave true
        cases hsave : save c env.finalSave true s2 with
        | error r =>
          obtain ⟨s3, e3⟩ := r
          refine ⟨fun s' hs => by simp [hsave] at hs, fun s' err hs => ?_⟩
          simp only [hsave] at hs
          injection hs with hs
          rw [hs] at hsave
          obtain ⟨m1, m2, m3⟩ := hsv.2 s' err hsave
          exact m1.fail _ (by rw [m3]; simp)
        | ok s3 =>
          obtain ⟨m1, m2⟩ := hsv.1 s3 hsave
          have hls : s3.lastState = some s3.iteration := by
            cases ho : env.finalSave with
            | ok =>
              rw [ho] at hsave
              injection hsave with hsave
              subst hsave
              simp [savesState]
            | failMarked => rw [ho] at hsave; simp [save] at hsave
            | failUnmarked => rw [ho] at hsave; simp [save] at hsave
          simp only [hsave]
          by_cases h3 : env.flushOk = true
          · rw [if_pos h3]
            refine ⟨fun s' hs => ?_, fun s' err hs => by simp at hs⟩
            injection hs with hs
            subst hs
            exact ⟨m1.head, hls, by rw [m2, k2.iteration, g2]⟩
          · rw [if_neg h3]
            refine ⟨fun s' hs => by simp at hs, fun s' err hs => ?_⟩
            injection hs with hs
            injection hs with n1 n2
            subst n1; subst n2
            have m1' : Checked env c s.iteration s.rows { s3 with attemptFailed := true } :=
              ⟨⟨m1.le, m1.rows, m1.clean, m1.all, m1.last⟩, m1.cpu, m1.steps, m1.known, m1.good, m1.queue⟩
            exact m1'.fail _ (by simp)
    · rw [if_neg h2]
      dsimp only
      have h2' : s1.lastState = some s1.iteration := by simpa using h2
      by_cases h3 : env.flushOk = true
      · rw [if_pos h3]
        refine ⟨fun s' hs => ?_, fun s' err hs => by simp at hs⟩
        injection hs with hs
        subst hs
        exact ⟨g1, h2', g2⟩
      · rw [if_neg h3]
        refine ⟨fun s' hs => by simp at hs, fun s' err hs => ?_⟩
        injection hs with hs
        injection hs with n1 n2
        subst n1; subst n2
        refine ⟨⟨g1.le, g1.rows, g1.clean, g1.all, g1.last⟩, fun j hj => ?_, by simp, fun _ _ _ => (g1.last _ h2').2.1⟩
        have := g1.steps j hj
        exact ⟨this.1, Nat.le_succ_of_le this.2, fun k q1 q2 => g1.past k q1 (by omega)⟩

end Verif.Train
