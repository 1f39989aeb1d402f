import Verif.Telemetry.Tuner
import Mathlib.Tactic.SplitIfs
import Mathlib.Tactic.ByContra
import Mathlib.Logic.Basic

/-! C58: the pipeline controller. -/
namespace Verif.Telemetry

/-! ### Specification -/

/-- The configured limits. -/
def InBounds (c : Config) (s : Settings) : Prop :=
  (1 ≤ s.threads ∧ s.threads ≤ c.maxThreads) ∧ (1 ≤ s.batches ∧ s.batches ≤ c.maxBatches)
    ∧ 1 ≤ s.entries ∧ (1 ≤ s.bytes ∧ s.bytes ≤ c.budget)

/-- One call on the controller: an update, or loading a state dictionary (a rejected one raises and
changes nothing). -/
inductive Op where
  | update (o : Obs) (iteration : Int)
  | load (s : Tuner)

def step (c : Config) (l : Locked) (grow : Int → Int) (t : Tuner) : Op → Tuner
  | .update o i => (update c l grow t o i).1
  | .load s => (loadStateDict c t s).getD t

def run (c : Config) (l : Locked) (grow : Int → Int) (t : Tuner) (ops : List Op) : Tuner :=
  ops.foldl (step c l grow) t

/-- Controllers of one runtime: the processes of one job and the resumptions of it.  Each starts from the
same wiring, with whatever profile the store held, and each may load the state of another. -/
inductive Job (c : Config) (l : Locked) (grow : Int → Int) (initial : Settings) (e k : String) :
    Tuner → Prop
  | create (found) : Job c l grow initial e k (create c l initial e k found)
  | update (t o i) : Job c l grow initial e k t → Job c l grow initial e k (update c l grow t o i).1
  | load (t s t') : Job c l grow initial e k t → Job c l grow initial e k s →
      loadStateDict c t (stateDict s) = some t' → Job c l grow initial e k t'

/-- The recorded adjustments. -/
def adjustments (ds : List Decision) : List (Int × Settings × Settings) :=
  ds.filterMap fun
    | .adjust i b a => some (i, b, a)
    | _ => none

/-- A record of changes leading from one value to another: every entry starts where the previous one
ended, changes something, and comes at least `gap` iterations after it. -/
inductive Record (gap : Int) : Settings → List (Int × Settings × Settings) → Settings → Prop
  | nil (s) : Record gap s [] s
  | one (s i a) : s ≠ a → Record gap s [(i, s, a)] a
  | snoc (s l j b i u a) : Record gap s (l ++ [(j, b, u)]) u → u ≠ a → j + gap ≤ i →
      Record gap s (l ++ [(j, b, u)] ++ [(i, u, a)]) a

/-! ### Proofs -/

theorem clamp_bounds {c : Config} (hc : c.Parsed) (s : Settings) : InBounds c (clamp c s) := by
  obtain ⟨_, _, _, _, h5, h6, h7⟩ := hc
  unfold InBounds clamp
  simp only
  omega

theorem clamp_id {c : Config} {s : Settings} (h : InBounds c s) : clamp c s = s := by
  unfold InBounds at h
  unfold clamp
  cases s
  simp only at h ⊢
  congr 1 <;> omega

/-- The three ways an `update` call can go. -/
theorem update_cases (c : Config) (l : Locked) (grow : Int → Int) (t : Tuner) (o : Obs) (i : Int) :
    (∃ n, update c l grow t o i = ({ t with started := some n }, false)
        ∧ (t.frozen = true ∨ i - t.started.getD i < (if t.reused.isSome then c.verify else c.warmup)
            ∨ max 0 (i - t.started.getD i) < (if t.reused.isSome then c.verify else c.warmup)
            ∨ ∃ j, t.last = some j ∧ i - j < c.interval))
    ∨ (t.frozen = false
        ∧ (if t.reused.isSome then c.verify else c.warmup) ≤ max 0 (i - t.started.getD i)
        ∧ (∀ j, t.last = some j → c.interval ≤ i - j)
        ∧ ((∃ t0, update c l grow t o i = (freeze t0 o i, true)
              ∧ t0.settings = t.settings ∧ t0.last = some i ∧ t0.frozen = false
              ∧ t0.exactKey = t.exactKey ∧ t0.compatibleKey = t.compatibleKey
              ∧ adjustments t0.decisions = adjustments t.decisions)
          ∨ (∃ t0, update c l grow t o i
                = (adjust c l grow t0 o i (max 0 (i - t.started.getD i)), true)
              ∧ t0.settings = t.settings ∧ t0.last = some i ∧ t0.frozen = false
              ∧ t0.exactKey = t.exactKey ∧ t0.compatibleKey = t.compatibleKey
              ∧ adjustments t0.decisions = adjustments t.decisions))) := by
  unfold update
  simp only
  by_cases h1 : t.frozen = true ∨ max 0 (i - t.started.getD i) < (if t.reused.isSome then c.verify else c.warmup)
  · left
    rw [if_pos h1]
    exact ⟨_, rfl, by rcases h1 with h | h; exact .inl h; exact .inr (.inr (.inl h))⟩
  · rw [if_neg h1]
    rw [not_or] at h1
    by_cases h2 : (t.last.any fun last => decide (i - last < c.interval)) = true
    · left
      rw [if_pos h2]
      refine ⟨_, rfl, .inr (.inr (.inr ?_))⟩
      cases hl : t.last with
      | none => rw [hl] at h2; simp at h2
      | some j => rw [hl] at h2; exact ⟨j, rfl, by simpa using h2⟩
    · right
      rw [if_neg h2]
      refine ⟨by simpa using h1.1, by omega, ?_, ?_⟩
      · intro j hj
        rw [hj] at h2
        simp at h2
        omega
      · by_cases h3 : t.reused.isSome = true ∧ max 0 (i - t.started.getD i) ≥ c.verify
        · rw [if_pos h3]
          by_cases h4 : o.healthy = true
          · left
            rw [if_pos h4]
            exact ⟨_, rfl, rfl, rfl, by simpa using h1.1, rfl, rfl, rfl⟩
          · right
            rw [if_neg h4]
            exact ⟨_, rfl, rfl, rfl, by simpa using h1.1, rfl, rfl, by simp [adjustments]⟩
        · right
          rw [if_neg h3]
          exact ⟨_, rfl, rfl, rfl, by simpa using h1.1, rfl, rfl, rfl⟩

theorem freeze_adjustments (t : Tuner) (o : Obs) (i : Int) :
    adjustments (freeze t o i).decisions = adjustments t.decisions := by
  unfold freeze adjustments
  cases o.saveFails <;> simp

theorem adjust_cases (c : Config) (l : Locked) (grow : Int → Int) (t : Tuner) (o : Obs) (i elapsed : Int)
    (hb : InBounds c t.settings) :
    (adjust c l grow t o i elapsed = freeze t o i ∧ (elapsed ≥ c.freezeAfter ∨ o.healthy = true))
    ∨ (adjust c l grow t o i elapsed = t ∧ elapsed < c.freezeAfter)
    ∨ (elapsed < c.freezeAfter ∧ ∃ a, a = clamp c (if o.healthy then lower l o t.settings else raise c l grow o t.settings)
        ∧ a ≠ t.settings ∧ adjust c l grow t o i elapsed
          = { t with settings := a, decisions := t.decisions ++ [.adjust i t.settings a] }) := by
  unfold adjust
  by_cases h1 : elapsed ≥ c.freezeAfter
  · left; rw [if_pos h1]; exact ⟨rfl, .inl h1⟩
  · rw [if_neg h1]
    simp only
    generalize clamp c (if o.healthy = true then lower l o t.settings else raise c l grow o t.settings) = a
    by_cases h2 : a ≠ t.settings
    · right; right; rw [if_pos h2]; exact ⟨by omega, a, rfl, h2, rfl⟩
    · rw [if_neg h2]
      rw [not_not] at h2
      subst h2
      by_cases h3 : o.healthy = true
      · left; rw [if_pos h3]; exact ⟨rfl, .inr h3⟩
      · right; left; rw [if_neg h3]; exact ⟨rfl, by omega⟩

theorem update_bounds {c : Config} (hc : c.Parsed) (l : Locked) (grow : Int → Int) (t : Tuner) (o : Obs)
    (i : Int) (hb : InBounds c t.settings) : InBounds c (update c l grow t o i).1.settings := by
  rcases update_cases c l grow t o i with ⟨n, h, _⟩ | ⟨_, _, _, ⟨t0, h, hs, _, _, _, _, _⟩ | ⟨t0, h, hs, _, _, _, _, _⟩⟩
  · rw [h]; exact hb
  · rw [h]; unfold freeze; rw [← hs] at hb; exact hb
  · rw [h]
    rw [← hs] at hb
    rcases adjust_cases c l grow t0 o i (max 0 (i - t.started.getD i)) hb with ⟨ha, _⟩ | ⟨ha, _⟩ | ⟨_, a, ha, _, h'⟩
    · simp only [ha]; exact hb
    · simp only [ha]; exact hb
    · simp only [h', ha]; exact clamp_bounds hc _

theorem step_bounds {c : Config} (hc : c.Parsed) (l : Locked) (grow : Int → Int) (t : Tuner) (op : Op)
    (hb : InBounds c t.settings) : InBounds c (step c l grow t op).settings := by
  cases op with
  | update o i => exact update_bounds hc l grow t o i hb
  | load s =>
      show InBounds c ((loadStateDict c t s).getD t).settings
      unfold loadStateDict
      by_cases h : s.exactKey ≠ t.exactKey ∨ s.compatibleKey ≠ t.compatibleKey
      · rw [if_pos h]; exact hb
      · rw [if_neg h]; exact clamp_bounds hc _

theorem run_bounds {c : Config} (hc : c.Parsed) (l : Locked) (grow : Int → Int) (ops : List Op) :
    ∀ t : Tuner, InBounds c t.settings → InBounds c (run c l grow t ops).settings := by
  induction ops with
  | nil => intro t h; exact h
  | cons op ops ih =>
      intro t h
      exact ih _ (step_bounds hc l grow t op h)

/-- **C58** (limits).  Whatever the requested values, the stored profile, the observations and the states
loaded — including hand-edited ones — every setting is within its configured limits at all times. -/
theorem C58_bounds {c : Config} (hc : c.Parsed) (l : Locked) (grow : Int → Int) (initial : Settings)
    (e k : String) (found : Option (Profile × Reuse)) (ops : List Op) :
    InBounds c (run c l grow (create c l initial e k found) ops).settings :=
  run_bounds hc l grow ops _ (clamp_bounds hc _)

/-- An update leaves a locked option alone. -/
theorem update_locked {c : Config} (hc : c.Parsed) (l : Locked) (grow : Int → Int) (t : Tuner) (o : Obs)
    (i : Int) (hb : InBounds c t.settings) :
    (l.threads = true → (update c l grow t o i).1.settings.threads = t.settings.threads)
    ∧ (l.batches = true → (update c l grow t o i).1.settings.batches = t.settings.batches)
    ∧ (l.bytes = true → (update c l grow t o i).1.settings.bytes = t.settings.bytes
        ∧ (update c l grow t o i).1.settings.entries = t.settings.entries) := by
  have key : ∀ s : Settings, InBounds c s → ∀ a, a = clamp c (if o.healthy then lower l o s else raise c l grow o s) →
      (l.threads = true → a.threads = s.threads) ∧ (l.batches = true → a.batches = s.batches)
      ∧ (l.bytes = true → a.bytes = s.bytes ∧ a.entries = s.entries) := by
    intro s hs a ha
    subst ha
    obtain ⟨⟨b1, b2⟩, ⟨b3, b4⟩, b5, b6, b7⟩ := hs
    cases o.healthy
    · simp only [Bool.false_eq_true, if_false]
      unfold raise
      refine ⟨fun hl => ?_, fun hl => ?_, fun hl => ?_⟩ <;> simp only [hl] <;> split_ifs <;>
        simp_all [clamp] <;> omega
    · simp only [if_true]
      unfold lower
      refine ⟨fun hl => ?_, fun hl => ?_, fun hl => ?_⟩ <;> simp only [hl] <;> split_ifs <;>
        simp_all [clamp] <;> omega
  rcases update_cases c l grow t o i with ⟨n, h, _⟩ | ⟨_, _, _, ⟨t0, h, hs, _, _, _, _, _⟩ | ⟨t0, h, hs, _, _, _, _, _⟩⟩
  · rw [h]; exact ⟨fun _ => rfl, fun _ => rfl, fun _ => ⟨rfl, rfl⟩⟩
  · rw [h]; unfold freeze; simp only [hs]; simp
  · rw [h]
    rw [← hs] at hb ⊢
    rcases adjust_cases c l grow t0 o i (max 0 (i - t.started.getD i)) hb with ⟨ha, _⟩ | ⟨ha, _⟩ | ⟨_, a, ha, _, h'⟩
    · simp only [ha]; exact ⟨fun _ => rfl, fun _ => rfl, fun _ => ⟨rfl, rfl⟩⟩
    · simp only [ha]; simp
    · simp only [h']; exact key _ hb a ha

/-- **C58** (locked options).  No sequence of updates changes a locked option; locking the cache size
keeps the cache entries too. -/
theorem C58_locked {c : Config} (hc : c.Parsed) (l : Locked) (grow : Int → Int)
    (os : List (Obs × Int)) : ∀ t : Tuner, InBounds c t.settings →
    let t' := run c l grow t (os.map fun p => .update p.1 p.2)
    (l.threads = true → t'.settings.threads = t.settings.threads)
    ∧ (l.batches = true → t'.settings.batches = t.settings.batches)
    ∧ (l.bytes = true → t'.settings.bytes = t.settings.bytes
        ∧ t'.settings.entries = t.settings.entries) := by
  induction os with
  | nil => intro t _; exact ⟨fun _ => rfl, fun _ => rfl, fun _ => ⟨rfl, rfl⟩⟩
  | cons p os ih =>
      intro t hb
      obtain ⟨h1, h2, h3⟩ := ih _ (update_bounds hc l grow t p.1 p.2 hb)
      obtain ⟨g1, g2, g3⟩ := update_locked hc l grow t p.1 p.2 hb
      exact ⟨fun hl => (h1 hl).trans (g1 hl), fun hl => (h2 hl).trans (g2 hl),
        fun hl => ⟨(h3 hl).1.trans (g3 hl).1, (h3 hl).2.trans (g3 hl).2⟩⟩

/-- **C58** (finding).  Locking the cache entries alone does not keep them: raising the cache size raises
them too.  (The shipped wiring never locks them.) -/
theorem C58_entries_lock_ignored :
    ∃ (c : Config) (l : Locked) (t : Tuner) (o : Obs), c.Parsed ∧ InBounds c t.settings
      ∧ l.entries = true ∧ l.bytes = false
      ∧ (update c l id t o 0).1.settings.entries ≠ t.settings.entries := by
  refine ⟨⟨0, 0, 1, 1, 1, 1, 2⟩, ⟨false, false, true, false⟩,
    create ⟨0, 0, 1, 1, 1, 1, 2⟩ ⟨false, false, true, false⟩ ⟨1, 1, 1, 1⟩ "e" "k" none,
    ⟨false, true, fun _ => false, false, false⟩, ?_, ?_, rfl, rfl, ?_⟩
  · unfold Config.Parsed; decide
  · unfold InBounds; decide
  · decide

theorem job_bounds {c : Config} (hc : c.Parsed) {l : Locked} {grow : Int → Int} {initial : Settings}
    {e k : String} {t : Tuner} (h : Job c l grow initial e k t) : InBounds c t.settings := by
  induction h with
  | create found => exact clamp_bounds hc _
  | update t o i _ ih => exact update_bounds hc l grow t o i ih
  | load t s t' _ _ h _ _ =>
      unfold loadStateDict at h
      split_ifs at h
      cases h
      exact clamp_bounds hc _

/-- **C58** (explicit values).  An explicitly configured number of prefetch threads (or batches) that the
dataset accepts is the one in force in every process of the job, after every update, after every
synchronisation with another process, and after every resumption — whatever profile was stored. -/
theorem C58_explicit {c : Config} (hc : c.Parsed) (grow : Int → Int) (initial : Settings) (e k : String)
    (explicitThreads explicitBatches : Bool) (l : Locked) (hpos : 1 ≤ initial.batches)
    (hw : wire c true explicitThreads explicitBatches initial.threads initial.batches = some l)
    (t : Tuner) (h : Job c l grow initial e k t) :
    (explicitThreads = true → t.settings.threads = initial.threads)
    ∧ (explicitBatches = true → t.settings.batches = initial.batches) := by
  unfold wire at hw
  split_ifs at hw with w1 w2 w3
  cases hw
  have ht : explicitThreads = true → initial.threads ≤ c.maxThreads := by
    intro hx; by_contra hn; exact w2 ⟨rfl, hx, by omega⟩
  have hB : explicitBatches = true → initial.batches ≤ c.maxBatches := by
    intro hx; by_contra hn; exact w3 ⟨rfl, hx, by omega⟩
  induction h with
  | create found =>
      constructor
      · intro hx
        have := ht hx
        cases found with
        | none => simp [create, clamp]; omega
        | some f => simp [create, clamp, applyProfile, hx]; omega
      · intro hx
        have := hB hx
        cases found with
        | none => simp [create, clamp]; omega
        | some f => simp [create, clamp, applyProfile, hx]; omega
  | update t o i hj ih =>
      obtain ⟨g1, g2, _⟩ := update_locked hc _ grow t o i (job_bounds hc hj)
      exact ⟨fun hx => (g1 (by simpa using hx)).trans (ih.1 hx),
        fun hx => (g2 (by simpa using hx)).trans (ih.2 hx)⟩
  | load t s t' _ hs h _ ih =>
      unfold loadStateDict stateDict at h
      split_ifs at h
      cases h
      simp only [clamp_id (job_bounds hc hs)]
      exact ih

/-- **C58** (frozen).  Once frozen, no observation changes the settings, the log or the frozen flag, and
every update reports nothing. -/
theorem C58_frozen (c : Config) (l : Locked) (grow : Int → Int) (os : List (Obs × Int)) :
    ∀ t : Tuner, t.frozen = true →
    let t' := run c l grow t (os.map fun p => .update p.1 p.2)
    t'.settings = t.settings ∧ t'.decisions = t.decisions ∧ t'.frozen = true
      ∧ ∀ o i, (update c l grow t' o i).2 = false := by
  have one : ∀ (t : Tuner) (o : Obs) (i : Int), t.frozen = true →
      ∃ n, update c l grow t o i = ({ t with started := some n }, false) := by
    intro t o i h
    unfold update
    simp only
    rw [if_pos (Or.inl h)]
    exact ⟨_, rfl⟩
  induction os with
  | nil =>
      intro t h
      refine ⟨rfl, rfl, h, fun o i => ?_⟩
      obtain ⟨n, hn⟩ := one t o i h
      show (update c l grow t o i).2 = false
      rw [hn]
  | cons p os ih =>
      intro t h
      obtain ⟨n, hn⟩ := one t p.1 p.2 h
      have hf : (update c l grow t p.1 p.2).1.frozen = true := by rw [hn]; exact h
      obtain ⟨h1, h2, h3, h4⟩ := ih _ hf
      have e1 : (update c l grow t p.1 p.2).1.settings = t.settings := by rw [hn]
      have e2 : (update c l grow t p.1 p.2).1.decisions = t.decisions := by rw [hn]
      exact ⟨h1.trans e1, h2.trans e2, h3, h4⟩

/-- **C58** (tuning ends).  An update made once the tuning window and the observation period have passed,
at least one decision interval after the previous decision, freezes the controller — whatever it
observes. -/
theorem C58_deadline (c : Config) (l : Locked) (grow : Int → Int) (t : Tuner) (o : Obs) (i start : Int)
    (hs : t.started = some start) (h1 : start + c.freezeAfter ≤ i) (h2 : start + c.warmup ≤ i)
    (h3 : start + c.verify ≤ i) (h4 : ∀ j, t.last = some j → j + c.interval ≤ i) :
    (update c l grow t o i).1.frozen = true := by
  rcases update_cases c l grow t o i with ⟨n, h, hr⟩ | ⟨_, _, _, ⟨t0, h, _, _, _, _, _, _⟩ | ⟨t0, h, _, _, _, _, _, _⟩⟩
  · rw [h]
    rw [hs] at hr
    simp only [Option.getD_some] at hr
    rcases hr with hr | hr | hr | ⟨j, hj, hr⟩
    · exact hr
    · exfalso; split_ifs at hr <;> omega
    · exfalso; split_ifs at hr <;> omega
    · exfalso; have := h4 j hj; omega
  · rw [h]; rfl
  · rw [h]
    unfold adjust
    rw [hs]
    simp only [Option.getD_some]
    rw [if_pos (by omega)]
    rfl

/-- **C58** (patience).  An update that changes a setting comes no earlier than the observation period
after the first update (the verification period when a stored profile is in use) and at least one
decision interval after the previous decision. -/
theorem C58_patience (c : Config) (l : Locked) (grow : Int → Int) (t : Tuner) (o : Obs) (i : Int)
    (h : (update c l grow t o i).1.settings ≠ t.settings) :
    (update c l grow t o i).2 = true ∧ t.frozen = false
    ∧ (if t.reused.isSome then c.verify else c.warmup) ≤ max 0 (i - t.started.getD i)
    ∧ max 0 (i - t.started.getD i) < c.freezeAfter
    ∧ ∀ j, t.last = some j → c.interval ≤ i - j := by
  rcases update_cases c l grow t o i with ⟨n, hu, hr⟩ | ⟨hf, hm, hl, ⟨t0, hu, hs, _, _, _, _, _⟩ | ⟨t0, hu, hs, _, _, _, _, _⟩⟩
  · rw [hu] at h; exact absurd rfl h
  · rw [hu] at h; exact absurd hs h
  · refine ⟨by rw [hu], hf, hm, ?_, hl⟩
    by_contra hn
    rw [hu] at h
    unfold adjust at h
    rw [if_pos (by omega)] at h
    exact h hs

/-- **C58** (direction).  A healthy observation never raises a setting and an unhealthy one never lowers
one. -/
theorem C58_direction {c : Config} (hc : c.Parsed) (l : Locked) (grow : Int → Int) (t : Tuner) (o : Obs)
    (i : Int) (hb : InBounds c t.settings) :
    let s := t.settings
    let s' := (update c l grow t o i).1.settings
    (o.healthy = true → s'.threads ≤ s.threads ∧ s'.batches ≤ s.batches ∧ s'.entries ≤ s.entries
        ∧ s'.bytes ≤ s.bytes)
    ∧ (o.healthy = false → s.threads ≤ s'.threads ∧ s.batches ≤ s'.batches ∧ s.entries ≤ s'.entries
        ∧ s.bytes ≤ s'.bytes) := by
  rcases update_cases c l grow t o i with ⟨n, h, _⟩ | ⟨_, _, _, ⟨t0, h, hs, _, _, _, _, _⟩ | ⟨t0, h, hs, _, _, _, _, _⟩⟩
  · rw [h]; simp
  · rw [h]; unfold freeze; simp only [hs]; simp
  · rw [h]
    rw [← hs] at hb ⊢
    rcases adjust_cases c l grow t0 o i (max 0 (i - t.started.getD i)) hb with ⟨ha, _⟩ | ⟨ha, _⟩ | ⟨_, a, ha, _, h'⟩
    · simp only [ha]; unfold freeze; simp
    · simp only [ha]; simp
    · simp only [h', ha]
      generalize t0.settings = s at hb
      obtain ⟨⟨b1, b2⟩, ⟨b3, b4⟩, b5, b6, b7⟩ := hb
      cases o.healthy
      · refine ⟨fun hx => absurd hx (by simp), fun _ => ?_⟩
        simp only [Bool.false_eq_true, if_false]
        unfold raise
        split_ifs <;> simp only [clamp] <;> omega
      · refine ⟨fun _ => ?_, fun hx => absurd hx (by simp)⟩
        simp only [if_true]
        unfold lower
        simp only
        split_ifs <;> simp only [clamp] <;> omega

/-- **C58** (synchronisation and resumption).  Loading the state dictionary of a controller of the same
job makes the two controllers equal, so from then on the same observations give the same settings,
decisions and results. -/
theorem C58_sync {c : Config} (hc : c.Parsed) {l : Locked} {grow : Int → Int} {initial : Settings}
    {e k : String} (t s : Tuner) (hs : Job c l grow initial e k s)
    (he : t.exactKey = s.exactKey) (hk : t.compatibleKey = s.compatibleKey) :
    loadStateDict c t (stateDict s) = some s := by
  unfold loadStateDict stateDict
  rw [if_neg (by simp [he, hk]), clamp_id (job_bounds hc hs)]

/-- **C58** (foreign states).  A state from a different runtime is rejected. -/
theorem C58_foreign (c : Config) (t s : Tuner)
    (h : s.exactKey ≠ t.exactKey ∨ s.compatibleKey ≠ t.compatibleKey) :
    loadStateDict c t (stateDict s) = none := by
  unfold loadStateDict stateDict
  rw [if_pos h]

theorem record_last {gap : Int} {s0 s : Settings} {L : List (Int × Settings × Settings)}
    (h : Record gap s0 L s) : L = [] ∧ s = s0 ∨ ∃ l j b, L = l ++ [(j, b, s)] := by
  cases h with
  | nil => exact .inl ⟨rfl, rfl⟩
  | one i a _ => exact .inr ⟨[], i, s0, rfl⟩
  | snoc l j b i u a _ _ _ => exact .inr ⟨_, i, u, rfl⟩

theorem log_inv {c : Config} (hc : c.Parsed) (l : Locked) (grow : Int → Int) (s0 : Settings)
    (os : List (Obs × Int)) : ∀ t : Tuner, InBounds c t.settings →
    Record c.interval s0 (adjustments t.decisions) t.settings →
    (∀ p ∈ adjustments t.decisions, ∃ j, t.last = some j ∧ p.1 ≤ j) →
    Record c.interval s0
      (adjustments (run c l grow t (os.map fun p => .update p.1 p.2)).decisions)
      (run c l grow t (os.map fun p => .update p.1 p.2)).settings := by
  induction os with
  | nil => intro t _ h _; exact h
  | cons p os ih =>
      intro t hb hr hl
      refine ih (update c l grow t p.1 p.2).1 (update_bounds hc l grow t p.1 p.2 hb) ?_ ?_
      · rcases update_cases c l grow t p.1 p.2 with ⟨n, h, _⟩ | ⟨_, _, hlast, ⟨t0, h, hs, _, _, _, _, hd⟩ | ⟨t0, h, hs, _, _, _, _, hd⟩⟩
        · rw [h]; exact hr
        · rw [h]; simp only [freeze_adjustments, hd]; unfold freeze; rw [hs]; exact hr
        · rw [h]
          rw [← hs] at hb hr
          rw [← hd] at hr
          rcases adjust_cases c l grow t0 p.1 p.2 (max 0 (p.2 - t.started.getD p.2)) hb with ⟨ha, _⟩ | ⟨ha, _⟩ | ⟨_, a, ha, hne, h'⟩
          · simp only [ha, freeze_adjustments]; exact hr
          · simp only [ha]; exact hr
          · simp only [h']
            have happ : adjustments (t0.decisions ++ [Decision.adjust p.2 t0.settings a])
                = adjustments t0.decisions ++ [(p.2, t0.settings, a)] := by
              simp [adjustments]
            rw [happ]
            rcases record_last hr with ⟨h1, h2⟩ | ⟨L, j, b, hL⟩
            · rw [h1, h2]; exact .one _ _ _ (by rw [← h2]; exact hne.symm)
            · rw [hL] at hr ⊢
              refine .snoc _ _ _ _ _ _ _ hr hne.symm ?_
              have hm : (j, b, t0.settings) ∈ adjustments t.decisions := by rw [← hd, hL]; simp
              obtain ⟨j', hj', hle⟩ := hl _ hm
              have := hlast j' hj'
              simp only at hle
              omega
      · intro q hq
        rcases update_cases c l grow t p.1 p.2 with ⟨n, h, _⟩ | ⟨_, _, hlast, ⟨t0, h, hs, ht0, _, _, _, hd⟩ | ⟨t0, h, hs, ht0, _, _, _, hd⟩⟩
        · rw [h] at hq ⊢; exact hl q hq
        · rw [h] at hq ⊢
          simp only [freeze_adjustments, hd] at hq
          obtain ⟨j, hj, hle⟩ := hl q hq
          have := hlast j hj
          exact ⟨p.2, rfl, by have := hc.2.2.1; omega⟩
        · rw [h] at hq ⊢
          rw [← hs] at hb
          rcases adjust_cases c l grow t0 p.1 p.2 (max 0 (p.2 - t.started.getD p.2)) hb with ⟨ha, _⟩ | ⟨ha, _⟩ | ⟨_, a, ha, hne, h'⟩
          · simp only [ha, freeze_adjustments, hd] at hq ⊢
            obtain ⟨j, hj, hle⟩ := hl q hq
            have := hlast j hj
            exact ⟨p.2, rfl, by have := hc.2.2.1; omega⟩
          · simp only [ha, hd] at hq ⊢
            obtain ⟨j, hj, hle⟩ := hl q hq
            have := hlast j hj
            exact ⟨p.2, ht0, by have := hc.2.2.1; omega⟩
          · simp only [h'] at hq ⊢
            refine ⟨p.2, ht0, ?_⟩
            have happ : adjustments (t0.decisions ++ [Decision.adjust p.2 t0.settings a])
                = adjustments t0.decisions ++ [(p.2, t0.settings, a)] := by
              simp [adjustments]
            rw [happ, List.mem_append] at hq
            rcases hq with hq | hq
            · rw [hd] at hq
              obtain ⟨j, hj, hle⟩ := hl q hq
              have := hlast j hj
              have := hc.2.2.1
              omega
            · simp only [List.mem_singleton] at hq
              rw [hq]
              exact Int.le_refl _

/-- **C58** (the log is the history).  The decisions recorded by a controller are a complete account of
its settings: the recorded adjustments lead, without gaps, from the settings at construction to the
current ones, every entry is a real change, and consecutive entries are at least one decision interval
apart. -/
theorem C58_log {c : Config} (hc : c.Parsed) (l : Locked) (grow : Int → Int) (initial : Settings)
    (e k : String) (found : Option (Profile × Reuse)) (os : List (Obs × Int)) :
    let t0 := create c l initial e k found
    let t := run c l grow t0 (os.map fun p => .update p.1 p.2)
    Record c.interval t0.settings (adjustments t.decisions) t.settings := by
  refine log_inv hc l grow _ os _ (clamp_bounds hc _) (.nil _) ?_
  intro p hp
  simp [create, adjustments] at hp

/-! ### Non-vacuity -/

/-- Default configuration with small periods. -/
def exConfig : Config := ⟨2, 1, 2, 100, 4, 64, 2 * 1024 ^ 3⟩

example : exConfig.Parsed := by unfold Config.Parsed exConfig; decide

/-- An unhealthy start, then a healthy end: threads go up, then the controller freezes. -/
example :
    let bad : Obs := ⟨false, true, fun _ => false, false, false⟩
    let good : Obs := ⟨true, false, fun _ => false, false, true⟩
    let t := run exConfig ⟨false, true, false, false⟩ id
      (create exConfig ⟨false, true, false, false⟩ ⟨1, 32, 4, 1024⟩ "e" "k" none)
      [.update bad 10, .update bad 12, .update bad 13, .update bad 14, .update good 20, .update bad 30]
    t.settings = ⟨3, 32, 4, 1024⟩ ∧ t.frozen = true
      ∧ t.decisions = [.adjust 12 ⟨1, 32, 4, 1024⟩ ⟨2, 32, 4, 1024⟩,
          .adjust 14 ⟨2, 32, 4, 1024⟩ ⟨3, 32, 4, 1024⟩, .freeze 20, .writeFailed 20] := by
  decide

/-- A stored profile outside the limits is clamped; the locked option keeps the requested value. -/
example : (create exConfig ⟨false, true, false, false⟩ ⟨1, 32, 4, 1024⟩ "e" "k"
    (some (⟨some 9, some 50, none, some 0⟩, .exact))).settings = ⟨4, 32, 4, 1⟩ := by decide

end Verif.Telemetry
