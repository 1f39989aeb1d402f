import Verif.Schedule.Props109
import Mathlib.Analysis.SpecialFunctions.Trigonometric.Basic
import Mathlib.Tactic.Linarith
import Mathlib.Tactic.Ring
import Mathlib.Tactic.FieldSimp
import Mathlib.Tactic.NormNum
import Mathlib.Tactic.Positivity

/-!
# C109, continued: the rates, for real numbers
-/
namespace Verif.Schedule
open Real

/-! ### Specification -/

/-- Real arithmetic. -/
noncomputable def realNum : Num ℝ :=
  ⟨fun a b => a * b, fun a b => a + b, fun a b => a - b, fun a b => a / b, 1, 2, fun a b => cos (π * a / b), 9 / 10, 1 / 100000⟩

/-- The configured decay period, decay factor and final rate. -/
def period (cfg : Config ℝ) : ℕ := match cfg.args.stepSize with | some n => n | none => 50000
noncomputable def factor (cfg : Config ℝ) : ℝ := match cfg.args.stepGamma with | some g => g | none => 0.9
noncomputable def floor (cfg : Config ℝ) : ℝ := match cfg.args.etaMin with | some e => e | none => 1e-5

/-- The rate of a group configured with `lr0` for its update number `t` (counted from 0). -/
noncomputable def rate (cfg : Config ℝ) (lr0 : ℝ) (t : ℕ) : ℝ :=
  if cfg.type = "constant" then lr0
  else if cfg.type = "step" then lr0 * factor cfg ^ (t / period cfg)
  else floor cfg + (lr0 - floor cfg) * (1 + cos (π * t / cfg.iterations)) / 2

/-! ### Auxiliary -/

/-- The closed form of a schedule. -/
noncomputable def closed (k : Kind ℝ) (lr0 : ℝ) (t : ℕ) : ℝ :=
  match k with
  | .constant _ => lr0
  | .step size gamma => lr0 * gamma ^ (t / size)
  | .cosine tmax eta => eta + (lr0 - eta) * (1 + cos (π * t / tmax)) / 2

def Positive (k : Kind ℝ) : Prop :=
  match k with
  | .constant _ => True
  | .step size _ => 0 < size
  | .cosine tmax _ => 0 < tmax

theorem div_succ (t n : ℕ) (h : 0 < n) : (t + 1) / n = if (t + 1) % n = 0 then t / n + 1 else t / n := by
  rw [Nat.succ_div]
  by_cases hd : n ∣ t + 1
  · rw [if_pos hd, if_pos (Nat.mod_eq_zero_of_dvd hd)]
  · rw [if_neg hd, if_neg fun h => hd (Nat.dvd_of_mod_eq_zero h), Nat.add_zero]

/-- One step of the cosine recursion. -/
theorem cosine_next (tmax : ℕ) (hT : 0 < tmax) (eta lr0 : ℝ) (t : ℕ) (s : Sched ℝ) (hk : s.kind = .cosine tmax eta)
    (he : s.lastEpoch = (t : ℤ) + 1) (hc : s.stepCount = t + 2) :
    nextLr realNum s lr0 (closed (.cosine tmax eta) lr0 t) = closed (.cosine tmax eta) lr0 (t + 1) := by
  have hTr : (tmax : ℝ) ≠ 0 := by exact_mod_cast hT.ne'
  unfold nextLr
  rw [hk]
  simp only []
  rw [he, hc, if_neg (by omega), if_neg (by omega)]
  have hsub : (t : ℤ) + 1 - 1 = (t : ℤ) := by ring
  rw [hsub]
  by_cases hm : ((t : ℤ) - tmax) % (2 * (tmax : ℤ)) = 0
  · rw [if_pos hm]
    obtain ⟨j, hj⟩ := Int.dvd_of_emod_eq_zero hm
    have ht : (t : ℝ) = tmax + 2 * tmax * j := by
      have : (t : ℤ) = tmax + 2 * tmax * j := by linarith
      exact_mod_cast this
    have h1 : π * (t : ℝ) / tmax = π + j * (2 * π) := by
      rw [ht]; field_simp
    have h2 : π * ((t + 1 : ℕ) : ℝ) / tmax = π * ((1 : ℤ) : ℝ) / tmax + π + j * (2 * π) := by
      push_cast
      rw [ht]; field_simp; ring
    unfold closed
    simp only []
    rw [h1, h2, cos_add_int_mul_two_pi, cos_add_int_mul_two_pi, cos_pi, cos_add_pi]
    unfold realNum
    simp only []
    ring
  · rw [if_neg hm]
    have hne : 1 + cos (π * (t : ℝ) / tmax) ≠ 0 := by
      intro h0
      have hcos : cos (π * (t : ℝ) / tmax - π) = 1 := by rw [cos_sub_pi]; linarith
      obtain ⟨j, hj⟩ := (cos_eq_one_iff _).mp hcos
      apply hm
      have h3 : (t : ℝ) = tmax + 2 * tmax * j := by
        have h4 : π * (t : ℝ) / tmax = π * (1 + 2 * j) := by linarith
        rw [div_eq_iff hTr] at h4
        have h5 : (t : ℝ) = (1 + 2 * j) * tmax := by
          have := mul_left_cancel₀ pi_ne_zero (h4.trans (mul_assoc _ _ _))
          exact this
        rw [h5]; ring
      have h6 : (t : ℤ) = tmax + 2 * tmax * j := by exact_mod_cast h3
      rw [h6]
      have : (tmax : ℤ) + 2 * tmax * j - tmax = 2 * tmax * j := by ring
      rw [this]
      exact Int.mul_emod_right _ _
    unfold closed realNum
    simp only []
    push_cast
    have hne' : 1 + cos (π * ((t : ℤ) : ℝ) / tmax) ≠ 0 := by push_cast; exact hne
    field_simp
    ring

/-- One step of any schedule. -/
theorem next_closed (k : Kind ℝ) (hp : Positive k) (lr0 : ℝ) (t : ℕ) (s : Sched ℝ) (hk : s.kind = k)
    (he : s.lastEpoch = (t : ℤ) + 1) (hc : s.stepCount = t + 2) : nextLr realNum s lr0 (closed k lr0 t) = closed k lr0 (t + 1) := by
  cases k with
  | constant total =>
    unfold nextLr
    rw [hk]
    simp only []
    rw [he, if_neg (by omega)]
    by_cases h : ((t : ℤ) + 1) ≠ total
    · rw [if_pos h]; rfl
    · rw [if_neg h]
      unfold closed realNum
      simp
  | step size gamma =>
    have hs : 0 < size := hp
    unfold nextLr
    rw [hk]
    simp only []
    rw [he]
    unfold closed
    simp only []
    rw [div_succ t size hs]
    have hcast : ((t : ℤ) + 1) % (size : ℤ) = (((t + 1) % size : ℕ) : ℤ) := by push_cast; rfl
    rw [hcast]
    by_cases h : (t + 1) % size = 0
    · rw [if_pos h, if_neg (by rw [h]; omega), pow_succ]
      unfold realNum
      simp only []
      ring
    · rw [if_neg h, if_pos (Or.inr (by exact_mod_cast h))]
  | cosine tmax eta => exact cosine_next tmax hp eta lr0 t s hk he hc

/-- A unit after `t` applied updates. -/
structure After (kind : Kind ℝ) (o : String × List (ℝ × ℕ)) (t : ℕ) (u : Unit ℝ) : Prop where
  name : u.name = o.1
  skind : u.sched.kind = kind
  base : u.sched.baseLrs = o.2.map Prod.fst
  epoch : u.sched.lastEpoch = t
  count : u.sched.stepCount = t + 1
  lrs : u.groups.map Group.lr = o.2.map fun g => closed kind g.1 t

theorem zipWith_closed (f : ℝ → ℝ → ℝ) (a b : ℝ → ℝ) (l : List (ℝ × ℕ)) (h : ∀ x, f x (a x) = b x) :
    List.zipWith f (l.map Prod.fst) (l.map fun g => a g.1) = l.map fun g => b g.1 := by
  induction l with
  | nil => rfl
  | cons g l ih => rw [List.map_cons, List.map_cons, List.zipWith_cons_cons, ih, h, List.map_cons]

theorem after_step (kind : Kind ℝ) (hp : Positive kind) (o : String × List (ℝ × ℕ)) (t : ℕ) (u : Unit ℝ) (h : After kind o t u) :
    After kind o (t + 1) (stepUnit realNum u) := by
  have hz : List.zipWith (nextLr realNum { u.sched with stepCount := u.sched.stepCount + 1, lastEpoch := u.sched.lastEpoch + 1 })
      u.sched.baseLrs (u.groups.map Group.lr) = o.2.map fun g => closed kind g.1 (t + 1) := by
    rw [h.base, h.lrs]
    refine zipWith_closed _ (fun x => closed kind x t) (fun x => closed kind x (t + 1)) o.2 ?_
    intro x
    refine next_closed kind hp x t _ h.skind ?_ ?_
    · show u.sched.lastEpoch + 1 = _; rw [h.epoch]
    · show u.sched.stepCount + 1 = _; rw [h.count]
  have hlen : (o.2.map fun g => closed kind g.1 (t + 1)).length = u.groups.length := by
    have := congrArg List.length h.lrs
    simp only [List.length_map] at this ⊢
    exact this.symm
  refine ⟨h.name, h.skind, h.base, ?_, ?_, ?_⟩
  · show u.sched.lastEpoch + 1 = _
    rw [h.epoch]; push_cast; rfl
  · show u.sched.stepCount + 1 = _
    rw [h.count]
  · show (setLrs u.groups (List.zipWith _ _ _)).map Group.lr = _
    rw [hz]
    exact setLrs_lr _ _ hlen

theorem closed_zero (kind : Kind ℝ) (x : ℝ) : closed kind x 0 = x := by
  cases kind with
  | constant => rfl
  | step size gamma => unfold closed; simp
  | cosine tmax eta => unfold closed; simp; ring

theorem after_new (kind : Kind ℝ) (o : String × List (ℝ × ℕ)) : After kind o 0 (newUnit realNum kind (freshOpt o).1 (freshOpt o).2) := by
  have hlr : ((freshOpt o).2.map setInitial).map Group.lr = o.2.map fun g => g.1 := by
    unfold freshOpt; rw [List.map_map, List.map_map]; rfl
  have hb : ((freshOpt o).2.map fun g => g.initial.getD g.lr) = o.2.map Prod.fst := by
    unfold freshOpt; rw [List.map_map]; rfl
  refine ⟨rfl, rfl, hb, rfl, rfl, ?_⟩
  show (setLrs ((freshOpt o).2.map setInitial) (List.zipWith (nextLr realNum ⟨kind, _, 0, 1, []⟩) ((freshOpt o).2.map fun g => g.initial.getD g.lr)
    (((freshOpt o).2.map setInitial).map Group.lr))).map Group.lr = _
  rw [hb, hlr]
  have hz := zipWith_closed (nextLr realNum ⟨kind, (freshOpt o).2.map fun g => g.initial.getD g.lr, 0, 1, []⟩) (fun x => x) (fun x => x) o.2 (by
    intro x
    unfold nextLr
    cases kind with
    | constant => simp only []; rw [if_pos trivial]; exact mul_one x
    | step => simp only []; rw [if_pos (Or.inl trivial)]
    | cosine => simp only []; rw [if_pos trivial])
  rw [hb] at hz
  rw [hz, setLrs_lr]
  · exact List.map_congr_left fun g _ => (closed_zero kind g.1).symm
  · unfold freshOpt; simp

theorem closed_rate (cfg : Config ℝ) (kind : Kind ℝ) (h : buildKind realNum cfg.type cfg.iterations cfg.args = .ok kind) (x : ℝ) (t : ℕ) :
    closed kind x t = rate cfg x t := by
  unfold buildKind at h
  unfold rate
  by_cases h1 : cfg.type = "constant"
  · rw [if_pos h1] at h ⊢
    simp only [Except.ok.injEq] at h
    rw [← h]; rfl
  rw [if_neg h1] at h ⊢
  by_cases h2 : cfg.type = "step"
  · rw [if_pos h2] at h ⊢
    simp only [Except.ok.injEq] at h
    rw [← h]
    unfold closed period factor
    simp only []
    cases cfg.args.stepSize <;> cases cfg.args.stepGamma <;> simp only [Option.getD] <;> norm_num [realNum]
  rw [if_neg h2] at h ⊢
  by_cases h3 : cfg.type = "cosine"
  · rw [if_pos h3] at h
    simp only [Except.ok.injEq] at h
    rw [← h]
    unfold closed floor
    simp only []
    cases cfg.args.etaMin <;> simp only [Option.getD] <;> norm_num [realNum]
  · rw [if_neg h3] at h; simp at h

theorem positive_kind (cfg : Config ℝ) (kind : Kind ℝ) (h : buildKind realNum cfg.type cfg.iterations cfg.args = .ok kind)
    (hper : cfg.type = "step" → 0 < period cfg) (hit : cfg.type = "cosine" → 0 < cfg.iterations) : Positive kind := by
  unfold buildKind at h
  by_cases h1 : cfg.type = "constant"
  · rw [if_pos h1] at h
    simp only [Except.ok.injEq] at h
    rw [← h]; trivial
  rw [if_neg h1] at h
  by_cases h2 : cfg.type = "step"
  · rw [if_pos h2] at h
    simp only [Except.ok.injEq] at h
    rw [← h]
    have := hper h2
    unfold period at this
    show 0 < cfg.args.stepSize.getD 50000
    cases hs : cfg.args.stepSize <;> rw [hs] at this <;> exact this
  rw [if_neg h2] at h
  by_cases h3 : cfg.type = "cosine"
  · rw [if_pos h3] at h
    simp only [Except.ok.injEq] at h
    rw [← h]
    exact hit h3
  · rw [if_neg h3] at h; simp at h

/-! ### Theorems -/

/-- **C109 (the rates).** After any history of applied, skipped and restarted steps, every group of every optimizer has the rate of the
configured schedule at the number of updates that optimizer has really made: the next update uses it. -/
theorem C109_rates [DecidableEq ℝ] (cfg : Config ℝ) (hnd : (cfg.opts.map Prod.fst).Nodup) (hper : cfg.type = "step" → 0 < period cfg)
    (hit : cfg.type = "cosine" → 0 < cfg.iterations) (us : List (Unit ℝ)) (hs : start realNum cfg = .ok us) (h : List Event)
    (us' : List (Unit ℝ)) (hr : run realNum cfg h us = .ok us') :
    List.Forall₂ (fun (o : String × List (ℝ × ℕ)) u => u.name = o.1 ∧ u.groups.map Group.lr = o.2.map fun g => rate cfg g.1 (applied o.1 h))
      cfg.opts us' := by
  rw [(C109_resume realNum cfg hnd us hs h).1] at hr
  by_cases h0 : cfg.opts = []
  · unfold start at hs
    rw [h0] at hs ⊢
    simp only [List.map_nil, each, Except.ok.injEq] at hs
    have : ∀ h : List Event, run realNum cfg (noRestarts h) ([] : List (Unit ℝ)) = .ok us' → us' = [] := by
      intro h
      induction h with
      | nil => intro hr; simp only [noRestarts, run, Except.ok.injEq] at hr; exact hr.symm
      | cons e h ih => cases e with
        | restart => exact ih
        | update sk => exact ih
    rw [← hs] at hr
    rw [this h hr]
    exact .nil
  obtain ⟨kind, hkind⟩ := (buildKind_known realNum cfg.type cfg.iterations cfg.args).mpr (start_known realNum cfg us hs h0)
  have hp := positive_kind cfg kind hkind hper hit
  have hstart : List.Forall₂ (fun o u => After kind o (applied o.1 []) u) cfg.opts us := by
    unfold start at hs
    rw [each_ok, List.forall₂_map_left_iff] at hs
    refine List.Forall₂.imp ?_ hs
    intro o u hu
    unfold setupOne at hu
    rw [hkind] at hu
    simp only [Except.ok.injEq] at hu
    rw [← hu]
    exact after_new kind o
  have key : ∀ (h : List Event) (n : String → ℕ) (us : List (Unit ℝ)), List.Forall₂ (fun o u => After kind o (n o.1) u) cfg.opts us →
      run realNum cfg (noRestarts h) us = .ok us' → List.Forall₂ (fun o u => After kind o (n o.1 + applied o.1 h) u) cfg.opts us' := by
    intro h
    induction h with
    | nil =>
      intro n us hf hr
      simp only [noRestarts, run, Except.ok.injEq] at hr
      rw [← hr]; exact hf
    | cons e h ih =>
      intro n us hf hr
      cases e with
      | restart => exact ih n us hf hr
      | update sk =>
        have := ih (fun m => n m + if sk m = false then 1 else 0) (update realNum sk us) (forall2_map _ _ _ _ _ hf (by
          intro o u hu
          by_cases hsk : sk u.name = true
          · rw [if_pos hsk]
            rw [hu.name] at hsk
            rw [if_neg (by rw [hsk]; simp)]
            exact hu
          · rw [if_neg hsk]
            rw [hu.name] at hsk
            rw [if_pos (by simpa using hsk)]
            exact after_step kind hp o _ u hu)) hr
        refine List.Forall₂.imp ?_ this
        intro o u hu
        have he : n o.1 + applied o.1 (Event.update sk :: h) = (n o.1 + if sk o.1 = false then 1 else 0) + applied o.1 h := by
          show n o.1 + (_ + applied o.1 h) = _
          omega
        rw [he]; exact hu
  have := key h (fun _ => 0) us hstart hr
  refine List.Forall₂.imp ?_ this
  intro o u hu
  refine ⟨hu.name, ?_⟩
  rw [hu.lrs]
  refine List.map_congr_left ?_
  intro g _
  rw [closed_rate cfg kind hkind, Nat.zero_add]

/-- **C109 (cosine).** The cosine schedule starts at the configured rate, ends at the final rate with the last iteration, never rises on the
way when the final rate is below, and stays between the two. -/
theorem C109_cosine (cfg : Config ℝ) (hc : cfg.type = "cosine") (hit : 0 < cfg.iterations) (lr0 : ℝ) :
    rate cfg lr0 0 = lr0 ∧ rate cfg lr0 cfg.iterations = floor cfg ∧
    (floor cfg ≤ lr0 → (∀ s t, s ≤ t → t ≤ cfg.iterations → rate cfg lr0 t ≤ rate cfg lr0 s) ∧
      ∀ t, floor cfg ≤ rate cfg lr0 t ∧ rate cfg lr0 t ≤ lr0) := by
  have hTr : (0 : ℝ) < cfg.iterations := by exact_mod_cast hit
  have hr : ∀ t, rate cfg lr0 t = floor cfg + (lr0 - floor cfg) * (1 + cos (π * t / cfg.iterations)) / 2 := by
    intro t
    unfold rate
    rw [if_neg (by rw [hc]; decide), if_neg (by rw [hc]; decide)]
  refine ⟨?_, ?_, ?_⟩
  · rw [hr]; simp; ring
  · rw [hr, mul_div_cancel_right₀ _ hTr.ne', cos_pi]; ring
  · intro hle
    refine ⟨?_, ?_⟩
    · intro s t hst htT
      rw [hr, hr]
      have hsr : (s : ℝ) ≤ t := by exact_mod_cast hst
      have htr : (t : ℝ) ≤ cfg.iterations := by exact_mod_cast htT
      have h1 : cos (π * t / cfg.iterations) ≤ cos (π * s / cfg.iterations) := by
        refine cos_le_cos_of_nonneg_of_le_pi ?_ ?_ ?_
        · positivity
        · rw [div_le_iff₀ hTr]
          exact mul_le_mul_of_nonneg_left htr pi_pos.le
        · gcongr
      have h2 : 0 ≤ lr0 - floor cfg := by linarith
      have := mul_le_mul_of_nonneg_left h1 h2
      linarith
    · intro t
      rw [hr]
      have h2 : 0 ≤ lr0 - floor cfg := by linarith
      have h3 := mul_le_mul_of_nonneg_left (cos_le_one (π * t / cfg.iterations)) h2
      have h4 := mul_le_mul_of_nonneg_left (neg_one_le_cos (π * t / cfg.iterations)) h2
      constructor <;> linarith

/-- **C109 (step).** The step schedule holds the rate for a period and then multiplies it by the factor. -/
theorem C109_step (cfg : Config ℝ) (hc : cfg.type = "step") (hp : 0 < period cfg) (lr0 : ℝ) :
    (∀ t, t < period cfg → rate cfg lr0 t = lr0) ∧ ∀ t, rate cfg lr0 (t + period cfg) = rate cfg lr0 t * factor cfg := by
  have hr : ∀ t, rate cfg lr0 t = lr0 * factor cfg ^ (t / period cfg) := by
    intro t
    unfold rate
    rw [if_neg (by rw [hc]; decide), if_pos hc]
  refine ⟨?_, ?_⟩
  · intro t ht
    rw [hr, Nat.div_eq_of_lt ht, pow_zero, mul_one]
  · intro t
    rw [hr, hr, Nat.add_div_right _ hp, pow_succ, mul_assoc]

end Verif.Schedule
