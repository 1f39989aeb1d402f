import Verif.Telemetry.Gate
import Mathlib.Tactic.SplitIfs
import Mathlib.Tactic.ByContra
import Mathlib.Logic.Basic

/-! C59: the concurrency gate. -/
namespace Verif.Telemetry

variable {β : Type}

/-! ### Specification -/

/-- The thread is inside its callback, or has left it and not yet given the slot back. -/
def Phase.busy : Phase β → Bool
  | .running => true
  | .ended _ => true
  | _ => false

/-- Number of callbacks under way. -/
def busy (g : Gate β) : Nat := g.threads.countP Phase.busy

/-- States of a gate with `n` threads under any schedule. -/
def Reach (limit : Int) (n : Nat) (g : Gate β) : Prop := ∃ as, (Gate.new β limit n).exec as = some g

/-- Limits in force during a schedule. -/
def limits (limit : Int) : List (Act β) → List Int
  | [] => [limit]
  | .setLimit n :: as => limit :: limits n as
  | _ :: as => limits limit as

/-! ### Proofs -/

theorem countP_set (p : Phase β → Bool) : ∀ (l : List (Phase β)) (i : Nat) (a b : Phase β),
    l[i]? = some a → (l.set i b).countP p + (p a).toNat = l.countP p + (p b).toNat
  | [], i, a, b, h => by simp at h
  | x :: l, 0, a, b, h => by
      simp at h
      subst h
      simp only [List.set_cons_zero, List.countP_cons]
      cases p x <;> cases p b <;> simp <;> omega
  | x :: l, i + 1, a, b, h => by
      simp only [List.getElem?_cons_succ] at h
      have := countP_set p l i a b h
      simp only [List.set_cons_succ, List.countP_cons]
      omega

theorem countP_wakeAll (l : List (Phase β)) : (wakeAll l).countP Phase.busy = l.countP Phase.busy := by
  unfold wakeAll
  rw [List.countP_map]
  congr 1
  funext x
  cases x <;> rfl

theorem asleep_wakeAll (l : List (Phase β)) : .asleep ∉ wakeAll l := by
  unfold wakeAll
  intro h
  rw [List.mem_map] at h
  obtain ⟨x, _, hx⟩ := h
  cases x <;> simp at hx

/-- The invariant: the counter is the number of busy threads, and nobody sleeps while there is room. -/
def Inv (g : Gate β) : Prop :=
  g.active = busy g ∧ (.asleep ∈ g.threads → g.limit ≤ g.active)

theorem mem_set_asleep {l : List (Phase β)} {i : Nat} {p : Phase β} (hp : p ≠ .asleep)
    (h : .asleep ∈ l.set i p) : .asleep ∈ l := by
  rcases List.mem_or_eq_of_mem_set h with h | h
  · exact h
  · exact absurd h.symm hp

theorem step_inv {g g' : Gate β} {a : Act β} (hi : Inv g) (h : g.step a = some g') : Inv g' := by
  obtain ⟨h1, h2⟩ := hi
  unfold busy at h1
  cases a with
  | call i =>
      unfold Gate.step at h
      simp only at h
      split at h
      · next l hl =>
        cases h
        have := countP_set Phase.busy g.threads i _ .entering hl
        simp only [Phase.busy, Bool.toNat_false] at this
        refine ⟨?_, fun hm => h2 (mem_set_asleep (by simp) hm)⟩
        unfold busy
        simp only
        omega
      · cases h
  | test i =>
      unfold Gate.step at h
      simp only at h
      split at h
      · next hl =>
        split_ifs at h with hc
        · cases h
          have := countP_set Phase.busy g.threads i _ .asleep hl
          simp only [Phase.busy, Bool.toNat_false] at this
          refine ⟨?_, fun _ => hc⟩
          unfold busy
          simp only
          omega
        · cases h
          have := countP_set Phase.busy g.threads i _ .running hl
          simp only [Phase.busy, Bool.toNat_false, Bool.toNat_true] at this
          refine ⟨?_, fun hm => ?_⟩
          · unfold busy
            simp only
            omega
          · have := h2 (mem_set_asleep (by simp) hm)
            simp only
            omega
      · cases h
  | finish i b =>
      unfold Gate.step at h
      simp only at h
      split at h
      · next hl =>
        cases h
        have := countP_set Phase.busy g.threads i _ (.ended b) hl
        simp only [Phase.busy, Bool.toNat_true] at this
        refine ⟨?_, fun hm => h2 (mem_set_asleep (by simp) hm)⟩
        unfold busy
        simp only
        omega
      · cases h
  | leave i =>
      unfold Gate.step at h
      simp only at h
      split at h
      · next b hl =>
        cases h
        have := countP_set Phase.busy g.threads i _ (.out (some b)) hl
        simp only [Phase.busy, Bool.toNat_true, Bool.toNat_false] at this
        refine ⟨?_, fun hm => absurd hm (asleep_wakeAll _)⟩
        unfold busy
        simp only [countP_wakeAll]
        omega
      · cases h
  | setLimit n =>
      unfold Gate.step at h
      cases h
      refine ⟨?_, fun hm => absurd hm (asleep_wakeAll _)⟩
      unfold busy
      simp only [countP_wakeAll]
      exact h1

theorem exec_inv (as : List (Act β)) : ∀ {g g' : Gate β}, Inv g → g.exec as = some g' → Inv g' := by
  induction as with
  | nil => intro g g' hi h; cases h; exact hi
  | cons a as ih =>
      intro g g' hi h
      unfold Gate.exec at h
      cases hs : g.step a with
      | none => rw [hs] at h; simp at h
      | some g1 =>
          rw [hs] at h
          exact ih (step_inv hi hs) h

theorem new_inv (limit : Int) (n : Nat) : Inv (Gate.new β limit n) := by
  refine ⟨?_, fun h => ?_⟩
  · unfold busy Gate.new
    simp [List.countP_replicate, Phase.busy]
  · unfold Gate.new at h
    simp [List.mem_replicate] at h

theorem reach_inv {limit : Int} {n : Nat} {g : Gate β} (h : Reach limit n g) : Inv g := by
  obtain ⟨as, h⟩ := h
  exact exec_inv as (new_inv limit n) h

/-- **C59** (admission).  In every interleaving, a step that starts a callback happens only while fewer
callbacks than the limit now in force are under way; every other step starts none.  So a lowered limit
lets running callbacks finish and admits none until there is room. -/
theorem C59_admission {limit : Int} {n : Nat} {g g' : Gate β} {a : Act β} (hr : Reach limit n g)
    (h : g.step a = some g') :
    busy g' ≤ busy g ∨ (busy g' = busy g + 1 ∧ (busy g' : Int) ≤ g'.limit) := by
  have hi := reach_inv hr
  obtain ⟨h1, h2⟩ := hi
  obtain ⟨h3, _⟩ := step_inv ⟨h1, h2⟩ h
  cases a with
  | test i =>
      unfold Gate.step at h
      simp only at h
      split at h
      · split_ifs at h with hc
        · cases h; left; simp only at h3; omega
        · cases h; right; simp only at h3; exact ⟨by omega, by simp only; omega⟩
      · cases h
  | call i =>
      unfold Gate.step at h
      simp only at h
      split at h
      · cases h; left; simp only at h3; omega
      · cases h
  | finish i b =>
      unfold Gate.step at h
      simp only at h
      split at h
      · cases h; left; simp only at h3; omega
      · cases h
  | leave i =>
      unfold Gate.step at h
      simp only at h
      split at h
      · cases h; left; simp only at h3; omega
      · cases h
  | setLimit m =>
      unfold Gate.step at h
      cases h; left; simp only at h3; omega

theorem limits_head (as : List (Act β)) : ∀ x : Int, x ∈ limits x as := by
  induction as with
  | nil => intro x; unfold limits; simp
  | cons b bs ih => intro x; cases b <;> unfold limits <;> first | exact ih x | exact List.mem_cons_self

theorem exec_limit (as : List (Act β)) : ∀ {g g' : Gate β} (M : Int), Inv g → g.exec as = some g' →
    (∀ m ∈ limits g.limit as, m ≤ M) → (busy g : Int) ≤ max 0 M → (busy g' : Int) ≤ max 0 M := by
  induction as with
  | nil => intro g g' M _ h _ hb; cases h; exact hb
  | cons a as ih =>
      intro g g' M hi h hM hb
      unfold Gate.exec at h
      cases hs : g.step a with
      | none => rw [hs] at h; simp at h
      | some g1 =>
          rw [hs] at h
          have hi1 := step_inv hi hs
          have hlim : ∀ m ∈ limits g1.limit as, m ≤ M := by
            intro m hm
            apply hM
            cases a <;> unfold Gate.step at hs <;> simp only at hs
            case setLimit n => cases hs; unfold limits; exact List.mem_cons_of_mem _ hm
            all_goals
              split at hs
              · first
                  | (cases hs; unfold limits; exact hm)
                  | (split_ifs at hs <;> cases hs <;> unfold limits <;> exact hm)
              · cases hs
          have hgl : g.limit ≤ M := by
            apply hM
            exact limits_head _ _
          refine ih M hi1 h hlim ?_
          obtain ⟨e1, e2⟩ := hi
          obtain ⟨e3, _⟩ := hi1
          cases a <;> unfold Gate.step at hs <;> simp only at hs
          case test i =>
            split at hs
            · split_ifs at hs with hc
              · cases hs; simp only at e3; omega
              · cases hs; simp only at e3; omega
            · cases hs
          case setLimit n => cases hs; simp only at e3; omega
          all_goals
            split at hs
            · cases hs; simp only at e3; omega
            · cases hs

/-- **C59** (bound).  At every moment the number of callbacks under way is at most the largest limit that
has been in force so far; with an unchanging limit it never exceeds the limit. -/
theorem C59_bound (limit : Int) (n : Nat) (as : List (Act β)) (g : Gate β) (M : Int)
    (h : (Gate.new β limit n).exec as = some g) (hM : ∀ m ∈ limits limit as, m ≤ M) (h0 : 0 ≤ M) :
    (busy g : Int) ≤ M := by
  have := exec_limit as M (new_inv limit n) h hM (by
    have := (new_inv (β := β) limit n).1
    simp only [Gate.new] at this ⊢
    omega)
  omega

/-- **C59** (no lost wake-up).  No thread sleeps while there is room: whenever fewer callbacks than the
limit are under way, every waiting thread has been woken. -/
theorem C59_no_lost_wakeup {limit : Int} {n : Nat} {g : Gate β} (hr : Reach limit n g)
    (hroom : (busy g : Int) < g.limit) : .asleep ∉ g.threads := by
  obtain ⟨h1, h2⟩ := reach_inv hr
  intro hm
  have := h2 hm
  omega

/-- **C59** (slots come back).  A callback that ends — by returning or by raising — can always give its
slot back at once, whatever the other threads are doing; its outcome is handed on unchanged and there is
one busy thread fewer. -/
theorem C59_release {limit : Int} {n : Nat} {g : Gate β} (hr : Reach limit n g) (i : Nat) (b : β)
    (h : g.threads[i]? = some (.ended b)) :
    ∃ g', g.step (.leave i) = some g' ∧ g'.threads[i]? = some (.out (some b)) ∧ busy g' + 1 = busy g := by
  obtain ⟨h1, _⟩ := reach_inv hr
  have hs : g.step (.leave i) = some { g with
      active := g.active - 1
      threads := wakeAll (g.threads.set i (.out (some b))) } := by
    unfold Gate.step
    simp only [h]
  obtain ⟨h3, _⟩ := step_inv (reach_inv hr) hs
  refine ⟨_, hs, ?_, ?_⟩
  · have hlt : i < g.threads.length := by
      by_contra hn
      rw [List.getElem?_eq_none (by omega)] at h
      cases h
    simp [wakeAll, List.getElem?_map, List.getElem?_set, hlt]
  · simp only at h3
    omega

theorem sum_set (w : Phase β → Nat) : ∀ (l : List (Phase β)) (i : Nat) (a b : Phase β),
    l[i]? = some a → ((l.set i b).map w).sum + w a = (l.map w).sum + w b
  | [], i, a, b, h => by simp at h
  | x :: l, 0, a, b, h => by
      simp at h
      subst h
      simp only [List.set_cons_zero, List.map_cons, List.sum_cons]
      omega
  | x :: l, i + 1, a, b, h => by
      simp only [List.getElem?_cons_succ] at h
      have := sum_set w l i a b h
      simp only [List.set_cons_succ, List.map_cons, List.sum_cons]
      omega

/-- Remaining work of a thread that makes no further calls. -/
def weight (n : Nat) : Phase β → Nat
  | .out _ => 0
  | .ended _ => n + 1
  | .running => n + 2
  | .asleep => n + 3
  | .entering => n + 4

theorem sum_wakeAll (n : Nat) (l : List (Phase β)) :
    ((wakeAll l).map (weight n)).sum ≤ (l.map (weight n)).sum + l.length := by
  induction l with
  | nil => simp [wakeAll]
  | cons x l ih =>
      unfold wakeAll at ih ⊢
      simp only [List.map_cons, List.sum_cons, List.length_cons]
      cases x <;> simp only [weight] <;> omega

/-- Steps of the calls already made: no new call and no change of the limit. -/
def Act.settles : Act β → Bool
  | .call _ => false
  | .setLimit _ => false
  | _ => true

theorem step_weight {g g' : Gate β} {a : Act β} (h : g.step a = some g') (hs : a.settles = true) :
    (g'.threads.map (weight g.threads.length)).sum < (g.threads.map (weight g.threads.length)).sum
      ∧ g'.threads.length = g.threads.length := by
  cases a with
  | call i => cases hs
  | setLimit m => cases hs
  | test i =>
      unfold Gate.step at h
      simp only at h
      split at h
      · next hl =>
        split_ifs at h with hc
        · cases h
          have := sum_set (weight g.threads.length) g.threads i _ .asleep hl
          simp only [weight] at this
          refine ⟨?_, by simp⟩
          simp only
          omega
        · cases h
          have := sum_set (weight g.threads.length) g.threads i _ .running hl
          simp only [weight] at this
          refine ⟨?_, by simp⟩
          simp only
          omega
      · cases h
  | finish i b =>
      unfold Gate.step at h
      simp only at h
      split at h
      · next hl =>
        cases h
        have := sum_set (weight g.threads.length) g.threads i _ (.ended b) hl
        simp only [weight] at this
        refine ⟨?_, by simp⟩
        simp only
        omega
      · cases h
  | leave i =>
      unfold Gate.step at h
      simp only at h
      split at h
      · next b hl =>
        cases h
        have := sum_set (weight g.threads.length) g.threads i _ (.out (some b)) hl
        simp only [weight] at this
        refine ⟨?_, by simp [wakeAll]⟩
        have h2 := sum_wakeAll g.threads.length (g.threads.set i (.out (some b)))
        simp only [List.length_set] at h2
        simp only
        omega
      · cases h

theorem exec_weight (as : List (Act β)) : ∀ {g g' : Gate β}, (∀ a ∈ as, Act.settles a = true) →
    g.exec as = some g' → as.length ≤ (g.threads.map (weight g.threads.length)).sum := by
  induction as with
  | nil => intro g g' _ _; exact Nat.zero_le _
  | cons a as ih =>
      intro g g' hs h
      unfold Gate.exec at h
      cases hst : g.step a with
      | none => rw [hst] at h; simp at h
      | some g1 =>
          rw [hst] at h
          obtain ⟨h1, h2⟩ := step_weight hst (hs a List.mem_cons_self)
          have := ih (fun x hx => hs x (List.mem_cons_of_mem _ hx)) h
          rw [h2] at this
          rw [List.length_cons]
          omega

/-- **C59** (every call finishes).  With a positive limit: the steps of the calls already made form only
finite schedules, of a length bounded by the state alone, and as long as some call is unfinished one of
its steps is possible (a callback under way may end, with any outcome `b`).  So every call returns, if
every callback does. -/
theorem C59_all_finish {limit : Int} {n : Nat} {g : Gate β} (hr : Reach limit n g) (hl : 1 ≤ g.limit)
    (b : β) :
    (∃ N, ∀ as g', (∀ a ∈ as, Act.settles a = true) → g.exec as = some g' → as.length ≤ N)
    ∧ ((∃ p ∈ g.threads, ∀ o, p ≠ .out o) →
        ∃ a : Act β, a.settles = true ∧ (g.step a).isSome = true) := by
  refine ⟨⟨_, fun as g' hs h => exec_weight as hs h⟩, ?_⟩
  rintro ⟨p, hp, hout⟩
  obtain ⟨h1, h2⟩ := reach_inv hr
  have step_of : ∀ q ∈ g.threads, (q = .entering ∨ q.busy = true) →
      ∃ a : Act β, a.settles = true ∧ (g.step a).isSome = true := by
    intro q hq hc
    obtain ⟨i, hi⟩ := List.mem_iff_getElem?.1 hq
    rcases hc with rfl | hc
    · refine ⟨.test i, rfl, ?_⟩
      unfold Gate.step
      simp only [hi]
      split_ifs <;> rfl
    · cases q with
      | running =>
          refine ⟨.finish i b, rfl, ?_⟩
          unfold Gate.step
          simp only [hi]
          rfl
      | ended c =>
          refine ⟨.leave i, rfl, ?_⟩
          unfold Gate.step
          simp only [hi]
          rfl
      | _ => cases hc
  cases p with
  | out o => exact absurd rfl (hout o)
  | entering => exact step_of _ hp (.inl rfl)
  | running => exact step_of _ hp (.inr rfl)
  | ended c => exact step_of _ hp (.inr rfl)
  | asleep =>
      have hact := h2 hp
      have hpos : 0 < g.threads.countP Phase.busy := by unfold busy at h1; omega
      obtain ⟨q, hq, hb⟩ := List.countP_pos_iff.1 hpos
      exact step_of q hq (.inr hb)

/-! ### Non-vacuity -/

/-- Three threads, limit two: the third sleeps, the limit is lowered, one callback raises (`false`), then
the other returns and the third is admitted. -/
example : (Gate.new Bool 2 3).exec [.call 0, .call 1, .call 2, .test 0, .test 1, .test 2, .setLimit 1,
    .test 2, .finish 0 false, .leave 0, .test 2, .finish 1 true, .leave 1, .test 2]
    = some ⟨1, 1, [.out (some false), .out (some true), .running]⟩ := by decide

example : Reach 2 3 (⟨2, 2, [.running, .running, .asleep]⟩ : Gate Bool) :=
  ⟨[.call 0, .call 1, .call 2, .test 0, .test 1, .test 2], by decide⟩

end Verif.Telemetry
