import Verif.Ckpt.Loop
import Mathlib.Tactic.Ring

/-!
# C42, C43: no checkpoint commits a non-finite step; counters count the completed steps
-/
namespace Verif.Ckpt.Loop

theorem drainN_spec : ∀ (n : Nat) (q q' : List Bool), drainN n q = (true, q') → ∃ p, q = p ++ q' ∧ (∀ b ∈ p, b = true) ∧ q'.length = q.length - n
  | 0, q, q', h => by cases h; exact ⟨[], rfl, by simp, by simp⟩
  | n + 1, [], q', h => by cases h; exact ⟨[], rfl, by simp, by simp⟩
  | n + 1, b :: q, q', h => by
    rw [drainN] at h
    cases b with
    | false => simp at h
    | true =>
      obtain ⟨p, h1, h2, h3⟩ := drainN_spec n q q' (by simpa using h)
      refine ⟨true :: p, by rw [h1]; rfl, ?_, ?_⟩
      · intro b hb
        rcases List.mem_cons.mp hb with rfl | hb
        · rfl
        · exact h2 b hb
      · rw [h3, List.length_cons]; omega

theorem drain_spec (inc : Bool) (q : List Bool) (h : (drain inc q).1 = true) : ∃ p, q = p ++ (drain inc q).2 ∧ (∀ b ∈ p, b = true) ∧
    (drain inc q).2.length ≤ 1 ∧ (inc = true → (drain inc q).2 = []) := by
  unfold drain at h ⊢
  generalize hn : (if inc then q.length else q.length - 1) = n at h ⊢
  obtain ⟨p, h1, h2, h3⟩ := drainN_spec n q (drainN n q).2 (by rw [← h])
  refine ⟨p, h1, h2, ?_, ?_⟩
  · rw [h3]; cases inc <;> simp at hn <;> omega
  · intro hi
    subst hi
    simp at hn
    rw [← List.length_eq_zero_iff, h3]; omega

theorem clash {b : Bool} {P : Prop} (h : b = false) (h' : b = true) : P := by rw [h] at h'; cases h'

/-- What has been applied is finite, except possibly for the checks still in flight. -/
def Fine (applied pend : List Bool) : Prop := ∃ ok, applied = ok ++ pend ∧ ∀ b ∈ ok, b = true

theorem Fine.drain {applied q : List Bool} {inc : Bool} (h : Fine applied q) (hd : (drain inc q).1 = true) : Fine applied (Loop.drain inc q).2 := by
  obtain ⟨ok, h1, h2⟩ := h
  obtain ⟨p, h3, h4, _⟩ := drain_spec inc q hd
  refine ⟨ok ++ p, by rw [List.append_assoc, ← h3, h1], ?_⟩
  intro b hb
  rcases List.mem_append.mp hb with h | h
  · exact h2 b h
  · exact h4 b h

theorem Fine.push {applied q : List Bool} (h : Fine applied q) (b : Bool) : Fine (applied ++ [b]) (q ++ [b]) := by
  obtain ⟨ok, h1, h2⟩ := h
  exact ⟨ok, by rw [h1, List.append_assoc], h2⟩

theorem Fine.pushTrue {applied : List Bool} (h : Fine applied []) : Fine (applied ++ [true]) [] := by
  obtain ⟨ok, h1, h2⟩ := h
  refine ⟨ok ++ [true], by rw [h1]; simp, ?_⟩
  intro b hb
  rcases List.mem_append.mp hb with h | h
  · exact h2 b h
  · simpa using h

/-- A checkpoint that counts exactly the steps it contains. -/
def CountOk (c : Cfg) (it0 rows0 pos0 : Nat) (s : Snap) : Prop :=
  s.it = it0 + s.applied.length ∧ s.rows = rows0 + c.B * c.a * s.applied.length ∧ s.pos = pos0 + c.a * s.applied.length

def FinOk (c : Cfg) (s : Snap) : Prop := ∃ q, Fine s.applied q ∧ q.length ≤ 1 ∧ (c.intr = false → q = [])

/-- The states from which a checkpoint may still be taken. -/
def live (t : T) : Prop := (t.pc ≠ .raised ∧ ∀ b, t.pc ≠ .done b) ∨ (t.safe = true ∧ t.div = false)

structure Inv (c : Cfg) (it0 rows0 pos0 : Nat) (t : T) : Prop where
  it : t.it = it0 + t.completed
  rows : t.rows = rows0 + c.B * c.a * t.completed
  len : live t → t.applied.length = t.completed
  com : live t → t.committed = pos0 + c.a * t.completed
  fine : live t → Fine t.applied t.pend
  yld : t.pc ∈ [.head, .body, .stepped, .drained, .safe, .final, .flush] → t.yielded = t.committed
  yldF : t.pc = .fetched → t.yielded = t.committed + 1
  nsafe : t.pc ∈ [.body, .fetched, .stepped, .drained] → t.safe = false
  imm : live t → c.deferred = false → t.pend = []
  one : t.pc ∈ [.head, .body, .fetched, .drained, .safe, .final, .flush] → t.pend.length ≤ 1
  oneR : t.pc = .raised → t.safe = true → t.div = false → t.pend.length ≤ 1
  due : t.pc = .safe ∨ t.pc = .drained → c.saveDue t.it = true → t.pend = []
  rais : c.intr = false → t.pc = .raised → t.safe = true → t.div = false → t.att = false → t.pend = []
  cnt : ∀ s ∈ t.saves, CountOk c it0 rows0 pos0 s
  fin : ∀ s ∈ t.saves, FinOk c s

theorem snap_count {c : Cfg} {it0 rows0 pos0 : Nat} {t : T} (h : Inv c it0 rows0 pos0 t) (hl : live t) : CountOk c it0 rows0 pos0 t.snap := by
  have h1 := h.len hl
  refine ⟨?_, ?_, ?_⟩
  · show t.it = it0 + t.applied.length
    rw [h1]; exact h.it
  · show t.rows = rows0 + c.B * c.a * t.applied.length
    rw [h1]; exact h.rows
  · show t.committed = pos0 + c.a * t.applied.length
    rw [h1]; exact h.com hl

theorem inv_start (c : Cfg) (it rows pos : Nat) (last : Option Nat) : Inv c it rows pos (T.start it rows pos last) := by
  constructor <;> simp [T.start, Fine]

theorem saves_append {P : Snap → Prop} {l : List Snap} {s : Snap} (h : ∀ x ∈ l, P x) (hs : P s) : ∀ x ∈ l ++ [s], P x := by
  intro x hx
  rcases List.mem_append.mp hx with h' | h'
  · exact h x h'
  · rw [List.mem_singleton] at h'; rw [h']; exact hs

theorem inv_step {c : Cfg} {it0 rows0 pos0 : Nat} {t t' : T} (ha : 1 ≤ c.a) (h : Inv c it0 rows0 pos0 t) (hs : Step c t t') :
    Inv c it0 rows0 pos0 t' := by
  have hlive : ∀ p, t.pc = p → p ≠ .raised → (∀ b, p ≠ .done b) → live t := fun p hp h1 h2 => Or.inl ⟨by rw [hp]; exact h1, fun b => by rw [hp]; exact h2 b⟩
  cases hs with
  | interrupt hi hp =>
    have hl : live t := by rcases hp with hp | hp | hp | hp <;> exact hlive _ hp (by simp) (by simp)
    have h1 : t.pend.length ≤ 1 := h.one (by rcases hp with hp | hp | hp | hp <;> rw [hp] <;> simp)
    exact ⟨h.it, h.rows, fun _ => h.len hl, fun _ => h.com hl, fun _ => h.fine hl, by simp, by simp, by simp, fun _ => h.imm hl, by simp,
      fun _ _ _ => h1, by simp, fun hi' => clash hi' hi, h.cnt, h.fin⟩
  | enter hp hlt =>
    have hl := hlive _ hp (by simp) (by simp)
    exact ⟨h.it, h.rows, fun _ => h.len hl, fun _ => h.com hl, fun _ => h.fine hl, fun _ => h.yld (by rw [hp]; simp), by simp, fun _ => rfl,
      fun _ => h.imm hl, fun _ => h.one (by rw [hp]; simp), by simp, by simp, by simp, h.cnt, h.fin⟩
  | leave hp hlt =>
    have hl := hlive _ hp (by simp) (by simp)
    exact ⟨h.it, h.rows, fun _ => h.len hl, fun _ => h.com hl, fun _ => h.fine hl, fun _ => h.yld (by rw [hp]; simp), by simp, by simp,
      fun _ => h.imm hl, fun _ => h.one (by rw [hp]; simp), by simp, by simp, by simp, h.cnt, h.fin⟩
  | fetch hp =>
    have hl := hlive _ hp (by simp) (by simp)
    have hy := h.yld (by rw [hp]; simp)
    exact ⟨h.it, h.rows, fun _ => h.len hl, fun _ => h.com hl, fun _ => h.fine hl, by simp, fun _ => by show t.yielded + 1 = _; rw [hy],
      fun _ => h.nsafe (by rw [hp]; simp), fun _ => h.imm hl, fun _ => h.one (by rw [hp]; simp), by simp, by simp, by simp, h.cnt, h.fin⟩
  | fetchFail k d hp =>
    have hns := h.nsafe (by rw [hp]; simp)
    have hnl : ∀ t1 : T, t1.pc = .raised → t1.safe = false → ¬ live t1 := by
      intro t1 h1 h2 hl
      rcases hl with hl | hl
      · exact hl.1 h1
      · rw [h2] at hl; cases hl.1
    have hn := hnl { t with pc := .raised, yielded := t.yielded + k, div := t.div || d } rfl hns
    exact ⟨h.it, h.rows, fun hl => absurd hl hn, fun hl => absurd hl hn, fun hl => absurd hl hn, by simp, by simp, by simp,
      fun hl => absurd hl hn, by simp, fun _ hs' => clash hns hs', by simp, fun _ _ hs' => clash hns hs', h.cnt, h.fin⟩
  | step fin hp hfin =>
    have hl := hlive _ hp (by simp) (by simp)
    have hy := h.yldF hp
    have hns := h.nsafe (by rw [hp]; simp)
    refine ⟨?_, ?_, ?_, ?_, ?_, ?_, by simp, fun _ => hns, ?_, by simp, by simp, by simp, by simp, h.cnt, h.fin⟩
    · show t.it + 1 = it0 + (t.completed + 1)
      rw [h.it]; omega
    · show t.rows + c.B * c.a = rows0 + c.B * c.a * (t.completed + 1)
      rw [h.rows]; ring
    · intro _
      show (t.applied ++ [fin]).length = t.completed + 1
      rw [List.length_append, h.len hl]; rfl
    · intro _
      show t.yielded + (c.a - 1) = pos0 + c.a * (t.completed + 1)
      rw [hy, h.com hl, Nat.mul_add, Nat.mul_one]; omega
    · intro _
      show Fine (t.applied ++ [fin]) (if c.deferred then t.pend ++ [fin] else t.pend)
      cases hd : c.deferred with
      | true => exact (h.fine hl).push fin
      | false =>
        have := h.fine hl
        simp only [Bool.false_eq_true, if_false]
        rw [h.imm hl hd] at this ⊢
        rw [hfin hd]; exact this.pushTrue
    · intro _; rfl
    · intro _ hd
      show (if c.deferred then t.pend ++ [fin] else t.pend) = []
      rw [hd]; exact h.imm hl hd
  | stepFail k mutated queued commit d hp hcm =>
    have hns := h.nsafe (by rw [hp]; simp)
    refine ⟨h.it, h.rows, ?_, ?_, ?_, by simp, by simp, by simp, ?_, by simp, ?_, by simp, ?_, h.cnt, h.fin⟩
    · exact fun x => x.elim (fun x => absurd rfl x.1) (fun x => clash hns x.1)
    · exact fun x => x.elim (fun x => absurd rfl x.1) (fun x => clash hns x.1)
    · exact fun x => x.elim (fun x => absurd rfl x.1) (fun x => clash hns x.1)
    · exact fun x => x.elim (fun x => absurd rfl x.1) (fun x => clash hns x.1)
    · exact fun _ x => clash hns x
    · exact fun _ _ x => clash hns x
  | opFail d hp =>
    have hns := h.nsafe (by rcases hp with hp | hp <;> rw [hp] <;> simp)
    refine ⟨h.it, h.rows, ?_, ?_, ?_, by simp, by simp, by simp, ?_, by simp, ?_, by simp, ?_, h.cnt, h.fin⟩
    · exact fun x => x.elim (fun x => absurd rfl x.1) (fun x => clash hns x.1)
    · exact fun x => x.elim (fun x => absurd rfl x.1) (fun x => clash hns x.1)
    · exact fun x => x.elim (fun x => absurd rfl x.1) (fun x => clash hns x.1)
    · exact fun x => x.elim (fun x => absurd rfl x.1) (fun x => clash hns x.1)
    · exact fun _ x => clash hns x
    · exact fun _ _ x => clash hns x
  | drainOk hp hd =>
    have hl := hlive _ hp (by simp) (by simp)
    obtain ⟨p, h1, h2, h3, h4⟩ := drain_spec _ _ hd
    refine ⟨h.it, h.rows, fun _ => h.len hl, fun _ => h.com hl, fun _ => (h.fine hl).drain hd, fun _ => h.yld (by rw [hp]; simp), by simp,
      fun _ => h.nsafe (by rw [hp]; simp), ?_, fun _ => h3, by simp, ?_, by simp, h.cnt, h.fin⟩
    · intro _ hdf
      have := h.imm hl hdf
      exact (List.append_eq_nil_iff.mp (h1.symm.trans this)).2
    · intro _ hdue
      refine h4 ?_
      rw [show c.saveDue t.it = true from hdue]; rfl
  | drainFail hp hd =>
    refine ⟨h.it, h.rows, ?_, ?_, ?_, by simp, by simp, by simp, ?_, by simp, ?_, by simp, ?_, h.cnt, h.fin⟩
    all_goals simp [live]
  | ready hp =>
    have hl := hlive _ hp (by simp) (by simp)
    exact ⟨h.it, h.rows, fun _ => h.len hl, fun _ => h.com hl, fun _ => h.fine hl, fun _ => h.yld (by rw [hp]; simp), by simp, by simp,
      fun _ => h.imm hl, fun _ => h.one (by rw [hp]; simp), by simp, fun _ => h.due (Or.inr hp), by simp, h.cnt, h.fin⟩
  | noSave hp hd =>
    have hl := hlive _ hp (by simp) (by simp)
    exact ⟨h.it, h.rows, fun _ => h.len hl, fun _ => h.com hl, fun _ => h.fine hl, fun _ => h.yld (by rw [hp]; simp), by simp, by simp,
      fun _ => h.imm hl, fun _ => h.one (by rw [hp]; simp), by simp, by simp, by simp, h.cnt, h.fin⟩
  | save hp hd =>
    have hl := hlive _ hp (by simp) (by simp)
    have hpe := h.due (Or.inl hp) hd
    exact ⟨h.it, h.rows, fun _ => h.len hl, fun _ => h.com hl, fun _ => h.fine hl, fun _ => h.yld (by rw [hp]; simp), by simp, by simp,
      fun _ => h.imm hl, fun _ => h.one (by rw [hp]; simp), by simp, by simp, by simp, saves_append h.cnt (snap_count h hl),
      saves_append h.fin ⟨t.pend, h.fine hl, by rw [hpe]; simp, fun _ => hpe⟩⟩
  | saveFail f hp hd =>
    have hl := hlive _ hp (by simp) (by simp)
    have hpe := h.due (Or.inl hp) hd
    exact ⟨h.it, h.rows, fun _ => h.len hl, fun _ => h.com hl, fun _ => h.fine hl, by simp, by simp, by simp,
      fun _ => h.imm hl, by simp, fun _ _ _ => by show t.pend.length ≤ 1; rw [hpe]; simp, by simp, fun _ _ _ _ _ => hpe, saves_append h.cnt (snap_count h hl),
      saves_append h.fin ⟨t.pend, h.fine hl, by rw [hpe]; simp, fun _ => hpe⟩⟩
  | finalSaved hp hd =>
    have hl := hlive _ hp (by simp) (by simp)
    exact ⟨h.it, h.rows, fun _ => h.len hl, fun _ => h.com hl, fun _ => h.fine hl, fun _ => h.yld (by rw [hp]; simp), by simp, by simp,
      fun _ => h.imm hl, fun _ => h.one (by rw [hp]; simp), by simp, by simp, by simp, h.cnt, h.fin⟩
  | finalDrainFail hp hne hd =>
    refine ⟨h.it, h.rows, ?_, ?_, ?_, by simp, by simp, by simp, ?_, by simp, ?_, by simp, ?_, h.cnt, h.fin⟩
    all_goals simp [live]
  | finalSave hp hne hd =>
    have hl := hlive _ hp (by simp) (by simp)
    obtain ⟨p, h1, h2, h3, h4⟩ := drain_spec _ _ hd
    have hf := (h.fine hl).drain hd
    exact ⟨h.it, h.rows, fun _ => h.len hl, fun _ => h.com hl, fun _ => hf, fun _ => h.yld (by rw [hp]; simp), by simp, by simp,
      fun _ _ => h4 rfl, fun _ => h3, by simp, by simp, by simp, saves_append h.cnt (snap_count h hl),
      saves_append h.fin ⟨_, hf, h3, fun _ => h4 rfl⟩⟩
  | finalSaveFail f hp hne hd =>
    have hl := hlive _ hp (by simp) (by simp)
    obtain ⟨p, h1, h2, h3, h4⟩ := drain_spec _ _ hd
    have hf := (h.fine hl).drain hd
    exact ⟨h.it, h.rows, fun _ => h.len hl, fun _ => h.com hl, fun _ => hf, by simp, by simp, by simp,
      fun _ _ => h4 rfl, by simp, fun _ _ _ => h3, by simp, fun _ _ _ _ _ => h4 rfl, saves_append h.cnt (snap_count h hl),
      saves_append h.fin ⟨_, hf, h3, fun _ => h4 rfl⟩⟩
  | finish hp =>
    have hl := hlive _ hp (by simp) (by simp)
    exact ⟨h.it, h.rows, fun _ => h.len hl, fun _ => h.com hl, fun _ => h.fine hl, by simp, by simp, by simp,
      fun _ => h.imm hl, by simp, by simp, by simp, by simp, h.cnt, h.fin⟩
  | flushFail hp =>
    have hl := hlive _ hp (by simp) (by simp)
    exact ⟨h.it, h.rows, fun _ => h.len hl, fun _ => h.com hl, fun _ => h.fine hl, by simp, by simp, by simp,
      fun _ => h.imm hl, by simp, fun _ _ _ => h.one (by rw [hp]; simp), by simp, by simp, h.cnt, h.fin⟩
  | emergency hp h1 h2 h3 h4 =>
    have hl : live t := Or.inr ⟨h1, h2⟩
    exact ⟨h.it, h.rows, fun _ => h.len hl, fun _ => h.com hl, fun _ => h.fine hl, by simp, by simp, by simp,
      fun _ => h.imm hl, by simp, by simp, by simp, by simp, saves_append h.cnt (snap_count h hl),
      saves_append h.fin ⟨t.pend, h.fine hl, h.oneR hp h1 h2, fun hi => h.rais hi hp h1 h2 h3⟩⟩
  | giveUp hp hn =>
    refine ⟨h.it, h.rows, ?_, ?_, ?_, by simp, by simp, by simp, ?_, by simp, by simp, by simp, by simp, h.cnt, h.fin⟩
    all_goals
      intro hl
      rcases hl with hl | hl
      · exact absurd rfl (hl.2 false)
    · exact h.len (Or.inr hl)
    · exact h.com (Or.inr hl)
    · exact h.fine (Or.inr hl)
    · exact h.imm (Or.inr hl)

theorem inv_exec {c : Cfg} {it rows pos : Nat} {last : Option Nat} {t : T} (ha : 1 ≤ c.a) (h : Exec c (T.start it rows pos last) t) :
    Inv c it rows pos t := by
  induction h with
  | refl => exact inv_start ..
  | step _ hs ih => exact inv_step ha ih hs

/-- **C42.** If the loop is not interrupted asynchronously while it holds `_checkpoint_safe`, every checkpoint it attempts (periodic, final or
emergency, after any failures) contains only updates whose loss, metrics and gradient norm were finite.
Missing from the full property: asynchronous interrupts (`C42_interrupt_at_most_last`, `C42_interrupt_witness`). -/
theorem C42_finite_checkpoints_partial {c : Cfg} {it rows pos : Nat} {last : Option Nat} {t : T} (ha : 1 ≤ c.a) (hi : c.intr = false)
    (h : Exec c (T.start it rows pos last) t) : ∀ s ∈ t.saves, ∀ b ∈ s.applied, b = true := by
  intro s hs
  obtain ⟨q, ⟨ok, h1, h2⟩, _, h3⟩ := (inv_exec ha h).fin s hs
  rw [h1, h3 hi, List.append_nil]
  exact h2

/-- **C42 (with interrupts).** Whatever happens, a checkpoint contains at most one update that was not finite, and it is the very last one;
with more than one process or a gradient scaler it contains none. -/
theorem C42_interrupt_at_most_last {c : Cfg} {it rows pos : Nat} {last : Option Nat} {t : T} (ha : 1 ≤ c.a)
    (h : Exec c (T.start it rows pos last) t) : ∀ s ∈ t.saves, ∀ b ∈ s.applied.dropLast, b = true := by
  intro s hs
  obtain ⟨q, ⟨ok, h1, h2⟩, h3, _⟩ := (inv_exec ha h).fin s hs
  intro b hb
  rw [h1] at hb
  rcases q with _ | ⟨x, _ | ⟨y, q⟩⟩
  · rw [List.append_nil] at hb
    exact h2 b (List.dropLast_subset _ hb)
  · rw [List.dropLast_concat] at hb
    exact h2 b hb
  · simp at h3

theorem imm_applied {c : Cfg} {it rows pos : Nat} {last : Option Nat} {t : T} (hd : c.deferred = false)
    (h : Exec c (T.start it rows pos last) t) : (t.pc ≠ .raised ∧ (∀ b, t.pc ≠ .done b) → ∀ b ∈ t.applied, b = true) ∧
    (∀ s ∈ t.saves, ∀ b ∈ s.applied, b = true) ∧ (t.pc = .raised → t.safe = true → t.div = false → ∀ b ∈ t.applied, b = true) ∧
    (t.pc ∈ [.body, .fetched, .stepped, .drained] → t.safe = false) := by
  induction h with
  | refl => simp [T.start]
  | step _ hs ih =>
    obtain ⟨i1, i2, i3, i4⟩ := ih
    have sv : ∀ {t : T}, (∀ s ∈ t.saves, ∀ b ∈ s.applied, b = true) → (∀ b ∈ t.applied, b = true) →
        ∀ s ∈ t.saves ++ [t.snap], ∀ b ∈ s.applied, b = true := by
      intro t h1 h2
      exact saves_append (P := fun s => ∀ b ∈ s.applied, b = true) h1 h2
    cases hs with
    | interrupt hi hp =>
      have := i1 (by rcases hp with hp | hp | hp | hp <;> rw [hp] <;> simp)
      exact ⟨by simp, i2, fun _ _ _ => this, by simp⟩
    | enter hp => exact ⟨fun _ => i1 (by rw [hp]; simp), i2, by simp, by simp⟩
    | leave hp => exact ⟨fun _ => i1 (by rw [hp]; simp), i2, by simp, by simp⟩
    | fetch hp => exact ⟨fun _ => i1 (by rw [hp]; simp), i2, by simp, fun _ => i4 (by rw [hp]; simp)⟩
    | fetchFail k d hp =>
      have hns := i4 (by rw [hp]; simp)
      exact ⟨by simp, i2, fun _ hs' => clash hns hs', by simp⟩
    | step fin hp hfin =>
      refine ⟨fun _ b hb => ?_, i2, by simp, fun _ => i4 (by rw [hp]; simp)⟩
      rcases List.mem_append.mp hb with hb | hb
      · exact i1 (by rw [hp]; simp) b hb
      · rw [List.mem_singleton] at hb; rw [hb]; exact hfin hd
    | stepFail k mutated queued commit d hp hcm =>
      have hns := i4 (by rw [hp]; simp)
      exact ⟨by simp, i2, fun _ hs' => clash hns hs', by simp⟩
    | opFail d hp =>
      have hns := i4 (by rcases hp with hp | hp <;> rw [hp] <;> simp)
      exact ⟨by simp, i2, fun _ hs' => clash hns hs', by simp⟩
    | drainOk hp => exact ⟨fun _ => i1 (by rw [hp]; simp), i2, by simp, fun _ => i4 (by rw [hp]; simp)⟩
    | drainFail hp => exact ⟨by simp, i2, by simp, by simp⟩
    | ready hp => exact ⟨fun _ => i1 (by rw [hp]; simp), i2, by simp, by simp⟩
    | noSave hp => exact ⟨fun _ => i1 (by rw [hp]; simp), i2, by simp, by simp⟩
    | save hp => exact ⟨fun _ => i1 (by rw [hp]; simp), sv i2 (i1 (by rw [hp]; simp)), by simp, by simp⟩
    | saveFail f hp => exact ⟨by simp, sv i2 (i1 (by rw [hp]; simp)), fun _ _ _ => i1 (by rw [hp]; simp), by simp⟩
    | finalSaved hp => exact ⟨fun _ => i1 (by rw [hp]; simp), i2, by simp, by simp⟩
    | finalDrainFail hp => exact ⟨by simp, i2, by simp, by simp⟩
    | finalSave hp => exact ⟨fun _ => i1 (by rw [hp]; simp), sv i2 (i1 (by rw [hp]; simp)), by simp, by simp⟩
    | finalSaveFail f hp => exact ⟨by simp, sv i2 (i1 (by rw [hp]; simp)), fun _ _ _ => i1 (by rw [hp]; simp), by simp⟩
    | finish hp => exact ⟨by simp, i2, by simp, by simp⟩
    | flushFail hp => exact ⟨by simp, i2, fun _ _ _ => i1 (by rw [hp]; simp), by simp⟩
    | emergency hp h1 h2 => exact ⟨by simp, sv i2 (i3 hp h1 h2), by simp, by simp⟩
    | giveUp hp => exact ⟨by simp, i2, by simp, by simp⟩

/-- **C42 (immediate checks).** With several processes or a gradient scaler, no checkpoint ever contains a non-finite update, even with
interrupts. -/
theorem C42_immediate {c : Cfg} {it rows pos : Nat} {last : Option Nat} {t : T} (hd : c.deferred = false)
    (h : Exec c (T.start it rows pos last) t) : ∀ s ∈ t.saves, ∀ b ∈ s.applied, b = true := (imm_applied hd h).2.1

/-- **C42 (finding).** With the deferred check, an interrupt that arrives after `_checkpoint_safe` was set at the end of an iteration and
before it is cleared makes the handler save the effect of a step whose (non-finite) result has not been read back. -/
theorem C42_interrupt_witness : ∃ (c : Cfg) (t : T), c.a = 1 ∧ Exec c (T.start 0 0 0 none) t ∧ ∃ s ∈ t.saves, s.applied = [false] := by
  let c : Cfg := ⟨10, 1, 4, true, fun i => i % 10 = 0, fun _ => false, fun _ => true, true⟩
  have h1 := (Exec.refl (c := c) (t0 := T.start 0 0 0 none)).step (.enter rfl (by decide))
  have h2 := h1.step (.fetch rfl)
  have h3 := h2.step (.step false rfl (by intro h; cases h))
  have h4 := h3.step (.drainOk rfl rfl)
  have h5 := h4.step (.ready rfl)
  have h6 := h5.step (.noSave rfl rfl)
  have h7 := h6.step (.interrupt rfl (Or.inl rfl))
  have h8 := h7.step (.emergency rfl rfl rfl rfl (by simp [T.start]))
  exact ⟨c, _, rfl, h8, _, List.mem_singleton.mpr rfl, rfl⟩

/-- **C43.** At every moment the iteration counter is its initial value plus the number of training steps that returned, and the row counter
follows it; a step that raises changes neither. -/
theorem C43_counters {c : Cfg} {it rows pos : Nat} {last : Option Nat} {t : T} (ha : 1 ≤ c.a) (h : Exec c (T.start it rows pos last) t) :
    t.it = it + t.completed ∧ t.rows = rows + c.B * c.a * t.completed := ⟨(inv_exec ha h).it, (inv_exec ha h).rows⟩

/-- **C43 (checkpoints).** In every checkpoint attempted, the iteration, row counter and data position account for exactly the updates it
contains: no step is counted without its update or data, and no update or data is missing from the counters. -/
theorem C43_checkpoint_consistent {c : Cfg} {it rows pos : Nat} {last : Option Nat} {t : T} (ha : 1 ≤ c.a)
    (h : Exec c (T.start it rows pos last) t) : ∀ s ∈ t.saves, CountOk c it rows pos s := (inv_exec ha h).cnt

/-- **C43 (failed steps).** When the training step raises, the counters stay as they were before it, the sampler's next position is its
committed position, and this run writes no further checkpoint. -/
theorem C43_failed_step {c : Cfg} {it rows pos : Nat} {last : Option Nat} {t t1 t2 : T} (ha : 1 ≤ c.a) (h : Exec c (T.start it rows pos last) t)
    (hp : t.pc = .fetched) (hs : Step c t t1) (hf : t1.pc = .raised) (h2 : Exec c t1 t2) :
    t1.it = t.it ∧ t1.rows = t.rows ∧ t1.yielded = t1.committed ∧ t1.tokens = 0 ∧ t2.saves = t.saves := by
  have hi := inv_exec ha h
  have hns := hi.nsafe (by rw [hp]; simp)
  have key : t1.it = t.it ∧ t1.rows = t.rows ∧ t1.yielded = t1.committed ∧ t1.tokens = 0 ∧ t1.saves = t.saves ∧ t1.safe = false := by
    cases hs with
    | stepFail k mutated queued commit d hp' hcm => exact ⟨rfl, rfl, rfl, rfl, rfl, hns⟩
    | step fin hp' => simp at hf
    | interrupt _ hp' => rcases hp' with h' | h' | h' | h' <;> rw [hp] at h' <;> cases h'
    | fetchFail k d hp' => rw [hp] at hp'; cases hp'
    | opFail d hp' => rcases hp' with h' | h' <;> rw [hp] at h' <;> cases h'
    | enter hp' => rw [hp] at hp'; cases hp'
    | leave hp' => rw [hp] at hp'; cases hp'
    | fetch hp' => rw [hp] at hp'; cases hp'
    | drainOk hp' => rw [hp] at hp'; cases hp'
    | drainFail hp' => rw [hp] at hp'; cases hp'
    | ready hp' => rw [hp] at hp'; cases hp'
    | noSave hp' => rw [hp] at hp'; cases hp'
    | save hp' => rw [hp] at hp'; cases hp'
    | saveFail f hp' => rw [hp] at hp'; cases hp'
    | finalSaved hp' => rw [hp] at hp'; cases hp'
    | finalDrainFail hp' => rw [hp] at hp'; cases hp'
    | finalSave hp' => rw [hp] at hp'; cases hp'
    | finalSaveFail f hp' => rw [hp] at hp'; cases hp'
    | finish hp' => rw [hp] at hp'; cases hp'
    | flushFail hp' => rw [hp] at hp'; cases hp'
    | emergency hp' => rw [hp] at hp'; cases hp'
    | giveUp hp' => rw [hp] at hp'; cases hp'
  obtain ⟨k1, k2, k3, k4, k5, k6⟩ := key
  refine ⟨k1, k2, k3, k4, ?_⟩
  rw [← k5]
  have : t2.saves = t1.saves ∧ t2.safe = false ∧ (t2.pc = .raised ∨ t2.pc = .done false) := by
    clear h
    induction h2 with
    | refl => exact ⟨rfl, k6, Or.inl hf⟩
    | step _ hs' ih =>
      obtain ⟨e1, e2, e3⟩ := ih
      cases hs' with
      | giveUp hp' => exact ⟨e1, e2, Or.inr rfl⟩
      | emergency hp' h1 => rw [e2] at h1; cases h1
      | interrupt _ hp' => rcases e3 with e3 | e3 <;> rcases hp' with h' | h' | h' | h' <;> rw [e3] at h' <;> cases h'
      | opFail d hp' => rcases e3 with e3 | e3 <;> rcases hp' with h' | h' <;> rw [e3] at h' <;> cases h'
      | fetchFail k d hp' => rcases e3 with e3 | e3 <;> rw [e3] at hp' <;> cases hp'
      | step fin hp' => rcases e3 with e3 | e3 <;> rw [e3] at hp' <;> cases hp'
      | stepFail k mutated queued commit d hp' hcm => rcases e3 with e3 | e3 <;> rw [e3] at hp' <;> cases hp'
      | enter hp' => rcases e3 with e3 | e3 <;> rw [e3] at hp' <;> cases hp'
      | leave hp' => rcases e3 with e3 | e3 <;> rw [e3] at hp' <;> cases hp'
      | fetch hp' => rcases e3 with e3 | e3 <;> rw [e3] at hp' <;> cases hp'
      | drainOk hp' => rcases e3 with e3 | e3 <;> rw [e3] at hp' <;> cases hp'
      | drainFail hp' => rcases e3 with e3 | e3 <;> rw [e3] at hp' <;> cases hp'
      | ready hp' => rcases e3 with e3 | e3 <;> rw [e3] at hp' <;> cases hp'
      | noSave hp' => rcases e3 with e3 | e3 <;> rw [e3] at hp' <;> cases hp'
      | save hp' => rcases e3 with e3 | e3 <;> rw [e3] at hp' <;> cases hp'
      | saveFail f hp' => rcases e3 with e3 | e3 <;> rw [e3] at hp' <;> cases hp'
      | finalSaved hp' => rcases e3 with e3 | e3 <;> rw [e3] at hp' <;> cases hp'
      | finalDrainFail hp' => rcases e3 with e3 | e3 <;> rw [e3] at hp' <;> cases hp'
      | finalSave hp' => rcases e3 with e3 | e3 <;> rw [e3] at hp' <;> cases hp'
      | finalSaveFail f hp' => rcases e3 with e3 | e3 <;> rw [e3] at hp' <;> cases hp'
      | finish hp' => rcases e3 with e3 | e3 <;> rw [e3] at hp' <;> cases hp'
      | flushFail hp' => rcases e3 with e3 | e3 <;> rw [e3] at hp' <;> cases hp'
  exact this.1

structure Fin (c : Cfg) (it0 : Nat) (last0 : Option Nat) (t : T) : Prop where
  below : t.pc = .body ∨ t.pc = .fetched → t.it < c.N
  le : t.it ≤ max it0 c.N
  over : t.pc = .final ∨ t.pc = .flush ∨ t.pc = .done true → c.N ≤ t.it
  ge : it0 ≤ t.it
  saved : t.pc = .flush ∨ t.pc = .done true → t.last = some t.it
  last : ∀ j, t.last = some j → last0 = some j ∨ ∃ s ∈ t.saves, s.it = j

theorem fin_exec {c : Cfg} {it rows pos : Nat} {last : Option Nat} {t : T} (h : Exec c (T.start it rows pos last) t) : Fin c it last t := by
  induction h with
  | refl => constructor <;> simp [T.start] <;> omega
  | step _ hs ih =>
    have more : ∀ {l : List Snap} {x : Snap} {j : Nat}, (last = some j ∨ ∃ s ∈ l, s.it = j) → (last = some j ∨ ∃ s ∈ l ++ [x], s.it = j) := by
      rintro l x j (h | ⟨s, hs, h⟩)
      · exact Or.inl h
      · exact Or.inr ⟨s, List.mem_append_left _ hs, h⟩
    cases hs with
    | interrupt hi hp => exact ⟨by simp, ih.le, by simp, ih.ge, by simp, ih.last⟩
    | enter hp hlt => exact ⟨fun _ => hlt, ih.le, by simp, ih.ge, by simp, ih.last⟩
    | leave hp hlt => exact ⟨by simp, ih.le, fun _ => hlt, ih.ge, by simp, ih.last⟩
    | fetch hp => exact ⟨fun _ => ih.below (Or.inl hp), ih.le, by simp, ih.ge, by simp, ih.last⟩
    | fetchFail k d hp => exact ⟨by simp, ih.le, by simp, ih.ge, by simp, ih.last⟩
    | step fin hp hfin =>
      have h1 := ih.below (Or.inr hp)
      have h2 := ih.ge
      exact ⟨by simp, by show _ + 1 ≤ _; omega, by simp, by show _ ≤ _ + 1; omega, by simp, ih.last⟩
    | stepFail k mutated queued commit d hp hcm => exact ⟨by simp, ih.le, by simp, ih.ge, by simp, ih.last⟩
    | opFail d hp => exact ⟨by simp, ih.le, by simp, ih.ge, by simp, ih.last⟩
    | drainOk hp => exact ⟨by simp, ih.le, by simp, ih.ge, by simp, ih.last⟩
    | drainFail hp => exact ⟨by simp, ih.le, by simp, ih.ge, by simp, ih.last⟩
    | ready hp => exact ⟨by simp, ih.le, by simp, ih.ge, by simp, ih.last⟩
    | noSave hp => exact ⟨by simp, ih.le, by simp, ih.ge, by simp, ih.last⟩
    | save hp =>
      refine ⟨by simp, ih.le, by simp, ih.ge, by simp, ?_⟩
      intro j hj
      simp only at hj
      split at hj
      · cases hj; exact Or.inr ⟨_, List.mem_append_right _ (List.mem_singleton.mpr rfl), rfl⟩
      · exact more (ih.last j hj)
    | saveFail f hp => exact ⟨by simp, ih.le, by simp, ih.ge, by simp, fun j hj => more (ih.last j hj)⟩
    | finalSaved hp hl => exact ⟨by simp, ih.le, fun _ => ih.over (Or.inl hp), ih.ge, fun _ => hl, ih.last⟩
    | finalDrainFail hp => exact ⟨by simp, ih.le, by simp, ih.ge, by simp, ih.last⟩
    | finalSave hp =>
      refine ⟨by simp, ih.le, fun _ => ih.over (Or.inl hp), ih.ge, fun _ => rfl, ?_⟩
      intro j hj
      cases hj
      exact Or.inr ⟨_, List.mem_append_right _ (List.mem_singleton.mpr rfl), rfl⟩
    | finalSaveFail f hp => exact ⟨by simp, ih.le, by simp, ih.ge, by simp, fun j hj => more (ih.last j hj)⟩
    | finish hp => exact ⟨by simp, ih.le, fun _ => ih.over (Or.inr (Or.inl hp)), ih.ge, fun _ => ih.saved (Or.inl hp), ih.last⟩
    | flushFail hp => exact ⟨by simp, ih.le, by simp, ih.ge, by simp, ih.last⟩
    | emergency hp => exact ⟨by simp, ih.le, by simp, ih.ge, by simp, fun j hj => more (ih.last j hj)⟩
    | giveUp hp => exact ⟨by simp, ih.le, by simp, ih.ge, by simp, ih.last⟩

/-- **C43 (normal end).** The loop never goes past `iterations`; when it ends normally the counter is exactly `iterations` (or where it
started, if that was already beyond) and that iteration's state has been saved, unless it is the one the run was resumed from. -/
theorem C43_normal_end {c : Cfg} {it rows pos : Nat} {last : Option Nat} {t : T} (h : Exec c (T.start it rows pos last) t) :
    t.it ≤ max it c.N ∧ (t.pc = .done true → t.it = max it c.N ∧ (last = some t.it ∨ ∃ s ∈ t.saves, s.it = t.it)) := by
  have hf := fin_exec h
  refine ⟨hf.le, fun hp => ?_⟩
  have h1 := hf.over (Or.inr (Or.inr hp))
  have h2 := hf.ge
  have h3 := hf.le
  exact ⟨by omega, hf.last _ (hf.saved (Or.inr hp))⟩

/-- A run of two iterations resumed at iteration 5 with deferred checks: it saves at iteration 6 and at the end, both with finite updates. -/
example : ∃ t, Exec ⟨7, 2, 3, true, fun i => i % 2 = 0, fun _ => false, fun _ => true, false⟩ (T.start 5 30 10 (some 5)) t ∧ t.pc = .done true ∧
    t.saves.map (fun s => (s.it, s.rows, s.applied, s.pos)) = [(6, 36, [true], 12), (7, 42, [true, true], 14)] := by
  have h1 := (Exec.refl (c := ⟨7, 2, 3, true, fun i => i % 2 = 0, fun _ => false, fun _ => true, false⟩) (t0 := T.start 5 30 10 (some 5))).step (.enter rfl (by decide))
  have h2 := ((h1.step (.fetch rfl)).step (.step true rfl (by intro h; rfl))).step (.drainOk rfl rfl)
  have h3 := (h2.step (.ready rfl)).step (.save rfl rfl)
  have h4 := ((h3.step (.enter rfl (by decide))).step (.fetch rfl)).step (.step true rfl (by intro h; rfl))
  have h5 := ((h4.step (.drainOk rfl rfl)).step (.ready rfl)).step (.noSave rfl rfl)
  have h6 := (h5.step (.leave rfl (by decide))).step (.finalSave rfl (by simp [T.start, T.snap]) rfl)
  exact ⟨_, h6.step (.finish rfl), rfl, rfl⟩

end Verif.Ckpt.Loop
