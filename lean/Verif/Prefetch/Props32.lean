import Verif.Prefetch.CudaLemmas
import Verif.Prefetch.SlotLemmas

/-!
# C32: the CUDA prefetch loader; C69: the static-slot loader
-/
namespace Verif.Prefetch.Cuda
variable {α : Type}

/-- The batches of a source up to and including its first terminal one. -/
def upTo : List (α × Bool) → List α
  | [] => []
  | (x, true) :: _ => [x]
  | (x, false) :: l => x :: upTo l

theorem upTo_append_false : ∀ (a b : List (α × Bool)), (∀ x ∈ a, x.2 = false) → upTo (a ++ b) = a.map (·.1) ++ upTo b
  | [], b, _ => rfl
  | (x, t) :: a, b, h => by
    have ht : t = false := h (x, t) (List.mem_cons_self ..)
    subst ht
    simp [upTo, upTo_append_false a b (fun y hy => h y (List.mem_cons_of_mem _ hy))]

theorem taken_prefix {P : Nat} {src : List (α × Bool)} {s : St α} (hi : CInv P src s) : ∃ t, upTo src = s.taken.map (·.1) ++ t ∧
    (s.exhausted = true → t = []) := by
  by_cases hterm : ∃ b ∈ s.taken, b.2 = true
  · obtain ⟨b, hb, hbt⟩ := hterm
    obtain ⟨a, c, hac⟩ := List.append_of_mem hb
    have hc := hi.last a b c hac hbt
    subst hc
    have hfa : ∀ x ∈ a, x.2 = false := by
      intro x hx
      cases hx2 : x.2 with
      | false => rfl
      | true =>
        obtain ⟨a1, a2, rfl⟩ := List.append_of_mem hx
        have := hi.last a1 x (a2 ++ [b]) (by rw [hac]; simp) hx2
        simp at this
    refine ⟨[], ?_, fun _ => rfl⟩
    obtain ⟨x, t⟩ := b
    simp only at hbt
    subst hbt
    rw [hi.src, hac, List.append_assoc, upTo_append_false _ _ hfa]
    simp [upTo]
  · have hfa : ∀ x ∈ s.taken, x.2 = false := by
      intro x hx
      cases hx2 : x.2 with
      | false => rfl
      | true => exact absurd ⟨x, hx, hx2⟩ hterm
    refine ⟨upTo s.rest, by rw [hi.src, upTo_append_false _ _ hfa], fun hex => ?_⟩
    rcases hi.exh hex with hr | ⟨a, b, hab, hb⟩
    · rw [hr]; rfl
    · exact absurd ⟨b, by rw [hab]; simp, hb⟩ hterm

/-- **C32 (order).** At every moment the yielded batches are an initial part of the source up to its first terminal batch. -/
theorem C32_order (P : Nat) (hP : 0 < P) (src : List (α × Bool)) (n : Nat) (s : St α) (h : Exec P src n s) : s.out <+: upTo src := by
  have hi := cinv_exec hP h
  obtain ⟨t, ht, _⟩ := taken_prefix hi
  obtain ⟨t', ht'⟩ := hi.flow'
  exact ⟨t' ++ t, by rw [ht, ht']; simp⟩

/-- **C32 (completion).** The loader never deadlocks: it stops only closed, and unless the consumer closed it early it has
yielded every batch up to and including the terminal one. -/
theorem C32_complete (P : Nat) (hP : 0 < P) (src : List (α × Bool)) (n : Nat) (s : St α) (h : Exec P src n s)
    (hstuck : ∀ s', ¬ Step P s s') : s.phase = .closed ∧ (s.early = false → s.out = upTo src) := by
  have hi := cinv_exec hP h
  have hc := cuda_progress hi hstuck
  refine ⟨hc, fun he => ?_⟩
  obtain ⟨t, ht, htn⟩ := taken_prefix hi
  have hd := hi.done
  rw [hc] at hd
  obtain ⟨h1, h2⟩ := hd he trivial
  rw [ht, htn h1, List.append_nil, h2]

/-- … in a bounded number of steps. -/
theorem C32_terminates (P : Nat) (hP : 0 < P) (src : List (α × Bool)) (n : Nat) (s : St α) (h : Exec P src n s) :
    n ≤ 21 * src.length + 9 := by
  have := exec_weight hP h
  have he : weight (start src) = 21 * src.length + 9 := by simp [weight, start, wPhase]; omega
  omega

/-- **C32 (no probing).** `next(source)` is called at most once per batch up to the terminal one, and once more only if the source
has no terminal batch. -/
theorem C32_no_probe_past_terminal (P : Nat) (hP : 0 < P) (src : List (α × Bool)) (n : Nat) (s : St α) (h : Exec P src n s) :
    s.pulls ≤ (upTo src).length + 1 ∧ ((∃ b ∈ src, b.2 = true) → s.pulls ≤ (upTo src).length) := by
  have hi := cinv_exec hP h
  obtain ⟨t, ht, htn⟩ := taken_prefix hi
  have hlen := congrArg List.length ht
  simp only [List.length_append, List.length_map] at hlen
  have hp := hi.pulls'
  refine ⟨by omega, fun ⟨b, hb, hbt⟩ => ?_⟩
  cases hex : s.exhausted with
  | false =>
    have := hi.pulls hex
    omega
  | true =>
    have hm : ∃ b ∈ s.taken, b.2 = true := by
      rcases hi.exh hex with hr | ⟨a, b, hab, hb⟩
      · rw [hi.src, hr, List.append_nil] at hb
        exact ⟨b, hb, hbt⟩
      · exact ⟨b, by rw [hab]; simp, hb⟩
    have := hi.pulls'' hm
    omega

/-- **C32 (bounds).** At most `prefetch_batches` batches are queued, at most one more are taken from the source than yielded plus
that (none more while the consumer holds a batch), and at most `prefetch_batches + 1` host batches are kept for copies. -/
theorem C32_bounds (P : Nat) (hP : 0 < P) (src : List (α × Bool)) (n : Nat) (s : St α) (h : Exec P src n s) :
    s.pending.length ≤ P ∧ s.retired.length ≤ P + 1 ∧
    (s.phase.live = true → s.taken.length ≤ s.out.length + P + 1) ∧ (s.phase = .head → s.taken.length ≤ s.out.length + P) := by
  have hi := cinv_exec hP h
  have hp := hi.pend
  have hcl : s.phase.cur.length ≤ 1 := by
    cases hph : s.phase with
    | fill cur => cases cur <;> simp [Phase.cur]
    | _ => simp [Phase.cur]
  refine ⟨hp, hi.ret, fun hl => ?_, fun hh => ?_⟩
  · have := congrArg List.length (hi.flow hl)
    simp at this
    omega
  · have hf := hi.flow
    rw [hh] at hf
    have := congrArg List.length (hf rfl)
    simp [Phase.cur] at this
    omega

/-- **C32 (host buffers).** As long as the copy of a taken batch has not completed, its host batch is referenced by the queue or by the
list of retired hosts. -/
theorem C32_host_alive (P : Nat) (hP : 0 < P) (src : List (α × Bool)) (n : Nat) (s : St α) (h : Exec P src n s)
    (i : Nat) (hi : i < s.taken.length) (hcopy : s.copied ≤ i) : i ∈ s.retired ∨ i ∈ s.pending.map (·.1) := by
  have hv := cinv_exec hP h
  by_cases hc : s.phase = .closed
  · have := hv.closed hc
    omega
  · by_cases hlt : i + s.pending.length < s.taken.length
    · rcases hv.held hc i hlt with hm | hm
      · exact Or.inl hm
      · omega
    · right
      rw [hv.idx, List.mem_range'_1]
      omega

/-- **C32 (device order).** On the consumer's stream the work using batch `i` is always behind the wait for copy `i`, and a
batch is used exactly when it was yielded. -/
theorem C32_use_after_copy (P : Nat) (hP : 0 < P) (src : List (α × Bool)) (n : Nat) (s : St α) (h : Exec P src n s) :
    (∀ a i b, s.compute = a ++ .use i :: b → .wait i ∈ a) ∧ ∀ i, .use i ∈ s.compute ↔ i < s.out.length := by
  have hi := cinv_exec hP h
  exact ⟨hi.ord, hi.uses⟩

/-! ### Non-vacuity: three batches, the second terminal, one queued batch -/

def demoSrc : List (Nat × Bool) := [(10, false), (20, true), (30, false)]

example : upTo demoSrc = [10, 20] := rfl

/-- The first batch is yielded while the second is queued and no copy has completed. -/
example : ∃ n s, Exec 1 demoSrc n s ∧ s.out = [10] ∧ s.pending = [(1, 20)] ∧ s.copied = 0 ∧ s.retired = [0] := by
  have e1 := Exec.step (P := 1) (src := demoSrc) .refl (.fill rfl (by decide) rfl)
  have e2 := Exec.step e1 (.filled rfl (by decide))
  have e3 := Exec.step e2 (.queried rfl (by decide) (by simp [yielded, enqueue, start, demoSrc]))
  have e4 := Exec.step e3 (.nosync rfl (by decide))
  have e5 := Exec.step e4 (.pop (i := 0) (x := 10) (r := []) rfl rfl)
  have e6 := Exec.step e5 (.fill rfl (by decide) rfl)
  have e7 := Exec.step e6 (.filled rfl (by decide))
  exact ⟨_, _, e7, rfl, rfl, rfl, rfl⟩

/-! ## C69: static slots -/

variable {ν : Type} [DecidableEq ν]

/-- **C69 (no torn reads).** In every interleaving of the copy stream and the compute stream, every read made by step `i` sees exactly
the contents of batch `i`, and reads of the previous epoch's last step still queued at the start see the previous contents. -/
theorem C69_reads_see_own_batch (names old : List ν) (uses : Nat → List ν) (hu : ∀ i, ∀ m ∈ uses i, m ∈ names) (n : Nat)
    (slot0 : ν → Option Nat) (d : Dev ν) (h : DExec (dstart names old uses n slot0) d) :
    ∀ r ∈ d.reads, (∀ i, r.1 = some i → r.2.2 = some i) ∧ (r.1 = none → r.2.2 = slot0 r.2.1) := by
  obtain ⟨cp, kp, hi⟩ := dinv_exec hu h
  intro r hr
  have := hi.reads r hr
  unfold readOk at this
  refine ⟨fun i he => ?_, fun he => ?_⟩
  · rw [he] at this; exact this
  · rw [he] at this; exact this

/-- **C69 (no deadlock).** The two streams never wait for each other: a device state with nothing to run has finished both queues. -/
theorem C69_no_deadlock (names old : List ν) (uses : Nat → List ν) (hu : ∀ i, ∀ m ∈ uses i, m ∈ names) (n : Nat)
    (slot0 : ν → Option Nat) (d : Dev ν) (h : DExec (dstart names old uses n slot0) d) (hstuck : ∀ d', ¬ DStep d d') :
    d.copy = [] ∧ d.compute = [] := by
  obtain ⟨cp, kp, hi⟩ := dinv_exec hu h
  exact dev_progress hi hstuck

theorem schemaRun_some {σ : Type} [DecidableEq σ] (t : σ) : ∀ (l : List σ), (schemaRun (some t) l).1 = (l.takeWhile (· == t)).length ∧
    ((schemaRun (some t) l).2 = true ↔ ∀ s ∈ l, s = t)
  | [] => by simp [schemaRun]
  | s :: l => by
    obtain ⟨h1, h2⟩ := schemaRun_some t l
    rw [schemaRun]
    by_cases h : s = t
    · subst h
      simp [h1, h2]
    · simp [h]

/-- **C69 (schema).** A run is accepted to its end exactly when all batches have the first one's schema, and it stops at the first batch
that differs. -/
theorem C69_schema (σ : Type) [DecidableEq σ] (s : σ) (l : List σ) :
    (schemaRun none (s :: l)).1 = 1 + (l.takeWhile (· == s)).length ∧ ((schemaRun none (s :: l)).2 = true ↔ ∀ s' ∈ l, s' = s) := by
  obtain ⟨h1, h2⟩ := schemaRun_some s l
  rw [schemaRun]
  exact ⟨by simp [h1]; omega, h2⟩

/-- Non-vacuity: two batches, one slot; step 0 reads batch 0. -/
example : ∃ d, DExec (dstart [5] [5] (fun _ => [5]) 2 (fun _ => some 7)) d ∧
    d.reads = [(none, 5, some 7), (some 0, 5, some 0)] := by
  have e1 := DExec.step (d0 := dstart [5] [5] (fun _ => [5]) 2 (fun _ => some 7)) .refl (.compute rfl rfl)
  have e2 := DExec.step e1 (.compute rfl rfl)
  have e3 := DExec.step e2 (.copy rfl rfl)
  have e4 := DExec.step e3 (.copy rfl rfl)
  have e5 := DExec.step e4 (.copy rfl rfl)
  have e6 := DExec.step e5 (.compute rfl rfl)
  have e7 := DExec.step e6 (.compute rfl rfl)
  exact ⟨_, e7, rfl⟩

end Verif.Prefetch.Cuda
