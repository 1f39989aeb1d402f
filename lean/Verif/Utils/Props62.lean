/-
C62: the buffered event file preserves the byte stream.
-/
import Verif.Utils.Buffered
import Mathlib.Tactic.SplitIfs
import Mathlib.Tactic.Linarith

namespace Verif.Utils

/-! ### Specification -/

/-- The bytes handed to the writer by a history: every `write` call's data, in order. -/
def stream : List Op → List Byte
  | [] => []
  | .write d _ :: ops => d ++ stream ops
  | _ :: ops => stream ops

/-- No failing file write leaves part of its data behind. -/
def Atomic : Op → Prop
  | .write _ o => o = .ok ∨ o = .raise 0
  | .flush o _ => o = .ok ∨ o = .raise 0
  | .close o => o = .ok ∨ o = .raise 0

/-- The stock writer without the shim: every `write` goes straight to the file. -/
def direct (file : List Byte) : List Op → List Byte
  | [] => file
  | .write d _ :: ops => direct (file ++ d) ops
  | _ :: ops => direct file ops

/-! ### Lemmas -/

theorem drain_keeps (s : Shim) (o : WriteOut) (h : o = .ok ∨ o = .raise 0) :
    (s.drain o).1.inner.content ++ (s.drain o).1.buf = s.inner.content ++ s.buf := by
  unfold Shim.drain Inner.write Inner.content
  rcases h with rfl | rfl <;> split_ifs <;> simp_all

theorem step_keeps (s : Shim) (op : Op) (h : Atomic op) :
    (s.step op).1.inner.content ++ (s.step op).1.buf
      = s.inner.content ++ s.buf ++ stream [op] := by
  cases op with
  | write d o =>
    simp only [Shim.step, Shim.write, stream, List.append_nil]
    have := drain_keeps { s with buf := s.buf ++ d } o h
    split_ifs <;> simp_all
  | flush o f =>
    have := drain_keeps s o h
    simp only [Shim.step, Shim.flush, stream, List.append_nil]
    split_ifs <;> simpa [Inner.content] using this
  | close o =>
    have := drain_keeps s o h
    simpa [Shim.step, Shim.close, stream, Inner.content] using this

theorem stream_cons (op : Op) (ops : List Op) : stream (op :: ops) = stream [op] ++ stream ops := by
  cases op <;> simp [stream]

theorem run_append (s : Shim) (a b : List Op) : s.run (a ++ b) = (s.run a).run b := by
  induction a generalizing s with
  | nil => rfl
  | cons op ops ih => simp [Shim.run, ih]

theorem run_keeps (s : Shim) (ops : List Op) (h : ∀ op ∈ ops, Atomic op) :
    (s.run ops).inner.content ++ (s.run ops).buf = s.inner.content ++ s.buf ++ stream ops := by
  induction ops generalizing s with
  | nil => simp [Shim.run, stream]
  | cons op ops ih =>
    rw [Shim.run, ih _ (fun o ho => h o (List.mem_cons_of_mem _ ho)),
      step_keeps s op (h op List.mem_cons_self), stream_cons op ops]
    simp

theorem direct_eq (file : List Byte) (ops : List Op) : direct file ops = file ++ stream ops := by
  induction ops generalizing file with
  | nil => simp [direct, stream]
  | cons op ops ih => cases op <;> simp [direct, stream, ih]

theorem drain_ok_empty (s : Shim) (o : WriteOut) (h : (s.drain o).2 = true) :
    (s.drain o).1.buf = [] := by
  unfold Shim.drain at *
  by_cases h1 : s.buf = []
  · simp [h1]
  · by_cases h2 : (s.inner.write s.buf o).2 = true <;> simp_all

theorem step_capacity (s : Shim) (op : Op) : (s.step op).1.capacity = s.capacity := by
  cases op <;> simp only [Shim.step, Shim.write, Shim.flush, Shim.close, Shim.drain] <;>
    split_ifs <;> rfl

theorem run_capacity (s : Shim) (ops : List Op) : (s.run ops).capacity = s.capacity := by
  induction ops generalizing s with
  | nil => rfl
  | cons op ops ih => rw [Shim.run, ih, step_capacity]

/-! ### Theorems -/

/-- **C62 (nothing lost, nothing duplicated, order kept).** After any history of writes, flushes
and closes in which failing file writes are atomic, the file's content followed by the bytes
still buffered is the original content followed by exactly the bytes written, in order. -/
theorem C62_stream (inner : Inner) (cap : Nat) (ops : List Op) (h : ∀ op ∈ ops, Atomic op) :
    ((Shim.init inner cap).run ops).inner.content ++ ((Shim.init inner cap).run ops).buf
      = inner.content ++ stream ops := by
  simpa [Shim.init] using run_keeps (Shim.init inner cap) ops h

/-- **C62 (a reader only ever sees a prefix).** At every point of such a history the file holds a
prefix of what the unbuffered writer would have written. -/
theorem C62_prefix (inner : Inner) (cap : Nat) (ops : List Op) (h : ∀ op ∈ ops, Atomic op) :
    ((Shim.init inner cap).run ops).inner.content <+: direct inner.content ops := by
  rw [direct_eq]
  exact ⟨_, C62_stream inner cap ops h⟩

/-- **C62 (flushed).** When a `flush` returns, or a `close` returns, the file holds exactly what
the unbuffered writer would have written. -/
theorem C62_flushed (inner : Inner) (cap : Nat) (ops : List Op) (last : Op)
    (h : ∀ op ∈ ops ++ [last], Atomic op)
    (hkind : (∃ o f, last = .flush o f) ∨ (∃ o, last = .close o))
    (hret : (((Shim.init inner cap).run ops).step last).2 = .done) :
    ((Shim.init inner cap).run (ops ++ [last])).inner.content
      = direct inner.content (ops ++ [last]) := by
  have hs := C62_stream inner cap (ops ++ [last]) h
  have he : ((Shim.init inner cap).run (ops ++ [last])).buf = [] := by
    rw [run_append]
    simp only [Shim.run]
    generalize (Shim.init inner cap).run ops = s at *
    rcases hkind with ⟨o, f, rfl⟩ | ⟨o, rfl⟩
    · simp only [Shim.step, Shim.flush] at *
      split_ifs at * with h1 h2
      exact drain_ok_empty s o h1
    · simp only [Shim.step, Shim.close] at *
      split_ifs at * with h1
      exact drain_ok_empty s o h1
  rw [he, List.append_nil] at hs
  rw [hs, direct_eq]

/-- **C62 (write contract).** `write` reports the number of bytes it was given, and when it
returns fewer than `capacity` bytes are waiting in memory (so a crash loses less than
`capacity` bytes). -/
theorem C62_write (s : Shim) (d : List Byte) (o : WriteOut) (n : Nat) (hc : 0 < s.capacity)
    (h : (s.step (.write d o)).2 = .ret n) :
    n = d.length ∧ (s.step (.write d o)).1.buf.length < s.capacity := by
  simp only [Shim.step, Shim.write] at *
  split_ifs at * with h1 h2
  · have := drain_ok_empty _ _ h2
    simp_all
  · simp only [Res.ret.injEq] at h
    exact ⟨h.symm, by simpa using h1⟩

/-- **C62 (writes never fail spuriously).** With a healthy open file no `write`, `flush` or
`close` raises. -/
theorem C62_no_raise (s : Shim) (hopen : s.inner.closed = false) (d : List Byte) :
    (s.step (.write d .ok)).2 = .ret d.length ∧ (s.step (.flush .ok true)).2 = .done ∧
      (s.step (.close .ok)).2 = .done := by
  refine ⟨?_, ?_, ?_⟩ <;>
    simp only [Shim.step, Shim.write, Shim.flush, Shim.close, Shim.drain, Inner.write, hopen] <;>
    split_ifs <;> simp_all

/-- Histories without flush or close. -/
def OnlyWrites (ops : List Op) : Prop := ∀ op ∈ ops, ∃ d, op = .write d .ok

theorem write_chunks (s : Shim) (d : List Byte) :
    (s.step (.write d .ok)).1.inner.chunks = s.inner.chunks ∨
    ∃ c, (s.step (.write d .ok)).1.inner.chunks = s.inner.chunks ++ [c] ∧ s.capacity ≤ c.length := by
  simp only [Shim.step, Shim.write, Shim.drain, Inner.write]
  split_ifs <;> simp_all

/-- **C62 (fewer system calls).** Between flushes every file write carries at least `capacity`
bytes: the number of file writes made by a run of `write` calls times the capacity is at most
the number of bytes written to the file since. -/
theorem C62_batched (s : Shim) (ops : List Op) (h : OnlyWrites ops) :
    ∃ new, (s.run ops).inner.chunks = s.inner.chunks ++ new ∧
      (∀ c ∈ new, s.capacity ≤ c.length) ∧ new.length * s.capacity ≤ new.flatten.length := by
  have main : ∃ new, (s.run ops).inner.chunks = s.inner.chunks ++ new ∧
      (∀ c ∈ new, s.capacity ≤ c.length) := by
    induction ops generalizing s with
    | nil => exact ⟨[], by simp [Shim.run], by simp⟩
    | cons op ops ih =>
      obtain ⟨d, rfl⟩ := h op List.mem_cons_self
      obtain ⟨new, h1, h2⟩ := ih (s.step (.write d .ok)).1
        (fun o ho => h o (List.mem_cons_of_mem _ ho))
      rw [step_capacity] at h2
      rcases write_chunks s d with hc | ⟨c, hc, hl⟩
      · exact ⟨new, by rw [Shim.run, h1, hc], h2⟩
      · refine ⟨c :: new, by rw [Shim.run, h1, hc]; simp, ?_⟩
        intro x hx
        rcases List.mem_cons.mp hx with rfl | hx
        · exact hl
        · exact h2 x hx
  obtain ⟨new, h1, h2⟩ := main
  refine ⟨new, h1, h2, ?_⟩
  clear h1
  induction new with
  | nil => simp
  | cons c cs ih =>
    have a := h2 c List.mem_cons_self
    have b := ih (fun x hx => h2 x (List.mem_cons_of_mem _ hx))
    simp only [List.length_cons, List.flatten_cons, List.length_append]
    rw [Nat.succ_mul]
    omega

/-- **C62 (close always closes).** Even when the final drain fails, the file is closed. -/
theorem C62_close (s : Shim) (o : WriteOut) : (s.step (.close o)).1.inner.closed = true := rfl

/-- The atomicity hypothesis is needed: a file write that raises after two bytes leaves them in
the file *and* in the buffer, so a retried flush duplicates them. -/
theorem C62_partial_failure_duplicates :
    let s := Shim.init ⟨[], 0, false⟩ 100
    (s.run [.write [1, 2, 3] .ok, .flush (.raise 2) true, .flush .ok true]).inner.content
      = [1, 2, 1, 2, 3] := by
  decide +kernel

/-- Non-vacuity: a history with a failed drain, retry, and a close, capacity 4. -/
example : ((Shim.init ⟨[[9]], 0, false⟩ 4).run
    [.write [1, 2] .ok, .write [3, 4, 5] (.raise 0), .write [6] .ok, .write [7] .ok, .close .ok]).inner
      = ⟨[[9], [], [1, 2, 3, 4, 5, 6], [7]], 0, true⟩ := by
  decide +kernel

example : ∀ op ∈ [Op.write [1, 2] .ok, .write [3, 4, 5] (.raise 0), .close .ok], Atomic op := by
  intro op hop
  simp only [List.mem_cons, List.not_mem_nil, or_false] at hop
  rcases hop with rfl | rfl | rfl <;> simp [Atomic]

end Verif.Utils
