import Verif.Planner.Model

/-! Vocabulary of the planner theorems (independent of the loops). -/
namespace Verif.Planner

variable {σ ε : Type}

/-- What the planner relies on: `rem s` are the records cursor `s` still delivers (`ok` describes the cursors a source
hands out).  `next_envelope` delivers the first of them, `next_envelopes(k)` a prefix of at most `k` that is empty only at
the end. -/
structure Records (S : Source σ ε) (ok : σ → Prop) (rem : σ → List ε) : Prop where
  start : ∀ e y, ok (S.start e y)
  next1 : ∀ s, ok s → ok (S.next1 s).2 ∧ (S.next1 s).1 = (rem s).head? ∧ rem (S.next1 s).2 = (rem s).tail
  many : ∀ f, S.many = some f → ∀ k s, 0 < k → ok s →
    ok (f k s).2 ∧ (f k s).1 ++ rem (f k s).2 = rem s ∧ (f k s).1.length ≤ k ∧ ((f k s).1 = [] → rem s = [])
  left : ∀ s, ok s → S.left s = (rem s).length

/-- What the constructor checks (`planner.py:40-55, 140-163`). -/
structure Planner.Valid (P : Planner σ ε) : Prop where
  cfg : P.cfg.Valid
  batch : 0 < P.batch
  shard : P.sharded = true → P.train = true ∧ P.cfg.steps.isSome = true

/-- Records of the first `n` source cycles of an epoch, in order. -/
def cycles (P : Planner σ ε) (rem : σ → List ε) (epoch n : Nat) : List ε :=
  (List.range n).flatMap fun y => rem (P.src.start epoch y)

/-- Rows marked real. -/
def realRows (b : Batch ε) : List ε := ((b.rows.zip b.real).filter (·.2)).map (·.1)

/-- A well-formed batch: exactly the batch size, one shape, a non-empty block of real rows in front, and the remaining
rows repeat the real ones cyclically. -/
structure BatchOk (P : Planner σ ε) (b : Batch ε) : Prop where
  size : b.rows.length = P.batch
  shape : ∃ s, ∀ e ∈ b.rows, P.shape e = s
  real : ∃ k, 0 < k ∧ k ≤ P.batch ∧ b.real = List.replicate k true ++ List.replicate (P.batch - k) false ∧
    ∀ j, k ≤ j → j < P.batch → b.rows[j]? = b.rows[(j - k) % k]?

/-- No row is padding. -/
def AllReal (b : Batch ε) : Prop := ∀ f ∈ b.real, f = true

end Verif.Planner
