import Verif.Total.Model
import Verif.Stats.Props08b

/-!
Specification of the validation total loss: what the loss heads contribute from the rows of one part (one
rank's share of a global batch), and the value of the total over a list of parts.
-/

namespace Verif.Total

open Verif.Stats

/-- One VQ slot: its constants, and what a part contributes. `dd` is dtype and device. -/
structure Slot (Part : Type) where
  id : String
  weight : ℚ
  commitment : ℚ
  entropy : ℚ
  dd : String × String
  embed : Part → ℚ
  commit : Part → ℚ
  elements : Part → Nat
  vectors : Part → Nat
  codes : Nat
  prob : Part → Fin codes → ℚ

/-- One loss head: a mean over entries, the squared mean of logits over the cells, or a VQ loss. -/
inductive Head (Part : Type) where
  | mean (dd : String × String) (sum : Part → ℚ) (count : Part → Nat)
  | reg (dd : String × String) (sum : Part → ℚ) (cells : Part → Nat)
  | vq (slots : List (Slot Part))

/-- One term of the total. -/
structure Term (Part : Type) where
  head : Head Part
  dependent : Bool
  weight : ℚ

/-- a rank-0 tensor -/
def scalar (dd : String × String) (x : ℚ) : Ten ℚ := ⟨[], dd.1, dd.2, [x]⟩

/-- What the sidecar of the VQ layer holds for one part. -/
def Slot.raw {Part : Type} (s : Slot Part) (p : Part) : RawSlot :=
  { id := s.id, slotWeight := s.weight, embedSum := scalar s.dd (s.embed p),
    commitSum := scalar s.dd (s.commit p), elements := s.elements p, vectors := s.vectors p,
    commitmentWeight := s.commitment, entropyWeight := s.entropy,
    probabilitySum := if s.entropy = 0 then none
      else some ⟨[s.codes], s.dd.1, s.dd.2, List.ofFn (s.prob p)⟩ }

/-- What a head hands over for one part. -/
def Head.raw {Part : Type} (h : Head Part) (p : Part) : RawTerm :=
  match h with
  | .mean dd s n => .mean (scalar dd (s p)) (n p)
  | .reg dd s n => .reg (scalar dd (s p)) (n p)
  | .vq slots => .vq (slots.map (fun s => s.raw p))

/-- The terms of one part. -/
def rawTerms {Part : Type} (terms : List (Term Part)) (p : Part) : List (RawTerm × Bool × ℚ) :=
  terms.map (fun t => (t.head.raw p, t.dependent, t.weight))

/-! ### The value over a list of parts -/

def total {Part : Type} (f : Part → ℚ) (parts : List Part) : ℚ := (parts.map f).sum
def totalN {Part : Type} (f : Part → Nat) (parts : List Part) : Nat := (parts.map f).sum

/-- Quantisation error plus commitment, per element, and the (negated) entropy of the mean code
distribution. -/
def Slot.value {Part : Type} (log : ℚ → ℚ) (s : Slot Part) (parts : List Part) : ℚ :=
  s.weight * ((total s.embed parts + s.commitment * total s.commit parts) / totalN s.elements parts +
    s.entropy * ((List.ofFn (fun i => total (fun p => s.prob p i) parts / totalN s.vectors parts)).map
      (fun x => x * log (max x (1 / 10 ^ 7)))).sum)

/-- The value of a head, over all rows of the parts. -/
def Head.value {Part : Type} (log : ℚ → ℚ) (h : Head Part) (parts : List Part) : ℚ :=
  match h with
  | .mean _ s n => total s parts / totalN n parts
  | .reg _ s n => (total s parts / totalN n parts) ^ 2
  | .vq slots => (slots.map (fun s => s.value log parts)).sum

/-- The weighted sum of some terms. -/
def weighted {Part : Type} (log : ℚ → ℚ) (terms : List (Term Part)) (parts : List Part) : ℚ :=
  (terms.map (fun t => t.weight * t.head.value log parts)).sum

/-- The head has entries to average over. -/
def Head.nonEmpty {Part : Type} (h : Head Part) (parts : List Part) : Prop :=
  match h with
  | .mean _ _ n => 0 < totalN n parts
  | .reg _ _ n => 0 < totalN n parts
  | .vq slots => ∀ s ∈ slots, 0 < totalN s.elements parts ∧ 0 < totalN s.vectors parts

/-- A VQ head has slots, with distinct names without colons. -/
def Head.wellNamed {Part : Type} (h : Head Part) : Prop :=
  match h with
  | .mean _ _ _ => True
  | .reg _ _ _ => True
  | .vq slots => slots ≠ [] ∧ (slots.map Slot.id).Nodup ∧ ∀ s ∈ slots, s.id ≠ "" ∧ ':' ∉ s.id.toList

end Verif.Total
