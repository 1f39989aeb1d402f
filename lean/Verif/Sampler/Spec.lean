import Verif.Sampler.Model

/-! # Specifications for the resumable sampler: what each rank should see -/
namespace Verif.Sampler

/-- The index stream of one rank in one epoch. -/
def rankStream (c : Cfg) (e : Nat) : List Nat := (List.range c.local).map fun o => (c.perm e).getD (o * c.world + c.rank) 0

/-- Samples of an epoch that reach a batch. -/
def usable (c : Cfg) (B : Nat) (drop : Bool) : Nat := if drop then c.local - c.local % B else c.local

/-- Everything up to a position. -/
def upToPos (c : Cfg) (B : Nat) (drop : Bool) (p : Nat × Nat) : List Nat :=
  ((List.range p.1).flatMap fun e => (rankStream c e).take (usable c B drop)) ++ (rankStream c p.1).take p.2

end Verif.Sampler
