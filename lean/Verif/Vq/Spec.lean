import Verif.Vq.Model

/-! Specification for C77: which line encodings of a global evaluation batch count. -/

namespace Verif.Vq

/-- the encodings that a rank's real rows contain, if the rank's rows count -/
def EvalRank.counted (r : EvalRank) : List Int :=
  if r.collecting then ((r.rows.zip r.real).filter (fun x => x.2)).flatMap (fun x => x.1.map Prod.fst) else []

/-- the line encodings that occur in a real row of some rank that counts -/
def lines (ranks : List EvalRank) : Finset Int := (ranks.flatMap EvalRank.counted).toFinset

/-- one flag per row -/
def EvalRank.WellFormed (r : EvalRank) : Prop := r.real.length = r.rows.length

/-- the feature of an entry is a function of its line encoding -/
def FeatureOf (f : Int → List ℚ) (ranks : List EvalRank) : Prop :=
  ∀ r ∈ ranks, ∀ row ∈ r.rows, ∀ e ∈ row, e.2 = f e.1

end Verif.Vq
