import Verif.Spec.Math

/-! Vocabulary for sums of embeddings. -/
namespace Granne.Spec

/-- The exact sum of vectors of dimension `dim`. -/
def vecSum (dim : Nat) (vs : List (List ℝ)) : List ℝ :=
  (List.range dim).map fun k => (vs.map fun v => v.getD k 0).sum

/-- The embeddings of the given terms. -/
def embeddingsOf (emb : List (List ℝ)) (terms : List Nat) : List (List ℝ) := terms.map fun w => emb.getD w []

/-- The exact (not normalised) embedding of an element: the sum of the embeddings of its terms. -/
def exactSum (emb : List (List ℝ)) (dim : Nat) (terms : List Nat) : List ℝ := vecSum dim (embeddingsOf emb terms)

/-- The sum of the norms of the embeddings of the terms. -/
noncomputable def normSum (emb : List (List ℝ)) (terms : List Nat) : ℝ := ((embeddingsOf emb terms).map norm).sum

/-- The rounding error of adding up the embeddings of an element, relative to the norm of the sum: the relative error
of `n - 1` additions, times how much the embeddings cancel out. -/
noncomputable def sumError (emb : List (List ℝ)) (dim : Nat) (terms : List Nat) : ℝ :=
  ((1 + 2 ^ (-24 : Int)) ^ (terms.length - 1) - 1) * (normSum emb terms / norm (exactSum emb dim terms))

end Granne.Spec
