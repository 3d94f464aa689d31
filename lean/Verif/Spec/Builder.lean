import Verif.Model.Builder
import Verif.Spec.Schedule

/-! Vocabulary for the properties of the builder. -/
namespace Granne.Spec
open Granne

variable {E D : Type} [LinearOrder D]

/-- Configurations with at least one neighbor per node, a search width of at least one and a sensible plan of
layer sizes (that the code's formula is one is C22). -/
structure GoodConfig (c : BuildConfig D) : Prop where
  neighbors : 1 ≤ c.numNeighbors
  search : 1 ≤ c.maxSearch
  schedule : GoodSchedule c.schedule

/-- Element `j` is a "zero element": its distance to itself exceeds the threshold. -/
def IsZero (es : Elements E D) (eps : D) (j : Nat) : Prop := ∃ d, es.dist? j j = some d ∧ eps < d

end Granne.Spec
