import Verif.Model.Builder

/-! Vocabulary: collections whose distances are ordered in the same way. -/
namespace Granne.Spec
open Granne

variable {E E' D D' : Type} [LinearOrder D] [LinearOrder D']

/-- Two collections of the same size, and a query for each, such that of any two elements the same one is nearer to the query. -/
structure SameOrderToQuery (es : Elements E D) (q : E) (es' : Elements E' D') (q' : E') : Prop where
  size : es'.data.length = es.data.length
  order : ∀ (i j : Nat) (x y : E) (x' y' : E'), es.data[i]? = some x → es.data[j]? = some y → es'.data[i]? = some x' → es'.data[j]? = some y' →
    (es'.dist x' q' < es'.dist y' q' ↔ es.dist x q < es.dist y q)

/-- `es'` is `es` with each distance `d` replaced by `f d`. -/
structure Rescaled (f : D → D') (es : Elements E D) (es' : Elements E D') : Prop where
  data : es'.data = es.data
  batch : es'.batch = es.batch
  dist : ∀ a b, es'.dist a b = f (es.dist a b)

/-- The same elements, with two notions of distance that agree on which of two pairs of elements is farther apart, and on which
pairs are nearer than the threshold and which are farther apart. -/
structure SameOrder (es : Elements E D) (eps : D) (es' : Elements E D') (eps' : D') : Prop where
  data : es'.data = es.data
  batch : es'.batch = es.batch
  order : ∀ a b c d, es'.dist a b < es'.dist c d ↔ es.dist a b < es.dist c d
  above : ∀ a b, eps' < es'.dist a b ↔ eps < es.dist a b
  below : ∀ a b, es'.dist a b < eps' ↔ es.dist a b < eps

/-- Two builders with the same elements, the same graph and the same configuration, that differ only in how far apart elements
are, not in which are farther apart. -/
structure SameUpToScale (b : Builder E D) (b' : Builder E D') : Prop where
  elements : SameOrder b.elements b.config.eps b'.elements b'.config.eps
  layers : b'.layers = b.layers
  schedule : b'.config.schedule = b.config.schedule
  expected : b'.config.expectedNumElements = b.config.expectedNumElements
  neighbors : b'.config.numNeighbors = b.config.numNeighbors
  search : b'.config.maxSearch = b.config.maxSearch
  reinsert : b'.config.reinsertElements = b.config.reinsertElements

end Granne.Spec
