import Verif.Model.Search

/-! Counting links. -/
namespace Granne.Spec

/-- The number of links of a layer: for every node the number of its neighbors, added up. -/
def numLinks (g : Graph) : Nat := (g.map List.length).sum

end Granne.Spec
