/-!
Vocabulary for graphs, independent of the model.
A graph is the list of the neighbor lists of its nodes `0 .. length-1`.
-/
namespace Granne.Spec

/-- `j` is listed as a neighbor of `i`. -/
def Edge (g : List (List Nat)) (i j : Nat) : Prop := ∃ l, g[i]? = some l ∧ j ∈ l

/-- All edges stay inside the graph. -/
def EdgesInside (g : List (List Nat)) : Prop := ∀ i j, Edge g i j → j < g.length

/-- `j` can be reached from `i` along edges. -/
inductive Reach (g : List (List Nat)) (i : Nat) : Nat → Prop
  | refl : Reach g i i
  | step {j k : Nat} : Reach g i j → Edge g j k → Reach g i k

/-- An index (list of layers, top first) over `n` elements is well formed: no layer is empty, edges stay
inside their layer, layer sizes do not decrease and no layer is larger than the element set. -/
structure WellFormedIndex (layers : List (List (List Nat))) (n : Nat) : Prop where
  nonempty : ∀ g ∈ layers, g ≠ []
  inside : ∀ g ∈ layers, EdgesInside g
  nested : layers.Pairwise fun a b => a.length ≤ b.length
  bounded : ∀ g ∈ layers, g.length ≤ n

end Granne.Spec
