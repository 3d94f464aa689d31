/-! Vocabulary for reordering an index. -/
namespace Granne.Spec

/-- `order` keeps every layer together: the first `len` positions hold the ids `0 .. len-1`, for the length `len` of
every layer. -/
def LayerPreserving (order lens : List Nat) : Prop := ∀ len ∈ lens, (order.take len).Perm (List.range len)

/-- What `order` says about two graphs: position `i` of the new one is the node that was `order[i]`, and its
neighbors, renamed back, are the same. -/
def Renamed (order : List Nat) (old new : List (List Nat)) : Prop :=
  new.length = old.length ∧ ∀ i : Nat, i < new.length →
    ∃ l l' : List Nat, old[order.getD i 0]? = some l ∧ new[i]? = some l' ∧ (l'.map fun j => order.getD j 0).Perm l

end Granne.Spec
