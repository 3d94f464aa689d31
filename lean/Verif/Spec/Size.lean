import Mathlib.Algebra.BigOperators.Group.List.Basic

/-! Vocabulary for the size of a saved index. -/
namespace Granne.Spec

/-- Room for a list of `n` neighbors whose ids fit into `w` bytes each: one byte for the number, then at most four bytes per neighbor,
or `w` bytes per neighbor and two bits each for their lengths if that is less (lists are filled up to four). -/
def listBytes (w n : Nat) : Nat := 1 + min (4 * n) (w * n + (n + 3) / 4 + (4 - n))

/-- Room for a layer with `nodes` nodes without their lists: the length of the table of offsets, and the table, 128 bytes for every 60
offsets begun. -/
def tableBytes (nodes : Nat) : Nat := 8 + 128 * (1 + nodes / 60)

/-- Room for all lists of an index. -/
def allListBytes (w : Nat) (gs : List (List (List Nat))) : Nat := (gs.map fun g => (g.map fun l => listBytes w l.length).sum).sum

/-- Room for all tables. -/
def allTableBytes (gs : List (List (List Nat))) : Nat := (gs.map fun g => tableBytes g.length).sum

end Granne.Spec
