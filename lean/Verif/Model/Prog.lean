/-!
Programs that access the rows of a layer through their locks.
-/
namespace Granne

/-- A sequential piece of code that accesses the nodes of one layer only through
* `nbrs i`   : `Graph::get_neighbors(layer, i)` (src/index/mod.rs:535-577), one read-locked section,
* `unused i` : `layer[i].read()[0] == UNUSED` (src/index/mod.rs:835), one read-locked section,
* `upd i f`  : one write-locked section replacing the row of node `i` by `f row`
               (src/index/mod.rs:889-920), `f row = none` being a panic inside the section.
Everything between two such operations is thread-local computation and is part of the continuation.
`fail` is a panic. -/
inductive Prog (α : Type) where
  | ret (a : α)
  | fail
  | nbrs (i : Nat) (k : List Nat → Prog α)
  | unused (i : Nat) (k : Bool → Prog α)
  | upd (i : Nat) (f : List Nat → Option (List Nat)) (k : Prog α)

namespace Prog

/-- Sequential composition. -/
def bind {α β : Type} : Prog α → (α → Prog β) → Prog β
  | ret a, f => f a
  | fail, _ => fail
  | nbrs i k, f => nbrs i fun l => (k l).bind f
  | unused i k, f => unused i fun b => (k b).bind f
  | upd i g k, f => upd i g (k.bind f)

/-- A thread-local computation that may panic (`none`). -/
def lift {α : Type} : Option α → Prog α
  | some a => ret a
  | none => fail

/-- Runs a program that only reads against an immutable graph given by its neighbor lists
(`Graph` for `FixedWidthSliceVector` and `MultiSetVector`, src/index/mod.rs:540-562).
An index outside the graph panics. The immutable graphs offer no `unused`/`upd` operation. -/
def runRO {α : Type} (g : List (List Nat)) : Prog α → Option α
  | ret a => some a
  | fail => none
  | nbrs i k => match g[i]? with
    | some l => (k l).runRO g
    | none => none
  | unused _ _ => none
  | upd _ _ _ => none

end Prog
end Granne
