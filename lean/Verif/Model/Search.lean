import Verif.Model.Heap
import Verif.Model.Prog

/-!
`search_for_neighbors`, `find_entrypoint` and `Granne::search` (src/index/mod.rs).
-/
namespace Granne

variable {D : Type} [LinearOrder D]

/-- The `for` loop over the neighbors of one node, src/index/mod.rs:1025-1033.
`dq i` is `elements.dist_to_element(i, goal)`, `none` when it panics (index out of range).
State: the priority queue `pq` (ascending list: `BinaryHeap<Reverse<_>>` pops the smallest first) and
the set `visited`. `res` is not modified by this loop. -/
def scanNeighbors (dq : Nat → Option D) (res : MaxSizeHeap (Cand D)) :
    List Nat → List (Cand D) → List Nat → Option (List (Cand D) × List Nat)
  | [], pq, visited => some (pq, visited)
  | n :: ns, pq, visited =>
    if n ∈ visited then scanNeighbors dq res ns pq visited
    else
      match dq n with
      | none => none
      | some d =>
        if !res.isFull then scanNeighbors dq res ns (heapPush ⟨d, n⟩ pq) (n :: visited)
        else
          match res.peek with
          | none => none
          | some top =>
            if d < top.d then scanNeighbors dq res ns (heapPush ⟨d, n⟩ pq) (n :: visited)
            else scanNeighbors dq res ns pq (n :: visited)

/-- The condition of line 1019: `res.is_full() && d > res.peek().unwrap().0`; `none` is the panic of
the `unwrap`. -/
def shouldStop (res : MaxSizeHeap (Cand D)) (d : D) : Option Bool :=
  if res.isFull then
    match res.peek with
    | none => none
    | some top => some (decide (top.d < d))
  else some false

/-- The `while let` loop, src/index/mod.rs:1018-1034, and the final conversion, line 1036.
The fuel is a proof device: every iteration pops a node not popped before and reads its neighbors, so
`layer.len() + 1` iterations always suffice (`searchLoop_fuel`). -/
def searchLoop (dq : Nat → Option D) :
    Nat → MaxSizeHeap (Cand D) → List (Cand D) → List Nat → Prog (List (Nat × D))
  | 0, _, _, _ => .fail
  | _ + 1, res, [], _ => .ret (res.intoSortedVec.map fun c => (c.id, c.d))
  | fuel + 1, res, ⟨d, idx⟩ :: pq, visited =>
    match shouldStop res d with
    | none => .fail
    | some true => .ret (res.intoSortedVec.map fun c => (c.id, c.d))
    | some false =>
      match res.push ⟨d, idx⟩ with
      | none => .fail
      | some (res', _) =>
        .nbrs idx fun ns =>
          match scanNeighbors dq res' ns pq visited with
          | none => .fail
          | some (pq', visited') => searchLoop dq fuel res' pq' visited'

/-- src/index/mod.rs:999-1037 `search_for_neighbors`; `layerLen` is the number of nodes of the layer
(only used for the fuel). -/
def searchForNeighbors (layerLen entrypoint : Nat) (dq : Nat → Option D) (maxSearch : Nat) :
    Prog (List (Nat × D)) :=
  match dq entrypoint with
  | none => .fail
  | some d => searchLoop dq (layerLen + 1) (MaxSizeHeap.new _ maxSearch) [⟨d, entrypoint⟩] [entrypoint]

/-- A layer as seen by a search: the neighbors of each node, as returned by `Graph::get_neighbors`
(src/index/mod.rs:535-577). -/
abbrev Graph := List (List Nat)

/-- src/index/mod.rs:984-997 `find_entrypoint` (the loop body for the remaining layers).
`res[0]` panics on an empty result. -/
def findEntrypointFrom (dq : Nat → Option D) : List Graph → Nat → Option Nat
  | [], entrypoint => some entrypoint
  | layer :: layers, entrypoint =>
    match (searchForNeighbors layer.length entrypoint dq 1).runRO layer with
    | none => none
    | some [] => none
    | some ((i, _) :: _) => findEntrypointFrom dq layers i

/-- src/index/mod.rs:984-997 `find_entrypoint`. -/
def findEntrypoint (layers : List Graph) (dq : Nat → Option D) : Option Nat :=
  findEntrypointFrom dq layers 0

/-- Which way round a container's `dists(idx, others)` asks for distances: from the element `idx` to the others (slices and `Vec`s,
src/elements/mod.rs:91-93 and 115-117; `Vectors`, src/elements/dense_vector.rs:157-163), or from the others to the element `idx`
(the default, src/elements/mod.rs:36-39, which `SumEmbeddings` has). It matters only if the distance is not symmetric. -/
class BatchOrder where
  fromElement : Bool

/-- The order of slices, `Vec`s (src/elements/mod.rs:91-93, 115-117) and `Vectors` (src/elements/dense_vector.rs:157-163), unless
another one is given. -/
instance (priority := low) BatchOrder.default : BatchOrder := ⟨true⟩

/-- An element container: `ElementContainer` (src/elements/mod.rs:15-45, 72-142; a reference to a container, 120-142, is the
container) as the list of its elements with a distance function. `dist_to_element(i, e)` panics when `i` is out of range. -/
structure Elements (E D : Type) where
  data : List E
  dist : E → E → D
  [batch : BatchOrder]

/-- `elements.dist_to_element(i, q)` (src/elements/mod.rs:83-85, 107-109). -/
def Elements.distTo {E : Type} (es : Elements E D) (q : E) (i : Nat) : Option D :=
  (es.data[i]?).map fun e => es.dist e q

/-- src/index/mod.rs:963-981 `search_internal`, for a query given by its distances. -/
def searchInternal (layers : List Graph) (dq : Nat → Option D) (maxSearch k : Nat) :
    Option (List (Nat × D)) :=
  match layers.getLast? with
  | none => some []
  | some bottom =>
    match findEntrypoint layers.dropLast dq with
    | none => none
    | some entrypoint =>
      match (searchForNeighbors bottom.length entrypoint dq maxSearch).runRO bottom with
      | none => none
      | some r => some (r.take k)

/-- src/index/mod.rs:140-150 `Granne::search`. `none` is a panic. -/
def search {E : Type} (layers : List Graph) (es : Elements E D) (q : E) (maxSearch k : Nat) :
    Option (List (Nat × D)) :=
  searchInternal layers (es.distTo q) maxSearch k

end Granne
