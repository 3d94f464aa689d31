import Verif.Model.Search

/-!
What a search costs: `search_for_neighbors`, `find_entrypoint` and `Granne::search` again (src/index/mod.rs:140-150,
963-1037), with a record of the distances computed and the nodes whose neighbors are read. That leaving out the record
gives `Model/Search` is C69_same_search.
-/
namespace Granne

variable {D : Type} [LinearOrder D]

/-- The record of the search in one layer: the arguments of `elements.dist_to_element(_, goal)` and of
`layer.get_neighbors(_)`, in the order of the calls. -/
structure Trace where
  dists : List Nat
  reads : List Nat

/-- The `for` loop of src/index/mod.rs:1025-1033; the third result are the ids whose distance is computed. -/
def scanTraced (dq : Nat → Option D) (res : MaxSizeHeap (Cand D)) :
    List Nat → List (Cand D) → List Nat → Option (List (Cand D) × List Nat × List Nat)
  | [], pq, visited => some (pq, visited, [])
  | n :: ns, pq, visited =>
    if n ∈ visited then scanTraced dq res ns pq visited
    else
      match dq n with
      | none => none
      | some d =>
        let keep := if res.isFull then (res.peek).map fun top => decide (d < top.d) else some true
        match keep with
        | none => none
        | some keep =>
          (scanTraced dq res ns (if keep then heapPush ⟨d, n⟩ pq else pq) (n :: visited)).map
            fun (pq', visited', ids) => (pq', visited', n :: ids)

/-- The `while let` loop, src/index/mod.rs:1018-1036, on the layer `g`. -/
def searchLoopTraced (g : Graph) (dq : Nat → Option D) :
    Nat → MaxSizeHeap (Cand D) → List (Cand D) → List Nat → Option (List (Nat × D) × Trace)
  | 0, _, _, _ => none
  | _ + 1, res, [], _ => some (res.intoSortedVec.map fun c => (c.id, c.d), ⟨[], []⟩)
  | fuel + 1, res, ⟨d, idx⟩ :: pq, visited =>
    match shouldStop res d with
    | none => none
    | some true => some (res.intoSortedVec.map fun c => (c.id, c.d), ⟨[], []⟩)
    | some false =>
      match res.push ⟨d, idx⟩ with
      | none => none
      | some (res', _) =>
        match g[idx]? with
        | none => none
        | some ns =>
          match scanTraced dq res' ns pq visited with
          | none => none
          | some (pq', visited', ids) =>
            (searchLoopTraced g dq fuel res' pq' visited').map fun (r, t) => (r, ⟨ids ++ t.dists, idx :: t.reads⟩)

/-- src/index/mod.rs:999-1037 `search_for_neighbors` on the layer `g`. -/
def searchForNeighborsTraced (g : Graph) (entrypoint : Nat) (dq : Nat → Option D) (maxSearch : Nat) :
    Option (List (Nat × D) × Trace) :=
  match dq entrypoint with
  | none => none
  | some d =>
    (searchLoopTraced g dq (g.length + 1) (MaxSizeHeap.new _ maxSearch) [⟨d, entrypoint⟩] [entrypoint]).map
      fun (r, t) => (r, ⟨entrypoint :: t.dists, t.reads⟩)

/-- src/index/mod.rs:984-997 `find_entrypoint`: one record per layer. -/
def findEntrypointTraced (dq : Nat → Option D) : List Graph → Nat → Option (Nat × List Trace)
  | [], entrypoint => some (entrypoint, [])
  | layer :: layers, entrypoint =>
    match searchForNeighborsTraced layer entrypoint dq 1 with
    | none => none
    | some ([], _) => none
    | some ((i, _) :: _, t) => (findEntrypointTraced dq layers i).map fun (e, ts) => (e, t :: ts)

/-- src/index/mod.rs:140-150, 963-981 `Granne::search`: the answer and one record per layer, top first. -/
def searchTraced {E : Type} (layers : List Graph) (es : Elements E D) (q : E) (maxSearch k : Nat) :
    Option (List (Nat × D) × List Trace) :=
  match layers.getLast? with
  | none => some ([], [])
  | some bottom =>
    match findEntrypointTraced (es.distTo q) layers.dropLast 0 with
    | none => none
    | some (entrypoint, ts) =>
      match searchForNeighborsTraced bottom entrypoint (es.distTo q) maxSearch with
      | none => none
      | some (r, t) => some (r.take k, ts ++ [t])

/-- The room reserved before a layer is searched, in entries: `MaxSizeHeap::new(max_search)`
(src/max_size_heap.rs:11-16, src/index/mod.rs:1006) and `HashSet::with_capacity(max_search * 20)` (1009-1010).
`none` is the overflow of the multiplication, a panic in a debug build (64-bit `usize`). Neither depends on the size
of the layer. Not modelled: how the collections turn entries into bytes, and allocations that fail. -/
def searchReserve (maxSearch : Nat) : Option (Nat × Nat) :=
  if maxSearch * 20 < 2 ^ 64 then some (maxSearch, maxSearch * 20) else none

end Granne
