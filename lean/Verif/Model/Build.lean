import Verif.Model.Search

/-!
Indexing of elements in one layer by concurrent workers (src/index/mod.rs:716-959).
-/
namespace Granne

/-- src/index/mod.rs:27-28 `UNUSED = u32::MAX`. -/
def UNUSED : Nat := 4294967295

/-- One node of a layer under construction: `width` slots (src/index/mod.rs:757, a `&mut [NeighborId]`). -/
abbrev Row := List Nat
/-- All nodes of a layer under construction. -/
abbrev Rows := List Row

/-- `Graph::get_neighbors` on one row: everything before the first `UNUSED`
(src/index/mod.rs:541-547, 565-572). -/
def visible (row : Row) : List Nat := row.takeWhile (· != UNUSED)

/-- The graph seen by a search in a layer of the builder (src/index/mod.rs:540-552). -/
def graphOf (rows : Rows) : Graph := rows.map visible

/-- `NeighborId::try_from(i).unwrap()`: panics when `i` does not fit in 32 bits. -/
def toNeighborId (i : Nat) : Option Nat := if i < 2 ^ 32 then some i else none

/-- The part of `BuildConfig` (src/index/mod.rs:199-231) used while indexing one layer. `eps` is
`100.0 * f32::EPSILON`, the threshold of lines 813 and 829. -/
structure LayerConfig (D : Type) where
  numNeighbors : Nat
  maxSearch : Nat
  eps : D

variable {E D : Type} [LinearOrder D]

/-- `elements.dist(i, j)` (src/elements/mod.rs:31-33, 87-89, 111-113; src/elements/dense_vector.rs:153-155): panics when an index is
out of range. -/
def Elements.dist? (es : Elements E D) (i j : Nat) : Option D :=
  match es.data[j]? with
  | none => none
  | some ej => es.distTo ej i

/-- `elements.dists(idx, others)` (src/elements/mod.rs:36-39, or 91-93 and 115-117, or src/elements/dense_vector.rs:157-163; for
slices and `Vec`s an index `idx` out of range is noticed only if there are others: src/index/mod.rs:938 asks for existing
elements only). -/
def Elements.dists (es : Elements E D) (idx : Nat) (others : List Nat) : Option (List D) :=
  match es.data[idx]? with
  | none => none
  | some e => others.mapM fun j => if es.batch.fromElement then (es.data[j]?).map fun x => es.dist e x else es.distTo e j

/-- The `.all(|&(n, _)| d <= elements.dist_to_element(n, &element))` of src/index/mod.rs:874-876
(short-circuiting). -/
def allFarther (es : Elements E D) (element : E) (d : D) : List (Nat × D) → Option Bool
  | [] => some true
  | (n, _) :: rest =>
    match es.distTo element n with
    | none => none
    | some dn => if d ≤ dn then allFarther es element d rest else some false

/-- The loop of `select_neighbors`, src/index/mod.rs:864-882. -/
def selectLoop (es : Elements E D) (maxNeighbors : Nat) :
    List (Nat × D) → List (Nat × D) → Option (List (Nat × D))
  | [], neighbors => some neighbors
  | (j, d) :: rest, neighbors =>
    if neighbors.length ≥ maxNeighbors then some neighbors
    else
      match es.data[j]? with
      | none => none
      | some element =>
        match allFarther es element d neighbors with
        | none => none
        | some true => selectLoop es maxNeighbors rest (neighbors ++ [(j, d)])
        | some false => selectLoop es maxNeighbors rest neighbors

/-- src/index/mod.rs:849-883 `select_neighbors`. The `debug_assert!` that the candidates are sorted (lines
858-862; it compares adjacent ones, which for a total order is the same) is kept as a panic: the model is a
debug build here, and a release build behaves the same whenever this one does not panic. -/
def selectNeighbors (es : Elements E D) (candidates : List (Nat × D)) (maxNeighbors : Nat) :
    Option (List (Nat × D)) :=
  if candidates.length ≤ maxNeighbors then some candidates
  else if candidates.Pairwise fun a b => a.2 ≤ b.2 then selectLoop es maxNeighbors candidates []
  else none

/-- `sort_unstable_by_key(|&(_, d)| d)`: some function returning a sorted permutation. Which one is not
specified by the standard library, so the model takes it as a parameter. -/
def IsSortByDist (srt : List (Nat × D) → List (Nat × D)) : Prop :=
  ∀ l, (srt l).Perm l ∧ (srt l).Pairwise fun a b => a.2 ≤ b.2

/-- Writing back the selected ids, padded with `UNUSED` (src/index/mod.rs:950-958). -/
def writePadded (len : Nat) (ids : List Nat) : Option Row :=
  ((ids.take len).mapM toNeighborId).map fun ids' => ids' ++ List.replicate (len - ids'.length) UNUSED

/-- src/index/mod.rs:923-959 `add_and_limit_neighbors` as a function on the row. -/
def addAndLimit (es : Elements E D) (srt : List (Nat × D) → List (Nat × D)) (nodeId : Nat)
    (extra : List (Nat × D)) (numNeighbors : Nat) (row : Row) : Option Row :=
  if numNeighbors ≤ row.length then
    let neighbors := visible row
    match es.dists nodeId neighbors with
    | none => none
    | some ds =>
      match selectNeighbors es (srt (neighbors.zip ds ++ extra)) numNeighbors with
      | none => none
      | some sel => writePadded row.length (sel.map Prod.fst)
  else none

/-- src/index/mod.rs:886-895 `initialize_node`: overwrites the first slots. -/
def initializeNode (neighbors : List (Nat × D)) (row : Row) : Option Row :=
  (((neighbors.take row.length).map Prod.fst).mapM toNeighborId).map fun ids =>
    ids ++ row.drop ids.length

/-- src/index/mod.rs:911-920: the write-locked part of `connect_nodes(elements, node, i, j, d)`. -/
def connectRow (es : Elements E D) (srt : List (Nat × D) → List (Nat × D)) (i j : Nat) (d : D)
    (row : Row) : Option Row :=
  match toNeighborId j with
  | none => none
  | some jId =>
    match row.findIdx? (fun x => x == UNUSED || x == jId) with
    | some freePos => some (row.set freePos jId)
    | none => addAndLimit es srt i [(j, d)] row.length row

/-- src/index/mod.rs:899-921 `connect_nodes`, followed by `k`. -/
def connectNodes (es : Elements E D) (srt : List (Nat × D) → List (Nat × D)) (i j : Nat) (d : D)
    (k : Prog Unit) : Prog Unit :=
  if i = j then k else .upd i (connectRow es srt i j d) k

/-- src/index/mod.rs:838-840: connect all `neighbors` to the element's own node. -/
def connectOwn (es : Elements E D) (srt : List (Nat × D) → List (Nat × D)) (idx : Nat)
    (neighbors : List (Nat × D)) (k : Prog Unit) : Prog Unit :=
  neighbors.foldr (fun p k => connectNodes es srt idx p.1 p.2 k) k

/-- src/index/mod.rs:843-845: connect the element to the nodes of all `neighbors`. -/
def connectOthers (es : Elements E D) (srt : List (Nat × D) → List (Nat × D)) (idx : Nat)
    (neighbors : List (Nat × D)) (k : Prog Unit) : Prog Unit :=
  neighbors.foldr (fun p k => connectNodes es srt p.1 idx p.2 k) k

/-- src/index/mod.rs:834-845: publish the element. -/
def publish (es : Elements E D) (srt : List (Nat × D) → List (Nat × D)) (idx : Nat)
    (neighbors : List (Nat × D)) : Prog Unit :=
  .unused idx fun empty =>
    if empty then .upd idx (initializeNode neighbors) (connectOthers es srt idx neighbors (.ret ()))
    else connectOwn es srt idx neighbors (connectOthers es srt idx neighbors (.ret ()))

/-- src/index/mod.rs:805-846 `index_element`. `layerLen` is the number of nodes of the layer, `prev` the
already built layers above. -/
def indexElement (cfg : LayerConfig D) (es : Elements E D) (srt : List (Nat × D) → List (Nat × D))
    (prev : List Graph) (layerLen idx : Nat) : Prog Unit :=
  match es.dist? idx idx with
  | none => .fail
  | some dSelf =>
    if cfg.eps < dSelf then .ret ()
    else
      match es.data[idx]? with
      | none => .fail
      | some element =>
        match search prev es element 1 1 with
        | none => .fail
        | some r =>
          let entrypoint := match r.head? with
            | some p => p.1
            | none => 0
          (searchForNeighbors layerLen entrypoint (es.distTo element) cfg.maxSearch).bind fun found =>
            let candidates := found.filter fun p => p.1 != idx
            match selectNeighbors es candidates cfg.numNeighbors with
            | none => .fail
            | some neighbors =>
              match neighbors[cfg.numNeighbors / 2]? with
              | some (_, d) => if d < cfg.eps then .ret () else publish es srt idx neighbors
              | none => publish es srt idx neighbors

/-! ### Interleaving semantics -/

/-- Executes the next lock-protected operation of a thread. `none`: the thread has finished or panicked
and takes no more steps. A panic inside an operation leaves the rows unchanged and turns the thread into
`fail` (`parking_lot` locks are not poisoned). -/
def Prog.step {α : Type} (rows : Rows) : Prog α → Option (Rows × Prog α)
  | .ret _ => none
  | .fail => none
  | .nbrs i k => some (rows, match rows[i]? with
    | some row => k (visible row)
    | none => .fail)
  | .unused i k => some (rows, match rows[i]? with
    | some (x :: _) => k (x == UNUSED)
    | _ => .fail)
  | .upd i f k => match rows[i]? with
    | none => some (rows, .fail)
    | some row => match f row with
      | none => some (rows, .fail)
      | some row' => some (rows.set i row', k)

/-- The shared rows and the worker tasks of one `index_elements` call. -/
structure Par where
  rows : Rows
  threads : List (Prog Unit)

/-- One step of the system: any one task executes its next operation. rayon runs the tasks on a fixed
number of threads; every such execution is one of these interleavings (all tasks may be started at once
here, so the model has more behaviours). -/
inductive Par.Step : Par → Par → Prop
  | mk (s : Par) (t : Nat) (p p' : Prog Unit) (rows' : Rows) :
      s.threads[t]? = some p → p.step s.rows = some (rows', p') →
      Par.Step s ⟨rows', s.threads.set t p'⟩

/-- Any number of steps. -/
inductive Par.Steps : Par → Par → Prop
  | refl (s : Par) : Par.Steps s s
  | tail {s t u : Par} : Par.Steps s t → Par.Step t u → Par.Steps s u

/-- Some task has panicked. -/
def Par.Panicked (s : Par) : Prop := ∃ p ∈ s.threads, p = Prog.fail

/-- All tasks have finished. -/
def Par.Done (s : Par) : Prop := ∀ p ∈ s.threads, p = Prog.ret ()

/-- src/index/mod.rs:795-797: apply `add_and_limit_neighbors` to every row (rows are independent, so the
order of the parallel iteration does not matter). -/
def limitPass (cfg : LayerConfig D) (es : Elements E D) (srt : List (Nat × D) → List (Nat × D))
    (rows : Rows) : Option Rows :=
  (rows.zipIdx).mapM fun p => addAndLimit es srt p.2 [] cfg.numNeighbors p.1

/-- A layer of the builder: `FixedWidthSliceVector<NeighborId>` as the list of its rows, which all have
length `width`. -/
structure Layer where
  width : Nat
  rows : Rows

/-- src/index/mod.rs:724-731 and 776-782: the rows after `resize` and the ids of the elements to index. -/
def indexStart (num : Nat) (layer : Layer) (reinsert : Bool) : Rows × List Nat :=
  if reinsert then (layer.rows, (List.range layer.rows.length).reverse)
  else
    let rows := layer.rows ++ List.replicate (num - layer.rows.length) (List.replicate layer.width UNUSED)
    (rows, (List.range rows.length).drop layer.rows.length)

/-- The parallel system of one `index_elements` call. -/
def indexPar (cfg : LayerConfig D) (es : Elements E D) (srt : List (Nat × D) → List (Nat × D))
    (num : Nat) (prev : List Graph) (layer : Layer) (reinsert : Bool) : Par :=
  let (rows, ids) := indexStart num layer reinsert
  ⟨rows, ids.map (indexElement cfg es srt prev rows.length)⟩

/-- src/index/mod.rs:716-802 `index_elements`: the possible outcomes; `none` is a panic. -/
inductive IndexElements (cfg : LayerConfig D) (es : Elements E D)
    (srt : List (Nat × D) → List (Nat × D)) (num : Nat) (prev : List Graph) (layer : Layer)
    (reinsert : Bool) : Option Layer → Prop
  | tooMany : ¬ layer.rows.length ≤ num → IndexElements cfg es srt num prev layer reinsert none
  | panic (s : Par) : layer.rows.length ≤ num →
      Par.Steps (indexPar cfg es srt num prev layer reinsert) s → s.Panicked →
      IndexElements cfg es srt num prev layer reinsert none
  | done (s : Par) : layer.rows.length ≤ num →
      Par.Steps (indexPar cfg es srt num prev layer reinsert) s → s.Done →
      IndexElements cfg es srt num prev layer reinsert
        ((limitPass cfg es srt s.rows).map fun rows => { layer with rows := rows })

end Granne
