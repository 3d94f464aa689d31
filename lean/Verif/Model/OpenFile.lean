import Verif.Model.IndexIO

/-!
Searching an index that was opened from bytes (src/index/mod.rs:106-150): the neighbor lists are decoded one at a time, when the
search asks for them. `Granne.search` of `Model/Search.lean` takes all lists as given; here nothing is assumed about the bytes.
-/
namespace Granne

/-- Runs a program that only reads against a layer given by its `get_neighbors` (`none`: the call panics), src/index/mod.rs:535-538. -/
def Prog.runWith {α : Type} (get : Nat → Option (List Nat)) : Prog α → Option α
  | .ret a => some a
  | .fail => none
  | .nbrs i k => match get i with
    | some l => (k l).runWith get
    | none => none
  | .unused _ _ => none
  | .upd _ _ _ => none

/-- `usize` addition in a release build. -/
def addUsize (a b : Nat) : Nat := (a + b) % 2 ^ 64

/-- src/slice_vector/offsets.rs:177-187 `Chunk::get` in a release build: `initial` may be any number in a file. -/
def Chunk.getRelease (c : Chunk) (index : Nat) : Option Nat :=
  if index < OFFSETS_PER_CHUNK then some (addUsize (c.deltas.take (index + 1)).sum c.initial) else none

/-- src/slice_vector/offsets.rs:189-195. -/
def Chunk.getConsecutiveRelease (c : Chunk) (index : Nat) : Option (Nat × Nat) :=
  if index + 1 < OFFSETS_PER_CHUNK then
    match c.getRelease index, c.deltas[index + 1]? with
    | some first, some d => some (first, addUsize first d)
    | _, _ => none
  else none

/-- src/slice_vector/offsets.rs:248-251. -/
def Offsets.getRelease (o : Offsets) (index : Nat) : Option Nat :=
  match o[index / OFFSETS_PER_CHUNK]? with
  | none => none
  | some c => c.getRelease (index % OFFSETS_PER_CHUNK)

/-- src/slice_vector/offsets.rs:253-259. -/
def Offsets.getConsecutiveRelease (o : Offsets) (index : Nat) : Option (Nat × Nat) :=
  if (index + 1) % OFFSETS_PER_CHUNK = 0 then
    match o.getRelease index, o.getRelease (index + 1) with
    | some a, some b => some (a, b)
    | _, _ => none
  else
    match o[index / OFFSETS_PER_CHUNK]? with
    | none => none
    | some c => c.getConsecutiveRelease (index % OFFSETS_PER_CHUNK)

/-- src/slice_vector/offsets.rs:51-60, set_vector.rs:57-69 and src/index/mod.rs:554-557: the neighbors of one node, decoded from the
bytes of the file, in a release build. `none`: a panic (an index outside the offsets, a range outside the data, an empty or too short
code). -/
def SetVec.getRelease (v : SetVec) (idx : Nat) : Option (List Nat) :=
  match v.offsets.getConsecutiveRelease idx with
  | none => none
  | some (b, e) => if b ≤ e ∧ e ≤ v.data.length then decodeInto ((v.data.drop b).take (e - b)) else none

variable {D : Type} [LinearOrder D]

/-- src/index/mod.rs:984-997 `find_entrypoint` on layers given by their `get_neighbors`; `n` bounds the rounds of each search. -/
def findEntrypointWith (n : Nat) (dq : Nat → Option D) : List (Nat → Option (List Nat)) → Nat → Option Nat
  | [], entrypoint => some entrypoint
  | get :: layers, entrypoint =>
    match (searchForNeighbors n entrypoint dq 1).runWith get with
    | none => none
    | some [] => none
    | some ((i, _) :: _) => findEntrypointWith n dq layers i

/-- src/index/mod.rs:963-981 `search_internal` on layers given by their `get_neighbors`. -/
def searchWith (n : Nat) (layers : List (Nat → Option (List Nat))) (dq : Nat → Option D) (maxSearch k : Nat) :
    Option (List (Nat × D)) :=
  match layers.getLast? with
  | none => some []
  | some bottom =>
    match findEntrypointWith n dq layers.dropLast 0 with
    | none => none
    | some entrypoint =>
      match (searchForNeighbors n entrypoint dq maxSearch).runWith bottom with
      | none => none
      | some r => some (r.take k)

/-- src/index/mod.rs:140-150 `Granne::search` on an index opened from bytes: `load_layers` (src/index/io.rs:72-87), then the search
with lists read on demand. `none` is a panic. -/
def searchFile {E : Type} (buffer : Bytes) (es : Elements E D) (q : E) (maxSearch k : Nat) : Option (List (Nat × D)) :=
  match loadLayers buffer with
  | none => none
  | some vs => searchWith es.data.length (vs.map SetVec.getRelease) (es.distTo q) maxSearch k

end Granne
