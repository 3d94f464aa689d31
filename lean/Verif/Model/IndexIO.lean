import Verif.Model.File
import Verif.Model.Json
import Verif.Model.SetVector
import Verif.Model.Builder

/-!
Saving and loading an index: src/index/io.rs, src/slice_vector/set_vector.rs:164-222,
src/index/mod.rs:108-113, 430-461.
-/
namespace Granne

/-- src/index/mod.rs:598-601 `Layers`. The accessors src/index/mod.rs:602-607 `len`, src/index/mod.rs:609-614 `as_graph`
and the conversions src/index/mod.rs:616-624 `borrow`, src/index/mod.rs:628-630 `from` are matches on it. -/
inductive Layers
  | fixWidth (layers : List Layer)
  | compressed (layers : List SetVec)

/-- The graph of a compressed layer (src/index/mod.rs:554-562): all neighbor lists; `none` when reading one of
them panics. -/
def SetVec.graph (v : SetVec) : Option Graph :=
  match v.len with
  | none => none
  | some n => (List.range n).mapM v.get

/-- The graphs of all layers, as seen by a search. -/
def Layers.graphs : Layers → Option (List Graph)
  | .fixWidth ls => some (ls.map fun l => graphOf l.rows)
  | .compressed vs => vs.mapM SetVec.graph

/-- src/index/io.rs:24. -/
def Layers.counts : Layers → Option (List Nat)
  | .fixWidth ls => some (ls.map fun l => l.rows.length)
  | .compressed vs => vs.mapM SetVec.len

/-- src/index/io.rs:20-24: `layers.as_graph(layers.len() - 1).get_neighbors(0).len()`. -/
def Layers.numNeighbors : Layers → Option Nat
  | .fixWidth ls => match ls.getLast? with
    | none => some 0
    | some l => (l.rows[0]?).map fun row => (visible row).length
  | .compressed vs => match vs.getLast? with
    | none => some 0
    | some v => (v.get 0).map List.length

/-- The loop over the rows in src/slice_vector/set_vector.rs:187-206: the encoded rows are written one after the
other, and the end of each is recorded. Result: the offsets. -/
def writeRows : Rows → Nat → Offsets → Wr Offsets
  | [], _, offsets => Wr.pure offsets
  | row :: rows, total, offsets =>
    let encoded := setEncode (sortIds (row.filter (· != UNUSED)))
    Wr.bind (Wr.write encoded) fun _ =>
    Wr.bind (Wr.ofOption (offsets.push (total + encoded.length))) fun offsets' =>
    writeRows rows (total + encoded.length) offsets'

/-- src/slice_vector/set_vector.rs:169-221 `write_as_multi_set_vector` with the predicate `x != UNUSED`; returns
the number of bytes written. -/
def writeFixLayer (l : Layer) : Wr Nat :=
  Wr.bind Wr.tell fun initialPos =>
  let bytesForOffsets := (1 + l.rows.length / OFFSETS_PER_CHUNK) * CHUNK_BYTES
  Wr.bind (Wr.write (leBytes 8 bytesForOffsets)) fun _ =>
  Wr.bind Wr.tell fun offsetPos =>
  Wr.bind (Wr.ofOption (Offsets.new.push 0)) fun offsets =>
  Wr.bind (Wr.seekTo (offsetPos + bytesForOffsets)) fun _ =>
  Wr.bind (writeRows l.rows 0 offsets) fun offsets =>
  Wr.bind Wr.tell fun valuePos =>
  Wr.bind (Wr.seekTo offsetPos) fun _ =>
  Wr.bind (Wr.write offsets.toBytes) fun _ =>
  Wr.bind (Wr.assert (offsets.toBytes.length == bytesForOffsets)) fun _ =>
  Wr.bind (Wr.seekTo valuePos) fun _ =>
  Wr.pure (valuePos - initialPos)

/-- src/slice_vector/offsets.rs:75-87 `write`. -/
def writeSetVec (v : SetVec) : Wr Nat :=
  Wr.bind (Wr.write (leBytes 8 v.offsets.numBytes)) fun _ =>
  Wr.bind (Wr.write v.offsets.toBytes) fun _ =>
  Wr.bind (Wr.write v.data) fun _ =>
  Wr.pure (8 + v.offsets.toBytes.length + v.data.length)

/-- The loops over the layers, src/index/io.rs:27-41; returns the layer sizes. -/
def writeEach {α : Type} (one : α → Wr Nat) : List α → Wr (List Nat)
  | [] => Wr.pure []
  | l :: ls => Wr.bind (one l) fun size => Wr.bind (writeEach one ls) fun sizes => Wr.pure (size :: sizes)

/-- src/index/io.rs:27-41. -/
def writeLayers : Layers → Wr (List Nat)
  | .fixWidth ls => writeEach writeFixLayer ls
  | .compressed vs => writeEach writeSetVec vs

/-- src/index/io.rs:7. -/
def METADATA_LEN : Nat := 1024

/-- src/index/io.rs:44-59: the metadata text (`serde_json` prints object keys in alphabetical order;
`CARGO_PKG_VERSION` is 0.5.2, Cargo.toml:3). -/
def metadataText (numNeighbors : Nat) (counts sizes : List Nat) : Bytes :=
  asc "granne" ++ asc "{\"compressed\":true,\"granne_version\":\"0.5.2\",\"layer_counts\":" ++ printNums counts ++
  asc ",\"layer_sizes\":" ++ printNums sizes ++
  asc ",\"num_elements\":" ++ natDigits (counts.getLast?.getD 0) ++
  asc ",\"num_layers\":" ++ natDigits counts.length ++
  asc ",\"num_neighbors\":" ++ natDigits numNeighbors ++
  asc ",\"version\":2}"

/-- src/index/io.rs:63: padding with blanks. -/
def padMetadata (text : Bytes) : Bytes := text ++ List.replicate (METADATA_LEN - text.length) 32

/-- src/index/io.rs:11-70 `write_index`. -/
def writeIndex (layers : Layers) : Wr Unit :=
  Wr.bind Wr.tell fun metadataPos =>
  Wr.bind (Wr.seekTo (metadataPos + METADATA_LEN)) fun _ =>
  Wr.bind (Wr.ofOption layers.numNeighbors) fun numNeighbors =>
  Wr.bind (Wr.ofOption layers.counts) fun counts =>
  Wr.bind (writeLayers layers) fun sizes =>
  Wr.bind (Wr.seekTo metadataPos) fun _ =>
  Wr.bind (Wr.assert (decide ((metadataText numNeighbors counts sizes).length ≤ METADATA_LEN))) fun _ =>
  Wr.write (padMetadata (metadataText numNeighbors counts sizes))

/-- `write_index` on a writer at position `start` of a file with content `f` (all writes succeed): the file
afterwards, and whether the call returned (`false`: it panicked). -/
def saveIndex (layers : Layers) (f : Bytes) (start : Nat) : Bytes × Bool :=
  let r := writeIndex layers ⟨start, []⟩
  ((runOps r.1.ops (f, start)).1, r.2.isSome)

/-! ### Loading -/

/-- src/index/io.rs:89-113 `read_layer_sizes`; `none` stands for an error or a panic (the caller panics on an
error). -/
def readLayerSizes (buffer : Bytes) : Option (List Nat) :=
  let b := buffer.take METADATA_LEN
  if b.take 6 = asc "granne" then
    match parseJson (b.drop 6) with
    | none => none
    | some metadata =>
      match (metadata.field (asc "num_layers")).toUsize, (metadata.field (asc "layer_counts")).toUsizes with
      | some numLayers, some counts =>
        if numLayers = counts.length then (metadata.field (asc "layer_sizes")).toUsizes else none
      | _, _ => none
  else none

/-- The loop of src/index/io.rs:78-84. -/
def loadFrom (buffer : Bytes) : Nat → List Nat → Option (List SetVec)
  | _, [] => some []
  | start, size :: sizes =>
    if start + size ≤ buffer.length then
      match SetVec.ofBytes ((buffer.drop start).take size) with
      | none => none
      | some v => (loadFrom buffer (start + size) sizes).map (v :: ·)
    else none

/-- src/index/io.rs:72-87 `load_layers`; also `Granne::from_bytes` and, through a memory map, `from_file`
(src/index/mod.rs:108-135). `none` is a panic. -/
def loadLayers (buffer : Bytes) : Option (List SetVec) :=
  match readLayerSizes buffer with
  | none => none
  | some sizes => loadFrom buffer METADATA_LEN sizes

variable {E D : Type} [LinearOrder D]

/-- One row of a reloaded builder, src/index/mod.rs:446-452: `resize(num_neighbors, UNUSED)`. -/
def reloadRow (width : Nat) (ids : List Nat) : Row := ids.take width ++ List.replicate (width - ids.length) UNUSED

/-- src/index/mod.rs:430-461 `GranneBuilder::from_bytes`; `none` is a panic. -/
def Builder.fromBytes (config : BuildConfig D) (buffer : Bytes) (elements : Elements E D) : Option (Builder E D) :=
  match Builder.new config elements with
  | none => none
  | some b =>
    match loadLayers buffer with
    | none => none
    | some vs =>
      match vs.mapM SetVec.graph with
      | none => none
      | some gs => some { b with layers := gs.map fun g => ⟨config.numNeighbors, g.map (reloadRow config.numNeighbors)⟩ }

end Granne
