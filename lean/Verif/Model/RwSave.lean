import Verif.Model.BufWriter
import Verif.Model.OpenFile
import Verif.Model.TextIndex

/-!
`RwGranneBuilder::save_index_and_elements_to_disk` (src/index/rw/mod.rs:63-97) as a sequence of effects on two files, and searching what
is in these files. The two paths are different. The process may die at any point; what it has written stays (not modelled: a power
failure that loses or reorders writes the kernel has accepted).
-/
namespace Granne

/-- The contents of the two files; `none`: the file does not exist. -/
structure Disk where
  elements : Option Bytes
  index : Option Bytes

/-- The effects: creating (and truncating) a file, appending a byte to the elements file, writing a byte of the index file. -/
inductive DiskOp where
  | createElements
  | createIndex
  | elements (b : UInt8)
  | index (p : Nat) (b : UInt8)

/-- One effect. -/
def DiskOp.apply (d : Disk) : DiskOp → Disk
  | .createElements => { d with elements := some [] }
  | .createIndex => { d with index := some [] }
  | .elements b => { d with elements := d.elements.map (· ++ [b]) }
  | .index p b => { d with index := d.index.map fun f => writeAt f p [b] }

/-- Some effects, one after the other. -/
def Disk.after (d : Disk) (ops : List DiskOp) : Disk := ops.foldl DiskOp.apply d

/-- src/slice_vector/mod.rs:460-466 `FixedWidthSliceVector::write`: the `write_all` calls. -/
def FixVec.writes {T : Type} [Scalar T] (v : FixVec T) : List Bytes := [leBytes 8 v.width, encodeAll v.data]

/-- src/slice_vector/mod.rs:623-634 `VariableWidthSliceVector::write`: the `write_all` calls. -/
def VarVec.writes {T O : Type} [Scalar T] [OffsetInt O] (v : VarVec T O) : List Bytes :=
  [leBytes 8 v.len, encodeAll v.offsets, encodeAll v.data]

/-- src/index/rw/mod.rs:77-78: the elements are written through a `BufWriter` that is not flushed here. What is in the file and what is
still in the buffer after line 78. -/
def bufferedElements (writes : List Bytes) : Bytes × Bytes :=
  let s := (bufRun (fun _ => false) (writes.map .write) ⟨[], 0, [], 0⟩).1
  (s.file, s.buf)

/-- src/index/rw/mod.rs:63-97: both files are created, the elements written (up to what stays in the buffer), the index written, and
when `write` returns the `BufWriter` of line 77 is dropped and writes its buffer. -/
def rwSaveOps (writes : List Bytes) (layers : Layers) : List DiskOp :=
  [.createElements, .createIndex] ++
  (bufferedElements writes).1.map .elements ++
  (byteEffects (writeIndex layers ⟨0, []⟩).1.ops 0).map (fun e => .index e.1 e.2) ++
  (bufferedElements writes).2.map .elements

/-- The same when operations on the files fail (`failE`, `failI`: which ones), started on fresh files: line 78 returns an error if writing
the elements fails before their buffer is dropped; the failure of the write in `Drop` is ignored. -/
def rwSaveFailing (writes : List Bytes) (layers : Layers) (failE failI : Nat → Bool) : Disk × SaveResult :=
  match bufRun failE (writes.map .write) ⟨[], 0, [], 0⟩ with
  | (s, false) => (⟨some (flushBuf failE s).1.file, some []⟩, .error)
  | (s, true) =>
    let r := saveFailing layers failI [] 0
    (⟨some (flushBuf failE s).1.file, some r.1⟩, r.2.1)

variable {D : Type} [LinearOrder D]

/-- `Vectors::from_file` (src/slice_vector/mod.rs:110-121), `Granne::from_file` and `search` (src/index/mod.rs:106-150), with
elements and neighbors read on demand. `none`: a file does not exist or a panic. -/
def Disk.searchVectors {T : Type} [Scalar T] (d : Disk) (dist : List T → List T → D) (q : List T) (maxSearch k : Nat) :
    Option (List (Nat × D)) :=
  match d.elements, d.index with
  | some eb, some ib =>
    match (FixVec.fromBytes eb : Option (FixVec T)), loadLayers ib with
    | some v, some vs => searchWith v.len (vs.map SetVec.getRelease) (fun i => (v.get i).map fun e => dist e q) maxSearch k
    | _, _ => none
  | _, _ => none

/-- The same for texts: `SumEmbeddings` from the file of elements (src/elements/embeddings/mod.rs:161-175) and embeddings that are
already there. -/
noncomputable def Disk.searchTexts (d : Disk) (embeddings : FixVec F32) (q : List F32) (maxSearch k : Nat) :
    Option (List (Nat × ℝ)) :=
  match d.elements, d.index with
  | some eb, some ib =>
    match (VarVec.fromBytes eb : Option Elems), loadLayers ib with
    | some e, some vs =>
      searchWith e.len (vs.map SetVec.getRelease)
        (fun i => (sumElement ⟨embeddings, e⟩ i).map fun x => (angularElements []).dist x q) maxSearch k
    | _, _ => none
  | _, _ => none

end Granne
