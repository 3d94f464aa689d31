import Verif.Model.Bits
import Verif.Model.FixedWidth
import Verif.Model.IndexIO
import Verif.Model.Reorder
import Verif.Model.Schedule

/-!
Sessions of the Python module (py/src/lib.rs, py/src/variants): objects `GranneBuilder` and `Granne` over the element
types `angular` and `angular_int`, and the files they are saved to and opened from.

Files are named by paths; different paths are different files (no links). Files are opened by memory mapping: an object
opened from a file keeps reading that file until its content is copied into memory, and saving to a path truncates the
file that is there (`File::create`). A read behind the end of a truncated file kills the process (SIGBUS), and so does a
panic. Failing writes are not modelled here (see `Model/BufWriter`); neither is the element type `embeddings` (see
`Model/TextIndex`). A Python list is given by its components, already converted to `f32`.
-/
namespace Granne

/-- py/src/lib.rs:187, 191, 197 the element types. -/
inductive ElementType
  | angular
  | angularInt
deriving DecidableEq

/-- src/elements/angular.rs:48, src/elements/angular_int.rs:17 the scalar type of `Vectors`: bit patterns of `f32`, or
`i8`. -/
def Scal : ElementType → Type
  | .angular => UInt32
  | .angularInt => UInt8

instance (t : ElementType) : Scalar (Scal t) :=
  match t with
  | .angular => inferInstanceAs (Scalar UInt32)
  | .angularInt => inferInstanceAs (Scalar UInt8)

/-- py/src/variants/builder.rs:8, 17, py/src/variants/index.rs:16, 33 `Vector::from(..)`; no `row`: it panics. -/
def Convert : (t : ElementType) → List UInt32 → List (Scal t) → Prop
  | .angular, raw, row => ConvertF32 raw row
  | .angularInt, raw, row => ConvertI8 raw row

/-- src/elements/dense_vector.rs:149-155 `dist` of stored vectors: src/elements/angular.rs:63-74 and
src/elements/angular_int.rs:48-59 on the numbers behind the bytes. As in `angularElements`, a distance that is not a
finite number, and a panic, are represented by 0. -/
noncomputable def rowDist (checked : Bool) : (t : ElementType) → List (Scal t) → List (Scal t) → ℝ
  | .angular, x, y => ((angularDist (List.map F32.ofBits x) (List.map F32.ofBits y)).getD .nan).val
  | .angularInt, x, y =>
    ((angularIntDist (F := F32) checked (List.map i8OfByte x) (List.map i8OfByte y)).getD .nan).val

/-- src/elements/dense_vector.rs:138-164 a collection of vectors as the elements of an index. -/
noncomputable def vecElements (checked : Bool) {t : ElementType} (v : FixVec (Scal t)) : Elements (List (Scal t)) ℝ :=
  ⟨(List.range v.len).filterMap v.get, rowDist checked t⟩

/-- Where an object has its data: in a memory-mapped file of `len` bytes (src/slice_vector/mod.rs:43,
src/index/mod.rs:579), or in memory. -/
inductive Src (α : Type)
  | mapped (path : String) (len : Nat)
  | owned (a : α)

/-- The files by their paths. -/
abbrev Files := String → Option Bytes

/-- `std::fs::File::open` and `memmap::Mmap::map` (src/index/mod.rs:120, src/slice_vector/mod.rs:111): the length of the
mapping; an empty file cannot be mapped. -/
def mapFile (files : Files) (path : String) : Option Nat :=
  match files path with
  | some b => if b = [] then none else some b.length
  | none => none

/-- What a mapping shows. A file that has become shorter cannot be read any more (simplification: reads in the last page
of a truncated file give zeros instead). -/
def mappedBytes (files : Files) (path : String) (len : Nat) : Option Bytes :=
  match files path with
  | some b => if len ≤ b.length then some (b.take len) else none
  | none => none

/-- src/slice_vector/mod.rs:206-211 `load` of the vectors. -/
def Src.vectors {t : ElementType} (files : Files) : Src (FixVec (Scal t)) → Option (FixVec (Scal t))
  | .mapped p n => match mappedBytes files p n with
    | some b => FixVec.loadMmap b
    | none => none
  | .owned v => some v

/-- src/index/mod.rs:584-594 `load` of the layers. -/
def Src.layers (files : Files) : Src Layers → Option Layers
  | .mapped p n => match mappedBytes files p n with
    | some b => (loadLayers b).map .compressed
    | none => none
  | .owned L => some L

/-- py/src/lib.rs:149-151, 346-348: the objects. Rust reaches them through trait objects; the accessors
py/src/lib.rs:587-589, py/src/lib.rs:591-593, py/src/lib.rs:658-660, py/src/lib.rs:662-664, py/src/lib.rs:668-670,
py/src/lib.rs:672-674 only borrow. -/
inductive PyObj
  | builder (t : ElementType) (vecs : Src (FixVec (Scal t))) (layers : List Layer) (config : BuildConfig ℝ)
  | index (t : ElementType) (layers : Src Layers) (vecs : Src (FixVec (Scal t)))

/-- The state of a session. -/
structure World where
  files : Files
  objects : List PyObj

/-- py/src/lib.rs:384-406 the arguments of `GranneBuilder(..)` that make up the configuration (`None`: left out). -/
structure PyConfig where
  layerMultiplier : Option ℝ := none
  expectedNumElements : Option Nat := none
  numNeighbors : Option Nat := none
  maxSearch : Option Nat := none
  reinsertElements : Bool := true

/-- py/src/lib.rs:397-406 with the defaults of src/index/mod.rs:220-231. -/
noncomputable def PyConfig.config (c : PyConfig) : BuildConfig ℝ where
  schedule := numElementsInLayer (c.layerMultiplier.getD 15)
  expectedNumElements := c.expectedNumElements
  numNeighbors := c.numNeighbors.getD 30
  maxSearch := c.maxSearch.getD 200
  reinsertElements := c.reinsertElements
  eps := zeroThreshold

/-- src/slice_vector/mod.rs:110-121 `from_file`: the mapping, if the content is valid. -/
def openVectors (t : ElementType) (files : Files) (path : String) : Option (Src (FixVec (Scal t))) :=
  match mapFile files path, files path with
  | some n, some b => match (FixVec.fromBytes b : Option (FixVec (Scal t))) with
    | some _ => some (.mapped path n)
    | none => none
  | _, _ => none

/-- py/src/lib.rs:384-458 `GranneBuilder(..)`; `none` is a panic. -/
noncomputable def newBuilder (checked : Bool) (files : Files) (t : ElementType) (config : BuildConfig ℝ)
    (elementsPath indexPath : Option String) : Option PyObj :=
  match indexPath, elementsPath with
  | none, none =>
    match Builder.new config (vecElements checked (FixVec.new : FixVec (Scal t))) with
    | some _ => some (.builder t (.owned FixVec.new) [] config)
    | none => none
  | none, some ep =>
    match openVectors t files ep with
    | none => none
    | some src => match src.vectors files with
      | none => none
      | some v => match Builder.new config (vecElements checked v) with
        | some _ => some (.builder t src [] config)
        | none => none
  | some ip, some ep =>
    match openVectors t files ep, mapFile files ip, files ip with
    | some src, some _, some buffer => match src.vectors files with
      | none => none
      | some v => match Builder.fromBytes config buffer (vecElements checked v) with
        | some b => some (.builder t src b.layers config)
        | none => none
    | _, _, _ => none
  | some _, none => none

/-- py/src/lib.rs:175-211 `Granne(..)` with src/index/mod.rs:122-135 (`index.len()` is evaluated to check the file);
`none` is a panic. -/
def openIndex (files : Files) (t : ElementType) (indexPath elementsPath : String) : Option PyObj :=
  match openVectors t files elementsPath, mapFile files indexPath, files indexPath with
  | some src, some n, some b => match loadLayers b with
    | some vs => match (vs.getLast?).map SetVec.len with
      | some none => none
      | _ => some (.index t (.mapped indexPath n) src)
    | none => none
  | _, _, _ => none

/-- py/src/lib.rs:474-476, py/src/variants/builder.rs:6-22 `append`, src/index/mod.rs:527-530. The vectors are copied
into memory (src/slice_vector/mod.rs:191-204). No result: a panic. -/
def PyObj.Append (files : Files) (raw : List UInt32) : PyObj → PyObj → Prop
  | .builder t vecs layers config, o' => ∃ v v' row, vecs.vectors files = some v ∧ Convert t raw row ∧
      v.len < UNUSED - 1 ∧ v.push row = some v' ∧ o' = .builder t (.owned v') layers config
  | .index .., _ => False

/-- py/src/lib.rs:486-494 `build(num_elements)`, the default being `usize::MAX` for all. No result: a panic (or no end). -/
def PyObj.Build (checked : Bool) (srt : List (Nat × ℝ) → List (Nat × ℝ)) (files : Files) (num : Nat) :
    PyObj → PyObj → Prop
  | .builder t vecs layers config, o' => ∃ v b', vecs.vectors files = some v ∧
      BuildPartial srt ⟨vecElements checked v, layers, config⟩ (if num = 2 ^ 64 - 1 then v.len else num) (some b') ∧
      o' = .builder t vecs b'.layers config
  | .index .., _ => False

/-- Some execution of `build(num_elements)` panics. -/
def PyObj.BuildPanics (checked : Bool) (srt : List (Nat × ℝ) → List (Nat × ℝ)) (files : Files) (num : Nat) : PyObj → Prop
  | .builder _ vecs layers config => vecs.vectors files = none ∨ ∃ v, vecs.vectors files = some v ∧
      BuildPartial srt ⟨vecElements checked v, layers, config⟩ (if num = 2 ^ 64 - 1 then v.len else num) none
  | .index .. => True

/-- py/src/lib.rs:311-315, py/src/lib.rs:597-599, 602-606 `reorder` with src/index/reorder.rs:59-82: the object afterwards (in memory) and the
order returned; `none` is a panic. -/
noncomputable def PyObj.reorder (checked : Bool) (files : Files) : PyObj → Option (PyObj × List Nat)
  | .builder .. => none
  | .index t layers vecs => match layers.layers files, vecs.vectors files with
    | some L, some v => match L.graphs with
      | none => none
      | some gs => match computeOrder gs (vecElements checked v) with
        | none => none
        | some order => match reorderLayers gs order, v.permute order with
          | some L', some v' => some (.index t (.owned L') (.owned v'), order)
          | _, _ => none
    | _, _ => none

/-- The layers of an object (for a builder, src/index/mod.rs:358-361). -/
def PyObj.layers (files : Files) : PyObj → Option Layers
  | .builder _ _ layers _ => some (.fixWidth layers)
  | .index _ layers _ => layers.layers files

/-- The bytes `write_elements` writes (src/index/mod.rs:165-167, 507-509); `none` if the vectors cannot be read. -/
def PyObj.elementBytes (files : Files) : PyObj → Option Bytes
  | .builder _ vecs _ _ => (vecs.vectors files).map FixVec.bytes
  | .index _ _ vecs => (vecs.vectors files).map FixVec.bytes

/-- `File::create(path)` and then content `b`. -/
def Files.put (files : Files) (path : String) (b : Bytes) : Files := fun p => if p = path then some b else files p

/-- py/src/lib.rs:325-329, 504-508, 628-650 `save_index`: the file is created (and truncated) first; the files
afterwards, and whether the process survives. -/
def PyObj.saveIndex (files : Files) (o : PyObj) (path : String) : Files × Bool :=
  match o.layers (files.put path []) with
  | none => (files.put path [], false)
  | some L => (files.put path (Granne.saveIndex L [] 0).1, (Granne.saveIndex L [] 0).2)

/-- py/src/lib.rs:339-343, 518-522, 628-650 `save_elements`, in the same way. -/
def PyObj.saveElements (files : Files) (o : PyObj) (path : String) : Files × Bool :=
  match o.elementBytes (files.put path []) with
  | none => (files.put path [], false)
  | some b => (files.put path b, true)

/-- What can be called. Objects are named by their number. -/
inductive PyCall
  | newBuilder (t : ElementType) (config : PyConfig) (elementsPath indexPath : Option String)
  | openIndex (t : ElementType) (indexPath elementsPath : String)
  | append (h : Nat) (element : List UInt32)
  | build (h : Nat) (numElements : Nat)
  | reorder (h : Nat)
  | saveIndex (h : Nat) (path : String)
  | saveElements (h : Nat) (path : String)

/-- A call that returns: the state afterwards. -/
inductive PyStep (checked : Bool) (srt : List (Nat × ℝ) → List (Nat × ℝ)) : World → PyCall → World → Prop
  | newBuilder (w : World) (t : ElementType) (c : PyConfig) (ep ip : Option String) (o : PyObj) :
      newBuilder checked w.files t c.config ep ip = some o →
      PyStep checked srt w (.newBuilder t c ep ip) ⟨w.files, w.objects ++ [o]⟩
  | openIndex (w : World) (t : ElementType) (ip ep : String) (o : PyObj) :
      openIndex w.files t ip ep = some o →
      PyStep checked srt w (.openIndex t ip ep) ⟨w.files, w.objects ++ [o]⟩
  | append (w : World) (h : Nat) (raw : List UInt32) (o o' : PyObj) : w.objects[h]? = some o →
      o.Append w.files raw o' → PyStep checked srt w (.append h raw) ⟨w.files, w.objects.set h o'⟩
  | build (w : World) (h num : Nat) (o o' : PyObj) : w.objects[h]? = some o →
      o.Build checked srt w.files num o' → PyStep checked srt w (.build h num) ⟨w.files, w.objects.set h o'⟩
  | reorder (w : World) (h : Nat) (o o' : PyObj) (order : List Nat) : w.objects[h]? = some o →
      o.reorder checked w.files = some (o', order) →
      PyStep checked srt w (.reorder h) ⟨w.files, w.objects.set h o'⟩
  | saveIndex (w : World) (h : Nat) (path : String) (o : PyObj) (files : Files) : w.objects[h]? = some o →
      o.saveIndex w.files path = (files, true) → PyStep checked srt w (.saveIndex h path) ⟨files, w.objects⟩
  | saveElements (w : World) (h : Nat) (path : String) (o : PyObj) (files : Files) : w.objects[h]? = some o →
      o.saveElements w.files path = (files, true) → PyStep checked srt w (.saveElements h path) ⟨files, w.objects⟩

/-- What can be asked about an object. -/
inductive PyQuery
  | len
  | numElements
  | numLayers
  | layerLen (layer : Nat)
  | neighbors (idx : Nat) (layer : Option Nat)
  | element (idx : Nat)
  | search (query : List UInt32) (maxSearch numElements : Nat)

/-- Answers: numbers, ids, the components of a vector (bit patterns, or bytes), search results. -/
inductive PyAnswer
  | num (n : Nat)
  | ids (l : List Nat)
  | vector (components : Bytes)
  | found (l : List (Nat × ℝ))

/-- src/index/mod.rs:85-103, 535-577 one neighbor list; `none` is a panic. -/
def Layers.neighbors (layer idx : Nat) : Layers → Option (List Nat)
  | .fixWidth ls => match ls[layer]? with
    | some l => (l.rows[idx]?).map visible
    | none => none
  | .compressed vs => match vs[layer]? with
    | some v => v.get idx
    | none => none

/-- src/index/mod.rs:90-93 `layer_len`; `none` is a panic. -/
def Layers.layerLen (layer : Nat) : Layers → Option Nat
  | .fixWidth ls => (ls[layer]?).map fun l => l.rows.length
  | .compressed vs => match vs[layer]? with
    | some v => v.len
    | none => none

/-- src/index/mod.rs:85-88 `num_layers`. -/
def Layers.num : Layers → Nat
  | .fixWidth ls => ls.length
  | .compressed vs => vs.length

/-- The queries that need the layers only (py/src/lib.rs:270-299, 544-578, src/index/mod.rs:73-98): `__len__`,
`num_layers`, `layer_len`, `get_neighbors` (by default in the last layer; without layers this panics). -/
def Layers.answer (L : Layers) : PyQuery → Option PyAnswer
  | .len => if L.num = 0 then some (.num 0) else (L.layerLen (L.num - 1)).map .num
  | .numLayers => some (.num L.num)
  | .layerLen l => (L.layerLen l).map .num
  | .neighbors i (some l) => (L.neighbors l i).map .ids
  | .neighbors i none => if L.num = 0 then none else (L.neighbors (L.num - 1) i).map .ids
  | _ => none

/-- The answers of an object; a question without answer makes the process panic. A builder has no `get_element` and no
`search` (they are commented out, py/src/lib.rs:460-464, 523-531), an index no `num_elements`. -/
def PyObj.Answers (checked : Bool) (files : Files) (o : PyObj) (q : PyQuery) (a : PyAnswer) : Prop :=
  (∃ L, o.layers files = some L ∧ L.answer q = some a) ∨
  match o, q with
  -- py/src/lib.rs:559-561
  | .builder _ vecs _ _, .numElements => ∃ v, vecs.vectors files = some v ∧ a = .num v.len
  -- py/src/lib.rs:243-245, py/src/variants/index.rs:19-21, 36-38; `get_internal_element` (py/src/lib.rs:255-257,
  -- py/src/lib.rs:617-619) is the same for these types
  | .index _ _ vecs, .element i => ∃ v row, vecs.vectors files = some v ∧ v.get i = some row ∧ a = .vector (encodeAll row)
  -- py/src/lib.rs:227-233, py/src/lib.rs:609-615, py/src/variants/index.rs:9-18, 26-35
  | .index t layers vecs, .search raw maxSearch k => ∃ L gs v row r, layers.layers files = some L ∧ L.graphs = some gs ∧
      vecs.vectors files = some v ∧ Convert t raw row ∧
      Granne.search gs (vecElements checked v) row maxSearch k = some r ∧ a = .found r
  | _, _ => False

/-- The answers of object `h`. -/
def World.Answers (checked : Bool) (w : World) (h : Nat) (q : PyQuery) (a : PyAnswer) : Prop :=
  ∃ o, w.objects[h]? = some o ∧ o.Answers checked w.files q a

end Granne
