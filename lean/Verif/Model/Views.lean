import Verif.Model.IndexIO
import Verif.Model.FixedWidth
import Verif.Model.VarWidth

/-!
Where the typed slices made from file bytes lie in memory (src/io.rs:4-9 `load_bytes_as`). The rest of the model treats the bytes as
values; here only addresses, sizes and alignments matter. `base` is the address of the first byte of the buffer: a multiple of the page
size for a memory mapped file, anything for `from_bytes`.
-/
namespace Granne

/-- A slice `&[T]`: the address of its first element, the number of elements, the size and the alignment of `T`. -/
structure View where
  addr : Nat
  count : Nat
  size : Nat
  align : Nat
deriving DecidableEq

/-- src/io.rs:4-9 `load_bytes_as::<T>` on the `len` bytes at `addr`. -/
def loadView (addr len size align : Nat) : View := ⟨addr, len / size, size, align⟩

/-- src/slice_vector/mod.rs:213-221 `FixedWidthSliceVector::load_mmap`: the view of the vectors. `none` is a panic. -/
def fixViews (base : Nat) (buffer : Bytes) (size align : Nat) : Option (List View) :=
  if 8 ≤ buffer.length then some [loadView (base + 8) (buffer.length - 8) size align] else none

/-- src/slice_vector/mod.rs:659-676 `VariableWidthSliceVector::load_mmap` (release build: `(1 + num_slices) * offset_len` wraps): the
views of the offsets and of the data. -/
def varViews (base : Nat) (buffer : Bytes) (osize oalign size align : Nat) : Option (List View) :=
  if 8 ≤ buffer.length then
    let k := (1 + leNat (buffer.take 8)) * osize % 2 ^ 64
    if k ≤ buffer.length - 8 then
      some [loadView (base + 8) k osize oalign, loadView (base + 8 + k) (buffer.length - 8 - k) size align]
    else none
  else none

/-- src/slice_vector/offsets.rs:114-124, 278-280: the views of the table of offsets (`Chunk`: 128 bytes, aligned to 8) and of the data of
one layer of an index. -/
def layerViews (base : Nat) (buffer : Bytes) : Option (List View) :=
  if 8 ≤ buffer.length then
    let k := leNat (buffer.take 8)
    if k ≤ buffer.length - 8 then
      some [loadView (base + 8) k CHUNK_BYTES 8, loadView (base + 8 + k) (buffer.length - 8 - k) 1 1]
    else none
  else none

/-- The loop of src/index/io.rs:78-84. -/
def layersViews (base : Nat) (buffer : Bytes) : Nat → List Nat → Option (List View)
  | _, [] => some []
  | start, size :: sizes =>
    if start + size ≤ buffer.length then
      match layerViews (base + start) ((buffer.drop start).take size), layersViews base buffer (start + size) sizes with
      | some vs, some ws => some (vs ++ ws)
      | _, _ => none
    else none

/-- src/index/io.rs:72-87 `load_layers`: all views it makes. -/
def indexViews (base : Nat) (buffer : Bytes) : Option (List View) :=
  match readLayerSizes buffer with
  | none => none
  | some sizes => layersViews base buffer METADATA_LEN sizes

end Granne
