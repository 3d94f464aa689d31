import Verif.Util.Bytes

/-! src/slice_vector/offsets.rs: chunked, delta compressed offsets. -/
namespace Granne

/-- src/slice_vector/offsets.rs:7. -/
def OFFSETS_PER_CHUNK : Nat := 60
/-- src/slice_vector/offsets.rs:155: the sentinel `u16::MAX`. -/
def UNUSED_DELTA : Nat := 65535

/-- src/slice_vector/offsets.rs:148-153 (`deltas` has 60 entries). -/
structure Chunk where
  initial : Nat
  deltas : List Nat
deriving DecidableEq, Repr

namespace Chunk

/-- src/slice_vector/offsets.rs:158-163. -/
def new (initial : Nat) : Chunk := ⟨initial, List.replicate OFFSETS_PER_CHUNK UNUSED_DELTA⟩

/-- src/slice_vector/offsets.rs:165-167. -/
def len (c : Chunk) : Nat := (c.deltas.takeWhile (· != UNUSED_DELTA)).length

/-- src/slice_vector/offsets.rs:169-171. -/
def isEmpty (c : Chunk) : Bool := c.deltas.head? == some UNUSED_DELTA

/-- src/slice_vector/offsets.rs:173-175. -/
def isFull (c : Chunk) : Bool := c.deltas[OFFSETS_PER_CHUNK - 1]? != some UNUSED_DELTA

/-- src/slice_vector/offsets.rs:177-187 (release build: the `debug_assert` is not checked). -/
def get (c : Chunk) (index : Nat) : Option Nat :=
  if index < OFFSETS_PER_CHUNK then some ((c.deltas.take (index + 1)).sum + c.initial) else none

/-- src/slice_vector/offsets.rs:189-195. -/
def getConsecutive (c : Chunk) (index : Nat) : Option (Nat × Nat) :=
  if index + 1 < OFFSETS_PER_CHUNK then
    match c.get index, c.deltas[index + 1]? with
    | some first, some d => some (first, first + d)
    | _, _ => none
  else none

/-- src/slice_vector/offsets.rs:211-217; the outer `Option` is the panic. -/
def last (c : Chunk) : Option (Option Nat) :=
  if c.isEmpty then some none else (c.get (c.len - 1)).map some

/-- src/slice_vector/offsets.rs:197-209. -/
def push (c : Chunk) (offset : Nat) : Option Chunk :=
  if c.isFull then none
  else
    match c.last with
    | none => none
    | some l =>
      let lastOffset := l.getD c.initial
      if lastOffset ≤ offset then
        let delta := offset - lastOffset
        if delta ≤ 65535 then some { c with deltas := c.deltas.set c.len delta } else none
      else none

/-- `repr(C)` layout of a chunk on a 64-bit little-endian machine: 8 + 60 * 2 = 128 bytes (src/io.rs:11-18). -/
def toBytes (c : Chunk) : Bytes := leBytes 8 c.initial ++ c.deltas.flatMap (leBytes 2)

/-- Splits bytes into 2-byte integers. -/
def readDeltas : Nat → Bytes → List Nat
  | 0, _ => []
  | k + 1, b => leNat (b.take 2) :: readDeltas k (b.drop 2)

/-- The inverse of `toBytes` on 128 bytes (src/io.rs:4-9). -/
def ofBytes (b : Bytes) : Chunk := ⟨leNat (b.take 8), readDeltas OFFSETS_PER_CHUNK (b.drop 8)⟩

end Chunk

/-- `size_of::<Chunk>()`. -/
def CHUNK_BYTES : Nat := 128

/-- src/slice_vector/offsets.rs:220-223; `from_parts`, `borrow`, `into_owned` (src/slice_vector/offsets.rs:232-236, 282-289, 291-295)
keep the contents. -/
abbrev Offsets := List Chunk

namespace Offsets

/-- src/slice_vector/offsets.rs:226-230. -/
def new : Offsets := [Chunk.new 0]

/-- src/slice_vector/offsets.rs:238-246. -/
def push (o : Offsets) (offset : Nat) : Option Offsets :=
  match o.getLast? with
  | none => none
  | some c =>
    if c.isFull then ((Chunk.new offset).push offset).map fun c' => o ++ [c']
    else (c.push offset).map fun c' => o.dropLast ++ [c']

/-- src/slice_vector/offsets.rs:248-251. -/
def get (o : Offsets) (index : Nat) : Option Nat :=
  match o[index / OFFSETS_PER_CHUNK]? with
  | none => none
  | some c => c.get (index % OFFSETS_PER_CHUNK)

/-- src/slice_vector/offsets.rs:253-259. -/
def getConsecutive (o : Offsets) (index : Nat) : Option (Nat × Nat) :=
  if (index + 1) % OFFSETS_PER_CHUNK = 0 then
    match o.get index, o.get (index + 1) with
    | some a, some b => some (a, b)
    | _, _ => none
  else
    match o[index / OFFSETS_PER_CHUNK]? with
    | none => none
    | some c => c.getConsecutive (index % OFFSETS_PER_CHUNK)

/-- src/slice_vector/offsets.rs:261-263; outer `Option` is the panic. -/
def last (o : Offsets) : Option (Option Nat) :=
  match o.getLast? with
  | none => some none
  | some c => c.last

/-- src/slice_vector/offsets.rs:265-268. -/
def len (o : Offsets) : Option Nat :=
  match o.getLast? with
  | none => none
  | some c => some (OFFSETS_PER_CHUNK * (o.length - 1) + c.len)

/-- src/slice_vector/offsets.rs:270-272. -/
def numBytes (o : Offsets) : Nat := o.length * CHUNK_BYTES

/-- src/slice_vector/offsets.rs:274-276. -/
def toBytes (o : Offsets) : Bytes := o.flatMap Chunk.toBytes

/-- `load_bytes_as::<Chunk>` (src/io.rs:4-9): as many whole chunks as fit. -/
def readChunks : Nat → Bytes → Offsets
  | 0, _ => []
  | k + 1, b => Chunk.ofBytes (b.take CHUNK_BYTES) :: readChunks k (b.drop CHUNK_BYTES)

/-- src/slice_vector/offsets.rs:278-280. -/
def ofBytes (b : Bytes) : Offsets := readChunks (b.length / CHUNK_BYTES) b

/-- Pushing several offsets. -/
def pushAll (o : Offsets) : List Nat → Option Offsets
  | [] => some o
  | x :: xs => match o.push x with
    | none => none
    | some o' => o'.pushAll xs

end Offsets
end Granne
