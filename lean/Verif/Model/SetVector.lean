import Verif.Model.StreamVByte
import Verif.Model.Offsets
import Mathlib.Data.List.Sort

/-! src/slice_vector/set_vector.rs and the compressed slice vector of src/slice_vector/offsets.rs. -/
namespace Granne

/-- src/slice_vector/set_vector.rs:150-155 `delta_encode`, on sorted data (an underflow panics in debug builds;
both callers sort first, lines 44 and 198). -/
def deltaEncodeFrom (prev : Nat) : List Nat → List Nat
  | [] => []
  | x :: xs => (x - prev) :: deltaEncodeFrom x xs

/-- src/slice_vector/set_vector.rs:157-162 `delta_decode`; `u32` addition wraps in release builds. -/
def deltaDecodeFrom (prev : Nat) : List Nat → List Nat
  | [] => []
  | x :: xs => (prev + x) % 2 ^ 32 :: deltaDecodeFrom ((prev + x) % 2 ^ 32) xs

/-- src/slice_vector/set_vector.rs:117-148 `set_encode` (release build; a debug build panics for 255 or more
numbers, line 118). Argument: sorted numbers. -/
def setEncode (data : List Nat) : Bytes :=
  let data := if data.length ≥ 255 then data.take 255 else data
  let deltas := deltaEncodeFrom 0 data
  let count := deltas.length
  let padded := deltas ++ List.replicate (4 - deltas.length) 0
  let encoded := vbEncode padded
  let body := if encoded.length ≥ 4 * count then deltas.flatMap (leBytes 4) else encoded
  UInt8.ofNat count :: body

/-- `set_encode` in a build with debug assertions (src/slice_vector/set_vector.rs:118). -/
def setEncodeDebug (data : List Nat) : Option Bytes := if data.length < 255 then some (setEncode data) else none

/-- Reads 4-byte integers (src/slice_vector/set_vector.rs:107-111). -/
def readRaw : Nat → Bytes → List Nat
  | 0, _ => []
  | k + 1, b => leNat (b.take 4) :: readRaw k (b.drop 4)

/-- src/slice_vector/set_vector.rs:91-115 `decode_into`. -/
def decodeInto : Bytes → Option (List Nat)
  | [] => none
  | c :: body =>
    let count := c.toNat
    if body.length ≠ 4 * count then
      (vbDecode body (max 4 count)).map fun nums => deltaDecodeFrom 0 (nums.take count)
    else some (deltaDecodeFrom 0 (readRaw count body))

/-- `sort` on `u32`s (src/slice_vector/set_vector.rs:44, 198). -/
def sortIds (l : List Nat) : List Nat := l.insertionSort (· ≤ ·)

/-- `MultiSetVector` / `CompressedVariableWidthSliceVector<u8>` (src/slice_vector/set_vector.rs:7-10, src/slice_vector/offsets.rs:10-13); the
`File` variant is `ofBytes` of the file: `load` (src/slice_vector/offsets.rs:89-97) loads it for every use, `load_mut`
(src/slice_vector/offsets.rs:99-112) once before the first change. `borrow`, `into_owned` and `clone` keep the contents
(src/slice_vector/offsets.rs:126-133, 135-145, 16-24; src/slice_vector/set_vector.rs:75-82, 84-88). -/
structure SetVec where
  offsets : Offsets
  data : Bytes

namespace SetVec

/-- src/slice_vector/offsets.rs:28-33, src/slice_vector/set_vector.rs:15-19 (`offsets.push(0)` on the empty table cannot fail). -/
def new : SetVec := ⟨((Offsets.new.push 0).getD Offsets.new), []⟩

/-- src/slice_vector/offsets.rs:62-66, src/slice_vector/set_vector.rs:33-35 (and 37-39: `is_empty` is `len() == 0`). -/
def len (v : SetVec) : Option Nat :=
  match v.offsets.len with
  | none => none
  | some n => if 1 ≤ n then some (n - 1) else none

/-- src/slice_vector/offsets.rs:68-73. -/
def pushRaw (v : SetVec) (new : Bytes) : Option SetVec :=
  (v.offsets.push (v.data ++ new).length).map fun o => ⟨o, v.data ++ new⟩

/-- src/slice_vector/set_vector.rs:41-51 `push`. -/
def push (v : SetVec) (ids : List Nat) : Option SetVec := v.pushRaw (setEncode (sortIds ids))

/-- src/slice_vector/offsets.rs:51-60. -/
def getRaw (v : SetVec) (idx : Nat) : Option Bytes :=
  match v.offsets.getConsecutive idx with
  | none => none
  | some (b, e) => if b ≤ e ∧ e ≤ v.data.length then some ((v.data.drop b).take (e - b)) else none

/-- src/slice_vector/set_vector.rs:57-69 `get`. -/
def get (v : SetVec) (idx : Nat) : Option (List Nat) := (v.getRaw idx).bind decodeInto

/-- src/slice_vector/offsets.rs:75-87 `write` (src/slice_vector/set_vector.rs:71-73): the bytes written (in this order, sequentially). -/
def toBytes (v : SetVec) : Bytes := leBytes 8 v.offsets.numBytes ++ v.offsets.toBytes ++ v.data

/-- src/slice_vector/offsets.rs:46-49, 114-124 `from_bytes` and 35-44 `from_file` (src/slice_vector/set_vector.rs:27-31 and 21-25). -/
def ofBytes (b : Bytes) : Option SetVec :=
  if 8 ≤ b.length then
    let num := leNat (b.take 8)
    let rest := b.drop 8
    if num ≤ rest.length then some ⟨Offsets.ofBytes (rest.take num), rest.drop num⟩ else none
  else none

/-- Pushing several lists. -/
def pushAll (v : SetVec) : List (List Nat) → Option SetVec
  | [] => some v
  | x :: xs => match v.push x with
    | none => none
    | some v' => v'.pushAll xs

end SetVec
end Granne
