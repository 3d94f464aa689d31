import Verif.Util.Bytes

/-!
The external crate `stream-vbyte` (`encode::<Scalar>`, `decode::<Scalar>`), used by
src/slice_vector/set_vector.rs:5,101,134. Format: one control byte per four numbers (two bits per number, the first
number in the low bits, the number of data bytes minus one; the last control byte may be partial), then the
data bytes of all numbers, little endian, 1 to 4 bytes each. The crate's code is not in /repo; this is its documented
format (trusted).
-/
namespace Granne

/-- Number of data bytes minus one. -/
def vbCode (n : Nat) : Nat := if n < 2 ^ 8 then 0 else if n < 2 ^ 16 then 1 else if n < 2 ^ 24 then 2 else 3

/-- The control bytes. -/
def vbControls : List Nat → Bytes
  | [] => []
  | [a] => [UInt8.ofNat (vbCode a)]
  | [a, b] => [UInt8.ofNat (vbCode a + 4 * vbCode b)]
  | [a, b, c] => [UInt8.ofNat (vbCode a + 4 * vbCode b + 16 * vbCode c)]
  | a :: b :: c :: d :: t =>
    UInt8.ofNat (vbCode a + 4 * vbCode b + 16 * vbCode c + 64 * vbCode d) :: vbControls t

/-- `encode::<Scalar>(nums, out)`, the bytes written. -/
def vbEncode (nums : List Nat) : Bytes :=
  vbControls nums ++ nums.flatMap fun n => leBytes (vbCode n + 1) n

/-- The four two-bit codes of a control byte. -/
def vbUnpack (b : UInt8) : List Nat := [b.toNat % 4, b.toNat / 4 % 4, b.toNat / 16 % 4, b.toNat / 64 % 4]

/-- Reads one number per code; panics (slice index) when the data are too short. -/
def vbRead : List Nat → Bytes → Option (List Nat)
  | [], _ => some []
  | c :: cs, data =>
    if c + 1 ≤ data.length then
      (vbRead cs (data.drop (c + 1))).map fun ns => leNat (data.take (c + 1)) :: ns
    else none

/-- `decode::<Scalar>(input, count, out)`: the numbers read. -/
def vbDecode (input : Bytes) (count : Nat) : Option (List Nat) :=
  let controlLen := (count + 3) / 4
  if controlLen ≤ input.length then
    vbRead (((input.take controlLen).flatMap vbUnpack).take count) (input.drop controlLen)
  else none

end Granne
