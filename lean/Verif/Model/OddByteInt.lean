import Verif.Util.Bytes

/-! src/odd_byte_int.rs: integers stored in 3 or 5 bytes. -/
namespace Granne

/-- src/odd_byte_int.rs:24-31 `From<usize>` for an `k`-byte integer. `LittleEndian::write_uint` (byteorder,
external) panics when the value needs more than `k` bytes. -/
def oddFrom (k n : Nat) : Option Bytes := if n < 256 ^ k then some (leBytes k n) else none

/-- src/odd_byte_int.rs:17-22 `Into<usize>`. -/
def oddInto (b : Bytes) : Nat := leNat b

/-- src/odd_byte_int.rs:12-14 `max_value`. -/
def oddMax (k : Nat) : Bytes := List.replicate k 0xFF

end Granne
