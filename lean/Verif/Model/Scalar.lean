import Verif.Util.Bytes

/-!
Values stored as raw bytes (src/io.rs). The code reinterprets memory (`from_raw_parts`); every bit pattern of the
types used (`f32`, `i8`, `ThreeByteInt`, `FiveByteInt`, `usize`) is a value, so values and bit patterns correspond
one to one. Alignment is treated separately (Model/Views.lean); the host byte order is not modelled (little-endian is assumed).
-/
namespace Granne

/-- A plain type of `size` bytes. -/
class Scalar (T : Type) where
  size : Nat
  enc : T → Bytes
  dec : Bytes → T
  size_pos : 0 < size
  enc_length : ∀ t, (enc t).length = size
  dec_enc : ∀ t, dec (enc t) = t
  enc_dec : ∀ b : Bytes, b.length = size → enc (dec b) = b

/-- src/odd_byte_int.rs:4-9 `struct $name([u8; $size])`. -/
abbrev OddInt (k : Nat) := { b : Bytes // b.length = k }

/-- src/elements/embeddings/mod.rs:21 `EmbeddingId`. -/
abbrev ThreeByteInt := OddInt 3
/-- src/elements/embeddings/mod.rs:22 `ElementOffset`. -/
abbrev FiveByteInt := OddInt 5

instance : Scalar (OddInt 3) where
  size := 3
  enc b := b.1
  dec b := if h : b.length = 3 then ⟨b, h⟩ else ⟨[0, 0, 0], rfl⟩
  size_pos := by decide
  enc_length b := b.2
  dec_enc b := by simp [b.2]
  enc_dec b h := by simp [h]

instance : Scalar (OddInt 5) where
  size := 5
  enc b := b.1
  dec b := if h : b.length = 5 then ⟨b, h⟩ else ⟨[0, 0, 0, 0, 0], rfl⟩
  size_pos := by decide
  enc_length b := b.2
  dec_enc b := by simp [b.2]
  enc_dec b h := by simp [h]

/-- `i8`, as its bit pattern. -/
instance : Scalar UInt8 where
  size := 1
  enc b := [b]
  dec b := b.headD 0
  size_pos := by decide
  enc_length _ := rfl
  dec_enc _ := rfl
  enc_dec b h := by
    obtain ⟨x, rfl⟩ := List.length_eq_one_iff.1 h
    rfl

/-- `f32`, as its bit pattern. -/
instance : Scalar UInt32 where
  size := 4
  enc n := leBytes 4 n.toNat
  dec b := UInt32.ofNat (leNat b)
  size_pos := by decide
  enc_length _ := by simp
  dec_enc n := by
    rw [leNat_leBytes_of_lt (by have := n.toNat_lt; omega)]
    simp
  enc_dec b h := by
    have := leNat_lt b
    rw [h] at this
    rw [UInt32.toNat_ofNat_of_lt' (by rw [UInt32.size]; omega)]
    conv_rhs => rw [← leBytes_leNat b, h]

/-- An offset type: `Offset: TryFrom<usize> + Copy`, `usize: TryFrom<Offset>` (src/slice_vector/mod.rs:498-503).
`toNat` of a `usize`-convertible offset never fails for the types used. -/
class OffsetInt (O : Type) extends Scalar O where
  limit : Nat
  /-- `Offset::try_from(n).unwrap()`, `none` being a panic. -/
  ofNat? : Nat → Option O
  toNat : O → Nat
  limit_pos : 0 < limit
  ofNat?_isSome : ∀ n, (ofNat? n).isSome = decide (n < limit)
  toNat_ofNat? : ∀ n o, ofNat? n = some o → toNat o = n
  toNat_lt : ∀ o, toNat o < limit
  ofNat?_toNat : ∀ o, ofNat? (toNat o) = some o

/-- src/odd_byte_int.rs:17-31 for `FiveByteInt`. The conversion from `usize` panics on more than five bytes. -/
instance : OffsetInt (OddInt 5) where
  limit := 256 ^ 5
  ofNat? n := if n < 256 ^ 5 then some ⟨leBytes 5 n, by simp⟩ else none
  toNat b := leNat b.1
  limit_pos := by decide
  ofNat?_isSome n := by split <;> simp_all
  toNat_ofNat? n o h := by
    split at h
    · obtain rfl := Option.some.inj h
      exact leNat_leBytes_of_lt (by assumption)
    · simp at h
  toNat_lt o := by have := leNat_lt o.1; rwa [o.2] at this
  ofNat?_toNat o := by
    have := leNat_lt o.1
    rw [o.2] at this
    rw [if_pos this]
    congr 1
    apply Subtype.ext
    conv_rhs => rw [← leBytes_leNat o.1, o.2]

/-- src/io.rs:11-18 `write_as_bytes`: the bytes written. -/
def encodeAll {T : Type} [Scalar T] (l : List T) : Bytes := l.flatMap Scalar.enc

/-- `n` values of `size` bytes each from the front of `b`. -/
def decodeN {T : Type} [Scalar T] : Nat → Bytes → List T
  | 0, _ => []
  | n + 1, b => Scalar.dec (b.take (Scalar.size T)) :: decodeN n (b.drop (Scalar.size T))

/-- src/io.rs:4-9 `load_bytes_as`: `len / size` values; a remainder is ignored. -/
def loadBytesAs (T : Type) [Scalar T] (b : Bytes) : List T := decodeN (b.length / Scalar.size T) b

end Granne
