import Verif.Model.Concrete
import Verif.Model.Scalar

/-!
The numbers behind the stored bytes: `f32` bit patterns (IEEE 754 interchange format, as in the files written by
src/io.rs:11-18) and `i8` bytes.
-/
namespace Granne

/-- The value of an `f32` bit pattern: one sign bit, eight exponent bits with bias 127, 23 fraction bits. Both zeros
give 0, all NaN patterns give NaN. -/
noncomputable def F32.ofBits (u : UInt32) : F32 :=
  let negative := decide (2 ^ 31 ≤ u.toNat)
  let exponent : Nat := u.toNat / 2 ^ 23 % 2 ^ 8
  let fraction : Nat := u.toNat % 2 ^ 23
  if exponent = 255 then (if fraction = 0 then .inf negative else .nan)
  else
    let magnitude : ℝ :=
      if exponent = 0 then (fraction : ℝ) * 2 ^ (-149 : Int)
      else ((2 ^ 23 + fraction : Nat) : ℝ) * 2 ^ ((exponent : Int) - 150)
    .fin (if negative then -magnitude else magnitude)

/-- The value of an `i8` byte (two's complement). -/
def i8OfByte (u : UInt8) : Int := if u.toNat < 128 then u.toNat else u.toNat - 256

/-- src/elements/angular.rs:55-61 `Vector::from(Vec<f32>)` on bit patterns: the stored numbers are the normalised
ones. Which of the two zeros, and which NaN pattern, is left open. -/
def ConvertF32 (raw row : List UInt32) : Prop := row.map F32.ofBits = normalize (raw.map F32.ofBits)

/-- src/elements/angular_int.rs:19-23 `Vector::from(Vec<f32>)` on bit patterns: the quantised numbers. No `row`: it
panics. -/
def ConvertI8 (raw : List UInt32) (row : List UInt8) : Prop :=
  quantize (raw.map F32.ofBits) = some (row.map i8OfByte)

end Granne
