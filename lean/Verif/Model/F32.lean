import Verif.Model.Math
import Mathlib.Data.Int.Log
import Mathlib.Algebra.Order.Round

/-!
`f32` as IEEE 754 binary32: rounding to nearest, ties to even, gradual underflow, overflow to infinity, infinities
and NaN. Signed zeros are identified (nothing in src/math.rs, src/elements/angular.rs and src/elements/angular_int.rs
divides by a negative zero: the divisors are square roots and maxima of absolute values).
-/
namespace Granne

/-- The nearest integer, ties to the even one. -/
noncomputable def roundEven (x : ℝ) : Int :=
  if Int.fract x < 1 / 2 then ⌊x⌋
  else if 1 / 2 < Int.fract x then ⌊x⌋ + 1
  else if Even ⌊x⌋ then ⌊x⌋ else ⌊x⌋ + 1

/-- The exponent of the last digit that a number of the size of `z` has in binary32: 24 digits, but not below
`2^-149`. -/
noncomputable def ulpExp (z : ℝ) : Int := max (Int.log 2 |z| - 23) (-149)

/-- Rounding to binary32 with an unbounded exponent range upwards. -/
noncomputable def rne32 (z : ℝ) : ℝ := (roundEven (z / 2 ^ ulpExp z) : ℝ) * 2 ^ ulpExp z

/-- The largest finite number, `f32::MAX`. -/
noncomputable def maxF32 : ℝ := (2 ^ 24 - 1) * 2 ^ 104

/-- `f32` values; zeros are identified. -/
inductive F32
  | nan
  | inf (negative : Bool)
  | fin (x : ℝ)

namespace F32

/-- The result of an operation whose exact result is `z`: rounded; too large results are infinite. -/
noncomputable def ofReal (z : ℝ) : F32 :=
  if |rne32 z| ≤ maxF32 then fin (rne32 z) else inf (decide (z < 0))

/-- IEEE addition. -/
noncomputable def add : F32 → F32 → F32
  | nan, _ => nan
  | _, nan => nan
  | inf s, inf t => if s = t then inf s else nan
  | inf s, fin _ => inf s
  | fin _, inf t => inf t
  | fin a, fin b => ofReal (a + b)

/-- Negation. -/
noncomputable def neg : F32 → F32
  | nan => nan
  | inf s => inf !s
  | fin a => fin (-a)

/-- The sign of a product. -/
noncomputable def mulInf (s : Bool) (a : ℝ) : F32 := if a = 0 then nan else inf (s != decide (a < 0))

/-- IEEE multiplication. -/
noncomputable def mul : F32 → F32 → F32
  | nan, _ => nan
  | _, nan => nan
  | inf s, inf t => inf (s != t)
  | inf s, fin a => mulInf s a
  | fin a, inf t => mulInf t a
  | fin a, fin b => ofReal (a * b)

/-- `a.mul_add(b, c)`: rounded once. -/
noncomputable def mulAdd (a b c : F32) : F32 :=
  match a, b, c with
  | fin a, fin b, fin c => ofReal (a * b + c)
  | fin _, fin _, inf s => inf s
  | a, b, c => add (mul a b) c

/-- IEEE division; divisors that are zero are positive zeros. -/
noncomputable def div : F32 → F32 → F32
  | nan, _ => nan
  | _, nan => nan
  | inf _, inf _ => nan
  | inf s, fin b => inf (s != decide (b < 0))
  | fin _, inf _ => fin 0
  | fin a, fin b => if b = 0 then (if a = 0 then nan else inf (decide (a < 0))) else ofReal (a / b)

/-- IEEE square root. -/
noncomputable def sqrt : F32 → F32
  | nan => nan
  | inf s => if s then nan else inf s
  | fin a => if a < 0 then nan else ofReal (Real.sqrt a)

/-- `a > b`. -/
noncomputable def gt : F32 → F32 → Bool
  | nan, _ => false
  | _, nan => false
  | inf s, inf t => !s && t
  | inf s, fin _ => !s
  | fin _, inf t => t
  | fin a, fin b => decide (b < a)

/-- The number, if it is finite. -/
def val : F32 → ℝ
  | fin a => a
  | _ => 0

end F32

/-- The `f32` operations. `as i8` saturates. -/
noncomputable instance : FloatOps F32 where
  zero := .fin 0
  add := F32.add
  mulAdd := F32.mulAdd
  ofInt n := F32.ofReal n
  sub a b := F32.add a b.neg
  mul := F32.mul
  div := F32.div
  sqrt := F32.sqrt
  abs
    | .nan => .nan
    | .inf _ => .inf false
    | .fin a => .fin |a|
  gt := F32.gt
  isNan
    | .nan => true
    | _ => false
  toI8
    | .nan => 0
    | .inf s => if s then -128 else 127
    | .fin a => truncI8 a

open FloatOps in
/-- src/elements/angular_int.rs:28-44 `quantize` in a build with debug assertions: line 39 panics if a scaled component
is not between `-MAX_QVALUE - 0.0001` and `MAX_QVALUE + 0.0001` (or is NaN). -/
noncomputable def quantizeDebug (s : List F32) : Option (List Int) :=
  if s.any fun a => isNan (FloatOps.abs a) then none
  else
    let maxValue := (maxOf (s.map FloatOps.abs)).getD (ofInt 127)
    let limit : F32 := F32.add (ofInt 127) (F32.ofReal (1 / 10000))
    let vs := s.map fun x => div (mul x (ofInt 127)) maxValue
    if vs.all fun v => !isNan v && !gt (F32.neg limit) v && !gt v limit then some (vs.map toI8) else none

end Granne
