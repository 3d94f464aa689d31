import Verif.Model.Math
import Mathlib.Data.Int.Log
import Mathlib.Algebra.Order.Round

/-!
Arithmetic with rounding: every operation gives the exact result, rounded by `fl`. Infinities and NaN do not occur;
overflow and underflow of `f32` are not modelled.
-/
namespace Granne

/-- The operations on real numbers, each followed by `fl`. `mul_add` rounds once (`f32::mul_add` is fused). -/
@[reducible] noncomputable def roundedOps (fl : ℝ → ℝ) : FloatOps ℝ where
  zero := 0
  add a b := fl (a + b)
  mulAdd a b c := fl (a * b + c)
  ofInt n := fl n
  sub a b := fl (a - b)
  mul a b := fl (a * b)
  div a b := fl (a / b)
  sqrt a := fl (Real.sqrt a)
  abs a := |a|
  gt a b := decide (b < a)
  isNan _ := false
  toI8 := truncI8

/-- Rounding to 24 significant binary digits, to nearest: `f32` without bounds on the exponent. (Ties go away from
zero or up, unlike IEEE 754; none of the statements depends on ties.) -/
noncomputable def fl32 (z : ℝ) : ℝ := (round (z / 2 ^ (Int.log 2 |z| - 23)) : ℝ) * 2 ^ (Int.log 2 |z| - 23)

end Granne
