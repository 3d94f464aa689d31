import Mathlib.Analysis.Real.Sqrt
import Mathlib.Algebra.Order.Floor.Ring

/-!
src/math.rs, src/elements/angular.rs, src/elements/angular_int.rs: the arithmetic of the distances.

The functions are written once for every arithmetic (`FloatOps`), so what is proved from stated laws only (for
instance symmetry) holds for `f32`; `ExactF`, at the end of this file, is exact arithmetic on the real numbers.
The `blas` feature is in `Model/Blas`.
-/
namespace Granne

/-- What `dot_product_f32` needs. -/
class MulAddOps (F : Type) where
  zero : F
  add : F → F → F
  /-- `a.mul_add(b, c)` -/
  mulAdd : F → F → F → F

/-- The `f32` operations used by normalisation, quantisation and the distances. -/
class FloatOps (F : Type) extends MulAddOps F where
  /-- conversions `as f32` and literals -/
  ofInt : Int → F
  sub : F → F → F
  mul : F → F → F
  div : F → F → F
  sqrt : F → F
  abs : F → F
  /-- `a > b`, false if one of them is NaN -/
  gt : F → F → Bool
  isNan : F → Bool
  /-- the saturating cast `as i8`, 0 for NaN -/
  toI8 : F → Int

/-! ### Dot product -/

/-- std `slice.chunks_exact(k)`: the complete chunks. -/
def chunksExact {α : Type} (k : Nat) (l : List α) : List (List α) :=
  (List.range (l.length / k)).map fun i => (l.drop (i * k)).take k

/-- std `chunks_exact(k).remainder()`. -/
def chunksRemainder {α : Type} (k : Nat) (l : List α) : List α := l.drop (l.length / k * k)

section dot
variable {F : Type} [MulAddOps F]
open MulAddOps

/-- src/math.rs:22-24 the inner loop: `chunk[i] = a[i].mul_add(b[i], chunk[i])` for every lane. -/
def laneStep (chunk : List F) (ab : List F × List F) : List F :=
  List.zipWith (fun (p : F × F) c => mulAdd p.1 p.2 c) (ab.1.zip ab.2) chunk

/-- src/math.rs:17-42 `dot_product_fallback`, which is what the avx2 path (src/math.rs:11-14) runs as well. -/
def dotProduct (x y : List F) : F :=
  let chunk := ((chunksExact 32 x).zip (chunksExact 32 y)).foldl laneStep (List.replicate 32 zero)
  let r := chunk.foldl add zero
  ((chunksRemainder 32 x).zip (chunksRemainder 32 y)).foldl (fun r p => mulAdd p.1 p.2 r) r

end dot

/-! ### Angular vectors (f32) -/
section angular
variable {F : Type} [FloatOps F]
open FloatOps MulAddOps

/-- src/math.rs:132-140 `normalize_fallback`, which the avx2 path (src/math.rs:127-129) runs as well, hence src/elements/angular.rs:55-61 `Vector::from(Vec<f32>)`. -/
def normalize (x : List F) : List F :=
  let norm := sqrt (dotProduct x x)
  if gt norm (ofInt 0) then x.map fun a => div a norm else x

/-- `cmp::max(0, d)` on `NotNan`. -/
def maxZero (d : F) : F := if gt (ofInt 0) d then ofInt 0 else d

/-- src/elements/angular.rs:63-74 `dist` on the stored components. `none` is the panic of `NotNan::new(..).unwrap()`. -/
def angularDist (x y : List F) : Option F :=
  let d := sub (ofInt 1) (dotProduct x y)
  if isNan d then none else some (maxZero d)

/-! ### Quantised vectors (i8) -/

/-- `Iterator::max` on non-NaN values: the last of the largest. -/
def maxOf : List F → Option F
  | [] => none
  | a :: t => some (t.foldl (fun m b => if gt m b then m else b) a)

/-- src/elements/angular_int.rs:28-44 `quantize`, hence `Vector::from(Vec<f32>)` (19-23). `none` is a panic (a NaN
component). The `debug_assert` (39) is not modelled. -/
def quantize (s : List F) : Option (List Int) :=
  if s.any fun a => isNan (FloatOps.abs a) then none
  else
    let maxValue := (maxOf (s.map FloatOps.abs)).getD (ofInt 127)
    some (s.map fun x => toI8 (div (mul x (ofInt 127)) maxValue))

end angular

/-- Two's complement `i32`. -/
def wrapI32 (n : Int) : Int := (n + 2 ^ 31) % 2 ^ 32 - 2 ^ 31

/-- `a + b` on `i32`: with overflow checks (debug builds) a panic (`none`) if out of range, otherwise wrapping. -/
def i32Add (checked : Bool) (a b : Int) : Option Int :=
  if -2 ^ 31 ≤ a + b ∧ a + b < 2 ^ 31 then some (a + b) else if checked then none else some (wrapI32 (a + b))

/-- `a * b` on `i32`. -/
def i32Mul (checked : Bool) (a b : Int) : Option Int :=
  if -2 ^ 31 ≤ a * b ∧ a * b < 2 ^ 31 then some (a * b) else if checked then none else some (wrapI32 (a * b))

/-- One `acc += a * b`. -/
def i32MulAcc (checked : Bool) (acc a b : Int) : Option Int :=
  match i32Mul checked a b with
  | some p => i32Add checked acc p
  | none => none

/-- src/math.rs:72-76 the loop of `compute_r_dx_dy_fallback` from the accumulators `(r, dx, dy)` on. -/
def sumsI8Loop (checked : Bool) : List (Int × Int) → Int × Int × Int → Option (Int × Int × Int)
  | [], acc => some acc
  | (xi, yi) :: t, (r, dx, dy) =>
    match i32MulAcc checked r xi yi with
    | none => none
    | some r' => match i32MulAcc checked dx xi xi with
      | none => none
      | some dx' => match i32MulAcc checked dy yi yi with
        | none => none
        | some dy' => sumsI8Loop checked t (r', dx', dy')

/-- src/math.rs:59-89 `dot_product_and_squared_norms_i8`; the components are `i8`s, given as integers. -/
def sumsI8 (checked : Bool) (x y : List Int) : Option (Int × Int × Int) := sumsI8Loop checked (x.zip y) (0, 0, 0)

section angularInt
variable {F : Type} [FloatOps F]
open FloatOps MulAddOps

/-- src/elements/angular_int.rs:48-59 `dist`. -/
def angularIntDist (checked : Bool) (x y : List Int) : Option F :=
  match sumsI8 checked x y with
  | none => none
  | some (r, dx, dy) =>
    let q : F := div (ofInt r) (mul (sqrt (ofInt dx)) (sqrt (ofInt dy)))
    let q := if isNan q then ofInt 0 else q
    let d := sub (ofInt 1) q
    -- `NotNan - NotNan` panics on NaN
    if isNan d then none else some (maxZero d)

end angularInt

/-! ### Exact arithmetic -/

/-- A commutative ring, with `mul_add` as multiplication and addition. -/
@[reducible] def ringMulAdd (R : Type) [CommRing R] : MulAddOps R where
  zero := 0
  add := (· + ·)
  mulAdd a b c := a * b + c

/-- The cast `as i8` of a real number: truncation towards zero, saturating. -/
noncomputable def truncI8 (a : ℝ) : Int := max (-128) (min 127 (if 0 ≤ a then ⌊a⌋ else ⌈a⌉))

/-- A real number, or NaN (`none`). In exact arithmetic there are no infinities: a division of something else than 0
by 0 is NaN here, which is the stricter reading. -/
abbrev ExactF := Option ℝ

/-- Exact arithmetic. -/
noncomputable instance : FloatOps ExactF where
  zero := some 0
  add a b := a.bind fun a => b.map fun b => a + b
  mulAdd a b c := a.bind fun a => b.bind fun b => c.map fun c => a * b + c
  ofInt n := some n
  sub a b := a.bind fun a => b.map fun b => a - b
  mul a b := a.bind fun a => b.map fun b => a * b
  div a b := a.bind fun a => b.bind fun b => if b = 0 then none else some (a / b)
  sqrt a := a.bind fun a => if a < 0 then none else some (Real.sqrt a)
  abs a := a.map fun a => |a|
  gt a b := match a, b with
    | some a, some b => decide (b < a)
    | _, _ => false
  isNan a := a.isNone
  toI8 a := match a with
    | some a => truncI8 a
    | none => 0

end Granne
