import Verif.Model.F32
import Verif.Model.Concrete

/-!
src/math.rs and src/elements/angular.rs built with the feature `blas`: the three functions that call a BLAS library. The library is a
parameter; what is assumed of it is stated where it is used (`Spec/Blas`).
-/
namespace Granne

/-- The BLAS routines that a value depends on. (`saxpy` and `sscal` are the loops below: they have no choice but the order of independent
components, and whether a product with 1 is rounded, which changes nothing.) -/
structure Blas where
  /-- `blas::sdot(n, x, 1, y, 1)` for `n = x.len()`, the dimension of both vectors -/
  sdot : List F32 → List F32 → F32
  /-- `blas::snrm2(n, x, 1)` -/
  snrm2 : List F32 → F32

open FloatOps

/-- src/math.rs:152-159 `normalize_f32` with the feature `blas` (`sscal` multiplies every component by `1.0 / norm`), hence
src/elements/angular.rs:55-61 `Vector::from(Vec<f32>)`. -/
noncomputable def blasNormalize (B : Blas) (x : List F32) : List F32 :=
  let norm := B.snrm2 x
  if gt norm (ofInt 0) then x.map fun a => mul (div (ofInt 1) norm) a else x

/-- src/elements/angular.rs:63-74 `dist` with src/math.rs:54-57 `dot_product_f32` of the feature `blas`. `none` is the panic of
`NotNan::new(..).unwrap()`. -/
noncomputable def blasDist (B : Blas) (x y : List F32) : Option F32 :=
  let d := sub (ofInt 1) (B.sdot x y)
  if isNan d then none else some (maxZero d)

/-- src/math.rs:118-121 `sum_into_f32` with the feature `blas`: `saxpy` with the factor 1 (`y` as long as `x`), with the product rounded
before it is added. -/
noncomputable def blasSumInto (x y : List F32) : List F32 := List.zipWith (fun a b => F32.add (F32.mul (ofInt 1) b) a) x y

/-- The same with the product not rounded before it is added. -/
noncomputable def blasSumIntoFused (x y : List F32) : List F32 := List.zipWith (fun a b => F32.mulAdd (ofInt 1) b a) x y

/-- src/elements/angular.rs:63-74 with the feature `blas`, as `angularElements`. -/
noncomputable def blasElements (B : Blas) (rows : List (List F32)) : Elements (List F32) ℝ :=
  ⟨rows, fun x y => ((blasDist B x y).getD .nan).val⟩

/-- src/elements/angular.rs:55-61 with the feature `blas`, as `storedF32`. -/
noncomputable def blasStored (B : Blas) (x : List ℝ) : List F32 := blasNormalize B (x.map F32.fin)

end Granne
