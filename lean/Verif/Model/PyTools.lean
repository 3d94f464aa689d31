import Verif.Model.Py

/-! The function `compute_distance` of the Python module. -/
namespace Granne

/-- src/elements/angular.rs:63-74, src/elements/angular_int.rs:48-59 `dist` on the numbers behind the bytes; `none` is a panic. -/
noncomputable def vectorDist (checked : Bool) : (t : ElementType) → List (Scal t) → List (Scal t) → Option F32
  | .angular, x, y => angularDist (List.map F32.ofBits x) (List.map F32.ofBits y)
  | .angularInt, x, y => angularIntDist (F := F32) checked (List.map i8OfByte x) (List.map i8OfByte y)

/-- py/src/lib.rs:71-87 `compute_distance(element_type, a, b)` returns `d`. Another element type panics (not represented). -/
def ComputeDistance (checked : Bool) (t : ElementType) (a b : List UInt32) (d : F32) : Prop :=
  ∃ x y, Convert t a x ∧ Convert t b y ∧ vectorDist checked t x y = some d

end Granne
