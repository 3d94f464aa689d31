import Verif.Model.F32
import Verif.Model.Search

/-!
The element containers of the library with their arithmetic: `angular::Vectors` (src/elements/angular.rs) and
`angular_int::Vectors` (src/elements/angular_int.rs) as the `Elements` the index is built from.
-/
namespace Granne

/-- src/index/mod.rs:813, 829 `100.0 * std::f32::EPSILON` (exact in `f32`). -/
noncomputable def zeroThreshold : ℝ := 100 * 2 ^ (-23 : Int)

/-- src/elements/angular.rs:63-74 with src/elements/mod.rs (`dist_to_element`): distances of stored vectors. A distance
that is not a finite number, and a panic, are represented by 0; C53 and C54 prove that neither occurs. -/
noncomputable def angularElements (rows : List (List F32)) : Elements (List F32) ℝ :=
  ⟨rows, fun x y => ((angularDist x y).getD .nan).val⟩

/-- src/elements/angular_int.rs:48-59 in the same way; `checked`: with overflow checks. -/
noncomputable def angularIntElements (checked : Bool) (rows : List (List Int)) : Elements (List Int) ℝ :=
  ⟨rows, fun x y => ((angularIntDist (F := F32) checked x y).getD .nan).val⟩

/-- src/elements/angular.rs:55-61 `Vector::from(Vec<f32>)`: the stored form of a vector with finite components. -/
noncomputable def storedF32 (x : List ℝ) : List F32 := normalize (x.map F32.fin)

end Granne
