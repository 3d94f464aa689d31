import Mathlib.Analysis.Real.Sqrt

/-! Vocabulary for the distances. -/
namespace Granne.Spec

/-- The sum of the products of the components. -/
def dot {R : Type} [CommRing R] (x y : List R) : R := (List.zipWith (· * ·) x y).sum

/-- The Euclidean norm. -/
noncomputable def norm (x : List ℝ) : ℝ := Real.sqrt (dot x x)

/-- The cosine of the angle between two vectors (0 if one of them is zero). -/
noncomputable def cosine (x y : List ℝ) : ℝ := dot x y / (norm x * norm y)

/-- A component of an `i8` vector. -/
def IsI8 (a : Int) : Prop := -128 ≤ a ∧ a ≤ 127

/-- The components as real numbers. -/
def toReal (x : List Int) : List ℝ := x.map fun a : Int => (a : ℝ)

/-- The sum of the absolute values of the products of the components. -/
noncomputable def absDot (x y : List ℝ) : ℝ := dot (x.map fun a => |a|) (y.map fun a => |a|)

/-- The relative error of rounding with `fl` is at most `u`. -/
def RoundsWithin (fl : ℝ → ℝ) (u : ℝ) : Prop := ∀ z, |fl z - z| ≤ u * |z|

/-- The number of roundings a product goes through in a dot product of `n` components: one per chunk, one per lane,
one per component of the remainder. -/
def roundings (n : Nat) : Nat := n / 32 + 32 + n % 32

/-- Dimensions for which the error of a distance stays below the threshold for zero elements: every dimension up to 1118, and
larger ones that are multiples of 32 or not far above one, among them 1536 and 2048. -/
abbrev ModestDim (n : Nat) : Prop := n / 32 + n % 32 ≤ 64

/-- `m` is the largest absolute value of a component. -/
def IsMaxAbs (x : List ℝ) (m : ℝ) : Prop := (∃ a ∈ x, |a| = m) ∧ ∀ a ∈ x, |a| ≤ m

end Granne.Spec
