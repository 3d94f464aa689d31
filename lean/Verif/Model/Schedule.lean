import Mathlib.Analysis.SpecialFunctions.Log.Base

/-!
src/index/mod.rs:633-643 `compute_num_elements_in_layer`: how many elements a layer should have.
-/
namespace Granne

/-- src/index/mod.rs:634-643 in exact real arithmetic (the code uses `f64`). For `total = 0` both the code (NaN cast to
an integer) and this definition give 0. -/
noncomputable def numElementsInLayer (m : ℝ) (total i : ℕ) : ℕ :=
  min ⌈(total : ℝ) / m ^ ((⌊Real.logb m total⌋ : ℝ) - (i : ℝ))⌉₊ total

/-- src/index/mod.rs:634-643 with the results of the floating point operations left open: `k total` is what
`(total as f64).log(m).floor()` gives, `pow e` what `m.powf(e)` gives and `div x y` what `x / y` gives. (`ceil` and the
subtraction of small integers are exact in `f64`, and so is `total as f64` below 2^53; a cast to `usize` saturates.) -/
noncomputable def numElementsFloat (k : ℕ → ℤ) (pow : ℤ → ℝ) (div : ℝ → ℝ → ℝ) (total i : ℕ) : ℕ :=
  min ⌈div (total : ℝ) (pow (k total - (i : ℤ)))⌉₊ total

end Granne
