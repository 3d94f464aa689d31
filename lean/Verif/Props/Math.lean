import Verif.Proofs.Rounded

/-!
Properties of the distances: C37 - C40 and C46. Statements about exact arithmetic use `ExactF` (real numbers and NaN);
statements about `f32` use an arbitrary rounding function with a bounded relative error, or no law at all.
-/
namespace Granne
open Spec

/-- `Vector::from(x)` for a real vector, exact arithmetic. -/
noncomputable abbrev angularOf (x : List ℝ) : List ExactF := normalize (x.map some)

theorem angularOf_dist (x y : List ℝ) (h : x.length = y.length) :
    angularDist (angularOf x) (angularOf y) = some (some (1 - cosine x y)) := by
  rw [angularOf, angularOf, normalize_some, normalize_some,
    angularDist_some _ _ (by rw [unit_length, unit_length, h]), dot_unit, max_eq_right]
  have := (abs_le.1 (abs_cosine_le x y)).2
  linarith

/-! ### C37 -/

/-- C37. For any two real vectors of the same dimension, the distance of the converted vectors is computed without a
panic, equals 1 minus the cosine of the angle between the vectors given, and lies between 0 and 2. -/
theorem C37_distance (x y : List ℝ) (h : x.length = y.length) :
    ∃ d : ℝ, angularDist (angularOf x) (angularOf y) = some (some d) ∧ d = 1 - cosine x y ∧ 0 ≤ d ∧ d ≤ 2 := by
  have := abs_le.1 (abs_cosine_le x y)
  exact ⟨_, angularOf_dist x y h, rfl, by linarith, by linarith⟩

/-- C37. The distance of a non-zero vector to itself is 0; a zero vector has distance 1 to every vector. -/
theorem C37_self_and_zero (x y : List ℝ) (h : x.length = y.length) :
    ((∃ a ∈ x, a ≠ 0) → angularDist (angularOf x) (angularOf x) = some (some 0)) ∧
    ((∀ a ∈ x, a = 0) → angularDist (angularOf x) (angularOf y) = some (some 1) ∧
      angularDist (angularOf y) (angularOf x) = some (some 1)) := by
  constructor
  · intro hx
    rw [angularOf_dist x x rfl, cosine_self hx, sub_self]
  · intro hx
    rw [angularOf_dist x y h, angularOf_dist y x h.symm, cosine_comm y x, cosine_zero_left hx, sub_zero]
    exact ⟨rfl, rfl⟩

/-- C37. The distance does not depend on the lengths of the vectors given, only on their directions. -/
theorem C37_scale (x y : List ℝ) (h : x.length = y.length) (c : ℝ) (hc : 0 < c) :
    angularDist (angularOf (x.map fun a => c * a)) (angularOf y) = angularDist (angularOf x) (angularOf y) := by
  rw [angularOf_dist _ y (by simpa using h), angularOf_dist x y h]
  have h1 : ∀ (w z : List ℝ), dot (w.map fun a => c * a) z = c * dot w z := by
    intro w z
    have := dot_map_div_left (c⁻¹) w z
    simp only [div_inv_eq_mul] at this
    simp only [mul_comm c]
    exact this
  have h2 : norm (x.map fun a => c * a) = c * norm x := by
    rw [norm, h1, dot_comm, h1, ← mul_assoc, Real.sqrt_mul (by positivity), Real.sqrt_mul_self hc.le, norm]
  rw [cosine, h1, h2, mul_assoc, mul_div_mul_left _ _ hc.ne', cosine]

/-- C37. Symmetry, in every arithmetic whose `mul_add` is symmetric in its factors, in particular in `f32`: the two
distances are the same value, rounding errors included (or both panic). -/
theorem C37_symmetric {F : Type} [FloatOps F]
    (hc : ∀ a b c : F, MulAddOps.mulAdd a b c = MulAddOps.mulAdd b a c) (x y : List F) :
    angularDist x y = angularDist y x := by
  rw [angularDist, angularDist, dotProduct_comm hc x y]

/-- C37. With rounding, for every dimension: if each operation has relative error at most `u` (and 1 is exact), the
computed distance is not negative and differs from the exact one by at most the bound shown. -/
theorem C37_rounding_error (fl : ℝ → ℝ) (u : ℝ) (hfl : RoundsWithin fl u) (h0 : 0 ≤ u) (h1 : u < 1) (hone : fl 1 = 1)
    (x y : List ℝ) (hlen : x.length = y.length) :
    ∃ d, @angularDist ℝ (roundedOps fl) (@normalize ℝ (roundedOps fl) x) (@normalize ℝ (roundedOps fl) y) = some d ∧
      0 ≤ d ∧ |d - (1 - cosine x y)| ≤ (1 + u) * (((1 - u) ^ (3 * roundings x.length + 4))⁻¹ - 1) + 2 * u :=
  angularDist_rounded hfl h0 h1 hone x y hlen

/-- C37. In numbers: with 24 binary digits (`f32`, without overflow and underflow) and at most 1024 dimensions, the
error is below 2/100000. -/
theorem C37_error_1024 (fl : ℝ → ℝ) (hfl : RoundsWithin fl (2 ^ (-24 : Int))) (hone : fl 1 = 1)
    (x y : List ℝ) (hlen : x.length = y.length) (hdim : x.length ≤ 1024) :
    ∃ d, @angularDist ℝ (roundedOps fl) (@normalize ℝ (roundedOps fl) x) (@normalize ℝ (roundedOps fl) y) = some d ∧
      0 ≤ d ∧ |d - (1 - cosine x y)| < 2 / 100000 := by
  obtain ⟨d, h1, h2, h3⟩ := C37_rounding_error fl _ hfl (by norm_num) (by norm_num) hone x y hlen
  refine ⟨d, h1, h2, lt_of_le_of_lt h3 ?_⟩
  have hu : (2 : ℝ) ^ (-24 : Int) = 1 / 16777216 := by norm_num
  rw [hu]
  have hm : 3 * roundings x.length + 4 ≤ 286 := by rw [roundings]; omega
  set m := 3 * roundings x.length + 4
  have hb : (1 : ℝ) + (m : ℝ) * (-(1 / 16777216)) ≤ (1 + -(1 / 16777216)) ^ m := one_add_mul_le_pow (by norm_num) m
  have hm' : (m : ℝ) ≤ 286 := by exact_mod_cast hm
  have hpow : (16776930 : ℝ) / 16777216 ≤ (1 - 1 / 16777216) ^ m := by
    rw [sub_eq_add_neg]
    refine le_trans ?_ hb
    linarith
  have hinv : ((1 - 1 / 16777216 : ℝ) ^ m)⁻¹ ≤ 16777216 / 16776930 := by
    rw [inv_le_comm₀ (lt_of_lt_of_le (by norm_num) hpow) (by norm_num)]
    refine le_trans ?_ hpow
    norm_num
  calc (1 + 1 / 16777216 : ℝ) * (((1 - 1 / 16777216) ^ m)⁻¹ - 1) + 2 * (1 / 16777216)
      ≤ (1 + 1 / 16777216) * (16777216 / 16776930 - 1) + 2 * (1 / 16777216) := by linarith
    _ < 2 / 100000 := by norm_num

/-- Non-vacuity: rounding to 24 binary digits satisfies the assumptions. -/
example : RoundsWithin fl32 (2 ^ (-24 : Int)) ∧ fl32 1 = 1 := ⟨fl32_rounds, fl32_one⟩

/-- Non-vacuity: two vectors at an angle of 45 degrees, one not of length 1. -/
example : cosine [1, 0] [3, 3] = 1 / Real.sqrt 2 := by
  rw [cosine, norm, norm]
  simp only [dot, List.zipWith, List.sum_cons, List.sum_nil]
  rw [show (3 * 3 + (3 * 3 + 0) : ℝ) = 3 * 3 * 2 by norm_num, Real.sqrt_mul (by norm_num), Real.sqrt_mul_self (by norm_num)]
  norm_num
  field_simp

/-! ### C38 -/

/-- C38. For vectors of every length over a commutative ring, the accumulation in 32 lanes with a loop for the
remainder gives the sum of the products. -/
theorem C38_dot_product {R : Type} [CommRing R] (x y : List R) (h : x.length = y.length) :
    @dotProduct R (ringMulAdd R) x y = (List.zipWith (· * ·) x y).sum := dotProduct_ring x y h

/-- C38. With rounding, for every length: the error relative to the sum of the absolute values of the products. -/
theorem C38_rounding_error (fl : ℝ → ℝ) (u : ℝ) (hfl : RoundsWithin fl u) (h0 : 0 ≤ u) (x y : List ℝ)
    (h : x.length = y.length) :
    |@dotProduct ℝ (roundedOps fl).toMulAddOps x y - (List.zipWith (· * ·) x y).sum|
      ≤ ((1 + u) ^ (x.length / 32 + 32 + x.length % 32) - 1) * (List.zipWith (fun a b => |a * b|) x y).sum := by
  have := (dotProduct_rounded hfl h0 x y h).err
  have e : absDot x y = (List.zipWith (fun a b => |a * b|) x y).sum := by
    rw [absDot, dot, List.zipWith_map]
    simp only [abs_mul]
  rw [e] at this
  exact this

/-- C38. The assumption of equal lengths is needed and not checked: with 64 components against 33, the last
component of the shorter vector is silently left out; with 65 against 40, components that do not belong together are
multiplied. -/
theorem C38_unequal_lengths :
    @dotProduct Int (ringMulAdd Int) (List.replicate 64 1) (List.replicate 33 1) = 32 ∧
    @dotProduct Int (ringMulAdd Int) (List.replicate 64 0 ++ [5]) (List.replicate 32 0 ++ [7] ++ List.replicate 7 0) = 35 := by
  decide +kernel

/-- Non-vacuity: 67 components (two chunks and a remainder of three). -/
example : @dotProduct Int (ringMulAdd Int) ((List.range 67).map fun i => (i : Int)) ((List.range 67).map fun i => 1 - (i : Int))
    = ((List.range 67).map fun i => (i : Int) * (1 - i)).sum := by decide +kernel

/-! ### C39 -/

/-- C39. For `i8` vectors of the same dimension up to 131071 the three `i32` sums are exact: no overflow happens on
the way (with overflow checks there is no panic, without them nothing wraps). -/
theorem C39_no_overflow (checked : Bool) (x y : List Int) (hx : ∀ a ∈ x, IsI8 a) (hy : ∀ a ∈ y, IsI8 a)
    (hlen : x.length = y.length) (hdim : x.length ≤ 131071) :
    sumsI8 checked x y = some ((List.zipWith (· * ·) x y).sum, (x.map fun a => a * a).sum, (y.map fun a => a * a).sum) := by
  rw [sumsI8_exact checked x y hx hy hlen hdim]
  have e : ∀ z : List Int, dot z z = (z.map fun a => a * a).sum := by
    intro z
    rw [dot]
    congr 1
    induction z with
    | nil => rfl
    | cons a z _ => simp
  rw [e, e, dot]

/-- C39. The bound is sharp: with 131072 components -128 the sum is one too large for `i32`. -/
theorem C39_bound_is_sharp :
    sumsI8 true (List.replicate 131072 (-128)) (List.replicate 131072 (-128)) = none ∧
    sumsI8 false (List.replicate 131072 (-128)) (List.replicate 131072 (-128)) = some (-2 ^ 31, -2 ^ 31, -2 ^ 31) := by
  rw [sumsI8_overflow, sumsI8_overflow]
  exact ⟨rfl, rfl⟩

/-- Non-vacuity. -/
example : sumsI8 true [-128, 3, 0] [-128, -5, 7] = some (16369, 16393, 16458) := by decide

/-! ### C40 -/

/-- C40. Converting a vector with largest absolute value `m > 0` gives one component per component; each lies in
[-127, 127], has the sign of the original, is within 1 of the scaled value and not larger in absolute value; the
components of largest absolute value become ±127; and the order of components is kept. -/
theorem C40_quantize (x : List ℝ) (m : ℝ) (hm : IsMaxAbs x m) (hpos : 0 < m) :
    ∃ q, quantize (F := ExactF) (x.map some) = some q ∧ q.length = x.length ∧
      (∀ (i : Nat) (a : ℝ) (v : Int), x[i]? = some a → q[i]? = some v →
        (-127 ≤ v ∧ v ≤ 127) ∧ (0 ≤ a → 0 ≤ v) ∧ (a ≤ 0 → v ≤ 0) ∧
        |(v : ℝ) - a * 127 / m| < 1 ∧ |(v : ℝ)| ≤ |a * 127 / m| ∧ (a = m → v = 127) ∧ (a = -m → v = -127)) ∧
      ∀ (i j : Nat) (a b : ℝ) (v w : Int), x[i]? = some a → x[j]? = some b → q[i]? = some v → q[j]? = some w →
        a ≤ b → v ≤ w := by
  refine ⟨_, quantize_some x m hm.1 hm.2, by simp, ?_, ?_⟩
  · intro i a v ha hv
    rw [List.getElem?_map, ha] at hv
    obtain rfl := Option.some.inj hv
    simp only [if_neg hpos.ne']
    have hb := hm.2 a (List.mem_of_getElem? ha)
    obtain ⟨b1, b2⟩ := abs_le.1 hb
    have c1 : -127 ≤ a * 127 / m := by rw [le_div_iff₀ hpos]; linarith
    have c2 : a * 127 / m ≤ 127 := by rw [div_le_iff₀ hpos]; linarith
    obtain ⟨h1, h2, h3⟩ := truncI8_spec c1 c2
    have s1 : 0 ≤ a → 0 ≤ a * 127 / m := fun h => by positivity
    have s2 : a ≤ 0 → a * 127 / m ≤ 0 := fun h => div_nonpos_of_nonpos_of_nonneg (by linarith) hpos.le
    refine ⟨h1, fun h => (h2 (s1 h)).1, fun h => (h3 (s2 h)).1, ?_, ?_, ?_, ?_⟩
    · rw [abs_lt]
      rcases le_total 0 a with h | h
      · obtain ⟨_, e1, e2⟩ := h2 (s1 h)
        constructor <;> linarith
      · obtain ⟨_, e1, e2⟩ := h3 (s2 h)
        constructor <;> linarith
    · rcases le_total 0 a with h | h
      · obtain ⟨e0, e1, e2⟩ := h2 (s1 h)
        rw [abs_of_nonneg (by exact_mod_cast e0), abs_of_nonneg (s1 h)]
        exact e1
      · obtain ⟨e0, e1, e2⟩ := h3 (s2 h)
        rw [abs_of_nonpos (by exact_mod_cast e0), abs_of_nonpos (s2 h)]
        linarith
    · rintro rfl
      have : a * 127 / a = 127 := by field_simp
      rw [this] at h2 ⊢
      obtain ⟨_, e1, e2⟩ := h2 (by norm_num)
      have e3 : (126 : ℝ) < ((truncI8 127 : Int) : ℝ) := by linarith
      have e4 : (126 : Int) < truncI8 127 := by exact_mod_cast e3
      have e5 : (truncI8 127 : Int) ≤ 127 := by exact_mod_cast e1
      omega
    · intro ham
      have : a * 127 / m = -127 := by rw [ham]; field_simp
      rw [this] at h3 ⊢
      obtain ⟨_, e1, e2⟩ := h3 (by norm_num)
      have e3 : ((truncI8 (-127) : Int) : ℝ) < ((-126 : Int) : ℝ) := by push_cast; linarith
      have e4 : truncI8 (-127) < -126 := by exact_mod_cast e3
      have e5 : (((-127 : Int)) : ℝ) ≤ ((truncI8 (-127) : Int) : ℝ) := by push_cast; exact e1
      have e6 : -127 ≤ truncI8 (-127) := by exact_mod_cast e5
      omega
  · intro i j a b v w ha hb hv hw hab
    rw [List.getElem?_map, ha] at hv
    rw [List.getElem?_map, hb] at hw
    obtain rfl := Option.some.inj hv
    obtain rfl := Option.some.inj hw
    simp only [if_neg hpos.ne']
    apply truncI8_mono
    exact div_le_div_of_nonneg_right (by linarith) hpos.le

/-- C40. The zero vector is converted to the zero vector (via NaN), the empty one to the empty one; a NaN component
panics. -/
theorem C40_degenerate (x : List ℝ) (s : List ExactF) :
    ((∀ a ∈ x, a = 0) → quantize (F := ExactF) (x.map some) = some (x.map fun _ => 0)) ∧
    ((none : ExactF) ∈ s → quantize s = none) := by
  constructor
  · intro hx
    cases x with
    | nil => simp [quantize]
    | cons a t =>
      rw [quantize_some (a :: t) 0 ⟨a, by simp, by simp [hx a (by simp)]⟩ (fun b hb => by simp [hx b hb])]
      simp
  · intro h
    rw [quantize, if_pos]
    simp only [List.any_eq_true]
    exact ⟨none, h, rfl⟩

/-- C40. With rounding (relative error at most `2^-10` per operation): range and signs are kept, the error is below
`1 + 127 (2u + u²)`, and a component of largest absolute value becomes ±127 or ±126. -/
theorem C40_rounded (fl : ℝ → ℝ) (u : ℝ) (hfl : RoundsWithin fl u) (h0 : 0 ≤ u) (h1 : u ≤ 2 ^ (-10 : Int))
    (h127 : fl 127 = 127) (x : List ℝ) (m : ℝ) (hm : IsMaxAbs x m) (hpos : 0 < m) :
    ∃ q, @quantize ℝ (roundedOps fl) x = some q ∧ q.length = x.length ∧
      ∀ (i : Nat) (a : ℝ) (v : Int), x[i]? = some a → q[i]? = some v →
        (-127 ≤ v ∧ v ≤ 127) ∧ (0 ≤ a → 0 ≤ v) ∧ (a ≤ 0 → v ≤ 0) ∧
        |(v : ℝ) - a * 127 / m| < 1 + 127 * (2 * u + u ^ 2) ∧
        (a = m → v = 127 ∨ v = 126) ∧ (a = -m → v = -127 ∨ v = -126) := by
  refine ⟨_, quantize_rounded fl h127 x m hm.1 hm.2, by simp, ?_⟩
  intro i a v ha hv
  rw [List.getElem?_map, ha] at hv
  obtain rfl := Option.some.inj hv
  obtain ⟨e1, e2, e3, e4, e5⟩ := quantize_component_rounded hfl h0 h1 hpos (hm.2 a (List.mem_of_getElem? ha))
  obtain ⟨t1, t2, t3, t4⟩ := truncI8_wide e2 e3
  have h1' : u ≤ 1 / 1024 := by
    refine h1.trans (le_of_eq ?_)
    norm_num
  have hsmall : 127 * (2 * u + u ^ 2) < 1 := by nlinarith
  have herr : |((truncI8 (fl (fl (a * 127) / m)) : Int) : ℝ) - a * 127 / m| < 1 + 127 * (2 * u + u ^ 2) := by
    have := abs_add_le (((truncI8 (fl (fl (a * 127) / m)) : Int) : ℝ) - fl (fl (a * 127) / m))
      (fl (fl (a * 127) / m) - a * 127 / m)
    rw [sub_add_sub_cancel] at this
    linarith
  refine ⟨t1, fun h => t2 (e4 h), fun h => t3 (e5 h), herr, ?_, ?_⟩
  · intro ham
    have e : a * 127 / m = 127 := by rw [ham]; field_simp
    rw [e] at herr
    have h3 : (125 : ℝ) < ((truncI8 (fl (fl (a * 127) / m)) : Int) : ℝ) := by
      have := (abs_lt.1 herr).1
      linarith
    have h4 : (125 : Int) < truncI8 (fl (fl (a * 127) / m)) := by exact_mod_cast h3
    have h5 := t1.2
    simp only at *
    omega
  · intro ham
    have e : a * 127 / m = -127 := by rw [ham]; field_simp
    rw [e] at herr
    have h3 : ((truncI8 (fl (fl (a * 127) / m)) : Int) : ℝ) < ((-125 : Int) : ℝ) := by
      have := (abs_lt.1 herr).2
      push_cast
      linarith
    have h4 : truncI8 (fl (fl (a * 127) / m)) < (-125 : Int) := by exact_mod_cast h3
    have h5 := t1.1
    simp only at *
    omega

/-- C40. Indeed, with 24 binary digits the largest component can become 126: the vector with the only component 1.1
(the nearest `f32`) is converted to 126. -/
theorem C40_f32_max_becomes_126 : @quantize ℝ (roundedOps fl32) [9227469 / 8388608] = some [126] := quantize_fl32_example

/-- Non-vacuity. -/
example : IsMaxAbs [1, -2, 0.5] 2 := by
  constructor
  · exact ⟨-2, by simp, by norm_num⟩
  · intro a ha
    simp only [List.mem_cons, List.not_mem_nil, or_false] at ha
    rcases ha with rfl | rfl | rfl <;> norm_num [abs_le]

example : fl32 127 = 127 := fl32_127

/-! ### C46 -/

/-- C46. For `i8` vectors of the same dimension up to 131071 (exact arithmetic after the integer sums), the distance is
1 minus the cosine, lies in [0, 2], is symmetric, 0 from a non-zero vector to itself and 1 from a zero vector to every
vector (the NaN is caught). -/
theorem C46_quantised_distance (checked : Bool) (x y : List Int) (hx : ∀ a ∈ x, IsI8 a) (hy : ∀ a ∈ y, IsI8 a)
    (hlen : x.length = y.length) (hdim : x.length ≤ 131071) :
    ∃ d : ℝ, angularIntDist (F := ExactF) checked x y = some (some d) ∧
      angularIntDist (F := ExactF) checked y x = some (some d) ∧
      d = 1 - cosine (toReal x) (toReal y) ∧ 0 ≤ d ∧ d ≤ 2 ∧
      ((∃ a ∈ x, a ≠ 0) → y = x → d = 0) ∧ ((∀ a ∈ x, a = 0) → d = 1) := by
  have h1 := abs_le.1 (abs_cosine_le (toReal x) (toReal y))
  refine ⟨1 - cosine (toReal x) (toReal y), ?_, ?_, rfl, by linarith, by linarith, ?_, ?_⟩
  · rw [angularIntDist_exact checked x y hx hy hlen hdim, max_eq_right (by linarith)]
  · rw [angularIntDist_exact checked y x hy hx hlen.symm (hlen ▸ hdim), cosine_comm, max_eq_right (by linarith)]
  · rintro ⟨a, ha, hne⟩ rfl
    rw [cosine_self (x := toReal y) ⟨(a : ℝ), List.mem_map.2 ⟨a, ha, rfl⟩, by exact_mod_cast hne⟩, sub_self]
  · intro hz
    rw [cosine_zero_left, sub_zero]
    intro a ha
    obtain ⟨b, hb, rfl⟩ := List.mem_map.1 ha
    rw [hz b hb]
    simp

/-- C46. Symmetry in every arithmetic with a commutative multiplication (such as `f32`), rounding and overflow
included. -/
theorem C46_symmetric {F : Type} [FloatOps F] (hc : ∀ a b : F, FloatOps.mul a b = FloatOps.mul b a) (checked : Bool)
    (x y : List Int) : angularIntDist (F := F) checked x y = angularIntDist checked y x := by
  have hmul : ∀ a b, i32Mul checked a b = i32Mul checked b a := fun a b => by rw [i32Mul, i32Mul, mul_comm]
  have hacc : ∀ acc a b, i32MulAcc checked acc a b = i32MulAcc checked acc b a := fun acc a b => by
    rw [i32MulAcc, i32MulAcc, hmul]
  have key : ∀ (l : List (Int × Int)) (r dx dy : Int), sumsI8Loop checked (l.map Prod.swap) (r, dy, dx)
      = (sumsI8Loop checked l (r, dx, dy)).map fun t => (t.1, t.2.2, t.2.1) := by
    intro l
    induction l with
    | nil => intro r dx dy; rfl
    | cons p l ih =>
      intro r dx dy
      obtain ⟨a, b⟩ := p
      rw [List.map_cons, Prod.swap_prod_mk, sumsI8Loop, sumsI8Loop, hacc r b a]
      rcases Option.eq_none_or_eq_some (i32MulAcc checked r a b) with h | ⟨r', h⟩
      · rw [h]; rfl
      · rw [h]
        simp only
        rcases Option.eq_none_or_eq_some (i32MulAcc checked dx a a) with h1 | ⟨dx', h1⟩
        · rw [h1]
          rcases Option.eq_none_or_eq_some (i32MulAcc checked dy b b) with h2 | ⟨dy', h2⟩ <;> rw [h2] <;> rfl
        · rw [h1]
          rcases Option.eq_none_or_eq_some (i32MulAcc checked dy b b) with h2 | ⟨dy', h2⟩
          · rw [h2]; rfl
          · rw [h2]
            simp only
            exact ih r' dx' dy'
  have h : sumsI8 checked y x = (sumsI8 checked x y).map fun t => (t.1, t.2.2, t.2.1) := by
    rw [sumsI8, sumsI8, ← key, List.zip_swap]
  rw [angularIntDist, angularIntDist, h]
  rcases Option.eq_none_or_eq_some (sumsI8 checked x y) with h1 | ⟨⟨r, dx, dy⟩, h1⟩
  · rw [h1]; rfl
  · rw [h1]
    simp only [Option.map_some]
    rw [hc (FloatOps.sqrt (FloatOps.ofInt dx))]

end Granne
