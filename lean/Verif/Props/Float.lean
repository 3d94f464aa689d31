import Verif.Proofs.F32ErrorAny
import Verif.Proofs.F32Quant

/-!
C51 and C52: the distances in IEEE single precision (`F32`: rounding to nearest even, gradual underflow, overflow,
infinities and NaN).
-/
namespace Granne
open Spec F32

/-- A value an `f32` can have. -/
def F32.Valid (v : F32) : Prop := v = nan ∨ (∃ s, v = inf s) ∨ v.Finite

/-! ### C51 -/

/-- The arithmetic C51 and C52 are about: the exact result of an operation is replaced by the nearest number with 24
binary digits, the last one not below `2^-149`, or by an infinity if that number exceeds `f32::MAX`; and the operations
on infinities and NaN are those of IEEE 754. -/
theorem C51_arithmetic :
    (∀ z : ℝ, ∃ m e : Int, |(m : ℝ)| ≤ 2 ^ 24 ∧ -149 ≤ e ∧ rne32 z = m * 2 ^ e) ∧
    (∀ (z : ℝ) (m e : Int), |(m : ℝ)| ≤ 2 ^ 24 → -149 ≤ e → |rne32 z - z| ≤ |(m : ℝ) * 2 ^ e - z|) ∧
    (∀ z : ℝ, |rne32 z| ≤ maxF32 → ofReal z = fin (rne32 z)) ∧
    (∀ z : ℝ, ¬ |rne32 z| ≤ maxF32 → ofReal z = inf (decide (z < 0))) ∧
    (∀ a b : ℝ, F32.add (fin a) (fin b) = ofReal (a + b) ∧ F32.mul (fin a) (fin b) = ofReal (a * b) ∧
      (b ≠ 0 → F32.div (fin a) (fin b) = ofReal (a / b)) ∧ (0 ≤ a → F32.sqrt (fin a) = ofReal (Real.sqrt a))) ∧
    (∀ a b c : ℝ, F32.mulAdd (fin a) (fin b) (fin c) = ofReal (a * b + c)) ∧
    (∀ v, F32.add nan v = nan ∧ F32.add v nan = nan ∧ F32.mul nan v = nan ∧ F32.mul v nan = nan ∧
      F32.div nan v = nan ∧ F32.div v nan = nan ∧ F32.gt nan v = false ∧ F32.gt v nan = false) ∧ F32.sqrt nan = nan ∧
    (∀ s, F32.add (inf s) (inf s) = inf s ∧ F32.add (inf s) (inf !s) = nan ∧ F32.mul (inf s) (fin 0) = nan ∧
      F32.mul (fin 0) (inf s) = nan ∧ (∀ t, F32.mul (inf s) (inf t) = inf (s != t) ∧ F32.div (inf s) (inf t) = nan)) ∧
    (∀ s a, F32.add (inf s) (fin a) = inf s ∧ F32.add (fin a) (inf s) = inf s ∧ F32.div (fin a) (inf s) = fin 0 ∧
      (0 < a → F32.mul (inf s) (fin a) = inf s ∧ F32.mul (fin a) (inf s) = inf s ∧ F32.div (inf s) (fin a) = inf s) ∧
      (a < 0 → F32.mul (inf s) (fin a) = inf (!s) ∧ F32.mul (fin a) (inf s) = inf (!s))) ∧
    F32.div (fin 0) (fin 0) = nan ∧ F32.sqrt (inf true) = nan ∧ F32.sqrt (inf false) = inf false ∧
    (∀ a : ℝ, a < 0 → F32.sqrt (fin a) = nan) := by
  refine ⟨fun z => ⟨_, _, round_digits z, ulpExp_ge z, rfl⟩, fun z m e hm he => rne32_nearest z hm he,
    fun z h => if_pos h, fun z h => if_neg h,
    fun a b => ⟨rfl, rfl, fun h => if_neg h, fun h => if_neg (not_lt.2 h)⟩, fun a b c => rfl, ?_, rfl, ?_, ?_,
    by simp [F32.div], rfl, rfl, fun a h => if_pos h⟩
  · intro v
    rcases v with _ | s | a <;> exact ⟨rfl, rfl, rfl, rfl, rfl, rfl, rfl, rfl⟩
  · intro s
    refine ⟨by simp [F32.add], by simp [F32.add], by simp [F32.mul, mulInf], by simp [F32.mul, mulInf],
      fun t => ⟨rfl, rfl⟩⟩
  · intro s a
    refine ⟨rfl, rfl, rfl, fun h => ?_, fun h => ?_⟩
    · simp [F32.mul, F32.div, mulInf, h.ne', not_lt.2 h.le]
    · simp [F32.mul, mulInf, h.ne, h]

/-- C51. The distance of two vectors converted from any finite `f32` components, of the same dimension (at most `2^32`),
never panics and is a finite number that is not negative - whatever overflows or underflows on the way. -/
theorem C51_finite_never_panics (x y : List F32) (hx : ∀ v ∈ x, v.Finite) (hy : ∀ v ∈ y, v.Finite)
    (hlen : x.length = y.length) (hdim : x.length ≤ 2 ^ 32) :
    ∃ d : ℝ, angularDist (normalize x) (normalize y) = some (fin d) ∧ 0 ≤ d ∧ (fin d).Finite := by
  obtain ⟨d, h1, h2, h3, h4⟩ := angularDist_bounded (x := normalize x) (y := normalize y)
    (by rw [normalize_length, normalize_length, hlen]) (by rw [normalize_length]; exact hdim)
    (normalize_bounded hx) (normalize_bounded hy)
  exact ⟨d, h1, h2, d, rfl, h3, by rw [abs_of_nonneg h2]; exact h4⟩

/-- C51. The distance panics exactly if a component of one of the two vectors is NaN or infinite. -/
theorem C51_panics_iff (x y : List F32) (hx : ∀ v ∈ x, v.Valid) (hy : ∀ v ∈ y, v.Valid)
    (hlen : x.length = y.length) (hdim : x.length ≤ 2 ^ 32) :
    angularDist (normalize x) (normalize y) = none ↔ ∃ v, (v ∈ x ∨ v ∈ y) ∧ (v = nan ∨ ∃ s, v = inf s) := by
  have hl : (normalize x).length = (normalize y).length := by rw [normalize_length, normalize_length, hlen]
  constructor
  · intro h
    by_contra hc
    have key : ∀ z : List F32, (∀ v ∈ z, v ∈ x ∨ v ∈ y) → (∀ v ∈ z, v.Valid) → ∀ v ∈ z, v.Finite := by
      intro z hz hv v hm
      rcases hv v hm with h1 | h1 | h1
      · exact absurd ⟨v, hz v hm, Or.inl h1⟩ hc
      · exact absurd ⟨v, hz v hm, Or.inr h1⟩ hc
      · exact h1
    obtain ⟨d, hd, _⟩ := C51_finite_never_panics x y (key x (fun v h => Or.inl h) hx) (key y (fun v h => Or.inr h) hy) hlen hdim
    rw [hd] at h
    cases h
  · rintro ⟨v, hm, hv⟩
    have key : ∀ z : List F32, v ∈ z → nan ∈ normalize z := by
      intro z hz
      apply normalize_nan
      rcases hv with rfl | ⟨s, rfl⟩
      · exact Or.inl hz
      · exact Or.inr ⟨s, hz⟩
    rcases hm with hm | hm
    · exact angularDist_nan hl (key x hm)
    · have : angularDist (normalize x) (normalize y) = angularDist (normalize y) (normalize x) := by
        rw [angularDist, angularDist, dotProduct_comm f32_mulAdd_comm]
      rw [this]
      exact angularDist_nan hl.symm (key y hm)

/-- C51. The distance is symmetric, bit for bit, NaN and infinities included. -/
theorem C51_symmetric (x y : List F32) : angularDist x y = angularDist y x := by
  rw [angularDist, angularDist, dotProduct_comm f32_mulAdd_comm]

/-- C51. For a modest number of dimensions (at most 1118, and also 1536 or 2048) and vectors that are zero or of a norm between `2^-50` and `2^63`, the computed
distance differs from 1 minus the cosine by less than `200 * 2^-24` (100 times `f32::EPSILON`, about 0.000012), underflow
on the way included. -/
theorem C51_error (x y : List ℝ) (hlen : x.length = y.length) (hdim : ModestDim x.length)
    (hx : norm x = 0 ∨ (2 ^ (-50 : Int) ≤ norm x ∧ norm x ≤ 2 ^ (63 : Int)))
    (hy : norm y = 0 ∨ (2 ^ (-50 : Int) ≤ norm y ∧ norm y ≤ 2 ^ (63 : Int))) :
    ∃ d, angularDist (normalize (x.map fin)) (normalize (y.map fin)) = some (fin d) ∧ 0 ≤ d ∧
      |d - (1 - cosine x y)| < 200 * 2 ^ (-24 : Int) := angularDist_f32 x y hlen hdim hx hy

/-- C51. For every dimension up to 63551 (more generally with at most 2048 roundings on the way of a product: one per chunk of 32
components, 32 lanes and the remainder) the error is at most `(2 * roundings + 9) * 2^-24`; for 4096 components this is less than
0.00002. -/
theorem C51_error_any_dim (x y : List ℝ) (hlen : x.length = y.length) (hdim : roundings x.length ≤ 2048)
    (hx : norm x = 0 ∨ (2 ^ (-50 : Int) ≤ norm x ∧ norm x ≤ 2 ^ (63 : Int)))
    (hy : norm y = 0 ∨ (2 ^ (-50 : Int) ≤ norm y ∧ norm y ≤ 2 ^ (63 : Int))) :
    ∃ d, angularDist (normalize (x.map fin)) (normalize (y.map fin)) = some (fin d) ∧ 0 ≤ d ∧
      |d - (1 - cosine x y)| ≤ (2 * (roundings x.length : ℝ) + 9) * 2 ^ (-24 : Int) := angularDist_f32_any x y hlen hdim hx hy

/-- Which dimensions these are, and the bound for 4096 components. -/
example : (∀ n, n ≤ 63551 → roundings n ≤ 2048) ∧ (2 * (roundings 4096 : ℝ) + 9) * 2 ^ (-24 : Int) < 1 / 50000 := by
  refine ⟨fun n hn => by unfold roundings; omega, ?_⟩
  norm_num [roundings]

/-- C51. Outside this range the direction is lost: a vector with only tiny components (at most `2^-76`), and a vector
with a huge component (at least `2^64`), has distance exactly 1 to every vector, even to itself, although the cosine
can have any value. -/
theorem C51_tiny_and_huge (x y : List ℝ) (hy : ∀ a ∈ y, rne32 a = a ∧ |a| ≤ maxF32)
    (hlen : x.length = y.length) (hdim : ModestDim x.length)
    (hx : (∀ a ∈ x, |a| ≤ 2 ^ (-76 : Int)) ∨ ∃ a ∈ x, 2 ^ (64 : Int) ≤ |a|) :
    angularDist (normalize (x.map fin)) (normalize (y.map fin)) = some (fin 1) ∧
    angularDist (normalize (y.map fin)) (normalize (x.map fin)) = some (fin 1) := by
  have key : angularDist (normalize (x.map fin)) (normalize (y.map fin)) = some (fin 1) := by
    obtain ⟨c, h1, h2, h3⟩ := normalize_bounded_real y hy
    rw [h1]
    rcases hx with hx | hx
    · rw [normalize_tiny x hx]
      exact angularDist_tiny (by rw [h2, hlen]) hdim hx h3
    · rw [normalize_huge x hx]
      refine angularDist_tiny (by rw [List.length_map, h2, hlen]) (by rw [List.length_map]; exact hdim) ?_ h3
      intro a ha
      obtain ⟨_, _, rfl⟩ := List.mem_map.1 ha
      rw [abs_zero]
      exact (two_zpow_pos _).le
  exact ⟨key, by rw [C51_symmetric]; exact key⟩

/-- Non-vacuity: a vector of norm 5, and that 1 and 3 are `f32` numbers. -/
example : norm [3, 4] = 5 ∧ (fin 3).Finite ∧ (fin 1).Valid ∧ F32.Valid (inf true) := by
  refine ⟨?_, ⟨3, rfl, ?_, ?_⟩, Or.inr (Or.inr ⟨1, rfl, rne32_one, ?_⟩), Or.inr (Or.inl ⟨true, rfl⟩)⟩
  · rw [Spec.norm, show dot [(3 : ℝ), 4] [3, 4] = 5 * 5 by simp [dot]; norm_num, Real.sqrt_mul_self (by norm_num)]
  · simpa using rne32_int (m := 3) (by norm_num)
  · refine le_trans ?_ maxF32_ge
    norm_num
  · refine le_trans ?_ maxF32_ge
    norm_num

/-- Non-vacuity of `C51_tiny_and_huge`: `2^70` and `2^-80` are `f32` numbers; with themselves they have cosine 1. -/
example : rne32 (2 ^ (70 : Int)) = 2 ^ (70 : Int) ∧ rne32 (2 ^ (-80 : Int)) = 2 ^ (-80 : Int) ∧
    cosine [(2 : ℝ) ^ (70 : Int)] [2 ^ (70 : Int)] = 1 :=
  ⟨rne32_two_pow (by norm_num), rne32_two_pow (by norm_num), cosine_self ⟨_, List.mem_singleton.2 rfl, by positivity⟩⟩

/-! ### C52 -/

/-- C52. For any two `i8` vectors of the same dimension up to 131071 the distance is computed without panic or overflow;
it is a finite number, not negative, differs from 1 minus the cosine by at most `11 * 2^-24` (less than a millionth),
and is exactly 1 if one of the vectors is zero. -/
theorem C52_quantised_distance (checked : Bool) (x y : List Int) (hx : ∀ a ∈ x, IsI8 a) (hy : ∀ a ∈ y, IsI8 a)
    (hlen : x.length = y.length) (hdim : x.length ≤ 131071) :
    ∃ d : ℝ, angularIntDist (F := F32) checked x y = some (fin d) ∧ 0 ≤ d ∧
      |d - (1 - cosine (toReal x) (toReal y))| ≤ 11 * 2 ^ (-24 : Int) ∧
      ((∀ a ∈ x, a = 0) ∨ (∀ a ∈ y, a = 0) → d = 1) := by
  obtain ⟨d, h1, h2, h3, _, h5⟩ := angularIntDist_f32 checked x y hx hy hlen hdim
  exact ⟨d, h1, h2, h3, h5⟩

/-- C52. The distance of a vector to itself need not be 0: for (1, 1, 2) it is `2^-24`. -/
theorem C52_self_distance_not_zero (checked : Bool) :
    angularIntDist (F := F32) checked [1, 1, 2] [1, 1, 2] = some (fin (2 ^ (-24 : Int))) := by
  have hs : sumsI8 checked [1, 1, 2] [1, 1, 2] = some (6, 6, 6) := by cases checked <;> decide
  rw [angularIntDist, hs]
  simp only
  have e6 : (FloatOps.ofInt 6 : F32) = fin 6 := by
    change ofReal ((6 : Int) : ℝ) = _
    rw [ofReal_pow (e := 3) (by norm_num) (by norm_num) (by norm_num), rne32_int (by norm_num)]
    norm_num
  have hr : rne32 (Real.sqrt 6) = 10273905 / 4194304 := by
    have l1 : (10273904.6 / 4194304 : ℝ) < Real.sqrt 6 := by
      rw [Real.lt_sqrt (by norm_num)]; norm_num
    have l2 : Real.sqrt 6 < (10273905.4 / 4194304 : ℝ) := by
      rw [Real.sqrt_lt' (by norm_num)]; norm_num
    have h0 := Real.sqrt_nonneg 6
    rw [rne32_eq (e := 1) (m := 10273905) (by norm_num) (by rw [abs_of_nonneg h0]; norm_num at l1 ⊢; linarith)
      (by rw [abs_of_nonneg h0]; norm_num at l2 ⊢; linarith) (by
        have e : (2 : ℝ) ^ ((1 : Int) - 23) = 1 / 4194304 := by norm_num
        rw [e, abs_lt]
        push_cast
        constructor <;> linarith)]
    norm_num
  have es : (FloatOps.sqrt (fin 6) : F32) = fin (10273905 / 4194304) := by
    change (if (6 : ℝ) < 0 then nan else ofReal (Real.sqrt 6)) = _
    rw [if_neg (by norm_num), ofReal_fin (by rw [hr]; exact le_trans (by norm_num [abs_div]) maxF32_ge), hr]
  have hm : rne32 (10273905 / 4194304 * (10273905 / 4194304)) = 12582913 / 2097152 := by
    rw [rne32_eq (e := 2) (m := 12582913) (by norm_num) (by norm_num [abs_of_pos]) (by norm_num [abs_of_pos])
      (by norm_num [abs_lt])]
    norm_num
  have em : FloatOps.mul (fin (10273905 / 4194304) : F32) (fin (10273905 / 4194304)) = fin (12582913 / 2097152) := by
    change ofReal _ = _
    rw [ofReal_fin (by rw [hm]; exact le_trans (by norm_num [abs_div]) maxF32_ge), hm]
  have hd : rne32 (6 / (12582913 / 2097152)) = 16777215 / 16777216 := by
    rw [rne32_eq (e := -1) (m := 16777215) (by norm_num) (by norm_num [abs_of_pos]) (by norm_num [abs_of_pos])
      (by norm_num [abs_lt])]
    norm_num
  have ed : FloatOps.div (fin 6 : F32) (fin (12582913 / 2097152)) = fin (16777215 / 16777216) := by
    change (if (12582913 / 2097152 : ℝ) = 0 then _ else ofReal _) = _
    rw [if_neg (by norm_num), ofReal_fin (by rw [hd]; exact le_trans (by norm_num [abs_div]) maxF32_ge), hd]
  have hf : rne32 (1 + -(16777215 / 16777216)) = 2 ^ (-24 : Int) := by
    rw [show (1 : ℝ) + -(16777215 / 16777216) = 2 ^ (-24 : Int) by norm_num]
    exact rne32_two_pow (by norm_num)
  have ef : (FloatOps.sub (FloatOps.ofInt 1) (fin (16777215 / 16777216)) : F32) = fin (2 ^ (-24 : Int)) := by
    rw [ofInt_one]
    change ofReal (1 + -(16777215 / 16777216)) = _
    rw [ofReal_fin (by rw [hf]; exact le_trans (by norm_num) maxF32_ge), hf]
  rw [e6, es, em, ed]
  have n1 : FloatOps.isNan (fin (16777215 / 16777216) : F32) = false := rfl
  simp only [n1, Bool.false_eq_true, if_false]
  rw [ef]
  have n2 : FloatOps.isNan (fin (2 ^ (-24 : Int)) : F32) = false := rfl
  simp only [n2, Bool.false_eq_true, if_false, maxZero, ofInt_zero]
  have n3 : FloatOps.gt (fin 0 : F32) (fin (2 ^ (-24 : Int))) = false :=
    decide_eq_false (not_lt.2 (two_zpow_pos _).le)
  rw [n3]
  simp

/-- C52. Converting a vector whose largest absolute value is between `2^-100` and `2^120`: one component per component,
in [-127, 127], with the sign of the original, and an error below `1 + 2^-16`; a component of largest absolute value
becomes ±127 or ±126. In a build with debug assertions the result is the same. -/
theorem C52_quantize (x : List ℝ) (m : ℝ) (hm : IsMaxAbs x m) (h1 : 2 ^ (-100 : Int) ≤ m) (h2 : m ≤ 2 ^ (120 : Int)) :
    ∃ q, quantize (x.map fin) = some q ∧ quantizeDebug (x.map fin) = some q ∧ q.length = x.length ∧
      ∀ (i : Nat) (a : ℝ) (v : Int), x[i]? = some a → q[i]? = some v →
        (-127 ≤ v ∧ v ≤ 127) ∧ (0 ≤ a → 0 ≤ v) ∧ (a ≤ 0 → v ≤ 0) ∧
        |(v : ℝ) - a * 127 / m| < 1 + 2 ^ (-16 : Int) ∧
        (a = m → v = 127 ∨ v = 126) ∧ (a = -m → v = -127 ∨ v = -126) := by
  have hm0 : 0 < m := lt_of_lt_of_le (two_zpow_pos _) h1
  have hu : 255 * (2 : ℝ) ^ (-24 : Int) < 2 ^ (-16 : Int) := by norm_num
  have hu2 : (2 : ℝ) ^ (-16 : Int) ≤ 1 / 60000 := by norm_num
  have hratio : ∀ a : ℝ, |a| ≤ m → |a * 127 / m| ≤ 127 := by
    intro a ha
    rw [abs_div, abs_of_pos hm0, div_le_iff₀ hm0, abs_mul]
    norm_num
    linarith
  refine ⟨_, quantize_fin x m hm, (quantizeDebug_fin x m hm).1 ?_, by simp, ?_⟩
  · intro a ha
    obtain ⟨z, e1, e2, _, _⟩ := scaled_ok h1 h2 (hm.2 a ha)
    refine ⟨z, e1, ?_⟩
    have h3 := abs_add_le (z - a * 127 / m) (a * 127 / m)
    rw [sub_add_cancel] at h3
    have h4 := hratio a (hm.2 a ha)
    have h5 : (127 : ℝ) + 1 / 20000 ≤ rne32 (127 + rne32 (1 / 10000)) := by
      have k1 : (2 : ℝ) ^ (-14 : Int) ≤ rne32 (1 / 10000) := pow_le_rne32 (by norm_num) (by norm_num)
      have k2 : rne32 (((16646152 : Int) : ℝ) * 2 ^ (-17 : Int)) = ((16646152 : Int) : ℝ) * 2 ^ (-17 : Int) :=
        rne32_digits (by norm_num) (by norm_num)
      have k3 : ((16646152 : Int) : ℝ) * 2 ^ (-17 : Int) = 127 + 2 ^ (-14 : Int) := by norm_num
      rw [k3] at k2
      have k4 := rne32_mono (show (127 : ℝ) + 2 ^ (-14 : Int) ≤ 127 + rne32 (1 / 10000) from add_le_add_right k1 127)
      rw [k2] at k4
      refine le_trans ?_ k4
      norm_num
    refine le_trans h3 (le_trans (add_le_add (e2.trans hu.le) h4) (le_trans ?_ h5))
    norm_num
  · intro i a v ha hv
    rw [List.getElem?_map, ha] at hv
    obtain rfl := Option.some.inj hv
    have hb := hm.2 a (List.mem_of_getElem? ha)
    obtain ⟨z, e1, e2, e3, e4⟩ := scaled_ok h1 h2 hb
    simp only [e1]
    change (-127 ≤ truncI8 z ∧ truncI8 z ≤ 127) ∧ (0 ≤ a → 0 ≤ truncI8 z) ∧ (a ≤ 0 → truncI8 z ≤ 0) ∧
      |((truncI8 z : Int) : ℝ) - a * 127 / m| < 1 + 2 ^ (-16 : Int) ∧ (a = m → truncI8 z = 127 ∨ truncI8 z = 126) ∧
      (a = -m → truncI8 z = -127 ∨ truncI8 z = -126)
    have e2' : |z - a * 127 / m| < 2 ^ (-16 : Int) := lt_of_le_of_lt e2 hu
    clear e2 hu
    generalize (2 : ℝ) ^ (-16 : Int) = w at *
    obtain ⟨r1, r2⟩ := abs_le.1 (hratio a hb)
    obtain ⟨s1, s2⟩ := abs_lt.1 e2'
    obtain ⟨t1, t2, t3, t4⟩ := truncI8_wide (a := z) (by linarith) (by linarith)
    have herr : |((truncI8 z : Int) : ℝ) - a * 127 / m| < 1 + w := by
      have := abs_add_le (((truncI8 z : Int) : ℝ) - z) (z - a * 127 / m)
      rw [sub_add_sub_cancel] at this
      linarith
    obtain ⟨g1, g2⟩ := abs_lt.1 herr
    refine ⟨t1, fun h => t2 (e3 h), fun h => t3 (e4 h), herr, ?_, ?_⟩
    · intro ham
      have e : a * 127 / m = 127 := by rw [ham]; field_simp
      rw [e] at g1
      have k : ((125 : Int) : ℝ) < ((truncI8 z : Int) : ℝ) := by push_cast; linarith
      have k : (125 : Int) < truncI8 z := by exact_mod_cast k
      omega
    · intro ham
      have e : a * 127 / m = -127 := by rw [ham]; field_simp
      rw [e] at g2
      have k : ((truncI8 z : Int) : ℝ) < ((-125 : Int) : ℝ) := by push_cast; linarith
      have k : truncI8 z < (-125 : Int) := by exact_mod_cast k
      omega

/-- C52. The upper limit is needed: a component of absolute value at least `2^122` overflows when it is scaled and
becomes 127 or -128 whatever its share of the largest component, and with debug assertions the conversion panics. -/
theorem C52_quantize_overflow (x : List ℝ) (m : ℝ) (hm : IsMaxAbs x m) (i : Nat) (a : ℝ) (hi : x[i]? = some a)
    (ha : 2 ^ (122 : Int) ≤ |a|) :
    (∃ q, quantize (x.map fin) = some q ∧ q[i]? = some (if a < 0 then -128 else 127)) ∧
    quantizeDebug (x.map fin) = none := by
  have hmem := List.mem_of_getElem? hi
  have hs := scaled_overflow (hm.2 a hmem) ha
  constructor
  · refine ⟨_, quantize_fin x m hm, ?_⟩
    rw [List.getElem?_map, hi, Option.map_some, hs]
    change some (if decide (a < 0) = true then (-128 : Int) else 127) = _
    simp
  · refine (quantizeDebug_fin x m hm).2 fun h => ?_
    obtain ⟨z, e, _⟩ := h a hmem
    rw [hs] at e
    cases e

/-- C52. A zero vector is converted to the zero vector; with debug assertions the conversion of a non-empty zero vector
panics. -/
theorem C52_quantize_zero (x : List ℝ) (hx : ∀ a ∈ x, a = 0) (hne : x ≠ []) :
    quantize (x.map fin) = some (x.map fun _ => 0) ∧ quantizeDebug (x.map fin) = none := by
  obtain ⟨b, hb⟩ := List.exists_mem_of_ne_nil x hne
  have hm : IsMaxAbs x 0 := ⟨⟨b, hb, by rw [hx b hb, abs_zero]⟩, fun a ha => by rw [hx a ha, abs_zero]⟩
  have hs : ∀ a ∈ x, scaled 0 a = nan := by
    intro a ha
    rw [hx a ha, scaled]
    change F32.div (ofReal (0 * 127)) (fin 0) = nan
    rw [zero_mul, ofReal_zero]
    change (if (0 : ℝ) = 0 then (if (0 : ℝ) = 0 then nan else _) else _) = _
    rw [if_pos rfl, if_pos rfl]
  constructor
  · rw [quantize_fin x 0 hm]
    congr 1
    refine List.map_congr_left fun a ha => ?_
    rw [hs a ha]; rfl
  · refine (quantizeDebug_fin x 0 hm).2 fun h => ?_
    obtain ⟨z, e, _⟩ := h b hb
    rw [hs b hb] at e
    cases e

/-- C52. Infinite and NaN components: NaN panics; if a component is infinite (and none NaN), the infinite components
become 0 (via NaN) and so does every finite one: the result is the zero vector. -/
theorem C52_quantize_infinite (s : List F32) :
    (nan ∈ s → quantize s = none) ∧
    (nan ∉ s → (∃ b, inf b ∈ s) → quantize s = some (s.map fun _ => 0)) := by
  have hs : ∀ v ∈ s, v = nan ∨ (∃ b, v = inf b) ∨ ∃ a, v = fin a := by
    intro v _
    cases v with
    | nan => exact Or.inl rfl
    | inf b => exact Or.inr (Or.inl ⟨b, rfl⟩)
    | fin a => exact Or.inr (Or.inr ⟨a, rfl⟩)
  constructor
  · intro h
    rw [quantize, if_pos]
    simp only [List.any_eq_true]
    exact ⟨nan, h, rfl⟩
  · intro hn ⟨b, hb⟩
    have hmax : maxOf (s.map FloatOps.abs) = some (inf false) := by
      have key : ∀ (l : List F32) (a : F32), (∀ v ∈ a :: l, v = inf false ∨ ∃ r, v = fin r) → inf false ∈ a :: l →
          l.foldl (fun m b => if FloatOps.gt m b then m else b) a = inf false := by
        intro l
        induction l with
        | nil => intro a _ h; exact (List.mem_singleton.1 h).symm
        | cons c l ih =>
          intro a hv hm
          rw [List.foldl_cons]
          have ha := hv a (by simp)
          have hc := hv c (by simp)
          have hl : ∀ v ∈ l, v = inf false ∨ ∃ r, v = fin r := fun v h => hv v (by simp [h])
          rcases ha with rfl | ⟨r, rfl⟩
          · rcases hc with rfl | ⟨t, rfl⟩
            · have : FloatOps.gt (inf false : F32) (inf false) = false := rfl
              rw [this]
              exact ih _ (by simpa using hl) (by simp)
            · have : FloatOps.gt (inf false : F32) (fin t) = true := rfl
              rw [this]
              exact ih _ (by simpa using hl) (by simp)
          · rcases hc with rfl | ⟨t, rfl⟩
            · have : FloatOps.gt (fin r : F32) (inf false) = false := rfl
              rw [this]
              exact ih _ (by simpa using hl) (by simp)
            · have hm' : inf false ∈ l := by simpa using hm
              split
              · exact ih _ (by simpa using hl) (by simp [hm'])
              · exact ih _ (by simpa using hl) (by simp [hm'])
      have hv : ∀ v ∈ s.map (FloatOps.abs (F := F32)), v = inf false ∨ ∃ r, v = fin r := by
        intro v h
        obtain ⟨w, hw, rfl⟩ := List.mem_map.1 h
        rcases hs w hw with rfl | ⟨t, rfl⟩ | ⟨a, rfl⟩
        · exact absurd hw hn
        · exact Or.inl rfl
        · exact Or.inr ⟨_, rfl⟩
      have hm : inf false ∈ s.map (FloatOps.abs (F := F32)) := List.mem_map.2 ⟨_, hb, rfl⟩
      cases hl : s.map (FloatOps.abs (F := F32)) with
      | nil => rw [hl] at hm; simp at hm
      | cons a l =>
        rw [hl] at hv hm
        rw [maxOf, key l a hv hm]
    rw [quantize, if_neg]
    · rw [hmax]
      simp only [Option.getD_some]
      congr 1
      refine List.map_congr_left fun v hv => ?_
      rw [ofInt_127]
      rcases hs v hv with rfl | ⟨t, rfl⟩ | ⟨a, rfl⟩
      · exact absurd hv hn
      · have e : FloatOps.mul (inf t : F32) (fin 127) = inf t := by
          change mulInf t 127 = _
          rw [mulInf, if_neg (by norm_num), decide_eq_false (by norm_num), Bool.bne_false]
        rw [e]; rfl
      · have h0 : truncI8 0 = 0 := by
          rw [truncI8, if_pos le_rfl]
          simp
        change FloatOps.toI8 (F32.div (ofReal (a * 127)) (inf false)) = 0
        rw [ofReal]
        split
        · exact h0
        · rfl
    · simp only [List.any_eq_true, not_exists, not_and]
      intro v hv h
      rcases hs v hv with rfl | ⟨t, rfl⟩ | ⟨a, rfl⟩
      · exact hn hv
      · cases h
      · cases h

/-- Non-vacuity: a vector with components of both signs in range, and one with a component that overflows. -/
example : IsMaxAbs [1, -2, 0.5] 2 ∧ IsMaxAbs [(2 : ℝ) ^ (127 : Int), 2 ^ (122 : Int)] (2 ^ (127 : Int)) ∧
    (2 : ℝ) ^ (122 : Int) * 127 / 2 ^ (127 : Int) < 4 := by
  refine ⟨⟨⟨-2, by simp, by norm_num⟩, ?_⟩, ⟨⟨_, by simp, abs_of_pos (by positivity)⟩, ?_⟩, by norm_num⟩
  · intro a ha
    simp only [List.mem_cons, List.not_mem_nil, or_false] at ha
    rcases ha with rfl | rfl | rfl <;> norm_num [abs_le]
  · intro a ha
    simp only [List.mem_cons, List.not_mem_nil, or_false] at ha
    rcases ha with rfl | rfl
    · rw [abs_of_pos (by positivity)]
    · rw [abs_of_pos (by positivity)]; exact two_zpow_le (by norm_num)

end Granne
