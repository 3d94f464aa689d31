import Verif.Proofs.RoundedScale
import Verif.Proofs.F32Int

/-!
C88: the length of a vector given by the user does not matter, rounding errors included.
-/
namespace Granne
open Spec

/-- C88. With rounding: if scaling by `c` commutes with rounding (for `f32` without overflow and underflow: `c` is a
power of two), the stored vector, and so every distance, is the same to the last digit. -/
theorem C88_scale_rounded (fl : ℝ → ℝ) (u : ℝ) (hfl : RoundsWithin fl u) (h0 : 0 ≤ u) (h1 : u < 1)
    (c : ℝ) (hc : 0 < c) (hscale : ∀ z, fl (c * z) = c * fl z) (x : List ℝ) :
    @normalize ℝ (roundedOps fl) (x.map fun a => c * a) = @normalize ℝ (roundedOps fl) x := by
  by_cases hn : 0 < norm x
  · rw [normalize_scaled hscale hfl.zero hc, if_pos (norm_pos_rounded hfl h0 h1 x hn)]
  · have hz : norm x = 0 := le_antisymm (not_lt.1 hn) (norm_nonneg' x)
    rw [norm_eq_zero'] at hz
    congr 1
    conv_rhs => rw [← List.map_id x]
    exact List.map_congr_left fun a ha => by rw [hz a ha, mul_zero]; rfl

/-- C88. In particular for every power of two, positive or negative, rounding to 24 binary digits. -/
theorem C88_scale_power (k : Int) (x : List ℝ) :
    @normalize ℝ (roundedOps fl32) (x.map fun a => 2 ^ k * a) = @normalize ℝ (roundedOps fl32) x :=
  C88_scale_rounded fl32 _ fl32_rounds (by norm_num) (by norm_num) _ (zpow_pos (by norm_num) k) (fl32_scale k) x

/-- C88. Hence the computed distance of two vectors, however they are scaled. -/
theorem C88_distance (j k : Int) (x y : List ℝ) :
    @angularDist ℝ (roundedOps fl32) (@normalize ℝ (roundedOps fl32) (x.map fun a => 2 ^ j * a))
        (@normalize ℝ (roundedOps fl32) (y.map fun a => 2 ^ k * a)) =
      @angularDist ℝ (roundedOps fl32) (@normalize ℝ (roundedOps fl32) x) (@normalize ℝ (roundedOps fl32) y) := by
  rw [C88_scale_power, C88_scale_power]

/-- C88. A quantised vector: the stored integers are the same, for every factor that commutes with rounding. -/
theorem C88_quantize (fl : ℝ → ℝ) (h127 : fl 127 = 127) (c : ℝ) (hc : 0 < c) (hscale : ∀ z, fl (c * z) = c * fl z)
    (x : List ℝ) :
    @quantize ℝ (roundedOps fl) (x.map fun a => c * a) = @quantize ℝ (roundedOps fl) x :=
  quantize_scaled h127 hc hscale x

/-- C88. In particular for every power of two. -/
theorem C88_quantize_power (k : Int) (x : List ℝ) :
    @quantize ℝ (roundedOps fl32) (x.map fun a => 2 ^ k * a) = @quantize ℝ (roundedOps fl32) x :=
  C88_quantize fl32 fl32_127 _ (zpow_pos (by norm_num) k) (fl32_scale k) x

/-- Non-vacuity: a vector that is changed by scaling, and whose quantisation is not exact. -/
example : ([9227469 / 8388608] : List ℝ).map (fun a => 2 ^ (3 : Int) * a) = [9227469 / 1048576] ∧
    @quantize ℝ (roundedOps fl32) [9227469 / 1048576] = some [126] := by
  have h : ([9227469 / 8388608] : List ℝ).map (fun a => 2 ^ (3 : Int) * a) = [9227469 / 1048576] := by norm_num
  refine ⟨h, ?_⟩
  rw [← h, C88_quantize_power, quantize_fl32_example]

/-- C88. For other factors this is not so: 352281 is quantised to 127, three times as much (both are exact in binary32)
to 126. -/
theorem C88_factor_three :
    @quantize ℝ (roundedOps fl32) [352281] = some [127] ∧
      @quantize ℝ (roundedOps fl32) ([352281].map fun a => 3 * a) = some [126] := by
  constructor
  · rw [quantize_rounded fl32 fl32_127 _ 352281 ⟨352281, by simp, by norm_num⟩ (by simp)]
    have e1 : fl32 (352281 * 127) = 44739688 := by
      rw [fl32_eq (e := 25) (by norm_num) (by norm_num)]
      have : round ((352281 * 127 : ℝ) / 2 ^ ((25 : Int) - 23)) = 11184922 := by
        rw [round_eq, Int.floor_eq_iff]
        constructor <;> norm_num
      rw [this]
      norm_num
    have e2 : fl32 (44739688 / 352281) = 127 := by
      rw [fl32_eq (e := 6) (by norm_num) (by norm_num)]
      have : round ((44739688 / 352281 : ℝ) / 2 ^ ((6 : Int) - 23)) = 16646144 := by
        rw [round_eq, Int.floor_eq_iff]
        constructor <;> norm_num
      rw [this]
      norm_num
    simp only [List.map_cons, List.map_nil, e1, e2]
    congr 2
    rw [truncI8, if_pos (by norm_num)]
    have : ⌊(127 : ℝ)⌋ = 127 := by
      rw [Int.floor_eq_iff]
      constructor <;> norm_num
    rw [this]
    rfl
  · have hm : ([352281] : List ℝ).map (fun a => 3 * a) = [1056843] := by norm_num
    rw [hm, quantize_rounded fl32 fl32_127 _ 1056843 ⟨1056843, by simp, by norm_num⟩ (by simp)]
    have e1 : fl32 (1056843 * 127) = 134219056 := by
      rw [fl32_eq (e := 27) (by norm_num) (by norm_num)]
      have : round ((1056843 * 127 : ℝ) / 2 ^ ((27 : Int) - 23)) = 8388691 := by
        rw [round_eq, Int.floor_eq_iff]
        constructor <;> norm_num
      rw [this]
      norm_num
    have e2 : fl32 (134219056 / 1056843) = 16646143 / 131072 := by
      rw [fl32_eq (e := 6) (by norm_num) (by norm_num)]
      have : round ((134219056 / 1056843 : ℝ) / 2 ^ ((6 : Int) - 23)) = 16646143 := by
        rw [round_eq, Int.floor_eq_iff]
        constructor <;> norm_num
      rw [this]
      norm_num
    simp only [List.map_cons, List.map_nil, e1, e2]
    congr 2
    rw [truncI8, if_pos (by norm_num)]
    have : ⌊(16646143 / 131072 : ℝ)⌋ = 126 := by
      rw [Int.floor_eq_iff]
      constructor <;> norm_num
    rw [this]
    rfl

/-- C88. Reversing both vectors does not change their distance either, if rounding treats positive and negative numbers
alike. -/
theorem C88_opposite (fl : ℝ → ℝ) (h0 : fl 0 = 0) (hneg : ∀ z, fl (-z) = -fl z) (x y : List ℝ) :
    @angularDist ℝ (roundedOps fl) (@normalize ℝ (roundedOps fl) (x.map fun a => -a))
        (@normalize ℝ (roundedOps fl) (y.map fun a => -a)) =
      @angularDist ℝ (roundedOps fl) (@normalize ℝ (roundedOps fl) x) (@normalize ℝ (roundedOps fl) y) := by
  have hfl : ∀ z, fl (-1 * z) = -1 * fl z := fun z => by rw [neg_one_mul, neg_one_mul, hneg]
  have hm : ∀ l : List ℝ, (l.map fun a => -a) = l.map (-1 * ·) := fun l =>
    List.map_congr_left fun a _ => (neg_one_mul a).symm
  have hd : ∀ v w : List ℝ, @dotProduct ℝ (roundedOps fl).toMulAddOps (v.map fun a => -a) (w.map fun a => -a) =
      @dotProduct ℝ (roundedOps fl).toMulAddOps v w := by
    intro v w
    rw [hm, hm, dotProduct_scaled hfl, dotProduct_comm_rounded, dotProduct_scaled hfl, dotProduct_comm_rounded]
    ring
  have hn : ∀ l : List ℝ, @normalize ℝ (roundedOps fl) (l.map fun a => -a) =
      (@normalize ℝ (roundedOps fl) l).map fun a => -a := by
    intro l
    rw [normalize_rounded_eq h0, normalize_rounded_eq h0, hd]
    split
    · rw [List.map_map, List.map_map]
      refine List.map_congr_left fun a _ => ?_
      simp only [Function.comp_apply]
      rw [neg_div, hneg]
    · rfl
  rw [hn, hn, @angularDist.eq_def ℝ (roundedOps fl), @angularDist.eq_def ℝ (roundedOps fl), hd]

/-- Non-vacuity: IEEE rounding (to nearest, ties to even) is such. -/
example : rne32 0 = 0 ∧ ∀ z, rne32 (-z) = -rne32 z := ⟨by have := rne32_neg 0; rw [neg_zero] at this; linarith, rne32_neg⟩

end Granne
