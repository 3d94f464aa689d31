import Verif.Model.F32
import Mathlib.Tactic.Linarith
import Mathlib.Tactic.Positivity
import Mathlib.Tactic.FieldSimp
import Mathlib.Tactic.GCongr

/-! Rounding to binary32. -/
namespace Granne

/-! ### Rounding to integers -/

theorem roundEven_intCast (n : Int) : roundEven n = n := by
  unfold roundEven
  simp

theorem roundEven_err (x : ℝ) : |(roundEven x : ℝ) - x| ≤ 1 / 2 := by
  have h0 := Int.fract_nonneg x
  have h1 := Int.fract_lt_one x
  have h2 := Int.floor_add_fract x
  unfold roundEven
  split
  · rw [abs_le]; constructor <;> linarith
  · split
    · push_cast; rw [abs_le]; constructor <;> linarith
    · split
      · rw [abs_le]; constructor <;> linarith
      · push_cast; rw [abs_le]; constructor <;> linarith

theorem roundEven_floor (x : ℝ) : ⌊x⌋ ≤ roundEven x ∧ roundEven x ≤ ⌊x⌋ + 1 := by
  unfold roundEven
  split
  · omega
  · split
    · omega
    · split <;> omega

theorem roundEven_mono : Monotone roundEven := by
  intro x y h
  have hf := Int.floor_le_floor h
  rcases lt_or_eq_of_le hf with hf | hf
  · have := (roundEven_floor x).2
    have := (roundEven_floor y).1
    omega
  · have h2 := Int.floor_add_fract x
    have h3 := Int.floor_add_fract y
    rw [hf] at h2
    have hfr : Int.fract x ≤ Int.fract y := by linarith
    unfold roundEven
    rw [hf]
    split
    · split
      · exact le_rfl
      · split
        · omega
        · split <;> omega
    · rename_i h4
      split
      · rename_i h5
        rw [if_neg (by linarith), if_pos (by linarith)]
      · split
        · rename_i h5 h6
          split
          · linarith
          · split
            · omega
            · exact le_rfl
        · rename_i h5 h6
          rw [if_neg (by linarith)]
          split
          · exact le_rfl
          · exact le_rfl

theorem roundEven_neg (x : ℝ) : roundEven (-x) = -roundEven x := by
  by_cases h : Int.fract x = 0
  · obtain ⟨n, rfl⟩ : ∃ n : Int, (n : ℝ) = x := ⟨⌊x⌋, by have := Int.floor_add_fract x; rw [h] at this; linarith⟩
    rw [roundEven_intCast, show -(n : ℝ) = ((-n : Int) : ℝ) by push_cast; ring, roundEven_intCast]
  · have h1 : Int.fract (-x) = 1 - Int.fract x := Int.fract_neg h
    have h2 : ⌊-x⌋ = -⌊x⌋ - 1 := by
      have a := Int.floor_add_fract x
      have b := Int.floor_add_fract (-x)
      rw [h1] at b
      have : ((⌊-x⌋ : Int) : ℝ) = ((-⌊x⌋ - 1 : Int) : ℝ) := by push_cast; linarith
      exact_mod_cast this
    unfold roundEven
    rw [h1, h2]
    rcases lt_trichotomy (Int.fract x) (1 / 2) with h3 | h3 | h3
    · rw [if_neg (by linarith), if_pos (by linarith), if_pos h3]; ring
    · have : Even (-⌊x⌋ - 1) ↔ ¬ Even ⌊x⌋ := by
        rw [Int.even_sub_one, even_neg]
      rw [h3, if_neg (show ¬ (1 : ℝ) - 1 / 2 < 1 / 2 by norm_num), if_neg (show ¬ (1 : ℝ) / 2 < 1 - 1 / 2 by norm_num),
        if_neg (show ¬ (1 : ℝ) / 2 < 1 / 2 by norm_num), if_neg (show ¬ (1 : ℝ) / 2 < 1 / 2 by norm_num)]
      by_cases he : Even ⌊x⌋
      · rw [if_neg (by rw [this]; exact not_not.2 he), if_pos he]; ring
      · rw [if_pos (this.2 he), if_neg he]; ring
    · rw [if_pos (by linarith), if_neg (by linarith), if_pos h3]; ring

/-! ### Rounding to binary32 -/

theorem two_zpow_pos (e : Int) : (0 : ℝ) < 2 ^ e := zpow_pos (by norm_num) e

theorem two_zpow_le {a b : Int} (h : a ≤ b) : (2 : ℝ) ^ a ≤ 2 ^ b := zpow_le_zpow_right₀ (by norm_num) h

theorem ulpExp_neg (z : ℝ) : ulpExp (-z) = ulpExp z := by rw [ulpExp, abs_neg, ulpExp]

theorem rne32_neg (z : ℝ) : rne32 (-z) = -rne32 z := by
  rw [rne32, ulpExp_neg, neg_div, roundEven_neg, rne32]; push_cast; ring

theorem rne32_zero : rne32 0 = 0 := by
  rw [rne32, zero_div, show (0 : ℝ) = ((0 : Int) : ℝ) by simp, roundEven_intCast]; simp

/-- What has the form `m * 2^e` with `e` at least the exponent of the last digit is not changed. -/
theorem rne32_of_int {m : Int} {e : Int} (h : ulpExp (m * 2 ^ e) ≤ e) : rne32 ((m : ℝ) * 2 ^ e) = m * 2 ^ e := by
  set z : ℝ := (m : ℝ) * 2 ^ e with hz
  obtain ⟨k, hk⟩ := Int.eq_ofNat_of_zero_le (show 0 ≤ e - ulpExp z by omega)
  have e1 : z / 2 ^ ulpExp z = ((m * 2 ^ k : Int) : ℝ) := by
    have h1 : (2 : ℝ) ^ e = 2 ^ k * 2 ^ ulpExp z := by
      rw [← zpow_natCast, ← zpow_add₀ (by norm_num)]; congr 1; omega
    rw [div_eq_iff (two_zpow_pos _).ne']
    push_cast
    rw [mul_assoc, ← h1]
  rw [rne32, e1, roundEven_intCast, ← e1, div_mul_cancel₀ _ (two_zpow_pos _).ne']

/-- The digits of a rounded number. -/
theorem round_digits (z : ℝ) : |(roundEven (z / 2 ^ ulpExp z) : ℝ)| ≤ 2 ^ 24 := by
  have hb : |z / 2 ^ ulpExp z| ≤ 2 ^ 24 := by
    rw [abs_div, abs_of_pos (two_zpow_pos _), div_le_iff₀ (two_zpow_pos _)]
    have h1 : |z| ≤ 2 ^ (Int.log 2 |z| + 1) := by
      have := Int.lt_zpow_succ_log_self (b := 2) (by norm_num) |z|
      exact_mod_cast this.le
    refine h1.trans ?_
    rw [show (2 : ℝ) ^ 24 = 2 ^ (24 : Int) by norm_num, ← zpow_add₀ (by norm_num)]
    refine two_zpow_le ?_
    unfold ulpExp
    omega
  obtain ⟨h1, h2⟩ := abs_le.1 hb
  have m1 := roundEven_mono h2
  have m2 := roundEven_mono h1
  rw [show (2 : ℝ) ^ 24 = ((2 ^ 24 : Int) : ℝ) by norm_num, roundEven_intCast] at m1
  rw [show -(2 : ℝ) ^ 24 = ((-2 ^ 24 : Int) : ℝ) by norm_num, roundEven_intCast] at m2
  rw [abs_le]
  constructor
  · have : ((-2 ^ 24 : Int) : ℝ) ≤ (roundEven (z / 2 ^ ulpExp z) : ℝ) := by exact_mod_cast m2
    push_cast at this; linarith
  · have : (roundEven (z / 2 ^ ulpExp z) : ℝ) ≤ ((2 ^ 24 : Int) : ℝ) := by exact_mod_cast m1
    push_cast at this; linarith

theorem ulpExp_ge (z : ℝ) : -149 ≤ ulpExp z := le_max_right _ _

/-- A number with at most 24 digits, the last one at `e`, is a binary32 number. -/
theorem rne32_digits {m e : Int} (hm : |(m : ℝ)| ≤ 2 ^ 24) (he : -149 ≤ e) : rne32 ((m : ℝ) * 2 ^ e) = m * 2 ^ e := by
  have hm' : |m| ≤ 2 ^ 24 := by
    have : ((|m| : Int) : ℝ) ≤ ((2 ^ 24 : Int) : ℝ) := by push_cast; norm_num at hm ⊢; exact hm
    exact_mod_cast this
  by_cases h0 : m = 0
  · subst h0; simpa using rne32_zero
  rcases lt_or_eq_of_le hm' with hlt | heq
  · apply rne32_of_int
    unfold ulpExp
    refine max_le ?_ he
    have hz : 0 < |(m : ℝ) * 2 ^ e| := abs_pos.2 (mul_ne_zero (by exact_mod_cast h0) (two_zpow_pos _).ne')
    have : Int.log 2 |(m : ℝ) * 2 ^ e| < e + 24 := by
      rw [← Int.lt_zpow_iff_log_lt (by norm_num) hz]
      rw [abs_mul, abs_of_pos (two_zpow_pos e), add_comm, zpow_add₀ (by norm_num)]
      have : |(m : ℝ)| < 2 ^ 24 := by
        have : ((|m| : Int) : ℝ) < ((2 ^ 24 : Int) : ℝ) := by exact_mod_cast hlt
        push_cast at this; norm_num at this ⊢; exact this
      have h2 := mul_lt_mul_of_pos_right this (two_zpow_pos e)
      push_cast
      norm_num at h2 ⊢
      exact h2
    omega
  · have hs : m = (m / 2 ^ 24) * 2 ^ 24 := by
      rcases abs_eq (by norm_num : (0 : Int) ≤ 2 ^ 24) |>.1 heq with h | h <;> rw [h] <;> norm_num
    have hs1 : |m / 2 ^ 24| = 1 := by
      rcases abs_eq (by norm_num : (0 : Int) ≤ 2 ^ 24) |>.1 heq with h | h <;> rw [h] <;> norm_num
    set s := m / 2 ^ 24
    have e1 : (m : ℝ) * 2 ^ e = s * 2 ^ (e + 24) := by
      rw [hs, zpow_add₀ (by norm_num)]; push_cast; norm_num; ring
    rw [e1]
    apply rne32_of_int
    unfold ulpExp
    refine max_le ?_ (by omega)
    have hz : |(s : ℝ) * 2 ^ (e + 24)| = 2 ^ (e + 24) := by
      rw [abs_mul, abs_of_pos (two_zpow_pos _)]
      have : |(s : ℝ)| = 1 := by
        have : ((|s| : Int) : ℝ) = 1 := by rw [hs1]; simp
        push_cast at this; exact this
      rw [this, one_mul]
    rw [hz]
    have : Int.log 2 ((2 : ℝ) ^ (e + 24)) = e + 24 := by
      have := Int.log_zpow (R := ℝ) (b := 2) (by norm_num) (e + 24)
      exact_mod_cast this
    omega

theorem rne32_idem (z : ℝ) : rne32 (rne32 z) = rne32 z := by
  conv_lhs => rw [show rne32 z = (roundEven (z / 2 ^ ulpExp z) : ℝ) * 2 ^ ulpExp z from rfl]
  rw [rne32_digits (round_digits z) (ulpExp_ge z)]; rfl

theorem rne32_err (z : ℝ) : |rne32 z - z| ≤ max (2 ^ (-24 : Int) * |z|) (2 ^ (-150 : Int)) := by
  by_cases hz : z = 0
  · subst hz; rw [rne32_zero]; simp
  have h := roundEven_err (z / 2 ^ ulpExp z)
  have h1 : rne32 z - z = ((roundEven (z / 2 ^ ulpExp z) : ℝ) - z / 2 ^ ulpExp z) * 2 ^ ulpExp z := by
    rw [sub_mul, div_mul_cancel₀ _ (two_zpow_pos _).ne', rne32]
  have h2 : |rne32 z - z| ≤ 2 ^ (ulpExp z - 1) := by
    rw [h1, abs_mul, abs_of_pos (two_zpow_pos _), zpow_sub_one₀ (by norm_num)]
    have := mul_le_mul_of_nonneg_right h (two_zpow_pos (ulpExp z)).le
    linarith
  refine h2.trans ?_
  by_cases hc : Int.log 2 |z| - 23 ≤ -149
  · refine le_max_of_le_right ?_
    rw [ulpExp, max_eq_right hc]; norm_num
  · refine le_max_of_le_left ?_
    rw [ulpExp, max_eq_left (by omega)]
    have := Int.zpow_log_le_self (b := 2) (by norm_num) (abs_pos.2 hz)
    have h3 : (2 : ℝ) ^ (Int.log 2 |z|) ≤ |z| := by exact_mod_cast this
    rw [show Int.log 2 |z| - 23 - 1 = -24 + Int.log 2 |z| by omega, zpow_add₀ (by norm_num)]
    exact mul_le_mul_of_nonneg_left h3 (two_zpow_pos _).le

theorem rne32_nonneg {z : ℝ} (h : 0 ≤ z) : 0 ≤ rne32 z := by
  have := roundEven_mono (show (0 : ℝ) ≤ z / 2 ^ ulpExp z from div_nonneg h (two_zpow_pos _).le)
  rw [show (0 : ℝ) = ((0 : Int) : ℝ) by simp, roundEven_intCast] at this
  have : (0 : ℝ) ≤ (roundEven (z / 2 ^ ulpExp z) : ℝ) := by exact_mod_cast this
  exact mul_nonneg this (two_zpow_pos _).le

theorem rne32_mono_nonneg {x y : ℝ} (hx : 0 < x) (h : x ≤ y) : rne32 x ≤ rne32 y := by
  have hl : Int.log 2 |x| ≤ Int.log 2 |y| := by
    rw [abs_of_pos hx, abs_of_pos (lt_of_lt_of_le hx h)]; exact Int.log_mono_right hx h
  have hy := lt_of_lt_of_le hx h
  have hu : ulpExp x ≤ ulpExp y := by unfold ulpExp; omega
  rcases lt_or_eq_of_le hu with hu | hu
  · -- a power of two lies between them
    have hy' : ulpExp y = Int.log 2 |y| - 23 := by
      unfold ulpExp at hu ⊢; omega
    have hlt : Int.log 2 |x| < Int.log 2 |y| := by
      unfold ulpExp at hu; omega
    have hlo : (2 : ℝ) ^ Int.log 2 |y| ≤ y := by
      have := Int.zpow_log_le_self (b := 2) (by norm_num) (abs_pos.2 hy.ne')
      rw [abs_of_pos hy] at this ⊢
      exact_mod_cast this
    have h1 : rne32 x ≤ 2 ^ (24 + ulpExp x) := by
      have := round_digits x
      rw [rne32, zpow_add₀ (by norm_num)]
      refine mul_le_mul_of_nonneg_right ((le_abs_self _).trans ?_) (two_zpow_pos _).le
      exact_mod_cast this
    have h2 : (2 : ℝ) ^ Int.log 2 |y| ≤ rne32 y := by
      have h3 : (2 : ℝ) ^ (23 : Int) ≤ y / 2 ^ ulpExp y := by
        rw [le_div_iff₀ (two_zpow_pos _), ← zpow_add₀ (by norm_num), hy']
        rw [show (23 : Int) + (Int.log 2 |y| - 23) = Int.log 2 |y| by omega]; exact hlo
      have h4 := roundEven_mono h3
      rw [show (2 : ℝ) ^ (23 : Int) = ((2 ^ 23 : Int) : ℝ) by norm_num, roundEven_intCast] at h4
      have h5 : ((2 ^ 23 : Int) : ℝ) ≤ (roundEven (y / 2 ^ ulpExp y) : ℝ) := by exact_mod_cast h4
      have h6 := mul_le_mul_of_nonneg_right h5 (two_zpow_pos (ulpExp y)).le
      refine le_trans ?_ h6
      rw [show ((2 ^ 23 : Int) : ℝ) = (2 : ℝ) ^ (23 : Int) by norm_num, ← zpow_add₀ (by norm_num), hy']
      rw [show (23 : Int) + (Int.log 2 |y| - 23) = Int.log 2 |y| by omega]
    refine h1.trans (le_trans (two_zpow_le ?_) h2)
    omega
  · rw [rne32, rne32, hu]
    refine mul_le_mul_of_nonneg_right ?_ (two_zpow_pos _).le
    exact_mod_cast roundEven_mono (div_le_div_of_nonneg_right h (two_zpow_pos _).le)

theorem rne32_mono : Monotone rne32 := by
  intro x y h
  rcases lt_trichotomy x 0 with hx | hx | hx
  · rcases lt_or_ge y 0 with hy | hy
    · have := rne32_mono_nonneg (x := -y) (y := -x) (by linarith) (by linarith)
      rw [rne32_neg, rne32_neg] at this; linarith
    · have h1 := rne32_nonneg (z := -x) (by linarith)
      rw [rne32_neg] at h1
      have := rne32_nonneg hy
      linarith
  · subst hx; rw [rne32_zero]; exact rne32_nonneg h
  · exact rne32_mono_nonneg hx h

theorem rne32_min_pos {z : ℝ} (h : 0 < rne32 z) : 2 ^ (-149 : Int) ≤ rne32 z := by
  rw [rne32] at h ⊢
  have h1 : 0 < (roundEven (z / 2 ^ ulpExp z) : ℝ) := by
    by_contra hc
    have := mul_nonpos_of_nonpos_of_nonneg (not_lt.1 hc) (two_zpow_pos (ulpExp z)).le
    linarith
  have h2 : (1 : Int) ≤ roundEven (z / 2 ^ ulpExp z) := by
    have : (0 : Int) < roundEven (z / 2 ^ ulpExp z) := by exact_mod_cast h1
    omega
  have h3 : (1 : ℝ) ≤ (roundEven (z / 2 ^ ulpExp z) : ℝ) := by exact_mod_cast h2
  calc (2 : ℝ) ^ (-149 : Int) ≤ 2 ^ ulpExp z := two_zpow_le (ulpExp_ge z)
    _ = 1 * 2 ^ ulpExp z := (one_mul _).symm
    _ ≤ _ := mul_le_mul_of_nonneg_right h3 (two_zpow_pos _).le

theorem rne32_int {m : Int} (h : |(m : ℝ)| ≤ 2 ^ 24) : rne32 m = m := by
  have := rne32_digits (m := m) (e := 0) h (by norm_num)
  simpa using this

theorem roundEven_nearest (x : ℝ) (k : Int) : |(roundEven x : ℝ) - x| ≤ |(k : ℝ) - x| := by
  by_cases h : k = roundEven x
  · rw [h]
  have h1 := roundEven_err x
  have h2 : (1 : ℝ) ≤ |(k : ℝ) - roundEven x| := by
    have : 1 ≤ |k - roundEven x| := Int.one_le_abs (sub_ne_zero.2 h)
    exact_mod_cast this
  have h3 : |(k : ℝ) - roundEven x| ≤ |(k : ℝ) - x| + |(roundEven x : ℝ) - x| := by
    rw [show (k : ℝ) - roundEven x = ((k : ℝ) - x) - (roundEven x - x) by ring]
    exact abs_sub _ _
  linarith

/-- Correct rounding: no number of 24 binary digits, the last one not below `2^-149`, is nearer. -/
theorem rne32_nearest (z : ℝ) {m e : Int} (hm : |(m : ℝ)| ≤ 2 ^ 24) (he : -149 ≤ e) :
    |rne32 z - z| ≤ |(m : ℝ) * 2 ^ e - z| := by
  have hu := two_zpow_pos (ulpExp z)
  have key : ∀ k : Int, |rne32 z - z| ≤ |(k : ℝ) * 2 ^ ulpExp z - z| := by
    intro k
    have h1 : ∀ t : ℝ, t * 2 ^ ulpExp z - z = (t - z / 2 ^ ulpExp z) * 2 ^ ulpExp z := by
      intro t; rw [sub_mul, div_mul_cancel₀ _ hu.ne']
    rw [rne32, h1, h1, abs_mul, abs_mul]
    exact mul_le_mul_of_nonneg_right (roundEven_nearest _ _) (abs_nonneg _)
  by_cases hz : z = 0
  · rw [hz, rne32_zero, sub_zero, abs_zero]
    exact abs_nonneg _
  by_cases hle : ulpExp z ≤ e
  · obtain ⟨k, hk⟩ := Int.eq_ofNat_of_zero_le (show 0 ≤ e - ulpExp z by omega)
    have h1 : (2 : ℝ) ^ e = 2 ^ k * 2 ^ ulpExp z := by
      rw [← zpow_natCast, ← zpow_add₀ (by norm_num)]; congr 1; omega
    have := key (m * 2 ^ k)
    rw [h1, ← mul_assoc]
    push_cast at this
    exact this
  · have hlog : ulpExp z = Int.log 2 |z| - 23 := by unfold ulpExp at *; omega
    have h1 : (2 : ℝ) ^ (ulpExp z + 23) ≤ |z| := by
      have := Int.zpow_log_le_self (b := 2) (by norm_num) (abs_pos.2 hz)
      rw [show ulpExp z + 23 = Int.log 2 |z| by omega]
      exact_mod_cast this
    have h2 : |(m : ℝ) * 2 ^ e| ≤ 2 ^ (ulpExp z + 23) := by
      rw [abs_mul, abs_of_pos (two_zpow_pos e)]
      calc |(m : ℝ)| * 2 ^ e ≤ 2 ^ 24 * 2 ^ e := mul_le_mul_of_nonneg_right hm (two_zpow_pos e).le
        _ = 2 ^ (e + 24) := by rw [zpow_add₀ (by norm_num), mul_comm]; norm_num
        _ ≤ _ := zpow_le_zpow_right₀ (by norm_num) (by omega)
    have h3 : (2 : ℝ) ^ (ulpExp z + 23) = 8388608 * 2 ^ ulpExp z := by
      rw [zpow_add₀ (by norm_num), mul_comm]; norm_num
    have h4 : |z| - |(m : ℝ) * 2 ^ e| ≤ |(m : ℝ) * 2 ^ e - z| := by
      rw [abs_sub_comm]; exact abs_sub_abs_le_abs_sub _ _
    rcases lt_or_gt_of_ne hz with hneg | hpos
    · have := key (-2 ^ 23)
      push_cast at this
      rw [neg_mul, ← h3] at this
      rw [abs_of_neg hneg] at h1 h4
      rw [abs_of_nonneg (by linarith : 0 ≤ -(2 : ℝ) ^ (ulpExp z + 23) - z)] at this
      linarith
    · have := key (2 ^ 23)
      push_cast at this
      rw [← h3] at this
      rw [abs_of_pos hpos] at h1 h4
      rw [abs_of_nonpos (by linarith : (2 : ℝ) ^ (ulpExp z + 23) - z ≤ 0)] at this
      linarith

end Granne
