import Verif.Proofs.F32Panics
import Verif.Proofs.Rounded
import Verif.Proofs.Quantize

/-! The distance of quantised vectors in binary32 arithmetic. -/
namespace Granne
open Spec F32

/-- The relative error of one operation, in the normal range. -/
theorem rne32_rel {z : ℝ} (h : z = 0 ∨ 2 ^ (-126 : Int) ≤ |z|) : Rel (1 - 2 ^ (-24 : Int)) 1 (rne32 z) z := by
  have hr : RoundsWithin (fun w => if w = 0 ∨ 2 ^ (-126 : Int) ≤ |w| then rne32 w else w) (2 ^ (-24 : Int)) := by
    intro w
    simp only
    split
    · next hw =>
      have h1 := rne32_err w
      rcases hw with rfl | hw
      · rw [rne32_zero]; simp
      · refine h1.trans (max_le le_rfl ?_)
        have e : (2 : ℝ) ^ (-150 : Int) = 2 ^ (-24 : Int) * 2 ^ (-126 : Int) := by
          rw [← zpow_add₀ (by norm_num)]; norm_num
        rw [e]
        exact mul_le_mul_of_nonneg_left hw (two_zpow_pos _).le
    · rw [sub_self, abs_zero]
      exact mul_nonneg (two_zpow_pos _).le (abs_nonneg _)
  have := hr.rel (two_zpow_pos _).le (by norm_num) z
  simpa only [if_pos h] using this

theorem rne32_one : rne32 1 = 1 := by simpa using rne32_int (m := 1) (by norm_num)

theorem rne32_two_pow {e : Int} (h : -149 ≤ e) : rne32 (2 ^ e) = 2 ^ e := by
  have := rne32_digits (m := 1) (e := e) (by norm_num) h
  simpa using this

theorem rne32_le_pow {z : ℝ} {e : Int} (h : -149 ≤ e) (hz : z ≤ 2 ^ e) : rne32 z ≤ 2 ^ e := by
  rw [← rne32_two_pow h]; exact rne32_mono hz

theorem pow_le_rne32 {z : ℝ} {e : Int} (h : -149 ≤ e) (hz : 2 ^ e ≤ z) : 2 ^ e ≤ rne32 z := by
  rw [← rne32_two_pow h]; exact rne32_mono hz

theorem rne32_abs (z : ℝ) : |rne32 z| = rne32 |z| := by
  rcases le_total 0 z with h | h
  · rw [abs_of_nonneg h, abs_of_nonneg (rne32_nonneg h)]
  · have : rne32 z ≤ 0 := by have := rne32_mono h; rwa [rne32_zero] at this
    rw [abs_of_nonpos h, rne32_neg, abs_of_nonpos this]

theorem ofReal_pow {z : ℝ} {e : Int} (h : -149 ≤ e) (h' : e ≤ 127) (hz : |z| ≤ 2 ^ e) : ofReal z = fin (rne32 z) := by
  apply ofReal_fin
  rw [rne32_abs]
  refine (rne32_le_pow h hz).trans ((two_zpow_le h').trans (le_trans (le_of_eq ?_) maxF32_ge))
  norm_num

/-- The quotient, and the distance from it. -/
theorem f32_quotient {R X Y : Int} (hX : 1 ≤ X) (hX' : X ≤ 2 ^ 31) (hY : 1 ≤ Y) (hY' : Y ≤ 2 ^ 31)
    (hR : |R| ≤ 2 ^ 31) :
    ∃ q, FloatOps.div (FloatOps.ofInt R : F32)
        (FloatOps.mul (FloatOps.sqrt (FloatOps.ofInt X)) (FloatOps.sqrt (FloatOps.ofInt Y))) = fin q ∧
      Rel (1 - 2 ^ (-24 : Int)) 7 q ((R : ℝ) / (Real.sqrt X * Real.sqrt Y)) := by
  have hq0 : (0 : ℝ) < 1 - 2 ^ (-24 : Int) := by norm_num
  have hq1 : (1 : ℝ) - 2 ^ (-24 : Int) ≤ 1 := by have := two_zpow_pos (-24); linarith
  have key : ∀ Z : Int, 1 ≤ Z → Z ≤ 2 ^ 31 → ∃ s, FloatOps.sqrt (FloatOps.ofInt Z : F32) = fin s ∧
      (2 : ℝ) ^ (0 : Int) ≤ s ∧ s ≤ 2 ^ (16 : Int) ∧ Rel (1 - 2 ^ (-24 : Int)) 2 s (Real.sqrt Z) := by
    intro Z h1 h2
    have z1 : (2 : ℝ) ^ (0 : Int) ≤ (Z : ℝ) := by rw [zpow_zero]; exact_mod_cast h1
    have z2 : (Z : ℝ) ≤ 2 ^ (31 : Int) := by
      have : (Z : ℝ) ≤ ((2 ^ 31 : Int) : ℝ) := by exact_mod_cast h2
      refine this.trans (le_of_eq ?_)
      norm_num
    have z0 : (0 : ℝ) ≤ Z := le_trans (by positivity) z1
    have e1 : (FloatOps.ofInt Z : F32) = fin (rne32 Z) :=
      ofReal_pow (e := 31) (by norm_num) (by norm_num) (by rwa [abs_of_nonneg z0])
    have a1 := pow_le_rne32 (e := 0) (by norm_num) z1
    have a2 := rne32_le_pow (e := 31) (by norm_num) z2
    have s1 : (2 : ℝ) ^ (0 : Int) ≤ Real.sqrt (rne32 Z) := by
      rw [zpow_zero] at a1 ⊢
      exact Real.one_le_sqrt.2 a1
    have s2 : Real.sqrt (rne32 Z) ≤ 2 ^ (16 : Int) := by
      apply Real.sqrt_le_iff.2 ⟨by positivity, ?_⟩
      refine a2.trans ?_
      norm_num
    refine ⟨rne32 (Real.sqrt (rne32 Z)), ?_, pow_le_rne32 (by norm_num) s1, rne32_le_pow (by norm_num) s2, ?_⟩
    · rw [e1]
      change (if rne32 (Z : ℝ) < 0 then nan else ofReal (Real.sqrt (rne32 Z))) = _
      rw [if_neg (not_lt.2 (rne32_nonneg z0))]
      exact ofReal_pow (e := 16) (by norm_num) (by norm_num) (by rwa [abs_of_nonneg (Real.sqrt_nonneg _)])
    · have r1 : Rel (1 - 2 ^ (-24 : Int)) 1 (rne32 (Z : ℝ)) Z := rne32_rel (Or.inr (by
        rw [abs_of_nonneg z0]; exact le_trans (two_zpow_le (by norm_num)) z1))
      have r2 := r1.sqrt hq0 hq1 z0
      have r3 : Rel (1 - 2 ^ (-24 : Int)) 1 (rne32 (Real.sqrt (rne32 (Z : ℝ)))) _ := rne32_rel (Or.inr (by
        rw [abs_of_nonneg (Real.sqrt_nonneg _)]; exact le_trans (two_zpow_le (by norm_num)) s1))
      exact r3.trans r2 hq0
  obtain ⟨s, es, s1, s2, sr⟩ := key X hX hX'
  obtain ⟨t, et, t1, t2, tr⟩ := key Y hY hY'
  have s0 : 0 ≤ s := le_trans (by positivity) s1
  have t0 : 0 ≤ t := le_trans (by positivity) t1
  have m1 : (2 : ℝ) ^ (0 : Int) ≤ s * t := by
    rw [zpow_zero] at s1 t1 ⊢
    nlinarith
  have m2 : s * t ≤ 2 ^ (32 : Int) := by
    have := mul_le_mul s2 t2 t0 (by positivity)
    refine this.trans (le_of_eq ?_)
    norm_num
  have m0 : 0 ≤ s * t := mul_nonneg s0 t0
  have em : FloatOps.mul (fin s : F32) (fin t) = fin (rne32 (s * t)) :=
    ofReal_pow (e := 32) (by norm_num) (by norm_num) (by rwa [abs_of_nonneg m0])
  have p1 := pow_le_rne32 (e := 0) (by norm_num) m1
  have p2 := rne32_le_pow (e := 32) (by norm_num) m2
  have p0 : 0 < rne32 (s * t) := lt_of_lt_of_le (by positivity) p1
  have mr : Rel (1 - 2 ^ (-24 : Int)) 5 (rne32 (s * t)) (Real.sqrt X * Real.sqrt Y) := by
    have r1 : Rel (1 - 2 ^ (-24 : Int)) 1 (rne32 (s * t)) (s * t) := rne32_rel (Or.inr (by
      rw [abs_of_nonneg m0]; exact le_trans (two_zpow_le (by norm_num)) m1))
    exact r1.trans (sr.mul tr hq0) hq0
  have r2 : |(R : ℝ)| ≤ 2 ^ (31 : Int) := by
    have : ((|R| : Int) : ℝ) ≤ ((2 ^ 31 : Int) : ℝ) := by exact_mod_cast hR
    rw [Int.cast_abs] at this
    refine this.trans (le_of_eq ?_)
    norm_num
  have eR : (FloatOps.ofInt R : F32) = fin (rne32 R) := ofReal_pow (e := 31) (by norm_num) (by norm_num) r2
  have rr : Rel (1 - 2 ^ (-24 : Int)) 1 (rne32 (R : ℝ)) R := by
    refine rne32_rel ?_
    by_cases h0 : R = 0
    · left; rw [h0]; simp
    · right
      have : (1 : Int) ≤ |R| := Int.one_le_abs h0
      have h1 : (1 : ℝ) ≤ |(R : ℝ)| := by rw [← Int.cast_abs]; exact_mod_cast this
      exact le_trans (by norm_num) h1
  have rb : |rne32 (R : ℝ)| ≤ 2 ^ (31 : Int) := by
    rw [rne32_abs]; exact rne32_le_pow (by norm_num) r2
  have d2 : |rne32 (R : ℝ) / rne32 (s * t)| ≤ 2 ^ (31 : Int) := by
    rw [abs_div, abs_of_pos p0, div_le_iff₀ p0]
    refine rb.trans ?_
    rw [zpow_zero] at p1
    have : (0 : ℝ) < 2 ^ (31 : Int) := by positivity
    nlinarith
  rw [es, et, em, eR]
  have ed : FloatOps.div (fin (rne32 R) : F32) (fin (rne32 (s * t))) = fin (rne32 (rne32 R / rne32 (s * t))) := by
    change (if rne32 (s * t) = 0 then _ else ofReal (rne32 (R : ℝ) / rne32 (s * t))) = _
    rw [if_neg p0.ne']
    exact ofReal_pow (e := 31) (by norm_num) (by norm_num) d2
  refine ⟨_, ed, ?_⟩
  have r3 : Rel (1 - 2 ^ (-24 : Int)) 1 (rne32 (rne32 (R : ℝ) / rne32 (s * t))) (rne32 (R : ℝ) / rne32 (s * t)) := by
    refine rne32_rel ?_
    by_cases h0 : R = 0
    · left; rw [h0]; simp [rne32_zero]
    · right
      have : (1 : Int) ≤ |R| := Int.one_le_abs h0
      have h1 : (2 : ℝ) ^ (0 : Int) ≤ |(R : ℝ)| := by rw [← Int.cast_abs, zpow_zero]; exact_mod_cast this
      have h2 : (2 : ℝ) ^ (0 : Int) ≤ |rne32 (R : ℝ)| := by rw [rne32_abs]; exact pow_le_rne32 (by norm_num) h1
      rw [abs_div, abs_of_pos p0, le_div_iff₀ p0]
      refine le_trans ?_ h2
      have h3 : (2 : ℝ) ^ (-126 : Int) * rne32 (s * t) ≤ 2 ^ (-126 : Int) * 2 ^ (32 : Int) :=
        mul_le_mul_of_nonneg_left p2 (by positivity)
      refine h3.trans ?_
      rw [← zpow_add₀ (by norm_num)]
      exact two_zpow_le (by norm_num)
  exact r3.trans (rr.div mr hq0) hq0

/-- The last step: `max(0, 1 - q)`. -/
theorem f32_oneMinus {q c : ℝ} (hc : |c| ≤ 1) (h : |q - c| ≤ 8 * 2 ^ (-24 : Int)) :
    ∃ d, (if FloatOps.isNan (FloatOps.sub (FloatOps.ofInt 1) (fin q) : F32) then none
        else some (maxZero (FloatOps.sub (FloatOps.ofInt 1) (fin q) : F32))) = some (fin d) ∧
      0 ≤ d ∧ |d - (1 - c)| ≤ 11 * 2 ^ (-24 : Int) ∧ rne32 d = d := by
  have hu : (2 : ℝ) ^ (-24 : Int) ≤ 1 / 1000 := by norm_num
  have hu0 := two_zpow_pos (-24)
  have hη : (2 : ℝ) ^ (-150 : Int) ≤ 2 ^ (-24 : Int) * 2 ^ (-24 : Int) := by
    rw [← zpow_add₀ (by norm_num)]; exact two_zpow_le (by norm_num)
  have herr0 := rne32_err (1 + -q)
  generalize (2 : ℝ) ^ (-24 : Int) = u at *
  generalize (2 : ℝ) ^ (-150 : Int) = v at *
  obtain ⟨c1, c2⟩ := abs_le.1 hc
  obtain ⟨q1, q2⟩ := abs_le.1 h
  have hz : |1 + -q| ≤ 2 + 8 * u := by rw [abs_le]; constructor <;> linarith
  have e : (FloatOps.sub (FloatOps.ofInt 1) (fin q) : F32) = fin (rne32 (1 + -q)) := by
    rw [ofInt_one]
    refine ofReal_pow (e := 2) (by norm_num) (by norm_num) (hz.trans ?_)
    have : (2 : ℝ) ^ (2 : Int) = 4 := by norm_num
    rw [this]; linarith
  have herr : |rne32 (1 + -q) - (1 + -q)| ≤ 3 * u := by
    refine herr0.trans (max_le ?_ ?_)
    · have := mul_le_mul_of_nonneg_left hz hu0.le
      refine this.trans ?_
      nlinarith
    · refine hη.trans ?_
      nlinarith
  have htot : |rne32 (1 + -q) - (1 - c)| ≤ 11 * u := by
    have h1 := abs_add_le (rne32 (1 + -q) - (1 + -q)) (1 + -q - (1 - c))
    rw [sub_add_sub_cancel] at h1
    have h2 : |1 + -q - (1 - c)| ≤ 8 * u := by
      rw [show 1 + -q - (1 - c) = -(q - c) by ring, abs_neg]; exact h
    linarith
  rw [e]
  have e2 : FloatOps.isNan (fin (rne32 (1 + -q)) : F32) = false := rfl
  simp only [e2, Bool.false_eq_true, if_false, maxZero, ofInt_zero]
  have e3 : FloatOps.gt (fin 0 : F32) (fin (rne32 (1 + -q))) = decide (rne32 (1 + -q) < 0) := rfl
  rw [e3]
  by_cases hneg : rne32 (1 + -q) < 0
  · rw [decide_eq_true hneg]
    refine ⟨0, by simp, le_rfl, ?_, rne32_zero⟩
    obtain ⟨h1, h2⟩ := abs_le.1 htot
    rw [abs_le]
    constructor <;> linarith
  · rw [decide_eq_false hneg]
    exact ⟨_, by simp, not_lt.1 hneg, htot, rne32_idem _⟩

theorem dot_i8_bound {z : List Int} (hz : ∀ a ∈ z, IsI8 a) (hdim : z.length ≤ 131071) : dot z z ≤ 2 ^ 31 := by
  have key : ∀ z : List Int, (∀ a ∈ z, IsI8 a) → dot z z ≤ 2 ^ 14 * z.length := by
    intro z
    induction z with
    | nil => intro _; simp [dot]
    | cons a z ih =>
      intro h
      have h1 := ih fun b hb => h b (by simp [hb])
      obtain ⟨h2, h3⟩ := h a (by simp)
      have h4 : a * a ≤ 2 ^ 14 := by nlinarith
      rw [dot_cons]
      push_cast [List.length_cons]
      linarith
  have := key z hz
  omega

theorem dot_self_nonneg_int (z : List Int) : 0 ≤ dot z z := by
  have := dot_self_nonneg (toReal z)
  rw [dot_toReal] at this
  exact_mod_cast this

theorem dot_self_zero_int {z : List Int} (h : dot z z = 0) : ∀ a ∈ z, a = 0 := by
  induction z with
  | nil => intro a ha; simp at ha
  | cons b z ih =>
    rw [dot_cons] at h
    have h1 := dot_self_nonneg_int z
    have h2 := mul_self_nonneg b
    have hb : b * b = 0 := by omega
    intro a ha
    rcases List.mem_cons.1 ha with rfl | ha
    · exact mul_self_eq_zero.1 hb
    · exact ih (by omega) a ha

theorem dot_zero_int : ∀ {x : List Int} (y : List Int), (∀ a ∈ x, a = 0) → dot x y = 0
  | [], y, _ => by simp [dot]
  | _ :: _, [], _ => by simp [dot]
  | a :: x, b :: y, h => by
    rw [dot_cons, dot_zero_int y fun c hc => h c (by simp [hc]), h a (by simp)]; simp

theorem dot_comm_int : ∀ x y : List Int, dot x y = dot y x
  | [], y => by simp [dot]
  | _ :: _, [] => by simp [dot]
  | a :: x, b :: y => by rw [dot_cons, dot_cons, dot_comm_int x y, mul_comm]

/-- The distance of two `i8` vectors. -/
theorem angularIntDist_f32 (checked : Bool) (x y : List Int) (hx : ∀ a ∈ x, IsI8 a) (hy : ∀ a ∈ y, IsI8 a)
    (hlen : x.length = y.length) (hdim : x.length ≤ 131071) :
    ∃ d, angularIntDist (F := F32) checked x y = some (fin d) ∧ 0 ≤ d ∧
      |d - (1 - cosine (toReal x) (toReal y))| ≤ 11 * 2 ^ (-24 : Int) ∧ rne32 d = d ∧
      ((∀ a ∈ x, a = 0) ∨ (∀ a ∈ y, a = 0) → d = 1) := by
  have hcos := abs_cosine_le (toReal x) (toReal y)
  have hX := dot_i8_bound hx hdim
  have hY := dot_i8_bound hy (hlen ▸ hdim)
  have hX0 := dot_self_nonneg_int x
  have hY0 := dot_self_nonneg_int y
  have hc : cosine (toReal x) (toReal y)
      = ((dot x y : Int) : ℝ) / (Real.sqrt ((dot x x : Int) : ℝ) * Real.sqrt ((dot y y : Int) : ℝ)) := by
    rw [cosine, Granne.Spec.norm, Granne.Spec.norm, dot_toReal, dot_toReal, dot_toReal]
  rw [angularIntDist, sumsI8_exact checked x y hx hy hlen hdim]
  simp only
  by_cases hz : dot x x = 0 ∨ dot y y = 0
  · have hr : dot x y = 0 := by
      rcases hz with h | h
      · exact dot_zero_int y (dot_self_zero_int h)
      · rw [dot_comm_int]; exact dot_zero_int x (dot_self_zero_int h)
    have key : ∀ Z : Int, 0 ≤ Z → Z ≤ 2 ^ 31 → ∃ s, FloatOps.sqrt (FloatOps.ofInt Z : F32) = fin s ∧ (Z = 0 → s = 0) := by
      intro Z h1 h2
      have z1 : (0 : ℝ) ≤ Z := by exact_mod_cast h1
      have z2 : (Z : ℝ) ≤ 2 ^ (31 : Int) := by
        have : (Z : ℝ) ≤ ((2 ^ 31 : Int) : ℝ) := by exact_mod_cast h2
        refine this.trans (le_of_eq ?_)
        norm_num
      have e1 : (FloatOps.ofInt Z : F32) = fin (rne32 Z) :=
        ofReal_pow (e := 31) (by norm_num) (by norm_num) (by rwa [abs_of_nonneg z1])
      refine ⟨rne32 (Real.sqrt (rne32 Z)), ?_, fun h => by rw [h]; simp [rne32_zero]⟩
      rw [e1]
      change (if rne32 (Z : ℝ) < 0 then nan else ofReal (Real.sqrt (rne32 Z))) = _
      rw [if_neg (not_lt.2 (rne32_nonneg z1))]
      refine ofReal_pow (e := 16) (by norm_num) (by norm_num) ?_
      rw [abs_of_nonneg (Real.sqrt_nonneg _)]
      apply Real.sqrt_le_iff.2 ⟨by positivity, ?_⟩
      refine (rne32_le_pow (e := 31) (by norm_num) z2).trans ?_
      norm_num
    obtain ⟨s, es, s0⟩ := key _ hX0 hX
    obtain ⟨t, et, t0⟩ := key _ hY0 hY
    have hst : s * t = 0 := by
      rcases hz with h | h
      · rw [s0 h, zero_mul]
      · rw [t0 h, mul_zero]
    have em : FloatOps.mul (fin s : F32) (fin t) = fin 0 := by
      change ofReal (s * t) = _
      rw [hst, ofReal_fin (by rw [rne32_zero, abs_zero]; exact maxF32_pos.le), rne32_zero]
    have ed : FloatOps.div (fin 0 : F32) (fin 0) = nan := by
      change (if (0 : ℝ) = 0 then (if (0 : ℝ) = 0 then nan else _) else _) = _
      rw [if_pos rfl, if_pos rfl]
    rw [hr, es, et, em, ofInt_zero, ed]
    have en : FloatOps.isNan (nan : F32) = true := rfl
    simp only [en, if_true]
    have hc0 : cosine (toReal x) (toReal y) = 0 := by rw [hc, hr]; simp
    have e1 : (FloatOps.sub (FloatOps.ofInt 1) (fin 0) : F32) = fin 1 := by
      rw [ofInt_one]
      change ofReal (1 + -0) = _
      rw [neg_zero, add_zero, ofReal_fin (by rw [rne32_one, abs_one]; exact le_trans (by norm_num) maxF32_ge), rne32_one]
    rw [e1]
    have e2 : FloatOps.isNan (fin 1 : F32) = false := rfl
    have e3 : maxZero (fin 1 : F32) = fin 1 := by
      rw [maxZero, ofInt_zero]
      have : FloatOps.gt (fin 0 : F32) (fin 1) = false := by
        change decide ((1 : ℝ) < 0) = false
        exact decide_eq_false (by norm_num)
      rw [this]
      rfl
    refine ⟨1, by simp [e2, e3], by norm_num, ?_, rne32_one, fun _ => rfl⟩
    rw [hc0]
    norm_num
  · obtain ⟨hx0, hy0⟩ := not_or.1 hz
    have hR : |dot x y| ≤ 2 ^ 31 := by
      have h1 : (dot x y) * (dot x y) ≤ dot x x * dot y y := by
        have h2 : |cosine (toReal x) (toReal y)| ≤ 1 := hcos
        have hx1 : (0 : ℝ) < ((dot x x : Int) : ℝ) := by exact_mod_cast lt_of_le_of_ne hX0 (Ne.symm hx0)
        have hy1 : (0 : ℝ) < ((dot y y : Int) : ℝ) := by exact_mod_cast lt_of_le_of_ne hY0 (Ne.symm hy0)
        rw [hc, abs_div, div_le_one (by positivity), abs_of_nonneg (a := Real.sqrt _ * _) (by positivity)] at h2
        have h3 : ((dot x y : Int) : ℝ) * ((dot x y : Int) : ℝ) ≤ ((dot x x : Int) : ℝ) * ((dot y y : Int) : ℝ) := by
          rw [← abs_mul_abs_self]
          refine (mul_self_le_mul_self (abs_nonneg _) h2).trans (le_of_eq ?_)
          rw [mul_mul_mul_comm, Real.mul_self_sqrt hx1.le, Real.mul_self_sqrt hy1.le]
        exact_mod_cast h3
      have h2 : dot x x * dot y y ≤ 2 ^ 31 * 2 ^ 31 := mul_le_mul hX hY hY0 (by norm_num)
      exact abs_le_of_sq_le_sq (by nlinarith) (by norm_num)
    obtain ⟨q, eq, hrel⟩ := f32_quotient (R := dot x y) (X := dot x x) (Y := dot y y) (by omega) hX (by omega) hY hR
    rw [eq]
    have en : FloatOps.isNan (fin q : F32) = false := rfl
    simp only [en, Bool.false_eq_true, if_false]
    have hq0 : (0 : ℝ) < 1 - 2 ^ (-24 : Int) := by norm_num
    have herr := hrel.abs_sub_le hq0
    rw [← hc] at herr
    have hb : |q - cosine (toReal x) (toReal y)| ≤ 8 * 2 ^ (-24 : Int) := by
      refine herr.trans ?_
      have h1 : (((1 : ℝ) - 2 ^ (-24 : Int)) ^ 7)⁻¹ - 1 ≤ 8 * 2 ^ (-24 : Int) := by norm_num
      have h2 : 0 ≤ (((1 : ℝ) - 2 ^ (-24 : Int)) ^ 7)⁻¹ - 1 := by norm_num
      calc _ ≤ ((((1 : ℝ) - 2 ^ (-24 : Int)) ^ 7)⁻¹ - 1) * 1 := mul_le_mul_of_nonneg_left hcos h2
        _ ≤ _ := by rw [mul_one]; exact h1
    obtain ⟨d, h1, h2, h3, h4⟩ := f32_oneMinus hcos hb
    refine ⟨d, h1, h2, h3, h4, fun h => ?_⟩
    rcases h with h | h
    · exact absurd (dot_zero_int x h) hx0
    · exact absurd (dot_zero_int y h) hy0

end Granne
