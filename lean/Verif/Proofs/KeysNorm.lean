import Verif.Proofs.Keys

/-! The error of the norms by which keys are computed. -/
namespace Granne
open Spec F32

/-- `k` squares have been added up; their exact sum is `S`. -/
def SumsTo (k : Nat) (S : ℝ) (v : F32) : Prop :=
  ∃ r, v = fin r ∧ rne32 r = r ∧
    |r - S| ≤ ((1 + 2 ^ (-24 : Int)) ^ (k + 1) - 1) * S + k * 2 ^ (-150 : Int) * (1 + 2 ^ (-24 : Int)) ^ k

theorem growth_1024 {k : Nat} (hk : k ≤ 1025) : ((1 : ℝ) + 2 ^ (-24 : Int)) ^ k ≤ 1 + 1026 * 2 ^ (-24 : Int) := by
  have h1 : ((1 : ℝ) + 2 ^ (-24 : Int)) ^ k ≤ (1 + 2 ^ (-24 : Int)) ^ 1025 := by
    refine pow_le_pow_right₀ ?_ hk
    have := two_zpow_pos (-24)
    linarith
  refine h1.trans ?_
  have e1 : ((1 : ℝ) + 2 ^ (-24 : Int)) ^ 1025 = ((1 + 2 ^ (-24 : Int)) ^ 25) ^ 41 := by rw [← pow_mul]
  have e2 : ((1 : ℝ) + 2 ^ (-24 : Int)) ^ 25 ≤ 1 + 25001 / 1000 * 2 ^ (-24 : Int) := by norm_num
  have e3 : ((1 : ℝ) + 25001 / 1000 * 2 ^ (-24 : Int)) ^ 41 ≤ 1 + 1026 * 2 ^ (-24 : Int) := by norm_num
  rw [e1]
  refine (pow_le_pow_left₀ ?_ e2 41).trans e3
  positivity

theorem sumsTo_step {k : Nat} (hk : k ≤ 1023) {S a : ℝ} (hS : 0 ≤ S) (hmax : S + a * a ≤ 2 ^ (126 : Int)) {v : F32}
    (h : SumsTo k S v) : SumsTo (k + 1) (S + a * a) (add v (mul (fin a) (fin a))) := by
  obtain ⟨r, rfl, hr, herr⟩ := h
  have ha := mul_self_nonneg a
  have hmx := maxF32_ge
  have hlit : (2 : ℝ) ^ (126 : Int) = 85070591730234615865843651857942052864 := by norm_num
  have hlit2 : (2 : ℝ) ^ (127 : Nat) = 170141183460469231731687303715884105728 := by norm_num
  rw [hlit] at hmax
  rw [hlit2] at hmx
  have hq : |rne32 (a * a) - a * a| ≤ 2 ^ (-24 : Int) * (a * a) + 2 ^ (-150 : Int) := by
    refine (rne32_err _).trans (max_le ?_ ?_)
    · rw [abs_of_nonneg ha]
      have := two_zpow_pos (-150)
      linarith
    · have := mul_nonneg (two_zpow_pos (-24)).le ha
      linarith
  set q := rne32 (a * a) with hqd
  have hq0 : 0 ≤ q := rne32_nonneg ha
  have hqi : rne32 q = q := rne32_idem _
  have hadd := rne32_add_err hr hqi
  have hP1 := growth_1024 (k := k + 1) (by omega)
  have hPk := growth_1024 (k := k) (by omega)
  have hPge : (1 : ℝ) + 2 ^ (-24 : Int) ≤ (1 + 2 ^ (-24 : Int)) ^ (k + 1) := by
    have h1 : (1 : ℝ) ≤ (1 + 2 ^ (-24 : Int)) ^ k := one_le_pow₀ (by have := two_zpow_pos (-24); linarith)
    rw [pow_succ]
    have := two_zpow_pos (-24)
    nlinarith
  have hP1k : (1 : ℝ) ≤ (1 + 2 ^ (-24 : Int)) ^ k := one_le_pow₀ (by have := two_zpow_pos (-24); linarith)
  have hs1 : ((1 : ℝ) + 2 ^ (-24 : Int)) ^ (k + 1) = (1 + 2 ^ (-24 : Int)) ^ k * (1 + 2 ^ (-24 : Int)) := pow_succ _ _
  have hs2 : ((1 : ℝ) + 2 ^ (-24 : Int)) ^ (k + 1 + 1) = (1 + 2 ^ (-24 : Int)) ^ (k + 1) * (1 + 2 ^ (-24 : Int)) := pow_succ _ _
  have hu : (0 : ℝ) < 2 ^ (-24 : Int) := two_zpow_pos _
  have hu1 : (2 : ℝ) ^ (-24 : Int) ≤ 1 / 10000000 := by norm_num
  have hη : (0 : ℝ) < 2 ^ (-150 : Int) := two_zpow_pos _
  have hη1 : (2 : ℝ) ^ (-150 : Int) ≤ 1 := by norm_num
  have hk' : (k : ℝ) ≤ 1023 := by exact_mod_cast hk
  have hk0 : (0 : ℝ) ≤ k := Nat.cast_nonneg k
  rw [hs1] at hP1 hPge herr
  have goal2 : ((1 : ℝ) + 2 ^ (-24 : Int)) ^ (k + 1 + 1) =
      (1 + 2 ^ (-24 : Int)) ^ k * (1 + 2 ^ (-24 : Int)) * (1 + 2 ^ (-24 : Int)) := by rw [hs2, hs1]
  unfold SumsTo
  rw [goal2, hs1]
  push_cast
  generalize (2 : ℝ) ^ (-24 : Int) = u at *
  generalize (2 : ℝ) ^ (-150 : Int) = η at *
  generalize ((1 : ℝ) + u) ^ k = P at *
  have hbase : |r + q - (S + a * a)| ≤ (P * (1 + u) - 1) * (S + a * a) + (k + 1) * η * P := by
    have h1 : |r + q - (S + a * a)| ≤ |r - S| + |q - a * a| := by
      rw [show r + q - (S + a * a) = (r - S) + (q - a * a) by ring]
      exact abs_add_le _ _
    have h2 : u * (a * a) ≤ (P * (1 + u) - 1) * (a * a) := mul_le_mul_of_nonneg_right (by linarith) ha
    have h3 : η ≤ η * P := le_mul_of_one_le_right hη.le hP1k
    nlinarith
  have hsum0 : 0 ≤ S + a * a := by linarith
  have hB : |r + q| ≤ 5 / 4 * (S + a * a) + 2000 := by
    have h1 : |r + q| ≤ |r + q - (S + a * a)| + (S + a * a) := by
      have := abs_add_le (r + q - (S + a * a)) (S + a * a)
      rw [abs_of_nonneg hsum0] at this
      simpa using this
    have h2 : (P * (1 + u) - 1) * (S + a * a) ≤ 1 / 4 * (S + a * a) := mul_le_mul_of_nonneg_right (by linarith) hsum0
    have h3 : (k + 1) * η * P ≤ 1024 * 1 * 1.5 := by
      refine mul_le_mul (mul_le_mul (by linarith) hη1 hη.le (by norm_num)) (by linarith) (by linarith) (by norm_num)
    linarith
  have hfull : |rne32 (r + q) - (S + a * a)| ≤
      (P * (1 + u) * (1 + u) - 1) * (S + a * a) + (k + 1) * η * (P * (1 + u)) := by
    have h1 : |rne32 (r + q) - (S + a * a)| ≤ |rne32 (r + q) - (r + q)| + |r + q - (S + a * a)| := by
      rw [show rne32 (r + q) - (S + a * a) = (rne32 (r + q) - (r + q)) + (r + q - (S + a * a)) by ring]
      exact abs_add_le _ _
    have h2 : |r + q| ≤ |r + q - (S + a * a)| + (S + a * a) := by
      have := abs_add_le (r + q - (S + a * a)) (S + a * a)
      rw [abs_of_nonneg hsum0] at this
      simpa using this
    have h3 : u * |r + q| ≤ u * (|r + q - (S + a * a)| + (S + a * a)) := mul_le_mul_of_nonneg_left h2 hu.le
    have h4 : (1 + u) * |r + q - (S + a * a)| ≤
        (1 + u) * ((P * (1 + u) - 1) * (S + a * a) + (k + 1) * η * P) := mul_le_mul_of_nonneg_left hbase (by linarith)
    nlinarith
  have hfin : |rne32 (r + q)| ≤ maxF32 := by
    have h1 : |rne32 (r + q)| ≤ (1 + u) * |r + q| := by
      have := abs_add_le (rne32 (r + q) - (r + q)) (r + q)
      rw [sub_add_cancel] at this
      linarith
    have h2 : (1 + u) * |r + q| ≤ 5 / 4 * |r + q| := mul_le_mul_of_nonneg_right (by linarith) (abs_nonneg _)
    linarith
  have hqfin : |q| ≤ maxF32 := by
    rw [abs_of_nonneg hq0]
    rw [abs_le] at hq
    have h1 : u * (a * a) ≤ 1 / 4 * (a * a) := mul_le_mul_of_nonneg_right (by linarith) ha
    linarith [hq.2]
  refine ⟨rne32 (r + q), ?_, rne32_idem _, hfull⟩
  have e1 : mul (fin a) (fin a) = fin q := ofReal_fin hqfin
  rw [e1]
  exact ofReal_fin hfin

theorem sumsTo_all : ∀ (x : List ℝ) (k : Nat) (S : ℝ) (v : F32), k + x.length ≤ 1024 → 0 ≤ S →
    S + dot x x ≤ 2 ^ (126 : Int) → SumsTo k S v →
    SumsTo (k + x.length) (S + dot x x) ((x.map fin).foldl (fun s a => add s (mul a a)) v)
  | [], k, S, v, _, _, _, h => by simpa [dot] using h
  | a :: t, k, S, v, hk, hS, hm, h => by
    have hd : dot (a :: t) (a :: t) = a * a + dot t t := by simp [dot]
    have ht : 0 ≤ dot t t := dot_self_nonneg t
    have ha := mul_self_nonneg a
    rw [hd] at hm ⊢
    rw [List.length_cons] at hk ⊢
    have h1 := sumsTo_step (k := k) (by omega) hS (by linarith) (a := a) h
    have := sumsTo_all t (k + 1) (S + a * a) _ (by omega) (by linarith) (by linarith) h1
    rw [List.map_cons, List.foldl_cons, show k + (t.length + 1) = k + 1 + t.length by omega,
      show S + (a * a + dot t t) = S + a * a + dot t t by ring]
    exact this

/-- The norm of an embedding, up to a relative error of `2^-13`. -/
theorem embNorm_err (x : List ℝ) (hn : x.length ≤ 1024) (h1 : 2 ^ (-50 : Int) ≤ norm x) (h2 : norm x ≤ 2 ^ (63 : Int)) :
    ∃ r, embNorm (x.map fin) = fin r ∧ |r - norm x| ≤ 2 ^ (-13 : Int) * norm x := by
  have hN0 : 0 ≤ norm x := Real.sqrt_nonneg _
  have hS : dot x x = norm x * norm x := (Real.mul_self_sqrt (dot_self_nonneg x)).symm
  have hS1 : norm x * norm x ≤ 2 ^ (126 : Int) := by
    refine (mul_le_mul h2 h2 hN0 (two_zpow_pos _).le).trans (le_of_eq ?_)
    rw [← zpow_add₀ (by norm_num)]; norm_num
  have hS2 : 2 ^ (-100 : Int) ≤ norm x * norm x := by
    refine le_trans (le_of_eq ?_) (mul_le_mul h1 h1 (two_zpow_pos _).le hN0)
    rw [← zpow_add₀ (by norm_num)]; norm_num
  have h0 : SumsTo 0 0 (fin 0) := ⟨0, rfl, rne32_zero, by simp⟩
  obtain ⟨r, e, hr, herr⟩ := sumsTo_all x 0 0 (fin 0) (by omega) le_rfl (by rw [hS, zero_add]; exact hS1) h0
  rw [zero_add, zero_add, hS] at herr
  have hP := growth_1024 (k := x.length + 1) (by omega)
  have hP' := growth_1024 (k := x.length) (by omega)
  have hn' : (x.length : ℝ) ≤ 1024 := by exact_mod_cast hn
  have hn0 : (0 : ℝ) ≤ x.length := Nat.cast_nonneg _
  have hηu : (1024 : ℝ) * 2 ^ (-150 : Int) * 2 ≤ 2 ^ (-24 : Int) * 2 ^ (-100 : Int) := by norm_num
  have hη : (0 : ℝ) < 2 ^ (-150 : Int) := two_zpow_pos _
  have hu : (0 : ℝ) < 2 ^ (-24 : Int) := two_zpow_pos _
  have hu1 : (2 : ℝ) ^ (-24 : Int) ≤ 1 / 10000000 := by norm_num
  have hN1 : (0 : ℝ) < norm x := lt_of_lt_of_le (two_zpow_pos _) h1
  have h13 : (2 : ℝ) ^ (-13 : Int) = 2048 * 2 ^ (-24 : Int) := by norm_num
  have h13' : (2 : ℝ) ^ (-13 : Int) ≤ 1 := by norm_num
  have h1027 : (1027 : ℝ) * 2 ^ (-24 : Int) ≤ 1 := by norm_num
  have hrr : |r - norm x * norm x| ≤ 1027 * 2 ^ (-24 : Int) * (norm x * norm x) := by
    refine herr.trans ?_
    have hPpos : (0 : ℝ) ≤ (1 + 2 ^ (-24 : Int)) ^ x.length := by positivity
    generalize ((1 : ℝ) + 2 ^ (-24 : Int)) ^ x.length = P at *
    generalize ((1 : ℝ) + 2 ^ (-24 : Int)) ^ (x.length + 1) = Q at *
    generalize (2 : ℝ) ^ (-150 : Int) = η at *
    generalize (2 : ℝ) ^ (-100 : Int) = m at *
    generalize (2 : ℝ) ^ (-24 : Int) = u at *
    have a1 : (Q - 1) * (norm x * norm x) ≤ 1026 * u * (norm x * norm x) :=
      mul_le_mul_of_nonneg_right (by linarith) (mul_nonneg hN0 hN0)
    have a2 : (x.length : ℝ) * η * P ≤ 1024 * η * 2 :=
      mul_le_mul (mul_le_mul_of_nonneg_right hn' hη.le) (by linarith) hPpos (by positivity)
    have a3 : u * m ≤ u * (norm x * norm x) := mul_le_mul_of_nonneg_left hS2 hu.le
    linarith
  have hr0 : 0 ≤ r := by
    rw [abs_le] at hrr
    have : 1027 * 2 ^ (-24 : Int) * (norm x * norm x) ≤ 1 * (norm x * norm x) :=
      mul_le_mul_of_nonneg_right h1027 (mul_nonneg hN0 hN0)
    linarith [hrr.1]
  have hsq : |Real.sqrt r - norm x| ≤ 1027 * 2 ^ (-24 : Int) * norm x := by
    have hs0 := Real.sqrt_nonneg r
    have e1 : r - norm x * norm x = (Real.sqrt r - norm x) * (Real.sqrt r + norm x) := by
      have := Real.mul_self_sqrt hr0
      linear_combination -this
    rw [e1, abs_mul, abs_of_nonneg (by linarith : 0 ≤ Real.sqrt r + norm x)] at hrr
    have h3 : |Real.sqrt r - norm x| * norm x ≤ |Real.sqrt r - norm x| * (Real.sqrt r + norm x) :=
      mul_le_mul_of_nonneg_left (by linarith) (abs_nonneg _)
    have h4 : |Real.sqrt r - norm x| * norm x ≤ 1027 * 2 ^ (-24 : Int) * norm x * norm x := by
      rw [mul_assoc (1027 * 2 ^ (-24 : Int)) (norm x) (norm x)]; exact h3.trans hrr
    exact le_of_mul_le_mul_right h4 hN1
  have hround : |rne32 (Real.sqrt r) - Real.sqrt r| ≤ 2 ^ (-24 : Int) * Real.sqrt r + 2 ^ (-150 : Int) := by
    refine (rne32_err _).trans (max_le ?_ ?_)
    · rw [abs_of_nonneg (Real.sqrt_nonneg r)]; linarith
    · have := mul_nonneg hu.le (Real.sqrt_nonneg r); linarith
  have hηN : (2 : ℝ) ^ (-150 : Int) ≤ 2 ^ (-24 : Int) * norm x := by
    refine le_trans ?_ (mul_le_mul_of_nonneg_left h1 hu.le)
    rw [← zpow_add₀ (by norm_num)]
    exact two_zpow_le (by norm_num)
  have hfinal : |rne32 (Real.sqrt r) - norm x| ≤ 2 ^ (-13 : Int) * norm x := by
    rw [h13]
    have h5 : |rne32 (Real.sqrt r) - norm x| ≤ |rne32 (Real.sqrt r) - Real.sqrt r| + |Real.sqrt r - norm x| := by
      rw [show rne32 (Real.sqrt r) - norm x = (rne32 (Real.sqrt r) - Real.sqrt r) + (Real.sqrt r - norm x) by ring]
      exact abs_add_le _ _
    have h6 : Real.sqrt r ≤ 2 * norm x := by
      rw [abs_le] at hsq
      have : 1027 * 2 ^ (-24 : Int) * norm x ≤ 1 * norm x := mul_le_mul_of_nonneg_right h1027 hN0
      linarith [hsq.2]
    have h7 : 2 ^ (-24 : Int) * Real.sqrt r ≤ 2 ^ (-24 : Int) * (2 * norm x) := mul_le_mul_of_nonneg_left h6 hu.le
    have h8 : 0 ≤ 2 ^ (-24 : Int) * norm x := mul_nonneg hu.le hN0
    generalize (2 : ℝ) ^ (-24 : Int) = u at *
    linarith
  have hfin : |rne32 (Real.sqrt r)| ≤ maxF32 := by
    have h5 := abs_add_le (rne32 (Real.sqrt r) - norm x) (norm x)
    rw [sub_add_cancel, abs_of_nonneg hN0] at h5
    have h6 : 2 ^ (-13 : Int) * norm x ≤ 1 * norm x :=
      mul_le_mul_of_nonneg_right h13' hN0
    have h7 : (2 : ℝ) * 2 ^ (63 : Int) ≤ 2 ^ 127 := by norm_num
    have := maxF32_ge
    linarith
  refine ⟨rne32 (Real.sqrt r), ?_, hfinal⟩
  have : embNorm (x.map fin) = F32.sqrt (fin r) := by rw [← e]; rfl
  rw [this, F32.sqrt, if_neg (not_lt.2 hr0)]
  exact ofReal_fin hfin

end Granne
