import Verif.Model.Bits
import Verif.Proofs.F32Int

/-! Every `f32` value that the arithmetic produces has a bit pattern. -/
namespace Granne
open F32

/-- A value that exists in binary32. -/
def F32.Rep : F32 → Prop
  | .fin x => rne32 x = x ∧ |x| ≤ maxF32
  | _ => True

theorem ofReal_rep (z : ℝ) : (ofReal z).Rep := by
  unfold ofReal
  split
  · next h => exact ⟨rne32_idem z, h⟩
  · exact trivial

theorem ofBits_nat (n : Nat) (h : n < 2 ^ 32) : (UInt32.ofNat n).toNat = n := by
  rw [UInt32.toNat_ofNat_of_lt' (by rw [UInt32.size]; omega)]

/-- The bit pattern of a sign, an exponent below 255 and a fraction. -/
theorem ofBits_fields (s : Bool) (e f : Nat) (he : e < 255) (hf : f < 2 ^ 23) :
    F32.ofBits (UInt32.ofNat ((if s then 2 ^ 31 else 0) + e * 2 ^ 23 + f)) =
      fin (let m : ℝ := if e = 0 then (f : ℝ) * 2 ^ (-149 : Int) else ((2 ^ 23 + f : Nat) : ℝ) * 2 ^ ((e : Int) - 150)
        if s then -m else m) := by
  unfold F32.ofBits
  rw [ofBits_nat _ (by split <;> omega)]
  have h1 : decide (2 ^ 31 ≤ (if s then 2 ^ 31 else 0) + e * 2 ^ 23 + f) = s := by
    cases s
    · simp only [Bool.false_eq_true, if_false, decide_eq_false_iff_not]; omega
    · simp only [if_true, decide_eq_true_eq]; omega
  have h2 : ((if s then 2 ^ 31 else 0) + e * 2 ^ 23 + f) / 2 ^ 23 % 2 ^ 8 = e := by split <;> omega
  have h3 : ((if s then 2 ^ 31 else 0) + e * 2 ^ 23 + f) % 2 ^ 23 = f := by split <;> omega
  simp only [h1, h2, h3]
  rw [if_neg (by omega)]

/-- A non-negative representable number has an exponent and a fraction. -/
theorem fields_of_nonneg {x : ℝ} (h0 : 0 ≤ x) (h1 : rne32 x = x) (h2 : x ≤ maxF32) :
    ∃ e f : Nat, e < 255 ∧ f < 2 ^ 23 ∧
      x = if e = 0 then (f : ℝ) * 2 ^ (-149 : Int) else ((2 ^ 23 + f : Nat) : ℝ) * 2 ^ ((e : Int) - 150) := by
  rcases h0.eq_or_lt with rfl | hpos
  · exact ⟨0, 0, by norm_num, by norm_num, by simp⟩
  set k := Int.log 2 x with hk
  have hlow : (2 : ℝ) ^ k ≤ x := by
    have := Int.zpow_log_le_self (R := ℝ) (b := 2) (by norm_num) hpos
    simpa using this
  have hup : x < (2 : ℝ) ^ (k + 1) := by
    have := Int.lt_zpow_succ_log_self (R := ℝ) (b := 2) (by norm_num) x
    simpa using this
  have hu : ulpExp x = max (k - 23) (-149) := by rw [ulpExp, abs_of_pos hpos]
  have hx : x = (roundEven (x / 2 ^ ulpExp x) : ℝ) * 2 ^ ulpExp x := by
    conv_lhs => rw [← h1]
    rfl
  set M := roundEven (x / 2 ^ ulpExp x) with hM
  by_cases hn : -126 ≤ k
  · have hu' : ulpExp x = k - 23 := by rw [hu]; exact max_eq_left (by omega)
    rw [hu'] at hx
    have hp := two_zpow_pos (k - 23)
    have hM1 : (2 : ℝ) ^ 23 ≤ M := by
      have : (2 : ℝ) ^ (23 : Nat) * 2 ^ (k - 23) ≤ M * 2 ^ (k - 23) := by
        rw [← hx, ← zpow_natCast, ← zpow_add₀ (by norm_num)]
        simpa using hlow
      exact le_of_mul_le_mul_right this hp
    have hM2 : (M : ℝ) < 2 ^ 24 := by
      have : M * 2 ^ (k - 23) < (2 : ℝ) ^ (24 : Nat) * 2 ^ (k - 23) := by
        rw [← hx, ← zpow_natCast, ← zpow_add₀ (by norm_num)]
        have e : ((24 : Nat) : Int) + (k - 23) = k + 1 := by push_cast; ring
        rw [e]; exact hup
      exact lt_of_mul_lt_mul_right this hp.le
    have hM1' : (2 : Int) ^ 23 ≤ M := by exact_mod_cast hM1
    have hM2' : M < (2 : Int) ^ 24 := by exact_mod_cast hM2
    have hk2 : k ≤ 127 := by
      by_contra hc
      have : (2 : ℝ) ^ (128 : Int) ≤ 2 ^ k := two_zpow_le (by omega)
      have h128 : maxF32 < (2 : ℝ) ^ (128 : Int) := by unfold maxF32; norm_num
      linarith
    refine ⟨(k + 127).toNat, (M - 2 ^ 23).toNat, by omega, by omega, ?_⟩
    rw [if_neg (by omega), hx]
    have e1 : (((2 ^ 23 + (M - 2 ^ 23).toNat : Nat)) : ℝ) = M := by
      have : ((2 ^ 23 + (M - 2 ^ 23).toNat : Nat) : Int) = M := by push_cast; omega
      exact_mod_cast this
    have e2 : (((k + 127).toNat : Nat) : Int) - 150 = k - 23 := by omega
    rw [e1, e2]
  · push Not at hn
    have hu' : ulpExp x = -149 := by rw [hu]; exact max_eq_right (by omega)
    rw [hu'] at hx
    have hp := two_zpow_pos (-149)
    have hM1 : (0 : ℝ) ≤ M := by
      have : 0 * (2 : ℝ) ^ (-149 : Int) ≤ M * 2 ^ (-149 : Int) := by rw [← hx]; linarith
      exact le_of_mul_le_mul_right this hp
    have hM2 : (M : ℝ) < 2 ^ 23 := by
      have : M * 2 ^ (-149 : Int) < (2 : ℝ) ^ (23 : Nat) * 2 ^ (-149 : Int) := by
        rw [← hx, ← zpow_natCast, ← zpow_add₀ (by norm_num)]
        refine lt_of_lt_of_le hup (two_zpow_le (by push_cast; omega))
      exact lt_of_mul_lt_mul_right this hp.le
    have hM1' : (0 : Int) ≤ M := by exact_mod_cast hM1
    have hM2' : M < (2 : Int) ^ 23 := by exact_mod_cast hM2
    refine ⟨0, M.toNat, by omega, by omega, ?_⟩
    rw [if_pos rfl, hx]
    congr 1
    have : ((M.toNat : Nat) : Int) = M := by omega
    exact_mod_cast this.symm

/-- Every representable value has a bit pattern. -/
theorem exists_bits {v : F32} (h : v.Rep) : ∃ u, F32.ofBits u = v := by
  cases v with
  | nan => exact ⟨UInt32.ofNat (255 * 2 ^ 23 + 1), by simp [F32.ofBits]⟩
  | inf s =>
    cases s
    · exact ⟨UInt32.ofNat (255 * 2 ^ 23), by simp [F32.ofBits]⟩
    · exact ⟨UInt32.ofNat (2 ^ 31 + 255 * 2 ^ 23), by simp [F32.ofBits]⟩
  | fin x =>
    obtain ⟨h1, h2⟩ := h
    rcases le_total 0 x with h0 | h0
    · obtain ⟨e, f, he, hf, hx⟩ := fields_of_nonneg h0 h1 (by rwa [abs_of_nonneg h0] at h2)
      refine ⟨_, (ofBits_fields false e f he hf).trans ?_⟩
      simp only [Bool.false_eq_true, if_false]
      rw [← hx]
    · obtain ⟨e, f, he, hf, hx⟩ := fields_of_nonneg (x := -x) (by linarith) (by rw [rne32_neg, h1])
        (by rwa [abs_of_nonpos h0] at h2)
      refine ⟨_, (ofBits_fields true e f he hf).trans ?_⟩
      simp only [if_true]
      rw [← hx, neg_neg]

/-- Every bit pattern is a representable value. -/
theorem ofBits_rep (u : UInt32) : (F32.ofBits u).Rep := by
  unfold F32.ofBits
  simp only
  split
  · split <;> exact trivial
  · next hne =>
    set e := u.toNat / 2 ^ 23 % 2 ^ 8 with he
    set f := u.toNat % 2 ^ 23 with hf
    have hf' : f < 2 ^ 23 := Nat.mod_lt _ (by norm_num)
    have he' : e < 255 := by
      have : e < 2 ^ 8 := Nat.mod_lt _ (by norm_num)
      omega
    set m : ℝ := if e = 0 then (f : ℝ) * 2 ^ (-149 : Int) else ((2 ^ 23 + f : Nat) : ℝ) * 2 ^ ((e : Int) - 150) with hm
    have key : rne32 m = m ∧ |m| ≤ maxF32 := by
      have hmax : ∀ (n : Nat) (k : Int), n < 2 ^ 24 → k ≤ 104 → |(n : ℝ) * 2 ^ k| ≤ maxF32 := by
        intro n k hn hk
        rw [abs_of_nonneg (mul_nonneg (Nat.cast_nonneg n) (two_zpow_pos k).le)]
        unfold maxF32
        have h1 : (n : ℝ) ≤ 2 ^ 24 - 1 := by
          have : n + 1 ≤ 2 ^ 24 := hn
          have h2 : ((n + 1 : Nat) : ℝ) ≤ ((2 ^ 24 : Nat) : ℝ) := by exact_mod_cast this
          push_cast at h2
          linarith
        have h2 : (2 : ℝ) ^ k ≤ 2 ^ (104 : Int) := two_zpow_le hk
        have h3 : (2 : ℝ) ^ (104 : Int) = 2 ^ (104 : Nat) := by norm_cast
        rw [h3] at h2
        exact mul_le_mul h1 h2 (two_zpow_pos k).le (by norm_num)
      have hdig : ∀ (n : Nat) (k : Int), n < 2 ^ 24 → -149 ≤ k → rne32 ((n : ℝ) * 2 ^ k) = n * 2 ^ k := by
        intro n k hn hk
        have := rne32_digits (m := (n : Int)) (e := k) (by
          rw [abs_of_nonneg (by exact_mod_cast Nat.zero_le n)]
          have : ((n : Nat) : ℝ) ≤ ((2 ^ 24 : Nat) : ℝ) := by exact_mod_cast hn.le
          push_cast at this ⊢
          linarith) hk
        simpa using this
      by_cases h0 : e = 0
      · rw [hm, if_pos h0]
        exact ⟨hdig f _ (by omega) le_rfl, hmax f _ (by omega) (by norm_num)⟩
      · rw [hm, if_neg h0]
        exact ⟨hdig _ _ (by omega) (by omega), hmax _ _ (by omega) (by omega)⟩
    split
    · exact ⟨by rw [rne32_neg, key.1], by rw [abs_neg]; exact key.2⟩
    · exact key

/-- Normalisation stays within the representable values. -/
theorem normalize_rep {x : List F32} (h : ∀ v ∈ x, v.Rep) : ∀ v ∈ normalize x, v.Rep := by
  unfold normalize
  simp only
  split
  · intro v hv
    obtain ⟨a, _, rfl⟩ := List.mem_map.1 hv
    show (F32.div a _).Rep
    unfold F32.div
    split
    · exact trivial
    · exact trivial
    · exact trivial
    · exact trivial
    · exact ⟨rne32_zero, by rw [abs_zero]; unfold maxF32; norm_num⟩
    · split
      · split <;> exact trivial
      · exact ofReal_rep _
  · exact h

theorem exists_bits_list {x : List F32} (h : ∀ v ∈ x, v.Rep) : ∃ us : List UInt32, us.map F32.ofBits = x := by
  induction x with
  | nil => exact ⟨[], rfl⟩
  | cons a t ih =>
    obtain ⟨u, hu⟩ := exists_bits (h a (by simp))
    obtain ⟨us, hus⟩ := ih fun v hv => h v (by simp [hv])
    exact ⟨u :: us, by rw [List.map_cons, hu, hus]⟩

/-- The conversion of `f32` vectors always has a result. -/
theorem convertF32_total (raw : List UInt32) : ∃ row, ConvertF32 raw row :=
  exists_bits_list (normalize_rep fun v hv => by
    obtain ⟨u, _, rfl⟩ := List.mem_map.1 hv
    exact ofBits_rep u)

theorem i8OfByte_range (u : UInt8) : -128 ≤ i8OfByte u ∧ i8OfByte u ≤ 127 := by
  have := u.toNat_lt
  unfold i8OfByte
  split <;> omega

theorem exists_byte {n : Int} (h1 : -128 ≤ n) (h2 : n ≤ 127) : ∃ u, i8OfByte u = n := by
  by_cases h : 0 ≤ n
  · refine ⟨UInt8.ofNat n.toNat, ?_⟩
    unfold i8OfByte
    rw [UInt8.toNat_ofNat_of_lt' (by rw [UInt8.size]; omega), if_pos (by omega)]
    omega
  · refine ⟨UInt8.ofNat (n + 256).toNat, ?_⟩
    unfold i8OfByte
    rw [UInt8.toNat_ofNat_of_lt' (by rw [UInt8.size]; omega), if_neg (by omega)]
    omega

theorem i8OfByte_inj {u v : UInt8} (h : i8OfByte u = i8OfByte v) : u = v := by
  have h1 := u.toNat_lt
  have h2 := v.toNat_lt
  unfold i8OfByte at h
  apply UInt8.toNat_inj.1
  split at h <;> split at h <;> omega

end Granne
