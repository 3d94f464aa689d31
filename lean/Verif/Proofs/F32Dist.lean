import Verif.Proofs.F32
import Verif.Proofs.DotTree
import Verif.Spec.Math
import Mathlib.Analysis.Complex.ExponentialBounds

/-! The distances in binary32 arithmetic never become NaN. -/
namespace Granne
open Spec

namespace F32

/-- A finite `f32`. -/
def Finite (v : F32) : Prop := ∃ x : ℝ, v = fin x ∧ rne32 x = x ∧ |x| ≤ maxF32

end F32

open F32

theorem maxF32_pos : 0 < maxF32 := by unfold maxF32; norm_num

theorem maxF32_ge : (2 : ℝ) ^ 127 ≤ maxF32 := by unfold maxF32; norm_num

theorem ofReal_nonneg {z : ℝ} (h : 0 ≤ z) : ofReal z = inf false ∨ ofReal z = fin (rne32 z) := by
  unfold ofReal
  split
  · right; rfl
  · left; rw [decide_eq_false (not_lt.2 h)]

theorem ofReal_fin {z : ℝ} (h : |rne32 z| ≤ maxF32) : ofReal z = fin (rne32 z) := if_pos h

theorem rne32_abs_le (z : ℝ) : |rne32 z| ≤ (1 + 2 ^ (-24 : Int)) * |z| + 2 ^ (-150 : Int) := by
  have h := rne32_err z
  have h1 : |rne32 z| ≤ |rne32 z - z| + |z| := by
    have := abs_add_le (rne32 z - z) z
    rwa [sub_add_cancel] at this
  have h2 : max (2 ^ (-24 : Int) * |z|) ((2 : ℝ) ^ (-150 : Int)) ≤ 2 ^ (-24 : Int) * |z| + 2 ^ (-150 : Int) :=
    max_le (by have := two_zpow_pos (-150); linarith)
      (by have := mul_nonneg (two_zpow_pos (-24)).le (abs_nonneg z); linarith)
  linarith

/-! ### Squared norms -/

theorem acc_square {l : List (F32 × F32)} {k : Nat} {v : F32} (h : Acc l k v)
    (hl : ∀ p ∈ l, ∃ a : ℝ, p = (fin a, fin a)) :
    v = inf false ∨ ∃ r, v = fin r ∧ rne32 r = r ∧ 0 ≤ r ∧ ∀ a : ℝ, (fin a, fin a) ∈ l → rne32 (a * a) ≤ r := by
  induction h with
  | zero => exact Or.inr ⟨0, rfl, rne32_zero, le_rfl, fun a ha => by simp at ha⟩
  | @mulAdd l k c a b hc ih =>
    obtain ⟨a', ha⟩ := hl (a, b) (by simp)
    obtain ⟨rfl, rfl⟩ := Prod.mk.inj ha
    rcases ih fun p hp => hl p (by simp [hp]) with rfl | ⟨r, rfl, h1, h2, h3⟩
    · left; rfl
    · have e : MulAddOps.mulAdd (fin a') (fin a') (fin r) = ofReal (a' * a' + r) := rfl
      have hsq := mul_self_nonneg a'
      rcases ofReal_nonneg (z := a' * a' + r) (by linarith) with h4 | h4
      · left; rw [e, h4]
      · right
        refine ⟨_, by rw [e, h4], rne32_idem _, rne32_nonneg (by linarith), ?_⟩
        intro b hb
        rcases List.mem_cons.1 hb with hb | hb
        · have : b = a' := by simpa using hb
          subst this
          exact rne32_mono (by linarith)
        · refine (h3 b hb).trans ?_
          rw [← h1]
          exact rne32_mono (by linarith)
  | @add l l' k v w _ _ ih1 ih2 =>
    rcases ih1 fun p hp => hl p (by simp [hp]) with rfl | ⟨r, rfl, h1, h2, h3⟩
    · left
      rcases ih2 fun p hp => hl p (by simp [hp]) with rfl | ⟨r, rfl, _⟩ <;> rfl
    · rcases ih2 fun p hp => hl p (by simp [hp]) with rfl | ⟨s, rfl, g1, g2, g3⟩
      · left; rfl
      · have e : MulAddOps.add (fin r) (fin s) = ofReal (r + s) := rfl
        rcases ofReal_nonneg (z := r + s) (by linarith) with h4 | h4
        · left; rw [e, h4]
        · right
          refine ⟨_, by rw [e, h4], rne32_idem _, rne32_nonneg (by linarith), ?_⟩
          intro b hb
          rcases List.mem_append.1 hb with hb | hb
          · refine (h3 b hb).trans ?_
            rw [← h1]
            exact rne32_mono (by linarith)
          · refine (g3 b hb).trans ?_
            rw [← g1]
            exact rne32_mono (by linarith)
  | mono _ _ ih => exact ih hl
  | perm _ hp ih =>
    rcases ih fun p h => hl p (hp.subset h) with h | ⟨r, h1, h2, h3, h4⟩
    · exact Or.inl h
    · exact Or.inr ⟨r, h1, h2, h3, fun a ha => h4 a (hp.symm.subset ha)⟩

/-! ### Sums of bounded products -/

theorem acc_bound {l : List (F32 × F32)} {k : Nat} {v : F32} (h : Acc l k v)
    (hl : ∀ p ∈ l, ∃ a b : ℝ, p = (fin a, fin b) ∧ |a| ≤ 3 ∧ |b| ≤ 3)
    (hm : 10 * (l.length : ℝ) * (1 + 2 ^ (-24 : Int)) ^ k ≤ maxF32) :
    ∃ r, v = fin r ∧ rne32 r = r ∧ (l = [] → r = 0) ∧
      (l ≠ [] → |r| + 1 ≤ 10 * (l.length : ℝ) * (1 + 2 ^ (-24 : Int)) ^ k) := by
  have hu : (0 : ℝ) < 2 ^ (-24 : Int) := two_zpow_pos _
  have heta : (2 : ℝ) ^ (-150 : Int) ≤ 2 ^ (-24 : Int) := two_zpow_le (by norm_num)
  have hu1 : (2 : ℝ) ^ (-24 : Int) ≤ 1 := by norm_num
  set u : ℝ := 2 ^ (-24 : Int) with hudef
  set η : ℝ := 2 ^ (-150 : Int) with hη
  have hη0 : 0 < η := two_zpow_pos _
  clear_value u η
  induction h with
  | zero => exact ⟨0, rfl, rne32_zero, fun _ => rfl, fun h => absurd rfl h⟩
  | @mulAdd l k c a b hc ih =>
    obtain ⟨a, b, hab, ha, hb⟩ := hl (a, b) (by simp)
    obtain ⟨rfl, rfl⟩ := Prod.mk.inj hab
    have hP : (1 : ℝ) ≤ (1 + u) ^ k := one_le_pow₀ (by linarith)
    have hP0 : (0 : ℝ) ≤ (1 + u) ^ k := by linarith
    have hL : (0 : ℝ) ≤ (l.length : ℝ) := Nat.cast_nonneg _
    simp only [List.length_cons, Nat.cast_add, Nat.cast_one, pow_succ] at hm ⊢
    have hLP : 0 ≤ (l.length : ℝ) * (1 + u) ^ k := mul_nonneg hL hP0
    have hstep : 10 * (l.length : ℝ) * (1 + u) ^ k ≤ maxF32 := by
      refine le_trans ?_ hm
      nlinarith [mul_nonneg hLP hu.le, mul_nonneg hP0 hu.le]
    obtain ⟨r, rfl, h1, h2, h3⟩ := ih (fun p hp => hl p (by simp [hp])) hstep
    have hab : |a * b| ≤ 9 := by
      rw [abs_mul]
      calc |a| * |b| ≤ 3 * 3 := mul_le_mul ha hb (abs_nonneg b) (by norm_num)
        _ = 9 := by norm_num
    have hsum : |a * b + r| ≤ 9 + |r| := (abs_add_le _ _).trans (by linarith)
    have hr := rne32_abs_le (a * b + r)
    rw [← hudef, ← hη] at hr
    have hr2 : |rne32 (a * b + r)| ≤ (1 + u) * (9 + |r|) + η :=
      hr.trans (by have := mul_le_mul_of_nonneg_left hsum (show (0:ℝ) ≤ 1 + u by linarith); linarith)
    have hb : |rne32 (a * b + r)| + 1 ≤ 10 * ((l.length : ℝ) + 1) * ((1 + u) ^ k * (1 + u)) := by
      by_cases hn : l = []
      · have hr0 : |r| = 0 := by rw [h2 hn, abs_zero]
        rw [hr0] at hr2
        subst hn
        simp only [List.length_nil, Nat.cast_zero, zero_add, mul_one]
        nlinarith
      · have := h3 hn
        nlinarith [mul_nonneg hLP hu.le, mul_nonneg hP0 hu.le]
    refine ⟨rne32 (a * b + r), ?_, rne32_idem _, fun h => by simp at h, fun _ => hb⟩
    exact ofReal_fin (by linarith)
  | @add l l' k v w _ _ ih1 ih2 =>
    have hP : (1 : ℝ) ≤ (1 + u) ^ k := one_le_pow₀ (by linarith)
    have hP0 : (0 : ℝ) ≤ (1 + u) ^ k := by linarith
    have hL : (0 : ℝ) ≤ (l.length : ℝ) := Nat.cast_nonneg _
    have hL' : (0 : ℝ) ≤ (l'.length : ℝ) := Nat.cast_nonneg _
    simp only [List.length_append, Nat.cast_add, pow_succ] at hm ⊢
    have hLP : 0 ≤ (l.length : ℝ) * (1 + u) ^ k := mul_nonneg hL hP0
    have hLP' : 0 ≤ (l'.length : ℝ) * (1 + u) ^ k := mul_nonneg hL' hP0
    have q1 := mul_nonneg hLP hu.le
    have q2 := mul_nonneg hLP' hu.le
    obtain ⟨r, rfl, h1, h2, h3⟩ := ih1 (fun p hp => hl p (by simp [hp])) (le_trans (by nlinarith) hm)
    obtain ⟨s, rfl, g1, g2, g3⟩ := ih2 (fun p hp => hl p (by simp [hp])) (le_trans (by nlinarith) hm)
    have e : MulAddOps.add (fin r) (fin s) = ofReal (r + s) := rfl
    by_cases hn : l = []
    · obtain rfl := h2 hn
      rw [e, zero_add]
      by_cases hn' : l' = []
      · obtain rfl := g2 hn'
        refine ⟨0, ?_, rne32_zero, fun _ => rfl, fun h => absurd (by simp [hn, hn']) h⟩
        rw [ofReal_fin (by rw [rne32_zero, abs_zero]; exact maxF32_pos.le), rne32_zero]
      · have := g3 hn'
        have hb : |s| + 1 ≤ 10 * ((l.length : ℝ) + l'.length) * ((1 + u) ^ k * (1 + u)) := by nlinarith
        refine ⟨s, ?_, g1, fun h => absurd (List.append_eq_nil_iff.1 h).2 hn', fun _ => hb⟩
        rw [ofReal_fin (by rw [g1]; linarith), g1]
    · by_cases hn' : l' = []
      · obtain rfl := g2 hn'
        rw [e, add_zero]
        have := h3 hn
        have hb : |r| + 1 ≤ 10 * ((l.length : ℝ) + l'.length) * ((1 + u) ^ k * (1 + u)) := by nlinarith
        refine ⟨r, ?_, h1, fun h => absurd (List.append_eq_nil_iff.1 h).1 hn, fun _ => hb⟩
        rw [ofReal_fin (by rw [h1]; linarith), h1]
      · have t1 := h3 hn
        have t2 := g3 hn'
        have hsum := abs_add_le r s
        have hr := rne32_abs_le (r + s)
        rw [← hudef, ← hη] at hr
        have hr2 : |rne32 (r + s)| ≤ (1 + u) * (|r| + |s|) + η :=
          hr.trans (by have := mul_le_mul_of_nonneg_left hsum (show (0:ℝ) ≤ 1 + u by linarith); linarith)
        have hb : |rne32 (r + s)| + 1 ≤ 10 * ((l.length : ℝ) + l'.length) * ((1 + u) ^ k * (1 + u)) := by
          nlinarith
        refine ⟨rne32 (r + s), ?_, rne32_idem _, fun h => absurd (List.append_eq_nil_iff.1 h).1 hn, fun _ => hb⟩
        rw [e, ofReal_fin (by linarith)]
  | @mono l k k' v _ hk ih =>
    have hp := pow_le_pow_right₀ (show (1 : ℝ) ≤ 1 + u by linarith) hk
    have hL : (0 : ℝ) ≤ 10 * (l.length : ℝ) := by positivity
    have := mul_le_mul_of_nonneg_left hp hL
    obtain ⟨r, h1, h2, h3, h4⟩ := ih hl (this.trans hm)
    exact ⟨r, h1, h2, h3, fun hn => (h4 hn).trans this⟩
  | @perm l l' k v _ hp ih =>
    rw [← hp.length_eq] at hm ⊢
    obtain ⟨r, h1, h2, h3, h4⟩ := ih (fun p h => hl p (hp.subset h)) hm
    exact ⟨r, h1, h2, fun h => h3 (by subst h; exact hp.eq_nil), fun hn => h4 (by rintro rfl; exact hn hp.nil_eq.symm)⟩

/-- The growth by rounding is harmless up to `2^32` components. -/
theorem growth_bound {n : Nat} (hn : n ≤ 2 ^ 32) :
    10 * (n : ℝ) * (1 + 2 ^ (-24 : Int)) ^ roundings n + 1 ≤ 2 ^ 100 := by
  have hk : roundings n ≤ 2 ^ 28 := by
    rw [roundings]
    norm_num at hn ⊢
    omega
  have h1 : ((1 : ℝ) + 2 ^ (-24 : Int)) ^ roundings n ≤ (1 + 2 ^ (-24 : Int)) ^ (2 ^ 28) :=
    pow_le_pow_right₀ (by have := two_zpow_pos (-24); linarith) hk
  have h2 : ((1 : ℝ) + 2 ^ (-24 : Int)) ^ (2 ^ 28) ≤ 3 ^ 16 := by
    have h3 : (1 : ℝ) + 2 ^ (-24 : Int) ≤ Real.exp (2 ^ (-24 : Int)) := by
      have := Real.add_one_le_exp ((2 : ℝ) ^ (-24 : Int)); linarith
    have h4 : ((1 : ℝ) + 2 ^ (-24 : Int)) ^ (2 ^ 24) ≤ 3 := by
      calc ((1 : ℝ) + 2 ^ (-24 : Int)) ^ (2 ^ 24) ≤ Real.exp (2 ^ (-24 : Int)) ^ (2 ^ 24) :=
            pow_le_pow_left₀ (by positivity) h3 _
        _ = Real.exp 1 := by
            rw [← Real.exp_nat_mul]; congr 1; norm_num
        _ ≤ 3 := by have := Real.exp_one_lt_d9; linarith
    calc ((1 : ℝ) + 2 ^ (-24 : Int)) ^ (2 ^ 28) = (((1 : ℝ) + 2 ^ (-24 : Int)) ^ (2 ^ 24)) ^ 16 := by
          rw [← pow_mul, show 2 ^ 24 * 16 = 2 ^ 28 by norm_num]
      _ ≤ 3 ^ 16 := pow_le_pow_left₀ (by positivity) h4 _
  have hn' : (n : ℝ) ≤ 2 ^ 32 := by exact_mod_cast hn
  have h5 := h1.trans h2
  have h6 : 10 * (n : ℝ) * (1 + 2 ^ (-24 : Int)) ^ roundings n ≤ 10 * 2 ^ 32 * 3 ^ 16 :=
    mul_le_mul (by linarith) h5 (by positivity) (by positivity)
  refine (add_le_add_left h6 1).trans ?_
  norm_num

/-! ### Normalisation -/

theorem rne32_lower {z : ℝ} (h : 2 ^ (-148 : Int) ≤ z) : 3 / 4 * z ≤ rne32 z := by
  have h0 : 0 < z := lt_of_lt_of_le (two_zpow_pos _) h
  have h1 := rne32_err z
  rw [abs_of_pos h0] at h1
  have h2 : max (2 ^ (-24 : Int) * z) ((2 : ℝ) ^ (-150 : Int)) ≤ z / 4 := by
    refine max_le ?_ ?_
    · have : (2 : ℝ) ^ (-24 : Int) ≤ 1 / 4 := by norm_num
      have := mul_le_mul_of_nonneg_right this h0.le
      linarith
    · have : (2 : ℝ) ^ (-150 : Int) = 2 ^ (-148 : Int) / 4 := by
        rw [show (-150 : Int) = -148 + -2 by norm_num, zpow_add₀ (by norm_num)]; norm_num
      rw [this]; exact div_le_div_of_nonneg_right h (by norm_num)
  have h3 := (abs_le.1 (h1.trans h2)).1
  clear h h1 h2
  linarith

theorem sqrt_lower {r : ℝ} (hr : rne32 r = r) (h : 0 < r) : 3 / 4 * Real.sqrt r ≤ rne32 (Real.sqrt r) := by
  apply rne32_lower
  have h1 : (2 : ℝ) ^ (-149 : Int) ≤ r := by
    have := rne32_min_pos (z := r) (by rw [hr]; exact h)
    rwa [hr] at this
  refine Real.le_sqrt_of_sq_le (le_trans ?_ h1)
  rw [← zpow_natCast, ← zpow_mul]
  exact two_zpow_le (by norm_num)

theorem component_bound {a r : ℝ} (h0 : 0 ≤ r) (hr : rne32 r = r) (ha : rne32 (a * a) ≤ r) :
    (0 < rne32 (Real.sqrt r) → |a| ≤ 2 * rne32 (Real.sqrt r)) ∧ (rne32 (Real.sqrt r) ≤ 0 → |a| ≤ 3) := by
  rcases eq_or_lt_of_le h0 with h0 | h0
  · rw [← h0, Real.sqrt_zero, rne32_zero]
    refine ⟨fun h => absurd h (lt_irrefl _), fun _ => ?_⟩
    by_contra hc
    have h3 : (9 : ℝ) ≤ a * a := by
      rw [← abs_mul_abs_self]
      have := not_le.1 hc
      nlinarith
    have h4 := rne32_lower (z := a * a) (le_trans (by norm_num) h3)
    linarith
  · have hs := sqrt_lower hr h0
    have hsp := Real.sqrt_pos.2 h0
    refine ⟨fun _ => ?_, fun h => ?_⟩
    · have hm : (2 : ℝ) ^ (-149 : Int) ≤ r := by
        have := rne32_min_pos (z := r) (by rw [hr]; exact h0)
        rwa [hr] at this
      have hq : 4 / 9 * (a * a) ≤ r := by
        rcases le_or_gt ((2 : ℝ) ^ (-148 : Int)) (a * a) with h1 | h1
        · have := rne32_lower h1
          have := mul_self_nonneg a
          linarith
        · have e : (2 : ℝ) ^ (-148 : Int) = 2 * 2 ^ (-149 : Int) := by
            rw [show (-148 : Int) = 1 + -149 by norm_num, zpow_add₀ (by norm_num)]; norm_num
          rw [e] at h1
          have := two_zpow_pos (-149)
          linarith
      have h5 : 2 / 3 * |a| ≤ Real.sqrt r := by
        refine Real.le_sqrt_of_sq_le ?_
        have : (2 / 3 * |a|) ^ 2 = 4 / 9 * (a * a) := by rw [mul_pow, sq_abs]; ring
        rw [this]; exact hq
      linarith
    · linarith

theorem zip_self_map {α : Type} (x : List α) : x.zip x = x.map fun a => (a, a) := by
  induction x with
  | nil => rfl
  | cons a x ih => simp [ih]

theorem zip_self_mem {α : Type} {x : List α} {p : α × α} (h : p ∈ x.zip x) : ∃ a ∈ x, p = (a, a) := by
  rw [zip_self_map, List.mem_map] at h
  obtain ⟨a, h1, rfl⟩ := h
  exact ⟨a, h1, rfl⟩

theorem ofInt_zero : (FloatOps.ofInt 0 : F32) = fin 0 := by
  change ofReal ((0 : Int) : ℝ) = _
  rw [Int.cast_zero, ofReal_fin (by rw [rne32_zero, abs_zero]; exact maxF32_pos.le), rne32_zero]

theorem ofInt_one : (FloatOps.ofInt 1 : F32) = fin 1 := by
  have h1 : rne32 1 = 1 := by simpa using rne32_int (m := 1) (by norm_num)
  change ofReal ((1 : Int) : ℝ) = _
  rw [Int.cast_one, ofReal_fin (by rw [h1, abs_one]; exact le_trans (by norm_num) maxF32_ge), h1]

theorem normalize_bounded {x : List F32} (hx : ∀ v ∈ x, v.Finite) :
    ∀ c ∈ normalize x, ∃ a : ℝ, c = fin a ∧ |a| ≤ 3 := by
  have hacc := acc_square (dotProduct_acc x x rfl) (by
    intro p hp
    obtain ⟨a, h1, rfl⟩ := zip_self_mem hp
    obtain ⟨z, rfl, _⟩ := hx a h1
    exact ⟨z, rfl⟩)
  intro c hc
  unfold normalize at hc
  rcases hacc with h | ⟨r, h, h1, h2, h3⟩
  · rw [h] at hc
    have e : FloatOps.gt (FloatOps.sqrt (inf false) : F32) (FloatOps.ofInt 0) = true := by
      rw [ofInt_zero]; rfl
    simp only [e, if_true] at hc
    obtain ⟨a, ha, rfl⟩ := List.mem_map.1 hc
    obtain ⟨z, rfl, _⟩ := hx a ha
    exact ⟨0, rfl, by norm_num⟩
  · rw [h] at hc
    have hmem : ∀ z, fin z ∈ x → (fin z, fin z) ∈ x.zip x := by
      intro z hz
      rw [zip_self_map]; exact List.mem_map.2 ⟨_, hz, rfl⟩
    have es : (FloatOps.sqrt (fin r) : F32) = ofReal (Real.sqrt r) := if_neg (not_lt.2 h2)
    rcases ofReal_nonneg (Real.sqrt_nonneg r) with hs | hs
    · simp only [es, hs] at hc
      have e : FloatOps.gt (inf false : F32) (FloatOps.ofInt 0) = true := by rw [ofInt_zero]; rfl
      simp only [e, if_true] at hc
      obtain ⟨a, ha, rfl⟩ := List.mem_map.1 hc
      obtain ⟨z, rfl, _⟩ := hx a ha
      exact ⟨0, rfl, by norm_num⟩
    · simp only [es, hs] at hc
      have e : FloatOps.gt (fin (rne32 (Real.sqrt r)) : F32) (FloatOps.ofInt 0) = decide (0 < rne32 (Real.sqrt r)) := by
        rw [ofInt_zero]; rfl
      rw [e] at hc
      by_cases hpos : 0 < rne32 (Real.sqrt r)
      · rw [decide_eq_true hpos] at hc
        simp only [if_true] at hc
        obtain ⟨a, ha, rfl⟩ := List.mem_map.1 hc
        obtain ⟨z, rfl, _⟩ := hx a ha
        have hb := (component_bound h2 h1 (h3 z (hmem z ha))).1 hpos
        have hq : |z / rne32 (Real.sqrt r)| ≤ 2 := by
          rw [abs_div, abs_of_pos hpos, div_le_iff₀ hpos]; exact hb
        have hr := rne32_abs_le (z / rne32 (Real.sqrt r))
        have hfin : |rne32 (z / rne32 (Real.sqrt r))| ≤ 3 := by
          have : (1 + (2 : ℝ) ^ (-24 : Int)) * |z / rne32 (Real.sqrt r)| ≤ (1 + 2 ^ (-24 : Int)) * 2 :=
            mul_le_mul_of_nonneg_left hq (by positivity)
          have : (1 + (2 : ℝ) ^ (-24 : Int)) * 2 + 2 ^ (-150 : Int) ≤ 3 := by norm_num
          linarith
        refine ⟨rne32 (z / rne32 (Real.sqrt r)), ?_, hfin⟩
        change F32.div (fin z) (fin (rne32 (Real.sqrt r))) = _
        simp only [F32.div, if_neg hpos.ne']
        exact ofReal_fin (hfin.trans (le_trans (by norm_num) maxF32_ge))
      · rw [decide_eq_false hpos] at hc
        simp only [Bool.false_eq_true, if_false] at hc
        obtain ⟨z, rfl, _⟩ := hx c hc
        exact ⟨z, rfl, (component_bound h2 h1 (h3 z (hmem z hc))).2 (not_lt.1 hpos)⟩

theorem normalize_length {F : Type} [FloatOps F] (x : List F) : (normalize x).length = x.length := by
  simp only [normalize]
  split <;> simp

/-- Distances of bounded vectors. -/
theorem angularDist_bounded {x y : List F32} (hlen : x.length = y.length) (hn : x.length ≤ 2 ^ 32)
    (hx : ∀ c ∈ x, ∃ a : ℝ, c = fin a ∧ |a| ≤ 3) (hy : ∀ c ∈ y, ∃ a : ℝ, c = fin a ∧ |a| ≤ 3) :
    ∃ d, angularDist x y = some (fin d) ∧ 0 ≤ d ∧ rne32 d = d ∧ d ≤ maxF32 := by
  have hg := growth_bound hn
  have h100 : (2 : ℝ) ^ 100 ≤ maxF32 := le_trans (by norm_num) maxF32_ge
  have hz : (x.zip y).length = x.length := by rw [List.length_zip, hlen, Nat.min_self]
  obtain ⟨r, h1, h2, h3, h4⟩ := acc_bound (dotProduct_acc x y hlen) (by
    rintro ⟨a, b⟩ hp
    obtain ⟨hma, hmb⟩ := List.of_mem_zip hp
    obtain ⟨a, rfl, ha⟩ := hx _ hma
    obtain ⟨b, rfl, hb⟩ := hy _ hmb
    exact ⟨a, b, rfl, ha, hb⟩) (by rw [hz]; linarith)
  have hr : |r| ≤ 2 ^ 100 := by
    by_cases hn : x.zip y = []
    · rw [h3 hn, abs_zero]; positivity
    · have := h4 hn; rw [hz] at this; linarith
  unfold angularDist
  rw [h1, ofInt_one]
  have e : (FloatOps.sub (fin 1) (fin r) : F32) = ofReal (1 + -r) := rfl
  have hb : |rne32 (1 + -r)| ≤ maxF32 := by
    have h5 := rne32_abs_le (1 + -r)
    have h6 : |1 + -r| ≤ 1 + 2 ^ 100 := (abs_add_le _ _).trans (by rw [abs_one, abs_neg]; linarith)
    have h7 : (1 + (2 : ℝ) ^ (-24 : Int)) * |1 + -r| ≤ 2 * (1 + 2 ^ 100) :=
      mul_le_mul (by norm_num) h6 (abs_nonneg _) (by norm_num)
    have h8 : 2 * (1 + (2 : ℝ) ^ 100) + 2 ^ (-150 : Int) ≤ 2 ^ 127 := by norm_num
    have := maxF32_ge
    linarith
  rw [e, ofReal_fin hb]
  have e2 : FloatOps.isNan (fin (rne32 (1 + -r)) : F32) = false := rfl
  simp only [e2, Bool.false_eq_true, if_false, maxZero, ofInt_zero]
  have e3 : FloatOps.gt (fin 0 : F32) (fin (rne32 (1 + -r))) = decide (rne32 (1 + -r) < 0) := rfl
  rw [e3]
  by_cases hneg : rne32 (1 + -r) < 0
  · rw [decide_eq_true hneg]
    exact ⟨0, by simp, le_rfl, rne32_zero, maxF32_pos.le⟩
  · rw [decide_eq_false hneg]
    exact ⟨_, by simp, not_lt.1 hneg, rne32_idem _, (abs_le.1 hb).2⟩

/-! ### NaN and infinities -/

theorem mulAdd_nan_left (b c : F32) : MulAddOps.mulAdd nan b c = (nan : F32) := by
  change F32.mulAdd nan b c = nan
  cases b <;> cases c <;> rfl

theorem mulAdd_nan_acc (a b : F32) : MulAddOps.mulAdd a b nan = (nan : F32) := by
  change F32.mulAdd a b nan = nan
  have h : ∀ z : F32, F32.add z nan = nan := by intro z; cases z <;> rfl
  cases a <;> cases b <;> first | rfl | exact h _

theorem add_nan_left (b : F32) : MulAddOps.add nan b = (nan : F32) := by cases b <;> rfl
theorem add_nan_right (a : F32) : MulAddOps.add a nan = (nan : F32) := by cases a <;> rfl

/-- A NaN on the left makes the dot product NaN. -/
theorem acc_nan {l : List (F32 × F32)} {k : Nat} {v : F32} (h : Acc l k v) (hl : ∃ b, (nan, b) ∈ l) : v = nan := by
  induction h with
  | zero => obtain ⟨b, hb⟩ := hl; simp at hb
  | mulAdd a b _ ih =>
    obtain ⟨b', hb⟩ := hl
    rcases List.mem_cons.1 hb with hb | hb
    · obtain ⟨rfl, rfl⟩ := Prod.mk.inj hb
      exact mulAdd_nan_left _ _
    · rw [ih ⟨b', hb⟩]; exact mulAdd_nan_acc _ _
  | add _ _ ih1 ih2 =>
    obtain ⟨b, hb⟩ := hl
    rcases List.mem_append.1 hb with hb | hb
    · rw [ih1 ⟨b, hb⟩]; exact add_nan_left _
    · rw [ih2 ⟨b, hb⟩]; exact add_nan_right _
  | mono _ _ ih => exact ih hl
  | perm _ hp ih => obtain ⟨b, hb⟩ := hl; exact ih ⟨b, hp.symm.subset hb⟩

end Granne
