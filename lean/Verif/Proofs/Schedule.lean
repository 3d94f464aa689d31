import Verif.Model.Schedule
import Verif.Spec.Schedule
import Mathlib.Tactic.Positivity
import Mathlib.Tactic.Linarith

namespace Granne
open Spec

variable {m : ℝ} {total : ℕ}

theorem sched_pos (hm : 1 < m) (ht : 1 ≤ total) (i : ℕ) : 1 ≤ numElementsInLayer m total i := by
  unfold numElementsInLayer
  refine le_min ?_ ht
  rw [Nat.one_le_iff_ne_zero, Ne, Nat.ceil_eq_zero, not_le]
  have : (0 : ℝ) < total := by exact_mod_cast ht
  have := Real.rpow_pos_of_pos (lt_trans one_pos hm) ((⌊Real.logb m total⌋ : ℝ) - (i : ℝ))
  positivity

theorem sched_mono (hm : 1 < m) {i j : ℕ} (hij : i ≤ j) :
    numElementsInLayer m total i ≤ numElementsInLayer m total j := by
  unfold numElementsInLayer
  refine min_le_min_right _ (Nat.ceil_mono ?_)
  have hm0 : 0 < m := lt_trans one_pos hm
  apply div_le_div_of_nonneg_left (Nat.cast_nonneg _) (Real.rpow_pos_of_pos hm0 _)
  apply Real.rpow_le_rpow_of_exponent_le hm.le
  have : (i : ℝ) ≤ j := by exact_mod_cast hij
  linarith

theorem sched_all (hm : 1 < m) {i : ℕ} (hi : ⌊Real.logb m total⌋ ≤ i) : numElementsInLayer m total i = total := by
  unfold numElementsInLayer
  apply min_eq_right
  have hm0 : 0 < m := lt_trans one_pos hm
  have h1 : m ^ ((⌊Real.logb m total⌋ : ℝ) - (i : ℝ)) ≤ 1 := by
    apply Real.rpow_le_one_of_one_le_of_nonpos hm.le
    have : ((⌊Real.logb m total⌋ : ℤ) : ℝ) ≤ ((i : ℤ) : ℝ) := by exact_mod_cast hi
    simp at this ⊢
    linarith
  have h2 := Real.rpow_pos_of_pos hm0 ((⌊Real.logb m total⌋ : ℝ) - (i : ℝ))
  have h3 : (total : ℝ) ≤ (total : ℝ) / m ^ ((⌊Real.logb m total⌋ : ℝ) - (i : ℝ)) := by
    rw [le_div_iff₀ h2]
    calc (total : ℝ) * _ ≤ total * 1 := mul_le_mul_of_nonneg_left h1 (Nat.cast_nonneg _)
      _ = total := mul_one _
  exact_mod_cast h3.trans (Nat.le_ceil _)

theorem sched_top (hm : 1 < m) (ht : 1 ≤ total) : numElementsInLayer m total 0 ≤ ⌈m⌉₊ := by
  unfold numElementsInLayer
  refine le_trans (min_le_left _ _) (Nat.ceil_mono ?_)
  have hm0 : 0 < m := lt_trans one_pos hm
  have ht0 : (0 : ℝ) < total := by exact_mod_cast ht
  rw [Nat.cast_zero, sub_zero, div_le_iff₀ (Real.rpow_pos_of_pos hm0 _)]
  have h1 : Real.logb m total < ⌊Real.logb m total⌋ + 1 := Int.lt_floor_add_one _
  have h2 := (Real.logb_lt_iff_lt_rpow hm ht0).1 h1
  rw [Real.rpow_add hm0, Real.rpow_one, mul_comm] at h2
  exact h2.le

theorem sched_upper (hm : 1 < m) (total i : ℕ) : numElementsInLayer m total i ≤ ⌈m ^ (i + 1)⌉₊ := by
  rcases Nat.eq_zero_or_pos total with h0 | ht
  · subst h0; exact (min_le_right _ _).trans (Nat.zero_le _)
  unfold numElementsInLayer
  refine le_trans (min_le_left _ _) (Nat.ceil_mono ?_)
  have hm0 : 0 < m := lt_trans one_pos hm
  have ht0 : (0 : ℝ) < total := by exact_mod_cast ht
  rw [div_le_iff₀ (Real.rpow_pos_of_pos hm0 _), ← Real.rpow_natCast, ← Real.rpow_add hm0]
  have h1 : Real.logb m total < ⌊Real.logb m total⌋ + 1 := Int.lt_floor_add_one _
  have h2 := (Real.logb_lt_iff_lt_rpow hm ht0).1 h1
  refine h2.le.trans (le_of_eq ?_)
  congr 1
  push_cast
  ring

theorem sched_lower (hm : 1 < m) (total i : ℕ) :
    min total ⌈m ^ (i + 1)⌉₊ ≤ numElementsInLayer m total (i + 1) := by
  rcases Nat.eq_zero_or_pos total with h0 | ht
  · subst h0; exact (min_le_left _ _).trans (Nat.zero_le _)
  unfold numElementsInLayer
  rw [min_comm]
  refine min_le_min_right _ (Nat.ceil_mono ?_)
  have hm0 : 0 < m := lt_trans one_pos hm
  have ht0 : (0 : ℝ) < total := by exact_mod_cast ht
  rw [le_div_iff₀ (Real.rpow_pos_of_pos hm0 _), ← Real.rpow_natCast, ← Real.rpow_add hm0]
  have h1 : (⌊Real.logb m total⌋ : ℝ) ≤ Real.logb m total := Int.floor_le _
  have h2 := (Real.le_logb_iff_rpow_le hm ht0).1 h1
  refine le_trans (le_of_eq ?_) h2
  congr 1
  push_cast
  ring

/-- Layer `i + 1` is planned at most `m` times as large as layer `i`. -/
theorem sched_growth (hm : 1 < m) (i : ℕ) :
    numElementsInLayer m total (i + 1) ≤ ⌈m * numElementsInLayer m total i⌉₊ := by
  have hm0 : 0 < m := lt_trans one_pos hm
  by_cases h : numElementsInLayer m total i = total
  · rw [h]
    refine le_trans (min_le_right _ _) ?_
    have : (total : ℝ) ≤ m * total := by nlinarith [(Nat.cast_nonneg total : (0 : ℝ) ≤ total)]
    exact_mod_cast this.trans (Nat.le_ceil _)
  · have hi : numElementsInLayer m total i = ⌈(total : ℝ) / m ^ ((⌊Real.logb m total⌋ : ℝ) - (i : ℝ))⌉₊ := by
      unfold numElementsInLayer at h ⊢
      rcases min_choice ⌈(total : ℝ) / m ^ ((⌊Real.logb m total⌋ : ℝ) - (i : ℝ))⌉₊ total with h' | h'
      · exact h'
      · exact absurd h' h
    rw [hi]
    refine le_trans (min_le_left _ _) (Nat.ceil_mono ?_)
    have e : (⌊Real.logb m total⌋ : ℝ) - ((i + 1 : ℕ) : ℝ) = ((⌊Real.logb m total⌋ : ℝ) - i) - 1 := by push_cast; ring
    rw [e, Real.rpow_sub hm0, Real.rpow_one, div_div_eq_mul_div, mul_div_assoc, mul_comm (total : ℝ), div_mul_eq_mul_div,
      mul_div_assoc]
    exact mul_le_mul_of_nonneg_left (Nat.le_ceil _) hm0.le

/-- With a multiplier of at least 2 layers get strictly larger until everything is in. -/
theorem sched_strict (hm : 2 ≤ m) (i : ℕ) : numElementsInLayer m total i < numElementsInLayer m total (i + 1) ∨
    numElementsInLayer m total i = total := by
  have hm1 : 1 < m := by linarith
  have hm0 : 0 < m := by linarith
  by_cases h : numElementsInLayer m total i = total
  · exact Or.inr h
  refine Or.inl ?_
  rcases Nat.eq_zero_or_pos total with h0 | ht
  · subst h0
    exact absurd (Nat.le_zero.1 (min_le_right _ _)) h
  have hi : numElementsInLayer m total i = ⌈(total : ℝ) / m ^ ((⌊Real.logb m total⌋ : ℝ) - (i : ℝ))⌉₊ := by
    unfold numElementsInLayer at h ⊢
    rcases min_choice ⌈(total : ℝ) / m ^ ((⌊Real.logb m total⌋ : ℝ) - (i : ℝ))⌉₊ total with h' | h'
    · exact h'
    · exact absurd h' h
  have hlt : numElementsInLayer m total i < total := lt_of_le_of_ne (min_le_right _ _) h
  set x : ℝ := (total : ℝ) / m ^ ((⌊Real.logb m total⌋ : ℝ) - (i : ℝ)) with hx
  have ht0 : (0 : ℝ) < total := by exact_mod_cast ht
  -- the top layer is planned for at least one element
  have hx1 : 1 ≤ x := by
    rw [hx, le_div_iff₀ (Real.rpow_pos_of_pos hm0 _), one_mul]
    calc m ^ ((⌊Real.logb m total⌋ : ℝ) - (i : ℝ)) ≤ m ^ Real.logb m total := by
          refine Real.rpow_le_rpow_of_exponent_le hm1.le ?_
          have := Int.floor_le (Real.logb m total)
          have h2 : (0 : ℝ) ≤ i := Nat.cast_nonneg i
          linarith
      _ = total := Real.rpow_logb hm0 (by linarith) ht0
  have e : (total : ℝ) / m ^ ((⌊Real.logb m total⌋ : ℝ) - ((i + 1 : ℕ) : ℝ)) = m * x := by
    have : (⌊Real.logb m total⌋ : ℝ) - ((i + 1 : ℕ) : ℝ) = ((⌊Real.logb m total⌋ : ℝ) - i) - 1 := by push_cast; ring
    rw [this, Real.rpow_sub hm0, Real.rpow_one, hx]
    field_simp
  have hnext : numElementsInLayer m total (i + 1) = min ⌈m * x⌉₊ total := by
    unfold numElementsInLayer
    rw [e]
  rw [hnext, lt_min_iff]
  refine ⟨?_, hlt⟩
  rw [hi, Nat.lt_ceil]
  have := Nat.ceil_lt_add_one (show 0 ≤ x by linarith)
  nlinarith

theorem sched_below_one (h0 : 0 < m) (h1 : m < 1) (ht : 1 ≤ total) (i : ℕ) : numElementsInLayer m total i = 1 := by
  have ht0 : (0 : ℝ) < total := by exact_mod_cast ht
  have hge : (total : ℝ) ≤ m ^ ((⌊Real.logb m total⌋ : ℝ) - (i : ℝ)) := by
    calc (total : ℝ) = m ^ Real.logb m total := (Real.rpow_logb h0 h1.ne ht0).symm
      _ ≤ _ := by
        apply Real.rpow_le_rpow_of_exponent_ge h0 h1.le
        have := Int.floor_le (Real.logb m total)
        have : (0 : ℝ) ≤ i := Nat.cast_nonneg i
        linarith
  have hpos := lt_of_lt_of_le ht0 hge
  unfold numElementsInLayer
  have hc : ⌈(total : ℝ) / m ^ ((⌊Real.logb m total⌋ : ℝ) - (i : ℝ))⌉₊ = 1 := by
    rw [Nat.ceil_eq_iff one_ne_zero]
    constructor
    · simpa using div_pos ht0 hpos
    · rw [Nat.cast_one, div_le_one hpos]; exact hge
  rw [hc]
  omega

theorem sched_good (hm : 1 < m) : GoodSchedule (numElementsInLayer m) where
  le _ _ := min_le_right _ _
  pos _ _ h := sched_pos hm h _
  all total := ⟨⌊Real.logb m total⌋.toNat, fun i hi => sched_all hm (by omega)⟩

/-! ### Rounding -/

/-- What is assumed of the `f64` operations, for multiplier `m`: the computed power is positive or underflows to zero,
it is at most 1 for exponents up to 0, and at most twice the total for exponents up to the computed logarithm; dividing
by at most 1 does not decrease, and dividing by at most twice the dividend gives something positive. -/
structure FloatOk (k : ℕ → ℤ) (pow : ℤ → ℝ) (div : ℝ → ℝ → ℝ) : Prop where
  pow_small : ∀ e, e ≤ 0 → pow e ≤ 1
  pow_log : ∀ total : ℕ, 1 ≤ total → ∀ e, e ≤ k total → pow e ≤ 2 * total
  div_small : ∀ x y, 0 ≤ x → y ≤ 1 → x ≤ div x y
  div_pos : ∀ x y, 0 < x → y ≤ 2 * x → 0 < div x y

theorem sched_float {k : ℕ → ℤ} {pow : ℤ → ℝ} {div : ℝ → ℝ → ℝ} (h : FloatOk k pow div) :
    GoodSchedule (numElementsFloat k pow div) where
  le _ _ := min_le_right _ _
  pos total i ht := by
    unfold numElementsFloat
    refine le_min ?_ ht
    rw [Nat.one_le_iff_ne_zero, Ne, Nat.ceil_eq_zero, not_le]
    apply h.div_pos
    · exact_mod_cast ht
    · exact h.pow_log total ht _ (by omega)
  all total := by
    refine ⟨(k total).toNat, fun i hi => ?_⟩
    unfold numElementsFloat
    apply min_eq_right
    have := h.div_small total (pow (k total - i)) (Nat.cast_nonneg _) (h.pow_small _ (by omega))
    exact_mod_cast this.trans (Nat.le_ceil _)

/-- Exact arithmetic is an instance. -/
theorem sched_float_exact (m : ℝ) (total i : ℕ) :
    numElementsFloat (fun t => ⌊Real.logb m t⌋) (fun e => m ^ (e : ℝ)) (fun x y => x / y) total i =
      numElementsInLayer m total i := by
  unfold numElementsFloat numElementsInLayer
  push_cast
  rfl

end Granne
