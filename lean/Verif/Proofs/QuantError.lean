import Verif.Proofs.Math

/-! How much the cosine changes if a vector is perturbed. -/
namespace Granne
open Spec

/-- The difference of two vectors. -/
def diff (x y : List ℝ) : List ℝ := List.zipWith (· - ·) x y

theorem dot_diff_left : ∀ {x y z : List ℝ}, x.length = y.length → y.length = z.length →
    dot (diff x y) z = dot x z - dot y z
  | [], [], [], _, _ => by simp [diff, dot]
  | a :: x, b :: y, c :: z, h1, h2 => by
    have := dot_diff_left (x := x) (y := y) (z := z) (by simpa using h1) (by simpa using h2)
    have e : diff (a :: x) (b :: y) = (a - b) :: diff x y := rfl
    rw [e, dot_cons, dot_cons, dot_cons, this]
    ring

theorem diff_length {x y : List ℝ} (h : x.length = y.length) : (diff x y).length = y.length := by
  simp [diff, h]

theorem dot_diff_self {x y : List ℝ} (h : x.length = y.length) :
    dot (diff x y) (diff x y) = dot x x - 2 * dot x y + dot y y := by
  rw [dot_diff_left h (diff_length h).symm, dot_comm x, dot_comm y, dot_diff_left h h.symm, dot_diff_left h rfl, dot_comm y x]
  ring

theorem abs_norm_sub_le {x y : List ℝ} (h : x.length = y.length) : |norm y - norm x| ≤ norm (diff x y) := by
  apply abs_le_of_sq_le_sq _ (norm_nonneg' _)
  rw [sq (norm (diff x y)), norm_mul_self, dot_diff_self h]
  have := le_trans (le_abs_self _) (abs_dot_le x y)
  have e : (norm y - norm x) ^ 2 = norm y * norm y - 2 * (norm x * norm y) + norm x * norm x := by ring
  rw [e, norm_mul_self, norm_mul_self]
  linarith

theorem cosine_perturb {q u v : List ℝ} (h1 : q.length = u.length) (h2 : u.length = v.length) (hu : 0 < norm u) :
    |cosine q v - cosine u v| ≤ 2 * norm (diff q u) / norm u := by
  have hn := abs_norm_sub_le h1
  by_cases hq : norm q = 0
  · rw [cosine_zero_left (norm_eq_zero'.1 hq), zero_sub, abs_neg, le_div_iff₀ hu]
    rw [hq, sub_zero, abs_of_pos hu] at hn
    have := abs_cosine_le u v
    nlinarith
  have hq' : 0 < norm q := lt_of_le_of_ne (norm_nonneg' q) (Ne.symm hq)
  by_cases hv : norm v = 0
  · rw [cosine_comm, cosine_zero_left (norm_eq_zero'.1 hv), cosine_comm, cosine_zero_left (norm_eq_zero'.1 hv), sub_zero, abs_zero]
    exact div_nonneg (mul_nonneg (by norm_num) (norm_nonneg' _)) hu.le
  have hv' : 0 < norm v := lt_of_le_of_ne (norm_nonneg' v) (Ne.symm hv)
  have e : cosine q v - cosine u v = dot (diff q u) v / (norm u * norm v) + cosine q v * ((norm u - norm q) / norm u) := by
    rw [cosine, cosine, dot_diff_left h1 h2]
    field_simp
    ring
  rw [e]
  refine le_trans (abs_add_le _ _) ?_
  have b1 : |dot (diff q u) v / (norm u * norm v)| ≤ norm (diff q u) / norm u := by
    rw [abs_div, abs_of_pos (mul_pos hu hv'), div_le_div_iff₀ (mul_pos hu hv') hu]
    have := mul_le_mul_of_nonneg_right (abs_dot_le (diff q u) v) hu.le
    linarith
  have b2 : |cosine q v * ((norm u - norm q) / norm u)| ≤ norm (diff q u) / norm u := by
    rw [abs_mul, abs_div, abs_of_pos hu]
    refine le_trans (mul_le_of_le_one_left (div_nonneg (abs_nonneg _) hu.le) (abs_cosine_le q v)) ?_
    exact div_le_div_of_nonneg_right hn hu.le
  have : 2 * norm (diff q u) / norm u = norm (diff q u) / norm u + norm (diff q u) / norm u := by ring
  rw [this]
  exact add_le_add b1 b2

theorem norm_le_of_bound {x : List ℝ} {c : ℝ} (hc : 0 ≤ c) (h : ∀ a ∈ x, |a| ≤ c) :
    norm x ≤ c * Real.sqrt x.length := by
  rw [Spec.norm]
  apply Real.sqrt_le_iff.2
  refine ⟨mul_nonneg hc (Real.sqrt_nonneg _), ?_⟩
  rw [mul_pow, Real.sq_sqrt (Nat.cast_nonneg _)]
  induction x with
  | nil => simp [dot]
  | cons a x ih =>
    have h1 := ih fun b hb => h b (by simp [hb])
    have h2 := h a (by simp)
    rw [dot_cons, List.length_cons, Nat.cast_add, Nat.cast_one]
    have : a * a ≤ c ^ 2 := by rw [← abs_mul_abs_self, sq]; exact mul_self_le_mul_self (abs_nonneg _) h2
    linarith

theorem norm_scale {c : ℝ} (hc : 0 < c) (x : List ℝ) : norm (x.map fun a => a / c) = norm x / c := by
  rw [Spec.norm, dot_map_div_left, dot_map_div_right, div_div, Real.sqrt_div (dot_self_nonneg x),
    Real.sqrt_mul_self hc.le, Spec.norm]

theorem cosine_scale {c : ℝ} (hc : 0 < c) (x y : List ℝ) : cosine (x.map fun a => a / c) y = cosine x y := by
  rw [cosine, dot_map_div_left, norm_scale hc, cosine]
  rw [show norm x / c * norm y = norm x * norm y / c by ring]
  exact div_div_div_cancel_right₀ hc.ne' _ _

/-- Quantising both vectors. -/
theorem cosine_quantised {x y qx qy : List ℝ} {mx my c : ℝ} (hc : 0 ≤ c) (hmx : 0 < mx) (hmy : 0 < my)
    (hx : 0 < norm x) (hy : 0 < norm y) (hlen : x.length = y.length) (h1 : qx.length = x.length) (h2 : qy.length = y.length)
    (ex : ∀ (i : Nat) a b, x[i]? = some a → qx[i]? = some b → |b - a * 127 / mx| ≤ c)
    (ey : ∀ (i : Nat) a b, y[i]? = some a → qy[i]? = some b → |b - a * 127 / my| ≤ c) :
    |cosine qx qy - cosine x y| ≤ 2 * c / 127 * Real.sqrt x.length * (mx / norm x + my / norm y) := by
  have key : ∀ {x qx v : List ℝ} {m : ℝ}, 0 < m → 0 < norm x → qx.length = x.length → x.length = v.length →
      (∀ (i : Nat) a b, x[i]? = some a → qx[i]? = some b → |b - a * 127 / m| ≤ c) →
      |cosine qx v - cosine x v| ≤ 2 * c / 127 * Real.sqrt x.length * (m / norm x) := by
    intro x qx v m hm hx h1 h2 ex
    have hm' : 0 < m / 127 := by positivity
    have hp := cosine_perturb (q := qx) (u := x.map fun a => a / (m / 127)) (v := v) (by simp [h1]) (by simp [h2])
      (by rw [norm_scale hm']; positivity)
    rw [cosine_scale hm', norm_scale hm'] at hp
    refine le_trans hp ?_
    have hb : norm (diff qx (x.map fun a => a / (m / 127))) ≤ c * Real.sqrt x.length := by
      have := norm_le_of_bound (x := diff qx (x.map fun a => a / (m / 127))) hc (by
        intro b hb
        obtain ⟨i, hi, rfl⟩ := List.getElem_of_mem hb
        simp only [diff, List.length_zipWith, List.length_map, lt_min_iff] at hi
        have := ex i x[i] qx[i] (List.getElem?_eq_getElem hi.2) (List.getElem?_eq_getElem hi.1)
        simp only [diff, List.getElem_zipWith, List.getElem_map]
        rw [show x[i] / (m / 127) = x[i] * 127 / m by field_simp]
        exact this)
      rw [diff_length (by simp [h1]), List.length_map] at this
      exact this
    rw [div_le_iff₀ (by positivity)]
    have : 2 * c / 127 * Real.sqrt x.length * (m / norm x) * (norm x / (m / 127)) = 2 * (c * Real.sqrt x.length) := by
      field_simp
    rw [this]
    linarith
  have k1 := key hmx hx h1 (hlen.trans h2.symm) ex
  have k2 := key (v := x) hmy hy h2 hlen.symm ey
  rw [cosine_comm qy x, cosine_comm y x, ← hlen] at k2
  have : cosine qx qy - cosine x y = (cosine qx qy - cosine x qy) + (cosine x qy - cosine x y) := by ring
  rw [this, mul_add]
  exact le_trans (abs_add_le _ _) (add_le_add k1 k2)

end Granne
