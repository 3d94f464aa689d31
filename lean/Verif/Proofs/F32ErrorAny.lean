import Verif.Proofs.F32Error

/-! The error of the distances of `f32` vectors of large dimension. -/
namespace Granne
open Spec F32

theorem one_add_pow_le {u : ℝ} (hu : 0 ≤ u) : ∀ m : Nat, (m : ℝ) * u ≤ 1 → (1 + u) ^ m ≤ 1 + m * u + (m * u) ^ 2
  | 0, _ => by simp
  | m + 1, h => by
    push_cast at h
    have hm : (0 : ℝ) ≤ (m : ℝ) := Nat.cast_nonneg m
    have hmu : (m : ℝ) * u ≤ 1 := by linarith
    have ih := one_add_pow_le hu m hmu
    have h1 := mul_le_mul_of_nonneg_right ih (show (0 : ℝ) ≤ 1 + u by linarith)
    rw [pow_succ]
    refine h1.trans ?_
    push_cast
    have h2 : (m : ℝ) * ((m : ℝ) * u) ≤ (m : ℝ) * 1 := mul_le_mul_of_nonneg_left hmu hm
    have h3 : 0 ≤ u * u * ((m : ℝ) + 1 - m * (m * u)) := mul_nonneg (mul_nonneg hu hu) (by linarith)
    nlinarith

theorem one_sub_mul_le_pow {u : ℝ} (hu : 0 ≤ u) (hu1 : u ≤ 1) : ∀ m : Nat, 1 - (m : ℝ) * u ≤ (1 - u) ^ m
  | 0 => by simp
  | m + 1 => by
    have ih := one_sub_mul_le_pow hu hu1 m
    have h1 := mul_le_mul_of_nonneg_right ih (show (0 : ℝ) ≤ 1 - u by linarith)
    rw [pow_succ]
    refine le_trans ?_ h1
    push_cast
    have : (0 : ℝ) ≤ (m : ℝ) * (u * u) := mul_nonneg (Nat.cast_nonneg m) (mul_nonneg hu hu)
    nlinarith

theorem inv_pow_le {u : ℝ} (hu : 0 ≤ u) (hu1 : u < 1) (m : Nat) (h : (m : ℝ) * u ≤ 1 / 2) :
    ((1 - u) ^ m)⁻¹ ≤ 1 + m * u + 2 * (m * u) ^ 2 := by
  have h1 := one_sub_mul_le_pow hu hu1.le m
  have h0 : 0 ≤ (m : ℝ) * u := mul_nonneg (Nat.cast_nonneg m) hu
  generalize (m : ℝ) * u = w at *
  refine inv_le_of_inv_le₀ (by nlinarith [sq_nonneg w]) ?_
  refine le_trans ?_ h1
  rw [inv_le_iff_one_le_mul₀ (by nlinarith [sq_nonneg w])]
  nlinarith [mul_nonneg (mul_self_nonneg w) (show (0 : ℝ) ≤ 1 - 2 * w by linarith)]

/-- One over `1 + m u` bounds `(1 - u) ^ m` from above. -/
theorem one_sub_pow_mul_le {u : ℝ} (hu : 0 ≤ u) (hu1 : u ≤ 1) : ∀ m : Nat, (1 + (m : ℝ) * u) * (1 - u) ^ m ≤ 1
  | 0 => by simp
  | m + 1 => by
    have ih := one_sub_pow_mul_le hu hu1 m
    have hp : (0 : ℝ) ≤ (1 - u) ^ m := pow_nonneg (by linarith) m
    have hm : (0 : ℝ) ≤ (m : ℝ) * (u * u) := mul_nonneg (Nat.cast_nonneg m) (mul_nonneg hu hu)
    rw [pow_succ]
    push_cast
    have e : (1 + ((m : ℝ) + 1) * u) * (1 - u) ≤ 1 + (m : ℝ) * u := by nlinarith
    calc (1 + ((m : ℝ) + 1) * u) * ((1 - u) ^ m * (1 - u)) = ((1 + ((m : ℝ) + 1) * u) * (1 - u)) * (1 - u) ^ m := by ring
      _ ≤ (1 + (m : ℝ) * u) * (1 - u) ^ m := mul_le_mul_of_nonneg_right e hp
      _ ≤ 1 := ih

/-- The dot product of two finite vectors of a dimension up to 63551 (where `roundings` is at most 2048). -/
theorem dotProduct_f32_any (x y : List ℝ) (hlen : x.length = y.length) (m : Nat) (hm : m + 1 = roundings x.length) (hn : m < 2048)
    (hb : absDot x y ≤ 2 ^ (126 : Int)) :
    ∃ r, dotProduct (x.map fin) (y.map fin) = fin r ∧ rne32 r = r ∧
      |r - dot x y| ≤ ((m : ℝ) + 1 / 4) * 2 ^ (-24 : Int) * absDot x y + 2 ^ (-133 : Int) := by
  have hA := absDot_nonneg x y
  unfold roundings at hm
  have hacc := (dotProduct_acc31 (fun l k c h => zero_add_rounded (acc_rounded h)) (x.map fin) (y.map fin)
    (by simpa using hlen)).mono (k' := m) (by rw [List.length_map]; omega)
  have hz : ((x.map fin).zip (y.map fin)).length = x.length := by
    rw [List.length_zip]; simp [hlen]
  have hm' : (m : ℝ) ≤ 2047 := by exact_mod_cast (show m ≤ 2047 by omega)
  have hm0 : (0 : ℝ) ≤ (m : ℝ) := Nat.cast_nonneg m
  have hP : ((1 : ℝ) + 2 ^ (-24 : Int)) ^ m ≤ 1 + ((m : ℝ) + 1 / 4) * 2 ^ (-24 : Int) := by
    have h1 := one_add_pow_le (u := (2 : ℝ) ^ (-24 : Int)) (two_zpow_pos _).le m (by
      refine (mul_le_mul_of_nonneg_right hm' (two_zpow_pos _).le).trans ?_
      norm_num)
    refine h1.trans ?_
    have h2 : ((m : ℝ) * 2 ^ (-24 : Int)) ^ 2 ≤ 1 / 4 * 2 ^ (-24 : Int) := by
      have h3 : (m : ℝ) * 2 ^ (-24 : Int) ≤ 2047 * 2 ^ (-24 : Int) := mul_le_mul_of_nonneg_right hm' (two_zpow_pos _).le
      refine (pow_le_pow_left₀ (mul_nonneg hm0 (two_zpow_pos _).le) h3 2).trans ?_
      norm_num
    linarith
  have hP2 : (1 : ℝ) + ((m : ℝ) + 1 / 4) * 2 ^ (-24 : Int) ≤ 3 / 2 := by
    have := mul_le_mul_of_nonneg_right hm' (two_zpow_pos (-24)).le
    have h2 : (2047 : ℝ) * 2 ^ (-24 : Int) + 1 / 4 * 2 ^ (-24 : Int) ≤ 1 / 2 := by norm_num
    linarith
  have hn' : (x.length : ℝ) ≤ 65536 := by exact_mod_cast (show x.length ≤ 65536 by omega)
  have hN : (x.length : ℝ) * 2 ^ (-150 : Int) ≤ 2 ^ (-134 : Int) := by
    have := mul_le_mul_of_nonneg_right hn' (two_zpow_pos (-150)).le
    refine this.trans (le_of_eq ?_)
    norm_num
  have h139 : (2 : ℝ) ^ (-134 : Int) * (3 / 2) ≤ 2 ^ (-133 : Int) := by norm_num
  have hmax : ((2 : ℝ) ^ (126 : Int) + 2 ^ (-134 : Int)) * (3 / 2) ≤ maxF32 := by
    refine le_trans ?_ maxF32_ge
    norm_num
  have hP0 : (0 : ℝ) ≤ (1 + 2 ^ (-24 : Int)) ^ m := by positivity
  have hη0 : (0 : ℝ) ≤ (x.length : ℝ) * 2 ^ (-150 : Int) := by positivity
  have h139' : (0 : ℝ) ≤ 2 ^ (-134 : Int) := by positivity
  obtain ⟨r, h1, h2, h3⟩ := acc_err hacc (by
    rintro ⟨a, b⟩ hp
    obtain ⟨ha, hb⟩ := List.of_mem_zip hp
    obtain ⟨a', _, rfl⟩ := List.mem_map.1 ha
    obtain ⟨b', _, rfl⟩ := List.mem_map.1 hb
    exact ⟨a', b', rfl⟩) (by
    rw [accAbs_zip, hz]
    refine le_trans ?_ hmax
    exact mul_le_mul (add_le_add hb hN) (hP.trans hP2) hP0 (add_nonneg (two_zpow_pos _).le h139'))
  refine ⟨r, h1, h2, ?_⟩
  rw [accAbs_zip, accSum_zip, hz] at h3
  refine h3.trans (add_le_add ?_ ?_)
  · exact mul_le_mul_of_nonneg_right (by linarith) hA
  · refine le_trans (mul_le_mul hN (hP.trans hP2) hP0 h139') h139

theorem normalize_f32_any (x : List ℝ) (m : Nat) (hm : m + 1 = roundings x.length) (hn : m < 2048)
    (hx : norm x = 0 ∨ (2 ^ (-50 : Int) ≤ norm x ∧ norm x ≤ 2 ^ (63 : Int))) :
    ∃ c e : List ℝ, normalize (x.map fin) = c.map fin ∧
      List.Forall₂ (fun c e => |c - e| ≤ 2 ^ (-150 : Int)) c e ∧
      List.Forall₂ (Rel (1 - 2 ^ (-24 : Int)) (m / 2 + 3)) e (unit x) := by
  have hu0 := two_zpow_pos (-24)
  have hu1 : (2 : ℝ) ^ (-24 : Int) ≤ 1 := by norm_num
  have hm' : (m : ℝ) ≤ 2047 := by exact_mod_cast (show m ≤ 2047 by omega)
  have hm0 : (0 : ℝ) ≤ (m : ℝ) := Nat.cast_nonneg m
  have hs : (m : ℝ) * 2 ^ (-24 : Int) ≤ 2047 * 2 ^ (-24 : Int) := mul_le_mul_of_nonneg_right hm' hu0.le
  refine normalize_core x (m / 2 + 1) ?_ (fun hd1 hd2 => ?_) hx
  · have h1 := one_sub_mul_le_pow hu0.le hu1 (m / 2 + 1 + 1)
    refine le_trans ?_ h1
    have h2 : ((m / 2 + 1 + 1 : Nat) : ℝ) ≤ 2047 := by exact_mod_cast (show m / 2 + 1 + 1 ≤ 2047 by omega)
    have h3 := mul_le_mul_of_nonneg_right h2 hu0.le
    have h4 : (2047 : ℝ) * 2 ^ (-24 : Int) ≤ 1 / 2 := by norm_num
    linarith
  · have hd0 : 0 < dot x x := lt_of_lt_of_le (two_zpow_pos _) hd1
    obtain ⟨r, h1, h2, h3⟩ := dotProduct_f32_any x x rfl m hm hn (by rw [absDot_self]; exact hd2)
    rw [absDot_self] at h3
    refine ⟨r, h1, ?_⟩
    have h4 : |r - dot x x| ≤ ((m : ℝ) + 3 / 8) * 2 ^ (-24 : Int) * dot x x := by
      have h5 : (2 : ℝ) ^ (-133 : Int) ≤ 1 / 8 * 2 ^ (-24 : Int) * dot x x := by
        have := mul_le_mul_of_nonneg_left hd1 (show (0 : ℝ) ≤ 1 / 8 * 2 ^ (-24 : Int) by positivity)
        refine le_trans ?_ this
        norm_num
      refine h3.trans ?_
      rw [show ((m : ℝ) + 3 / 8) * 2 ^ (-24 : Int) * dot x x =
        ((m : ℝ) + 1 / 4) * 2 ^ (-24 : Int) * dot x x + 1 / 8 * 2 ^ (-24 : Int) * dot x x by ring]
      exact add_le_add_right h5 _
    have h6 : |r / dot x x - 1| ≤ ((m : ℝ) + 3 / 8) * 2 ^ (-24 : Int) := by
      rw [show r / dot x x - 1 = (r - dot x x) / dot x x by field_simp, abs_div, abs_of_pos hd0, div_le_iff₀ hd0]
      exact h4
    obtain ⟨h7, h8⟩ := abs_le.1 h6
    have hK : (m : ℝ) + 1 ≤ ((2 * (m / 2 + 1) : Nat) : ℝ) := by exact_mod_cast (show m + 1 ≤ 2 * (m / 2 + 1) by omega)
    have hup := one_sub_pow_mul_le hu0.le hu1 (2 * (m / 2 + 1))
    have hq0 : (0 : ℝ) ≤ (1 - 2 ^ (-24 : Int)) ^ (2 * (m / 2 + 1)) := pow_nonneg (by linarith) _
    have hKu := mul_le_mul_of_nonneg_right hK hu0.le
    have hsmall : (2047 : ℝ) * 2 ^ (-24 : Int) ≤ 1 / 8000 := by norm_num
    unfold Rel
    generalize (2 : ℝ) ^ (-24 : Int) = u at *
    generalize ((2 * (m / 2 + 1) : Nat) : ℝ) = k at *
    generalize (1 - u) ^ (2 * (m / 2 + 1)) = Q at *
    have hQ1 : (1 + ((m : ℝ) + 1) * u) * Q ≤ 1 := le_trans (mul_le_mul_of_nonneg_right (by linarith) hq0) hup
    refine ⟨r / dot x x, by field_simp, ?_, ?_⟩
    · refine le_trans ?_ (show 1 - ((m : ℝ) + 3 / 8) * u ≤ _ by linarith)
      -- `Q ≤ 1 / (1 + (m + 1) u) ≤ 1 - (m + 3/8) u`
      by_contra hc
      have h9 : 1 - ((m : ℝ) + 3 / 8) * u < Q := not_le.1 hc
      have h10 : 0 < 1 + ((m : ℝ) + 1) * u := by have := mul_nonneg hm0 hu0.le; linarith
      have h11 := mul_lt_mul_of_pos_left h9 h10
      have h12 : 0 ≤ u * (5 / 8 - ((m : ℝ) + 1) * (((m : ℝ) + 3 / 8) * u)) := by
        refine mul_nonneg hu0.le ?_
        have h13 : ((m : ℝ) + 3 / 8) * u ≤ 1 / 7000 := by
          have : (3 : ℝ) / 8 * u ≤ 1 / 56000 := by linarith [mul_le_mul_of_nonneg_right (show (2047 : ℝ) ≥ 1 by norm_num) hu0.le]
          linarith
        have h14 : ((m : ℝ) + 1) * (((m : ℝ) + 3 / 8) * u) ≤ ((m : ℝ) + 1) * (1 / 7000) :=
          mul_le_mul_of_nonneg_left h13 (by linarith)
        linarith
      nlinarith
    · refine le_trans (mul_le_mul_of_nonneg_right (show r / dot x x ≤ 1 + ((m : ℝ) + 1) * u by linarith) hq0) hQ1

theorem unit_abs_le (x : List ℝ) : ∀ a ∈ unit x, |a| ≤ 1 := by
  intro a ha
  have h1 : |a| ≤ norm (unit x) := by
    refine Real.le_sqrt_of_sq_le ?_
    rw [sq_abs, sq]
    generalize unit x = l at ha
    induction l with
    | nil => simp at ha
    | cons b l ih =>
      rw [dot_cons]
      rcases List.mem_cons.1 ha with rfl | ha
      · have := dot_self_nonneg l; linarith
      · have := ih ha; have := mul_self_nonneg b; linarith
  exact h1.trans (norm_unit_le x)

/-- The distance of two converted vectors of any dimension with at most 2048 roundings (every dimension up to 63551). -/
theorem angularDist_f32_any (x y : List ℝ) (hlen : x.length = y.length) (hn : roundings x.length ≤ 2048)
    (hx : norm x = 0 ∨ (2 ^ (-50 : Int) ≤ norm x ∧ norm x ≤ 2 ^ (63 : Int)))
    (hy : norm y = 0 ∨ (2 ^ (-50 : Int) ≤ norm y ∧ norm y ≤ 2 ^ (63 : Int))) :
    ∃ d, angularDist (normalize (x.map fin)) (normalize (y.map fin)) = some (fin d) ∧ 0 ≤ d ∧
      |d - (1 - cosine x y)| ≤ (2 * (roundings x.length : ℝ) + 9) * 2 ^ (-24 : Int) := by
  obtain ⟨m, hm⟩ : ∃ m, m + 1 = roundings x.length := ⟨x.length / 32 + 31 + x.length % 32, by unfold roundings; omega⟩
  have hm2 : m < 2048 := by omega
  obtain ⟨c, e, ec, hce, hex⟩ := normalize_f32_any x m hm hm2 hx
  obtain ⟨d, f, ed, hdf, hfy⟩ := normalize_f32_any y m (hlen ▸ hm) hm2 hy
  have hq0 : (0 : ℝ) < 1 - 2 ^ (-24 : Int) := by norm_num
  have hu0 := two_zpow_pos (-24)
  have hu1 : (2 : ℝ) ^ (-24 : Int) < 1 := by norm_num
  have hm' : (m : ℝ) ≤ 2047 := by exact_mod_cast (show m ≤ 2047 by omega)
  have hm0 : (0 : ℝ) ≤ (m : ℝ) := Nat.cast_nonneg m
  have hc0 := abs_cosine_le x y
  have lc : c.length = x.length := by rw [hce.length_eq, hex.length_eq, unit_length]
  have ld : d.length = y.length := by rw [hdf.length_eq, hfy.length_eq, unit_length]
  have hinv3 : (((1 : ℝ) - 2 ^ (-24 : Int)) ^ (m / 2 + 3))⁻¹ ≤ 2 := by
    have h1 := one_sub_mul_le_pow hu0.le hu1.le (m / 2 + 3)
    have h2 : ((m / 2 + 3 : Nat) : ℝ) ≤ 2047 := by exact_mod_cast (show m / 2 + 3 ≤ 2047 by omega)
    have h3 := mul_le_mul_of_nonneg_right h2 hu0.le
    have h4 : (2047 : ℝ) * 2 ^ (-24 : Int) ≤ 1 / 2 := by norm_num
    refine inv_le_of_inv_le₀ (by norm_num) (le_trans ?_ h1)
    norm_num at h3 h4 ⊢
    linarith
  have hsmall : ∀ {e w : List ℝ}, List.Forall₂ (Rel (1 - 2 ^ (-24 : Int)) (m / 2 + 3)) e w → (∀ a ∈ w, |a| ≤ 1) →
      ∀ a ∈ e, |a| ≤ 2 := by
    intro e w h
    induction h with
    | nil => intro _ a ha; simp at ha
    | cons h _ ih =>
      intro hw a ha
      rcases List.mem_cons.1 ha with rfl | ha
      · have h1 := h.abs_le hq0
        have h2 := hw _ (List.mem_cons_self)
        refine h1.trans ((mul_le_mul hinv3 h2 (abs_nonneg _) (by norm_num)).trans (by norm_num))
      · exact ih (fun b hb => hw b (List.mem_cons_of_mem _ hb)) a ha
  obtain ⟨p1, p2⟩ := dot_perturb (two_zpow_pos (-150)).le (by norm_num) hce hdf (hsmall hex (unit_abs_le x)) (hsmall hfy (unit_abs_le y))
  obtain ⟨r1, r2⟩ := dot_rel hq0 hex hfy
  rw [dot_unit] at r1
  have hA0 := absDot_nonneg (unit x) (unit y)
  have hA1 : absDot (unit x) (unit y) ≤ 1 := (absDot_le _ _).trans
    (mul_le_one₀ (norm_unit_le x) (norm_nonneg' _) (norm_unit_le y))
  have hk : ((m / 2 + 3 + (m / 2 + 3) : Nat) : ℝ) ≤ (m : ℝ) + 6 := by exact_mod_cast (show m / 2 + 3 + (m / 2 + 3) ≤ m + 6 by omega)
  have w1 : (((1 : ℝ) - 2 ^ (-24 : Int)) ^ (m / 2 + 3 + (m / 2 + 3)))⁻¹ ≤ 1 + ((m : ℝ) + 6 + 3 / 5) * 2 ^ (-24 : Int) := by
    have hk' : ((m / 2 + 3 + (m / 2 + 3) : Nat) : ℝ) * 2 ^ (-24 : Int) ≤ 2053 * 2 ^ (-24 : Int) :=
      mul_le_mul_of_nonneg_right (by linarith) hu0.le
    have h1 := inv_pow_le hu0.le hu1 (m / 2 + 3 + (m / 2 + 3)) (hk'.trans (by norm_num))
    refine h1.trans ?_
    have h2 : 2 * (((m / 2 + 3 + (m / 2 + 3) : Nat) : ℝ) * 2 ^ (-24 : Int)) ^ 2 ≤ 3 / 5 * 2 ^ (-24 : Int) := by
      have h3 := pow_le_pow_left₀ (mul_nonneg (Nat.cast_nonneg _) hu0.le) hk' 2
      refine (mul_le_mul_of_nonneg_left h3 (by norm_num)).trans ?_
      norm_num
    have h4 := mul_le_mul_of_nonneg_right hk hu0.le
    linarith
  have w2 : (0 : ℝ) ≤ (((1 : ℝ) - 2 ^ (-24 : Int)) ^ (m / 2 + 3 + (m / 2 + 3)))⁻¹ - 1 :=
    sub_nonneg.2 ((one_le_inv₀ (pow_pos hq0 _)).2 (pow_le_one₀ hq0.le (by linarith)))
  have hL : 5 * (2 : ℝ) ^ (-150 : Int) * (c.length : ℝ) ≤ 1 / 100 * 2 ^ (-24 : Int) := by
    have h1 : (c.length : ℝ) ≤ 65536 := by
      rw [lc]; unfold roundings at hn; exact_mod_cast (show x.length ≤ 65536 by omega)
    have := mul_le_mul_of_nonneg_left h1 (show (0 : ℝ) ≤ 5 * 2 ^ (-150 : Int) by positivity)
    refine this.trans ?_
    norm_num
  have t1 : |dot c d - cosine x y| ≤ ((m : ℝ) + 6 + 61 / 100) * 2 ^ (-24 : Int) := by
    have h1 := abs_add_le (dot c d - dot e f) (dot e f - cosine x y)
    rw [sub_add_sub_cancel] at h1
    have h2 := (mul_le_mul_of_nonneg_left hA1 w2).trans
      (show ((((1 : ℝ) - 2 ^ (-24 : Int)) ^ (m / 2 + 3 + (m / 2 + 3)))⁻¹ - 1) * 1 ≤ ((m : ℝ) + 6 + 3 / 5) * 2 ^ (-24 : Int) by
        rw [mul_one]; exact sub_le_iff_le_add'.2 w1)
    have h3 := add_le_add (p1.trans hL) (r1.trans h2)
    refine h1.trans (h3.trans (le_of_eq ?_))
    ring
  have t2 : absDot c d ≤ 1 + 1 / 8000 := by
    have h2 : (((1 : ℝ) - 2 ^ (-24 : Int)) ^ (m / 2 + 3 + (m / 2 + 3)))⁻¹ * absDot (unit x) (unit y) ≤
        1 + ((m : ℝ) + 6 + 3 / 5) * 2 ^ (-24 : Int) := by
      calc _ ≤ (((1 : ℝ) - 2 ^ (-24 : Int)) ^ (m / 2 + 3 + (m / 2 + 3)))⁻¹ * 1 :=
            mul_le_mul_of_nonneg_left hA1 (inv_nonneg.2 (pow_pos hq0 _).le)
        _ ≤ _ := by rw [mul_one]; exact w1
    refine p2.trans ((add_le_add (r2.trans h2) hL).trans ?_)
    have h3 := mul_le_mul_of_nonneg_right hm' hu0.le
    have h4 : (2047 : ℝ) * 2 ^ (-24 : Int) + (6 + 3 / 5) * 2 ^ (-24 : Int) + 1 / 100 * 2 ^ (-24 : Int) ≤ 1 / 8000 := by norm_num
    linarith
  obtain ⟨r, e1, _, e3⟩ := dotProduct_f32_any c d (by rw [lc, ld, hlen]) m (by rw [lc]; exact hm) hm2
    (t2.trans (by norm_num))
  have t3 : |r - cosine x y| ≤ (2 * (m : ℝ) + 15 / 2) * 2 ^ (-24 : Int) := by
    have h1 := abs_add_le (r - dot c d) (dot c d - cosine x y)
    rw [sub_add_sub_cancel] at h1
    have h2 : ((m : ℝ) + 1 / 4) * 2 ^ (-24 : Int) * absDot c d ≤ ((m : ℝ) + 3 / 5) * 2 ^ (-24 : Int) := by
      have h4 := mul_le_mul_of_nonneg_left t2 (show (0 : ℝ) ≤ ((m : ℝ) + 1 / 4) * 2 ^ (-24 : Int) by positivity)
      refine h4.trans ?_
      have h5 : ((m : ℝ) + 1 / 4) * (1 + 1 / 8000) ≤ (m : ℝ) + 3 / 5 := by linarith
      calc ((m : ℝ) + 1 / 4) * 2 ^ (-24 : Int) * (1 + 1 / 8000) = (((m : ℝ) + 1 / 4) * (1 + 1 / 8000)) * 2 ^ (-24 : Int) := by ring
        _ ≤ _ := mul_le_mul_of_nonneg_right h5 hu0.le
    have h3 : (2 : ℝ) ^ (-133 : Int) ≤ 1 / 100 * 2 ^ (-24 : Int) := by norm_num
    have h4 := add_le_add (e3.trans (add_le_add h2 h3)) t1
    refine h1.trans (h4.trans ?_)
    linarith
  have hroom : (2 * (m : ℝ) + 15 / 2) * 2 ^ (-24 : Int) ≤ 1 / 1000 := by
    have h3 := mul_le_mul_of_nonneg_right hm' hu0.le
    have h4 : 2 * ((2047 : ℝ) * 2 ^ (-24 : Int)) + 15 / 2 * 2 ^ (-24 : Int) ≤ 1 / 1000 := by norm_num
    linarith
  obtain ⟨v, v1, v2, v3⟩ := f32_oneMinus_err hc0 hroom t3
  refine ⟨v, ?_, v2, v3.trans ?_⟩
  · rw [ec, ed, angularDist, e1]
    exact v1
  · have h1 : (roundings x.length : ℝ) = (m : ℝ) + 1 := by rw [← hm]; push_cast; ring
    rw [h1]
    linarith

end Granne
