import Verif.Proofs.F32ErrorAny
import Verif.Spec.Blas

/-! The error of the distances with the feature `blas`. -/
namespace Granne
open Spec F32

theorem mulAdd_zero_eq (a b : F32) : F32.mulAdd a b (fin 0) = F32.mul a b := by
  have hr : ∀ v : F32, v.Rounded → F32.add v (fin 0) = v := by
    intro v h
    rcases h with rfl | ⟨s, rfl⟩ | ⟨a, rfl, h1, h2⟩
    · rfl
    · rfl
    · show ofReal (a + 0) = fin a
      rw [add_zero, ofReal_fin (by rw [h1]; exact h2), h1]
  have hm : ∀ s c, (F32.mulInf s c).Rounded := by
    intro s c
    unfold F32.mulInf
    split
    · exact Or.inl rfl
    · exact Or.inr (Or.inl ⟨_, rfl⟩)
  cases a with
  | nan => rfl
  | inf s =>
    cases b with
    | nan => rfl
    | inf t => rfl
    | fin b => exact hr _ (hm s b)
  | fin a =>
    cases b with
    | nan => rfl
    | inf t => exact hr _ (hm t a)
    | fin b =>
      show ofReal (a * b + 0) = ofReal (a * b)
      rw [add_zero]

theorem Spec.SumInAnyOrder.acc {l : List (F32 × F32)} {k : Nat} {v : F32} (h : SumInAnyOrder l k v) : Acc l k v := by
  induction h with
  | nothing => exact Acc.zero
  | product a b =>
    rw [← mulAdd_zero_eq]
    exact Acc.mulAdd a b Acc.zero
  | fused a b _ ih => exact Acc.mulAdd a b ih
  | sum _ _ ih1 ih2 => exact Acc.add (ih1.mono (le_max_left _ _)) (ih2.mono (le_max_right _ _))
  | reordered _ hp ih => exact ih.perm hp

/-- A sum of products of finite numbers. -/
theorem acc_f32_any (x y : List ℝ) (hlen : x.length = y.length) (k : Nat) (hk : k ≤ 2048) (hdim : x.length ≤ 65536)
    (hb : absDot x y ≤ 2 ^ (126 : Int)) (v : F32) (hacc : Acc ((x.map fin).zip (y.map fin)) k v) :
    ∃ r, v = fin r ∧ rne32 r = r ∧
      |r - dot x y| ≤ ((k : ℝ) + 1 / 3) * 2 ^ (-24 : Int) * absDot x y + 2 ^ (-133 : Int) := by
  have hA := absDot_nonneg x y
  have hz : ((x.map fin).zip (y.map fin)).length = x.length := by
    rw [List.length_zip]; simp [hlen]
  have hm' : (k : ℝ) ≤ 2048 := by exact_mod_cast hk
  have hm0 : (0 : ℝ) ≤ (k : ℝ) := Nat.cast_nonneg k
  have hP : ((1 : ℝ) + 2 ^ (-24 : Int)) ^ k ≤ 1 + ((k : ℝ) + 1 / 3) * 2 ^ (-24 : Int) := by
    have h1 := one_add_pow_le (u := (2 : ℝ) ^ (-24 : Int)) (two_zpow_pos _).le k (by
      refine (mul_le_mul_of_nonneg_right hm' (two_zpow_pos _).le).trans ?_
      norm_num)
    refine h1.trans ?_
    have h2 : ((k : ℝ) * 2 ^ (-24 : Int)) ^ 2 ≤ 1 / 3 * 2 ^ (-24 : Int) := by
      have h3 : (k : ℝ) * 2 ^ (-24 : Int) ≤ 2048 * 2 ^ (-24 : Int) := mul_le_mul_of_nonneg_right hm' (two_zpow_pos _).le
      refine (pow_le_pow_left₀ (mul_nonneg hm0 (two_zpow_pos _).le) h3 2).trans ?_
      norm_num
    linarith
  have hP2 : (1 : ℝ) + ((k : ℝ) + 1 / 3) * 2 ^ (-24 : Int) ≤ 3 / 2 := by
    have := mul_le_mul_of_nonneg_right hm' (two_zpow_pos (-24)).le
    have h2 : (2048 : ℝ) * 2 ^ (-24 : Int) + 1 / 3 * 2 ^ (-24 : Int) ≤ 1 / 2 := by norm_num
    linarith
  have hn' : (x.length : ℝ) ≤ 65536 := by exact_mod_cast hdim
  have hN : (x.length : ℝ) * 2 ^ (-150 : Int) ≤ 2 ^ (-134 : Int) := by
    have := mul_le_mul_of_nonneg_right hn' (two_zpow_pos (-150)).le
    refine this.trans (le_of_eq ?_)
    norm_num
  have h139 : (2 : ℝ) ^ (-134 : Int) * (3 / 2) ≤ 2 ^ (-133 : Int) := by norm_num
  have hmax : ((2 : ℝ) ^ (126 : Int) + 2 ^ (-134 : Int)) * (3 / 2) ≤ maxF32 := by
    refine le_trans ?_ maxF32_ge
    norm_num
  have hP0 : (0 : ℝ) ≤ (1 + 2 ^ (-24 : Int)) ^ k := by positivity
  have hη0 : (0 : ℝ) ≤ (x.length : ℝ) * 2 ^ (-150 : Int) := by positivity
  have h139' : (0 : ℝ) ≤ 2 ^ (-134 : Int) := by positivity
  obtain ⟨r, h1, h2, h3⟩ := acc_err hacc (by
    rintro ⟨a, b⟩ hp
    obtain ⟨ha, hb⟩ := List.of_mem_zip hp
    obtain ⟨a', _, rfl⟩ := List.mem_map.1 ha
    obtain ⟨b', _, rfl⟩ := List.mem_map.1 hb
    exact ⟨a', b', rfl⟩) (by
    rw [accAbs_zip, hz]
    refine le_trans ?_ hmax
    exact mul_le_mul (add_le_add hb hN) (hP.trans hP2) hP0 (add_nonneg (two_zpow_pos _).le h139'))
  refine ⟨r, h1, h2, ?_⟩
  rw [accAbs_zip, accSum_zip, hz] at h3
  refine h3.trans (add_le_add ?_ ?_)
  · exact mul_le_mul_of_nonneg_right (by linarith) hA
  · refine le_trans (mul_le_mul hN (hP.trans hP2) hP0 h139') h139

theorem eq_zero_of_norm {x : List ℝ} (hz : norm x = 0) : ∀ a ∈ x, a = 0 := by
  have hsq : norm x * norm x = dot x x := Real.mul_self_sqrt (dot_self_nonneg x)
  have hd : dot x x = 0 := by rw [← hsq, hz, mul_zero]
  clear hsq hz
  induction x with
  | nil => intro a ha; simp at ha
  | cons b x ih =>
    rw [dot_cons] at hd
    have h1 := dot_self_nonneg x
    have h2 := mul_self_nonneg b
    intro a ha
    rcases List.mem_cons.1 ha with rfl | ha
    · exact mul_self_eq_zero.1 (by linarith)
    · exact ih (by linarith) a ha

theorem abs_le_norm {x : List ℝ} {a : ℝ} (ha : a ∈ x) : |a| ≤ norm x := by
  refine Real.le_sqrt_of_sq_le ?_
  rw [sq_abs, sq]
  induction x with
  | nil => simp at ha
  | cons b x ih =>
    rw [dot_cons]
    rcases List.mem_cons.1 ha with rfl | ha
    · have := dot_self_nonneg x; linarith
    · have := ih ha; have := mul_self_nonneg b; linarith

/-- A relative error as a power of `1 - u`. -/
theorem rel_of_err {u : ℝ} (hu0 : 0 ≤ u) (hu1 : u ≤ 1) {e : Nat} (he : ((e : ℝ) + 1) * (((e : ℝ) + 1) * u) ≤ 1) {r n : ℝ} (hn : 0 < n)
    (h : |r - n| ≤ (e : ℝ) * u * n) : Rel (1 - u) (e + 1) r n := by
  have h6 : |r / n - 1| ≤ (e : ℝ) * u := by
    rw [show r / n - 1 = (r - n) / n by field_simp, abs_div, abs_of_pos hn, div_le_iff₀ hn]
    exact h
  obtain ⟨h7, h8⟩ := abs_le.1 h6
  have he0 : (0 : ℝ) ≤ (e : ℝ) := Nat.cast_nonneg e
  have hup := one_sub_pow_mul_le hu0 hu1 (e + 1)
  push_cast at hup
  have hq0 : (0 : ℝ) ≤ (1 - u) ^ (e + 1) := pow_nonneg (by linarith) _
  refine ⟨r / n, by field_simp, ?_, ?_⟩
  · generalize (1 - u) ^ (e + 1) = Q at *
    refine le_trans ?_ (show 1 - (e : ℝ) * u ≤ _ by linarith)
    by_contra hc
    have h9 : 1 - (e : ℝ) * u < Q := not_le.1 hc
    have h10 : 0 < 1 + ((e : ℝ) + 1) * u := by have := mul_nonneg he0 hu0; linarith
    have h11 := mul_lt_mul_of_pos_left h9 h10
    have h12 : 0 ≤ u * (1 - ((e : ℝ) + 1) * ((e : ℝ) * u)) := by
      refine mul_nonneg hu0 ?_
      have : ((e : ℝ) + 1) * ((e : ℝ) * u) ≤ ((e : ℝ) + 1) * (((e : ℝ) + 1) * u) :=
        mul_le_mul_of_nonneg_left (mul_le_mul_of_nonneg_right (by linarith) hu0) (by linarith)
      linarith
    nlinarith
  · exact le_trans (mul_le_mul_of_nonneg_right (by linarith) hq0) hup

/-- The conversion of a vector. -/
theorem blasNormalize_f32 {B : Blas} {dim k e : Nat} (hB : GoodBlas B dim k e) (he : e ≤ 1000) (x : List ℝ) (hdim : x.length = dim)
    (hx : norm x = 0 ∨ (2 ^ (-50 : Int) ≤ norm x ∧ norm x ≤ 2 ^ (63 : Int))) :
    ∃ c f : List ℝ, blasNormalize B (x.map fin) = c.map fin ∧
      List.Forall₂ (fun c f => |c - f| ≤ 2 ^ (-150 : Int)) c f ∧
      List.Forall₂ (Rel (1 - 2 ^ (-24 : Int)) (e + 3)) f (unit x) := by
  have hq0 : (0 : ℝ) < 1 - 2 ^ (-24 : Int) := by norm_num
  have hq1 : (1 : ℝ) - 2 ^ (-24 : Int) ≤ 1 := by have := two_zpow_pos (-24); linarith
  rcases hx with hz | ⟨hlo, hhi⟩
  · have en : blasNormalize B (x.map fin) = x.map fin := by
      unfold blasNormalize
      rw [hB.zero x hdim hz]
      have : FloatOps.gt (fin 0 : F32) (FloatOps.ofInt 0) = false := by
        rw [ofInt_zero]; exact decide_eq_false (lt_irrefl _)
      simp only [this, Bool.false_eq_true, if_false]
    refine ⟨x, x, en, ?_, ?_⟩
    · rw [List.forall₂_same]
      intro a _
      rw [sub_self, abs_zero]; exact (two_zpow_pos _).le
    · rw [unit, if_neg (by rw [hz]; exact lt_irrefl _), List.forall₂_same]
      intro a _
      exact (Rel.refl a).mono hq0 hq1 (Nat.zero_le _)
  · have hN0 : 0 < norm x := lt_of_lt_of_le (two_zpow_pos _) hlo
    obtain ⟨r, h1, hr⟩ := hB.snrm2 x hdim hlo hhi
    have he' : (e : ℝ) ≤ 1000 := by exact_mod_cast he
    have he0 : (0 : ℝ) ≤ (e : ℝ) := Nat.cast_nonneg e
    have hrel : Rel (1 - 2 ^ (-24 : Int)) (e + 1) r (norm x) := by
      refine rel_of_err (two_zpow_pos _).le (by norm_num) ?_ hN0 hr
      have h2 : ((e : ℝ) + 1) * (((e : ℝ) + 1) * 2 ^ (-24 : Int)) ≤ 1001 * (1001 * 2 ^ (-24 : Int)) :=
        mul_le_mul (by linarith) (mul_le_mul_of_nonneg_right (by linarith) (two_zpow_pos _).le) (by positivity) (by norm_num)
      exact h2.trans (by norm_num)
    have hhalf : (1 : ℝ) / 2 ≤ (1 - 2 ^ (-24 : Int)) ^ (e + 2) := by
      have h2 := one_sub_mul_le_pow (u := (2 : ℝ) ^ (-24 : Int)) (two_zpow_pos _).le (by norm_num) (e + 2)
      refine le_trans ?_ h2
      push_cast
      have := mul_le_mul_of_nonneg_right (show (e : ℝ) + 2 ≤ 1002 by linarith) (two_zpow_pos (-24)).le
      have h4 : (1002 : ℝ) * 2 ^ (-24 : Int) ≤ 1 / 2 := by norm_num
      linarith
    have hhalf1 : (1 : ℝ) / 2 ≤ (1 - 2 ^ (-24 : Int)) ^ (e + 1) :=
      hhalf.trans (pow_le_pow_of_le_one hq0.le hq1 (Nat.le_succ _))
    obtain ⟨hs1, hs2⟩ : 2 ^ (-51 : Int) ≤ r ∧ r ≤ 2 ^ (64 : Int) := by
      obtain ⟨t, et, t1, t2⟩ := hrel
      have t0 : (1 : ℝ) / 2 ≤ t := hhalf1.trans t1
      have t3 : t ≤ 2 := by
        have := (mul_le_mul_of_nonneg_left hhalf1 (le_trans (by norm_num) t0 : (0 : ℝ) ≤ t)).trans t2
        clear t1 t2 hhalf hhalf1 hlo hhi hr
        linarith
      rw [et]
      constructor
      · rw [show (-51 : Int) = -50 + -1 by norm_num, zpow_add₀ (by norm_num)]
        exact mul_le_mul hlo (le_trans (by norm_num) t0) (by norm_num) hN0.le
      · rw [show (64 : Int) = 63 + 1 by norm_num, zpow_add₀ (by norm_num)]
        exact mul_le_mul hhi (t3.trans (by norm_num)) (by linarith) (by positivity)
    have hr0 : 0 < r := lt_of_lt_of_le (two_zpow_pos _) hs1
    have hinv0 : 0 < 1 / r := by positivity
    have hinv1 : 2 ^ (-64 : Int) ≤ 1 / r := by
      rw [le_div_iff₀ hr0]
      calc (2 : ℝ) ^ (-64 : Int) * r ≤ 2 ^ (-64 : Int) * 2 ^ (64 : Int) := mul_le_mul_of_nonneg_left hs2 (two_zpow_pos _).le
        _ = 1 := by norm_num
    have hinv2 : 1 / r ≤ 2 ^ (51 : Int) := by
      rw [div_le_iff₀ hr0]
      calc (1 : ℝ) = 2 ^ (51 : Int) * 2 ^ (-51 : Int) := by norm_num
        _ ≤ 2 ^ (51 : Int) * r := mul_le_mul_of_nonneg_left hs1 (two_zpow_pos _).le
    have es : (FloatOps.div (FloatOps.ofInt 1) (fin r) : F32) = fin (rne32 (1 / r)) := by
      rw [ofInt_one]
      show (if r = 0 then _ else ofReal (1 / r)) = _
      rw [if_neg hr0.ne']
      exact ofReal_pow (e := 51) (by norm_num) (by norm_num) (by rwa [abs_of_pos hinv0])
    have hsr : Rel (1 - 2 ^ (-24 : Int)) (e + 2) (rne32 (1 / r)) (1 / norm x) := by
      have h5 : Rel (1 - 2 ^ (-24 : Int)) 1 (rne32 (1 / r)) (1 / r) := rne32_rel (Or.inr (by
        rw [abs_of_pos hinv0]; exact le_trans (two_zpow_le (by norm_num)) hinv1))
      have h6 : Rel (1 - 2 ^ (-24 : Int)) (0 + (e + 1)) (1 / r) (1 / norm x) := (Rel.refl 1).div hrel hq0
      have h7 := h5.trans h6 hq0
      rwa [show 1 + (0 + (e + 1)) = e + 2 by omega] at h7
    have en : blasNormalize B (x.map fin) = (x.map fin).map fun a => FloatOps.mul (fin (rne32 (1 / r))) a := by
      unfold blasNormalize
      rw [h1]
      have : FloatOps.gt (fin r : F32) (FloatOps.ofInt 0) = true := by
        rw [ofInt_zero]; exact decide_eq_true hr0
      simp only [this, if_true, es]
    have hdiv : ∀ a : ℝ, Rel (1 - 2 ^ (-24 : Int)) (e + 2) (rne32 (1 / r) * a) (a / norm x) := by
      intro a
      have := hsr.mul (Rel.refl (q := 1 - 2 ^ (-24 : Int)) a) hq0
      rw [show (1 : ℝ) / norm x * a = a / norm x by ring] at this
      simpa using this
    refine ⟨x.map fun a => rne32 (rne32 (1 / r) * a),
      x.map fun a => if rne32 (1 / r) * a = 0 ∨ 2 ^ (-126 : Int) ≤ |rne32 (1 / r) * a|
        then rne32 (rne32 (1 / r) * a) else rne32 (1 / r) * a, ?_, ?_, ?_⟩
    · rw [en, List.map_map, List.map_map]
      refine List.map_congr_left ?_
      intro a ha
      simp only [Function.comp]
      show ofReal (rne32 (1 / r) * a) = _
      refine ofReal_pow (e := 2) (by norm_num) (by norm_num) ?_
      have h2 := (hdiv a).abs_le hq0
      have h3 : |a / norm x| ≤ 1 := by
        rw [abs_div, abs_of_pos hN0, div_le_one hN0]
        exact abs_le_norm ha
      have h4 : (((1 : ℝ) - 2 ^ (-24 : Int)) ^ (e + 2))⁻¹ ≤ 2 := inv_le_of_inv_le₀ (by norm_num) (by norm_num at hhalf ⊢; exact hhalf)
      refine h2.trans ((mul_le_mul h4 h3 (abs_nonneg _) (by norm_num)).trans (by norm_num))
    · rw [List.forall₂_map_left_iff, List.forall₂_map_right_iff, List.forall₂_same]
      intro a _
      split
      · rw [sub_self, abs_zero]; exact (two_zpow_pos _).le
      · next h =>
        obtain ⟨_, h6⟩ := not_or.1 h
        refine (rne32_err _).trans (max_le ?_ le_rfl)
        have := mul_le_mul_of_nonneg_left (not_le.1 h6).le (two_zpow_pos (-24)).le
        refine this.trans (le_of_eq ?_)
        rw [← zpow_add₀ (by norm_num)]; norm_num
    · rw [unit, if_pos hN0, List.forall₂_map_left_iff, List.forall₂_map_right_iff, List.forall₂_same]
      intro a _
      split
      · next h =>
        have h6 := (rne32_rel h).trans (hdiv a) hq0
        rwa [show 1 + (e + 2) = e + 3 by omega] at h6
      · exact (hdiv a).mono hq0 hq1 (by omega)

/-- The distance of two converted vectors. -/
theorem blasDist_f32 {B : Blas} {dim k e : Nat} (hB : GoodBlas B dim k e) (hk : k ≤ 2048) (he : e ≤ 1000) (hd : dim ≤ 65536)
    (x y : List ℝ) (hxd : x.length = dim) (hyd : y.length = dim)
    (hx : norm x = 0 ∨ (2 ^ (-50 : Int) ≤ norm x ∧ norm x ≤ 2 ^ (63 : Int)))
    (hy : norm y = 0 ∨ (2 ^ (-50 : Int) ≤ norm y ∧ norm y ≤ 2 ^ (63 : Int))) :
    ∃ d, blasDist B (blasNormalize B (x.map fin)) (blasNormalize B (y.map fin)) = some (fin d) ∧ 0 ≤ d ∧
      |d - (1 - cosine x y)| ≤ ((k : ℝ) + 2 * (e : ℝ) + 11) * 2 ^ (-24 : Int) := by
  obtain ⟨c, e1, ec, hce, hex⟩ := blasNormalize_f32 hB he x hxd hx
  obtain ⟨d, f, ed, hdf, hfy⟩ := blasNormalize_f32 hB he y hyd hy
  have hq0 : (0 : ℝ) < 1 - 2 ^ (-24 : Int) := by norm_num
  have hu0 := two_zpow_pos (-24)
  have hu1 : (2 : ℝ) ^ (-24 : Int) < 1 := by norm_num
  have hk' : (k : ℝ) ≤ 2048 := by exact_mod_cast hk
  have hk0 : (0 : ℝ) ≤ (k : ℝ) := Nat.cast_nonneg k
  have he' : (e : ℝ) ≤ 1000 := by exact_mod_cast he
  have he0 : (0 : ℝ) ≤ (e : ℝ) := Nat.cast_nonneg e
  have hc0 := abs_cosine_le x y
  have lc : c.length = x.length := by rw [hce.length_eq, hex.length_eq, unit_length]
  have ld : d.length = y.length := by rw [hdf.length_eq, hfy.length_eq, unit_length]
  have hinv3 : (((1 : ℝ) - 2 ^ (-24 : Int)) ^ (e + 3))⁻¹ ≤ 2 := by
    have h1 := one_sub_mul_le_pow hu0.le hu1.le (e + 3)
    have h2 : ((e + 3 : Nat) : ℝ) ≤ 1003 := by push_cast; linarith
    have h3 := mul_le_mul_of_nonneg_right h2 hu0.le
    have h4 : (1003 : ℝ) * 2 ^ (-24 : Int) ≤ 1 / 2 := by norm_num
    refine inv_le_of_inv_le₀ (by norm_num) (le_trans ?_ h1)
    norm_num at h3 h4 ⊢
    linarith
  have hsmall : ∀ {e' w : List ℝ}, List.Forall₂ (Rel (1 - 2 ^ (-24 : Int)) (e + 3)) e' w → (∀ a ∈ w, |a| ≤ 1) →
      ∀ a ∈ e', |a| ≤ 2 := by
    intro e' w h
    induction h with
    | nil => intro _ a ha; simp at ha
    | cons h _ ih =>
      intro hw a ha
      rcases List.mem_cons.1 ha with rfl | ha
      · have h1 := h.abs_le hq0
        have h2 := hw _ (List.mem_cons_self)
        refine h1.trans ((mul_le_mul hinv3 h2 (abs_nonneg _) (by norm_num)).trans (by norm_num))
      · exact ih (fun b hb => hw b (List.mem_cons_of_mem _ hb)) a ha
  obtain ⟨p1, p2⟩ := dot_perturb (two_zpow_pos (-150)).le (by norm_num) hce hdf (hsmall hex (unit_abs_le x)) (hsmall hfy (unit_abs_le y))
  obtain ⟨r1, r2⟩ := dot_rel hq0 hex hfy
  rw [dot_unit] at r1
  have hA0 := absDot_nonneg (unit x) (unit y)
  have hA1 : absDot (unit x) (unit y) ≤ 1 := (absDot_le _ _).trans
    (mul_le_one₀ (norm_unit_le x) (norm_nonneg' _) (norm_unit_le y))
  have hkk : ((e + 3 + (e + 3) : Nat) : ℝ) = 2 * (e : ℝ) + 6 := by push_cast; ring
  have w1 : (((1 : ℝ) - 2 ^ (-24 : Int)) ^ (e + 3 + (e + 3)))⁻¹ ≤ 1 + (2 * (e : ℝ) + 6 + 3 / 5) * 2 ^ (-24 : Int) := by
    have hk2 : ((e + 3 + (e + 3) : Nat) : ℝ) * 2 ^ (-24 : Int) ≤ 2006 * 2 ^ (-24 : Int) :=
      mul_le_mul_of_nonneg_right (by rw [hkk]; linarith) hu0.le
    have h1 := inv_pow_le hu0.le hu1 (e + 3 + (e + 3)) (hk2.trans (by norm_num))
    refine h1.trans ?_
    have h2 : 2 * (((e + 3 + (e + 3) : Nat) : ℝ) * 2 ^ (-24 : Int)) ^ 2 ≤ 3 / 5 * 2 ^ (-24 : Int) := by
      have h3 := pow_le_pow_left₀ (mul_nonneg (Nat.cast_nonneg _) hu0.le) hk2 2
      refine (mul_le_mul_of_nonneg_left h3 (by norm_num)).trans ?_
      norm_num
    rw [hkk] at h2 ⊢
    linarith
  have w2 : (0 : ℝ) ≤ (((1 : ℝ) - 2 ^ (-24 : Int)) ^ (e + 3 + (e + 3)))⁻¹ - 1 :=
    sub_nonneg.2 ((one_le_inv₀ (pow_pos hq0 _)).2 (pow_le_one₀ hq0.le (by linarith)))
  have hL : 5 * (2 : ℝ) ^ (-150 : Int) * (c.length : ℝ) ≤ 1 / 100 * 2 ^ (-24 : Int) := by
    have h1 : (c.length : ℝ) ≤ 65536 := by rw [lc, hxd]; exact_mod_cast hd
    have := mul_le_mul_of_nonneg_left h1 (show (0 : ℝ) ≤ 5 * 2 ^ (-150 : Int) by positivity)
    refine this.trans ?_
    norm_num
  have t1 : |dot c d - cosine x y| ≤ (2 * (e : ℝ) + 6 + 61 / 100) * 2 ^ (-24 : Int) := by
    have h1 := abs_add_le (dot c d - dot e1 f) (dot e1 f - cosine x y)
    rw [sub_add_sub_cancel] at h1
    have h2 := (mul_le_mul_of_nonneg_left hA1 w2).trans
      (show ((((1 : ℝ) - 2 ^ (-24 : Int)) ^ (e + 3 + (e + 3)))⁻¹ - 1) * 1 ≤ (2 * (e : ℝ) + 6 + 3 / 5) * 2 ^ (-24 : Int) by
        rw [mul_one]; exact sub_le_iff_le_add'.2 w1)
    have h3 := add_le_add (p1.trans hL) (r1.trans h2)
    refine h1.trans (h3.trans (le_of_eq ?_))
    ring
  have t2 : absDot c d ≤ 1 + 1 / 8000 := by
    have h2 : (((1 : ℝ) - 2 ^ (-24 : Int)) ^ (e + 3 + (e + 3)))⁻¹ * absDot (unit x) (unit y) ≤
        1 + (2 * (e : ℝ) + 6 + 3 / 5) * 2 ^ (-24 : Int) := by
      calc _ ≤ (((1 : ℝ) - 2 ^ (-24 : Int)) ^ (e + 3 + (e + 3)))⁻¹ * 1 :=
            mul_le_mul_of_nonneg_left hA1 (inv_nonneg.2 (pow_pos hq0 _).le)
        _ ≤ _ := by rw [mul_one]; exact w1
    refine p2.trans ((add_le_add (r2.trans h2) hL).trans ?_)
    have h3 := mul_le_mul_of_nonneg_right he' hu0.le
    have h4 : 2 * ((1000 : ℝ) * 2 ^ (-24 : Int)) + (6 + 3 / 5) * 2 ^ (-24 : Int) + 1 / 100 * 2 ^ (-24 : Int) ≤ 1 / 8000 := by norm_num
    linarith
  obtain ⟨k', hk1, hs⟩ := hB.sdot (c.map fin) (d.map fin) (by rw [List.length_map, lc, hxd]) (by rw [List.length_map, ld, hyd])
  obtain ⟨r, e2, _, e3⟩ := acc_f32_any c d (by rw [lc, ld, hxd, hyd]) k hk (by rw [lc, hxd]; exact hd) (t2.trans (by norm_num)) _
    (hs.acc.mono hk1)
  have t3 : |r - cosine x y| ≤ ((k : ℝ) + 2 * (e : ℝ) + 15 / 2) * 2 ^ (-24 : Int) := by
    have h1 := abs_add_le (r - dot c d) (dot c d - cosine x y)
    rw [sub_add_sub_cancel] at h1
    have h2 : ((k : ℝ) + 1 / 3) * 2 ^ (-24 : Int) * absDot c d ≤ ((k : ℝ) + 3 / 5) * 2 ^ (-24 : Int) := by
      have h4 := mul_le_mul_of_nonneg_left t2 (show (0 : ℝ) ≤ ((k : ℝ) + 1 / 3) * 2 ^ (-24 : Int) by positivity)
      refine h4.trans ?_
      have h5 : ((k : ℝ) + 1 / 3) * (1 + 1 / 8000) ≤ (k : ℝ) + 3 / 5 := by linarith
      calc ((k : ℝ) + 1 / 3) * 2 ^ (-24 : Int) * (1 + 1 / 8000) = (((k : ℝ) + 1 / 3) * (1 + 1 / 8000)) * 2 ^ (-24 : Int) := by ring
        _ ≤ _ := mul_le_mul_of_nonneg_right h5 hu0.le
    have h3 : (2 : ℝ) ^ (-133 : Int) ≤ 1 / 100 * 2 ^ (-24 : Int) := by norm_num
    have h4 := add_le_add (e3.trans (add_le_add h2 h3)) t1
    refine h1.trans (h4.trans ?_)
    linarith
  have hroom : ((k : ℝ) + 2 * (e : ℝ) + 15 / 2) * 2 ^ (-24 : Int) ≤ 1 / 1000 := by
    have h3 := mul_le_mul_of_nonneg_right hk' hu0.le
    have h3' := mul_le_mul_of_nonneg_right he' hu0.le
    have h4 : (2048 : ℝ) * 2 ^ (-24 : Int) + 2 * ((1000 : ℝ) * 2 ^ (-24 : Int)) + 15 / 2 * 2 ^ (-24 : Int) ≤ 1 / 1000 := by norm_num
    linarith
  obtain ⟨v, v1, v2, v3⟩ := f32_oneMinus_err hc0 hroom t3
  refine ⟨v, ?_, v2, v3.trans ?_⟩
  · rw [ec, ed, blasDist, e2]
    exact v1
  · linarith

end Granne
