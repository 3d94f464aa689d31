import Verif.Proofs.F32Int

/-! The error of the distances of `f32` vectors in binary32 arithmetic, underflow and overflow included. -/
namespace Granne
open Spec F32

/-- Sums of two numbers of the format have a relative error only. -/
theorem rne32_add_err {a b : ℝ} (ha : rne32 a = a) (hb : rne32 b = b) :
    |rne32 (a + b) - (a + b)| ≤ 2 ^ (-24 : Int) * |a + b| := by
  have key : ∀ a : ℝ, rne32 a = a → ∃ m : Int, a = m * 2 ^ (-149 : Int) := by
    intro a ha
    have h := ulpExp_ge a
    refine ⟨roundEven (a / 2 ^ ulpExp a) * 2 ^ (ulpExp a + 149).toNat, ?_⟩
    push_cast
    rw [mul_assoc, ← zpow_natCast, ← zpow_add₀ (by norm_num), Int.toNat_of_nonneg (by omega),
      show ulpExp a + 149 + -149 = ulpExp a by omega]
    exact ha.symm
  obtain ⟨m, hm⟩ := key a ha
  obtain ⟨n, hn⟩ := key b hb
  have e : a + b = ((m + n : Int) : ℝ) * 2 ^ (-149 : Int) := by rw [hm, hn]; push_cast; ring
  rcases le_or_gt |((m + n : Int) : ℝ)| (2 ^ 24) with h | h
  · rw [e, rne32_digits h (by norm_num), sub_self, abs_zero]
    exact mul_nonneg (two_zpow_pos _).le (abs_nonneg _)
  · have hbig : (2 : ℝ) ^ (-126 : Int) ≤ |a + b| := by
      rw [e, abs_mul, abs_of_pos (two_zpow_pos _)]
      have h1 : (2 : ℝ) ^ (-126 : Int) ≤ 2 ^ 24 * 2 ^ (-149 : Int) := by
        rw [← zpow_natCast, ← zpow_add₀ (by norm_num)]; exact two_zpow_le (by norm_num)
      exact h1.trans (mul_le_mul_of_nonneg_right h.le (two_zpow_pos _).le)
    refine (rne32_err _).trans (max_le le_rfl ?_)
    have e : (2 : ℝ) ^ (-150 : Int) = 2 ^ (-24 : Int) * 2 ^ (-126 : Int) := by
      rw [← zpow_add₀ (by norm_num)]; norm_num
    rw [e]
    exact mul_le_mul_of_nonneg_left hbig (two_zpow_pos _).le

/-- The exact sum of the products. -/
noncomputable def accSum (l : List (F32 × F32)) : ℝ := (l.map fun p => p.1.val * p.2.val).sum
/-- The sum of the absolute values. -/
noncomputable def accAbs (l : List (F32 × F32)) : ℝ := (l.map fun p => |p.1.val * p.2.val|).sum

theorem accSum_le (l : List (F32 × F32)) : |accSum l| ≤ accAbs l := by
  induction l with
  | nil => simp [accSum, accAbs]
  | cons p l ih =>
    simp only [accSum, accAbs, List.map_cons, List.sum_cons] at ih ⊢
    exact (abs_add_le _ _).trans (by linarith)

theorem accAbs_nonneg (l : List (F32 × F32)) : 0 ≤ accAbs l := (abs_nonneg _).trans (accSum_le l)

theorem acc_err {l : List (F32 × F32)} {k : Nat} {v : F32} (h : Acc l k v)
    (hl : ∀ p ∈ l, ∃ a b : ℝ, p = (fin a, fin b))
    (hm : (accAbs l + l.length * 2 ^ (-150 : Int)) * (1 + 2 ^ (-24 : Int)) ^ k ≤ maxF32) :
    ∃ r, v = fin r ∧ rne32 r = r ∧
      |r - accSum l| ≤ ((1 + 2 ^ (-24 : Int)) ^ k - 1) * accAbs l
        + l.length * 2 ^ (-150 : Int) * (1 + 2 ^ (-24 : Int)) ^ k := by
  have hu : (0 : ℝ) < 2 ^ (-24 : Int) := two_zpow_pos _
  have herr : ∀ z : ℝ, |rne32 z - z| ≤ 2 ^ (-24 : Int) * |z| + 2 ^ (-150 : Int) := fun z =>
    (rne32_err z).trans (max_le
      (by have := two_zpow_pos (-150); linarith)
      (by have := mul_nonneg (two_zpow_pos (-24)).le (abs_nonneg z); linarith))
  have hadd : ∀ a b : ℝ, rne32 a = a → rne32 b = b → |rne32 (a + b) - (a + b)| ≤ 2 ^ (-24 : Int) * |a + b| :=
    fun a b => rne32_add_err
  have hη : (0 : ℝ) < 2 ^ (-150 : Int) := two_zpow_pos _
  generalize (2 : ℝ) ^ (-24 : Int) = u at *
  generalize (2 : ℝ) ^ (-150 : Int) = η at *
  induction h with
  | zero => exact ⟨0, rfl, rne32_zero, by simp [accSum, accAbs]⟩
  | @mulAdd l k c a b hc ih =>
    obtain ⟨a, b, hab⟩ := hl (a, b) (by simp)
    obtain ⟨rfl, rfl⟩ := Prod.mk.inj hab
    have hP : (1 : ℝ) ≤ (1 + u) ^ k := one_le_pow₀ (by linarith)
    have hA := accAbs_nonneg l
    have hS := accSum_le l
    have hN : (0 : ℝ) ≤ (l.length : ℝ) := Nat.cast_nonneg _
    have eA : accAbs ((fin a, fin b) :: l) = |a * b| + accAbs l := by simp [accAbs, F32.val]
    have eS : accSum ((fin a, fin b) :: l) = a * b + accSum l := by simp [accSum, F32.val]
    have hab0 := abs_nonneg (a * b)
    rw [eA] at hm ⊢
    rw [eS]
    simp only [List.length_cons, Nat.cast_add, Nat.cast_one, pow_succ] at hm ⊢
    generalize (1 + u) ^ k = P at *
    generalize accAbs l = A at *
    generalize accSum l = S at *
    generalize (l.length : ℝ) = n at *
    have hP0 : (0 : ℝ) ≤ P := by linarith
    have hAP : 0 ≤ A * P := mul_nonneg hA hP0
    have hnη : 0 ≤ n * η := mul_nonneg hN hη.le
    have hnηP : 0 ≤ n * η * P := mul_nonneg hnη hP0
    have hηP : 0 ≤ η * P := mul_nonneg hη.le hP0
    have habP : |a * b| ≤ |a * b| * P := le_mul_of_one_le_right hab0 hP
    have hηP1 : η ≤ η * P := le_mul_of_one_le_right hη.le hP
    obtain ⟨r, rfl, h1, h2⟩ := ih (fun p hp => hl p (by simp [hp])) (by
      refine le_trans ?_ hm
      nlinarith [mul_nonneg hAP hu.le, mul_nonneg hnηP hu.le, mul_nonneg hηP hu.le,
        mul_nonneg (mul_nonneg hab0 hP0) hu.le])
    have hr : |r| ≤ A * P + n * η * P := by
      have := abs_add_le (r - S) S
      rw [sub_add_cancel] at this
      nlinarith
    have hz : |a * b + r| ≤ |a * b| + (A * P + n * η * P) := (abs_add_le _ _).trans (by linarith)
    have hz2 : |rne32 (a * b + r) - (a * b + S)| ≤ |rne32 (a * b + r) - (a * b + r)| + |r - S| := by
      have := abs_add_le (rne32 (a * b + r) - (a * b + r)) (r - S)
      rwa [show rne32 (a * b + r) - (a * b + r) + (r - S) = rne32 (a * b + r) - (a * b + S) by ring] at this
    have hz3 := herr (a * b + r)
    have hz4 := mul_le_mul_of_nonneg_left hz hu.le
    have hb : |rne32 (a * b + r) - (a * b + S)| ≤ (P * (1 + u) - 1) * (|a * b| + A) + (n + 1) * η * (P * (1 + u)) := by
      have e1 : u * |a * b| ≤ u * (|a * b| * P) := mul_le_mul_of_nonneg_left habP hu.le
      have e2 := mul_nonneg hηP hu.le
      nlinarith
    have hfin : |rne32 (a * b + r)| ≤ maxF32 := by
      refine le_trans ?_ hm
      have h5 := abs_add_le (rne32 (a * b + r) - (a * b + S)) (a * b + S)
      rw [sub_add_cancel] at h5
      have h6 : |a * b + S| ≤ |a * b| + A := (abs_add_le _ _).trans (by linarith)
      nlinarith
    exact ⟨rne32 (a * b + r), ofReal_fin hfin, rne32_idem _, hb⟩
  | @add l l' k v w _ _ ih1 ih2 =>
    have hP : (1 : ℝ) ≤ (1 + u) ^ k := one_le_pow₀ (by linarith)
    have hA := accAbs_nonneg l
    have hS := accSum_le l
    have hA' := accAbs_nonneg l'
    have hS' := accSum_le l'
    have hN : (0 : ℝ) ≤ (l.length : ℝ) := Nat.cast_nonneg _
    have hN' : (0 : ℝ) ≤ (l'.length : ℝ) := Nat.cast_nonneg _
    have eA : accAbs (l ++ l') = accAbs l + accAbs l' := by simp [accAbs]
    have eS : accSum (l ++ l') = accSum l + accSum l' := by simp [accSum]
    rw [eA] at hm ⊢
    rw [eS]
    simp only [List.length_append, Nat.cast_add, pow_succ] at hm ⊢
    generalize (1 + u) ^ k = P at *
    generalize accAbs l = A at *
    generalize accSum l = S at *
    generalize (l.length : ℝ) = n at *
    generalize accAbs l' = A' at *
    generalize accSum l' = S' at *
    generalize (l'.length : ℝ) = n' at *
    have hP0 : (0 : ℝ) ≤ P := by linarith
    have hAP : 0 ≤ A * P := mul_nonneg hA hP0
    have hnηP : 0 ≤ n * η * P := mul_nonneg (mul_nonneg hN hη.le) hP0
    have hAP' : 0 ≤ A' * P := mul_nonneg hA' hP0
    have hnηP' : 0 ≤ n' * η * P := mul_nonneg (mul_nonneg hN' hη.le) hP0
    have q1 := mul_nonneg hAP hu.le
    have q2 := mul_nonneg hnηP hu.le
    have q3 := mul_nonneg hAP' hu.le
    have q4 := mul_nonneg hnηP' hu.le
    obtain ⟨r, rfl, h1, h2⟩ := ih1 (fun p hp => hl p (by simp [hp])) (le_trans (by nlinarith) hm)
    obtain ⟨s, rfl, g1, g2⟩ := ih2 (fun p hp => hl p (by simp [hp])) (le_trans (by nlinarith) hm)
    have hr : |r| ≤ A * P + n * η * P := by
      have := abs_add_le (r - S) S
      rw [sub_add_cancel] at this
      nlinarith
    have hs : |s| ≤ A' * P + n' * η * P := by
      have := abs_add_le (s - S') S'
      rw [sub_add_cancel] at this
      nlinarith
    have hz : |r + s| ≤ A * P + n * η * P + (A' * P + n' * η * P) := (abs_add_le _ _).trans (by linarith)
    have hz2 : |rne32 (r + s) - (S + S')| ≤ |rne32 (r + s) - (r + s)| + (|r - S| + |s - S'|) := by
      have h5 := abs_add_le (rne32 (r + s) - (r + s)) ((r - S) + (s - S'))
      have h6 := abs_add_le (r - S) (s - S')
      rw [show rne32 (r + s) - (r + s) + (r - S + (s - S')) = rne32 (r + s) - (S + S') by ring] at h5
      linarith
    have hz3 := hadd r s h1 g1
    have hz4 := mul_le_mul_of_nonneg_left hz hu.le
    have hb : |rne32 (r + s) - (S + S')| ≤ (P * (1 + u) - 1) * (A + A') + (n + n') * η * (P * (1 + u)) := by
      nlinarith
    have hfin : |rne32 (r + s)| ≤ maxF32 := by
      refine le_trans ?_ hm
      have h5 := abs_add_le (rne32 (r + s) - (S + S')) (S + S')
      rw [sub_add_cancel] at h5
      have h6 : |S + S'| ≤ A + A' := (abs_add_le _ _).trans (by linarith)
      nlinarith
    exact ⟨rne32 (r + s), ofReal_fin hfin, rne32_idem _, hb⟩
  | @mono l k k' v _ hk ih =>
    have hA := accAbs_nonneg l
    have hN : (0 : ℝ) ≤ (l.length : ℝ) := Nat.cast_nonneg _
    have hp := pow_le_pow_right₀ (show (1 : ℝ) ≤ 1 + u by linarith) hk
    have hN2 := mul_nonneg hN hη.le
    have h1 := mul_le_mul_of_nonneg_left hp (add_nonneg hA hN2)
    obtain ⟨r, h2, h3, h4⟩ := ih hl (h1.trans hm)
    refine ⟨r, h2, h3, h4.trans ?_⟩
    have := mul_le_mul_of_nonneg_left hp hA
    have := mul_le_mul_of_nonneg_left hp hN2
    nlinarith
  | @perm l l' k v _ hp ih =>
    have e1 : accAbs l' = accAbs l := ((hp.map _).sum_eq).symm
    have e2 : accSum l' = accSum l := ((hp.map _).sum_eq).symm
    rw [← hp.length_eq, e1] at hm
    obtain ⟨r, h1, h2, h3⟩ := ih (fun p h => hl p (hp.subset h)) hm
    exact ⟨r, h1, h2, by rw [← hp.length_eq, e1, e2]; exact h3⟩

theorem accSum_zip : ∀ x y : List ℝ, accSum ((x.map fin).zip (y.map fin)) = dot x y
  | [], _ => by simp [accSum, dot]
  | _ :: _, [] => by simp [accSum, dot]
  | a :: x, b :: y => by
    have := accSum_zip x y
    simp only [accSum, List.map_cons, List.zip_cons_cons, List.sum_cons] at this ⊢
    rw [this, dot_cons]; rfl

theorem accAbs_zip : ∀ x y : List ℝ, accAbs ((x.map fin).zip (y.map fin)) = absDot x y
  | [], _ => by simp [accAbs, absDot, dot]
  | _ :: _, [] => by simp [accAbs, absDot, dot]
  | a :: x, b :: y => by
    have := accAbs_zip x y
    simp only [accAbs, absDot, List.map_cons, List.zip_cons_cons, List.sum_cons, dot_cons] at this ⊢
    rw [this, ← abs_mul]; rfl

/-- What operations return. -/
def F32.Rounded (v : F32) : Prop := v = nan ∨ (∃ s, v = inf s) ∨ ∃ a, v = fin a ∧ rne32 a = a ∧ |a| ≤ maxF32

theorem ofReal_rounded (z : ℝ) : (ofReal z).Rounded := by
  unfold ofReal
  split
  · next h => exact Or.inr (Or.inr ⟨_, rfl, rne32_idem _, h⟩)
  · exact Or.inr (Or.inl ⟨_, rfl⟩)

theorem add_rounded (a b : F32) : (F32.add a b).Rounded := by
  cases a <;> cases b <;> simp only [F32.add]
  case fin.fin => exact ofReal_rounded _
  case inf.inf => split <;> [exact Or.inr (Or.inl ⟨_, rfl⟩); exact Or.inl rfl]
  all_goals first | exact Or.inl rfl | exact Or.inr (Or.inl ⟨_, rfl⟩)

theorem mulAdd_rounded (a b c : F32) : (F32.mulAdd a b c).Rounded := by
  unfold F32.mulAdd
  split
  · exact ofReal_rounded _
  · exact Or.inr (Or.inl ⟨_, rfl⟩)
  · exact add_rounded _ _

theorem zero_add_rounded {v : F32} (h : v.Rounded) : F32.add (fin 0) v = v := by
  rcases h with rfl | ⟨s, rfl⟩ | ⟨a, rfl, h1, h2⟩
  · rfl
  · rfl
  · show ofReal (0 + a) = fin a
    rw [zero_add, ofReal_fin (by rw [h1]; exact h2), h1]

theorem acc_rounded {l : List (F32 × F32)} {k : Nat} {v : F32} (h : Acc l k v) : v.Rounded := by
  induction h with
  | zero => exact Or.inr (Or.inr ⟨0, rfl, rne32_zero, by rw [abs_zero]; exact maxF32_pos.le⟩)
  | mulAdd a b _ _ => exact mulAdd_rounded _ _ _
  | add _ _ _ _ => exact add_rounded _ _
  | mono _ _ ih => exact ih
  | perm _ _ ih => exact ih

/-- The dot product of two finite vectors of a modest dimension. -/
theorem dotProduct_f32 (x y : List ℝ) (hlen : x.length = y.length) (hn : ModestDim x.length)
    (hb : absDot x y ≤ 2 ^ (126 : Int)) :
    ∃ r, dotProduct (x.map fin) (y.map fin) = fin r ∧ rne32 r = r ∧
      |r - dot x y| ≤ 191 / 2 * 2 ^ (-24 : Int) * absDot x y + 2 ^ (-138 : Int) := by
  have hA := absDot_nonneg x y
  have hacc := (dotProduct_acc31 (fun l k c h => zero_add_rounded (acc_rounded h)) (x.map fin) (y.map fin)
    (by simpa using hlen)).mono (k' := 95) (by rw [List.length_map]; omega)
  have hz : ((x.map fin).zip (y.map fin)).length = x.length := by
    rw [List.length_zip]; simp [hlen]
  have hP : ((1 : ℝ) + 2 ^ (-24 : Int)) ^ 95 ≤ 1 + 191 / 2 * 2 ^ (-24 : Int) := by norm_num
  have hP2 : (1 : ℝ) + 191 / 2 * 2 ^ (-24 : Int) ≤ 3 / 2 := by norm_num
  have hn' : (x.length : ℝ) ≤ 2048 := by exact_mod_cast (show x.length ≤ 2048 by omega)
  have hN : (x.length : ℝ) * 2 ^ (-150 : Int) ≤ 2 ^ (-139 : Int) := by
    have := mul_le_mul_of_nonneg_right hn' (two_zpow_pos (-150)).le
    refine this.trans (le_of_eq ?_)
    norm_num
  have h139 : (2 : ℝ) ^ (-139 : Int) * (3 / 2) ≤ 2 ^ (-138 : Int) := by norm_num
  have hmax : ((2 : ℝ) ^ (126 : Int) + 2 ^ (-139 : Int)) * (3 / 2) ≤ maxF32 := by
    refine le_trans ?_ maxF32_ge
    norm_num
  have hP0 : (0 : ℝ) ≤ (1 + 2 ^ (-24 : Int)) ^ 95 := by positivity
  have hη0 : (0 : ℝ) ≤ (x.length : ℝ) * 2 ^ (-150 : Int) := by positivity
  have h139' : (0 : ℝ) ≤ 2 ^ (-139 : Int) := by positivity
  obtain ⟨r, h1, h2, h3⟩ := acc_err hacc (by
    rintro ⟨a, b⟩ hp
    obtain ⟨ha, hb⟩ := List.of_mem_zip hp
    obtain ⟨a', _, rfl⟩ := List.mem_map.1 ha
    obtain ⟨b', _, rfl⟩ := List.mem_map.1 hb
    exact ⟨a', b', rfl⟩) (by
    rw [accAbs_zip, hz]
    refine le_trans ?_ hmax
    exact mul_le_mul (add_le_add hb hN) (hP.trans hP2) hP0 (add_nonneg (two_zpow_pos _).le h139'))
  refine ⟨r, h1, h2, ?_⟩
  rw [accAbs_zip, accSum_zip, hz] at h3
  refine h3.trans (add_le_add ?_ ?_)
  · exact mul_le_mul_of_nonneg_right (by linarith) hA
  · refine le_trans (mul_le_mul hN (hP.trans hP2) hP0 h139') h139

/-! ### Conversion -/

theorem Rel.sqrt_half {q : ℝ} {k : Nat} {a b : ℝ} (h : Rel q (2 * k) a b) (h0 : 0 < q) (hb : 0 ≤ b) :
    Rel q k (Real.sqrt a) (Real.sqrt b) := by
  obtain ⟨t, e, h2, h3⟩ := h
  have hk := pow_pos h0 k
  have ht : 0 < t := lt_of_lt_of_le (pow_pos h0 _) h2
  have ht2 := Real.sq_sqrt ht.le
  rw [mul_comm 2 k, pow_mul] at h2 h3
  refine ⟨Real.sqrt t, by rw [e, Real.sqrt_mul hb], Real.le_sqrt_of_sq_le h2, ?_⟩
  have h4 : (Real.sqrt t * q ^ k) ^ 2 ≤ 1 ^ 2 := by rw [mul_pow, ht2, one_pow]; exact h3
  exact (pow_le_pow_iff_left₀ (mul_nonneg (Real.sqrt_nonneg t) hk.le) zero_le_one two_ne_zero).1 h4

/-- The conversion of a vector that is zero or of a norm between `2^-50` and `2^63`, given the error of its dot product with itself:
close to the unit vector. -/
theorem normalize_core (x : List ℝ) (K : Nat) (hK : (1 : ℝ) / 2 ≤ (1 - 2 ^ (-24 : Int)) ^ (K + 1))
    (hself : 2 ^ (-100 : Int) ≤ dot x x → dot x x ≤ 2 ^ (126 : Int) →
      ∃ r, dotProduct (x.map fin) (x.map fin) = fin r ∧ Rel (1 - 2 ^ (-24 : Int)) (2 * K) r (dot x x))
    (hx : norm x = 0 ∨ (2 ^ (-50 : Int) ≤ norm x ∧ norm x ≤ 2 ^ (63 : Int))) :
    ∃ c e : List ℝ, normalize (x.map fin) = c.map fin ∧
      List.Forall₂ (fun c e => |c - e| ≤ 2 ^ (-150 : Int)) c e ∧
      List.Forall₂ (Rel (1 - 2 ^ (-24 : Int)) (K + 2)) e (unit x) := by
  have hq0 : (0 : ℝ) < 1 - 2 ^ (-24 : Int) := by norm_num
  have hq1 : (1 : ℝ) - 2 ^ (-24 : Int) ≤ 1 := by have := two_zpow_pos (-24); linarith
  have hsq : norm x * norm x = dot x x := Real.mul_self_sqrt (dot_self_nonneg x)
  rcases hx with hz | ⟨hlo, hhi⟩
  · have hd : dot x x = 0 := by rw [← hsq, hz, mul_zero]
    have hzero : ∀ a ∈ x, a = 0 := by
      clear hsq hz hself
      induction x with
      | nil => intro a ha; simp at ha
      | cons b x ih =>
        rw [dot_cons] at hd
        have h1 := dot_self_nonneg x
        have h2 := mul_self_nonneg b
        intro a ha
        rcases List.mem_cons.1 ha with rfl | ha
        · exact mul_self_eq_zero.1 (by linarith)
        · exact ih (by linarith) a ha
    have hdp : dotProduct (x.map fin) (x.map fin) = fin 0 := by
      have key : ∀ {l : List (F32 × F32)} {k : Nat} {v : F32}, Acc l k v → (∀ p ∈ l, p = (fin 0, fin 0)) → v = fin 0 := by
        have h0 : ofReal 0 = fin 0 := by
          rw [ofReal_fin (by rw [rne32_zero, abs_zero]; exact maxF32_pos.le), rne32_zero]
        intro l k v h
        induction h with
        | zero => intro _; rfl
        | mulAdd a b _ ih =>
          intro hl
          obtain ⟨rfl, rfl⟩ := Prod.mk.inj (hl (a, b) (by simp))
          rw [ih fun p hp => hl p (by simp [hp])]
          change ofReal (0 * 0 + 0) = _
          rw [mul_zero, add_zero, h0]
        | add _ _ ih1 ih2 =>
          intro hl
          rw [ih1 fun p hp => hl p (by simp [hp]), ih2 fun p hp => hl p (by simp [hp])]
          change ofReal (0 + 0) = _
          rw [add_zero, h0]
        | mono _ _ ih => exact ih
        | perm _ hp ih => exact fun hl => ih fun p h => hl p (hp.subset h)
      refine key (dotProduct_acc _ _ rfl) ?_
      intro p hp
      obtain ⟨a, h1, rfl⟩ := zip_self_mem hp
      obtain ⟨a, h2, rfl⟩ := List.mem_map.1 h1
      rw [hzero a h2]
    refine ⟨x, x, ?_, ?_, ?_⟩
    · unfold normalize
      rw [hdp]
      have : FloatOps.gt (FloatOps.sqrt (fin 0) : F32) (FloatOps.ofInt 0) = false := by
        rw [ofInt_zero]
        change F32.gt (if (0 : ℝ) < 0 then nan else ofReal (Real.sqrt 0)) _ = false
        rw [if_neg (lt_irrefl _), Real.sqrt_zero, ofReal_fin (by rw [rne32_zero, abs_zero]; exact maxF32_pos.le), rne32_zero]
        exact decide_eq_false (lt_irrefl _)
      simp only [this, Bool.false_eq_true, if_false]
    · rw [List.forall₂_same]
      intro a _
      rw [sub_self, abs_zero]; exact (two_zpow_pos _).le
    · rw [unit, if_neg (by rw [hz]; exact lt_irrefl _), List.forall₂_same]
      intro a _
      exact (Rel.refl a).mono hq0 hq1 (Nat.zero_le _)
  · have hN0 : 0 < norm x := lt_of_lt_of_le (two_zpow_pos _) hlo
    have hd1 : (2 : ℝ) ^ (-100 : Int) ≤ dot x x := by
      rw [← hsq]
      have := mul_self_le_mul_self (two_zpow_pos (-50)).le hlo
      refine le_trans (le_of_eq ?_) this
      rw [← zpow_add₀ (by norm_num)]; norm_num
    have hd2 : dot x x ≤ 2 ^ (126 : Int) := by
      rw [← hsq]
      refine (mul_self_le_mul_self hN0.le hhi).trans (le_of_eq ?_)
      rw [← zpow_add₀ (by norm_num)]; norm_num
    have hd0 : 0 < dot x x := lt_of_lt_of_le (two_zpow_pos _) hd1
    obtain ⟨r, h1, hrel⟩ := hself hd1 hd2
    have hrs := hrel.sqrt_half hq0 hd0.le
    change Rel _ K (Real.sqrt r) (norm x) at hrs
    have hhalf : (1 : ℝ) / 2 ≤ (1 - 2 ^ (-24 : Int)) ^ K :=
      hK.trans (pow_le_pow_of_le_one hq0.le hq1 (Nat.le_succ K))
    obtain ⟨hs1, hs2⟩ : 2 ^ (-51 : Int) ≤ Real.sqrt r ∧ Real.sqrt r ≤ 2 ^ (64 : Int) := by
      obtain ⟨t, e, t1, t2⟩ := hrs
      have t0 : (1 : ℝ) / 2 ≤ t := hhalf.trans t1
      have t3 : t ≤ 2 := by
        have := (mul_le_mul_of_nonneg_left hhalf (le_trans (by norm_num) t0 : (0 : ℝ) ≤ t)).trans t2
        clear t1 t2 hhalf hlo hhi hd1 hd2 hK
        linarith
      rw [e]
      constructor
      · rw [show (-51 : Int) = -50 + -1 by norm_num, zpow_add₀ (by norm_num)]
        exact mul_le_mul hlo (le_trans (by norm_num) t0) (by norm_num) hN0.le
      · rw [show (64 : Int) = 63 + 1 by norm_num, zpow_add₀ (by norm_num)]
        exact mul_le_mul hhi (t3.trans (by norm_num)) (by linarith) (by positivity)
    have hs0 := Real.sqrt_nonneg r
    have hr0 : 0 ≤ r := by
      by_contra h
      rw [Real.sqrt_eq_zero_of_nonpos (not_le.1 h).le] at hs1
      exact absurd hs1 (not_le.2 (two_zpow_pos _))
    have es : (FloatOps.sqrt (fin r) : F32) = fin (rne32 (Real.sqrt r)) := by
      change (if r < 0 then nan else ofReal (Real.sqrt r)) = _
      rw [if_neg (not_lt.2 hr0)]
      exact ofReal_pow (e := 64) (by norm_num) (by norm_num) (by rwa [abs_of_nonneg hs0])
    have hsr : Rel (1 - 2 ^ (-24 : Int)) (K + 1) (rne32 (Real.sqrt r)) (norm x) := by
      have h5 : Rel (1 - 2 ^ (-24 : Int)) 1 (rne32 (Real.sqrt r)) (Real.sqrt r) := rne32_rel (Or.inr (by
        rw [abs_of_nonneg hs0]; exact le_trans (two_zpow_le (by norm_num)) hs1))
      have h6 := h5.trans hrs hq0
      rwa [Nat.add_comm] at h6
    have hsp : 0 < rne32 (Real.sqrt r) := lt_of_lt_of_le (two_zpow_pos _) (pow_le_rne32 (by norm_num) hs1)
    have hb := normalize_bounded (x := x.map fin)
    have en : normalize (x.map fin) = (x.map fin).map fun a => FloatOps.div a (fin (rne32 (Real.sqrt r))) := by
      unfold normalize
      rw [h1, es]
      have : FloatOps.gt (fin (rne32 (Real.sqrt r)) : F32) (FloatOps.ofInt 0) = true := by
        rw [ofInt_zero]; exact decide_eq_true hsp
      simp only [this, if_true]
    refine ⟨x.map fun a => rne32 (a / rne32 (Real.sqrt r)),
      x.map fun a => if a / rne32 (Real.sqrt r) = 0 ∨ 2 ^ (-126 : Int) ≤ |a / rne32 (Real.sqrt r)|
        then rne32 (a / rne32 (Real.sqrt r)) else a / rne32 (Real.sqrt r), ?_, ?_, ?_⟩
    · rw [en, List.map_map, List.map_map]
      refine List.map_congr_left ?_
      intro a ha
      simp only [Function.comp]
      change (if rne32 (Real.sqrt r) = 0 then _ else ofReal (a / rne32 (Real.sqrt r))) = _
      rw [if_neg hsp.ne']
      have habs : |a| ≤ norm x := by
        refine Real.le_sqrt_of_sq_le ?_
        rw [sq_abs, sq]
        clear hsq hself hhi hlo hN0 hd1 hd2 hd0 h1 hrel hrs hsr hb en
        induction x with
        | nil => simp at ha
        | cons b x ih =>
          rw [dot_cons]
          rcases List.mem_cons.1 ha with rfl | ha
          · have := dot_self_nonneg x; linarith
          · have := ih ha; have := mul_self_nonneg b; linarith
      refine ofReal_pow (e := 2) (by norm_num) (by norm_num) ?_
      rw [abs_div, abs_of_pos hsp, div_le_iff₀ hsp]
      refine habs.trans ?_
      obtain ⟨t, e, t1, t2⟩ := hsr
      rw [e]
      have t0 : (1 : ℝ) / 2 ≤ t := hK.trans t1
      have : (2 : ℝ) ^ (2 : Int) = 4 := by norm_num
      rw [this]
      nlinarith
    · rw [List.forall₂_map_left_iff, List.forall₂_map_right_iff, List.forall₂_same]
      intro a _
      split
      · rw [sub_self, abs_zero]; exact (two_zpow_pos _).le
      · next h =>
        obtain ⟨_, h6⟩ := not_or.1 h
        refine (rne32_err _).trans (max_le ?_ le_rfl)
        have := mul_le_mul_of_nonneg_left (not_le.1 h6).le (two_zpow_pos (-24)).le
        refine this.trans (le_of_eq ?_)
        rw [← zpow_add₀ (by norm_num)]; norm_num
    · rw [unit, if_pos hN0, List.forall₂_map_left_iff, List.forall₂_map_right_iff, List.forall₂_same]
      intro a _
      have hdiv : Rel (1 - 2 ^ (-24 : Int)) (K + 1) (a / rne32 (Real.sqrt r)) (a / norm x) := by
        have := (Rel.refl (q := 1 - 2 ^ (-24 : Int)) a).div hsr hq0
        simpa using this
      split
      · next h =>
        have h6 := (rne32_rel h).trans hdiv hq0
        rwa [show 1 + (K + 1) = K + 2 by omega] at h6
      · exact hdiv.mono hq0 hq1 (by omega)

/-- The conversion of a vector of a modest dimension. -/
theorem normalize_f32 (x : List ℝ) (hn : ModestDim x.length)
    (hx : norm x = 0 ∨ (2 ^ (-50 : Int) ≤ norm x ∧ norm x ≤ 2 ^ (63 : Int))) :
    ∃ c e : List ℝ, normalize (x.map fin) = c.map fin ∧
      List.Forall₂ (fun c e => |c - e| ≤ 2 ^ (-150 : Int)) c e ∧
      List.Forall₂ (Rel (1 - 2 ^ (-24 : Int)) 50) e (unit x) := by
  have hq0 : (0 : ℝ) < 1 - 2 ^ (-24 : Int) := by norm_num
  refine normalize_core x 48 (by norm_num) (fun hd1 hd2 => ?_) hx
  have hd0 : 0 < dot x x := lt_of_lt_of_le (two_zpow_pos _) hd1
  obtain ⟨r, h1, h2, h3⟩ := dotProduct_f32 x x rfl hn (by rw [absDot_self]; exact hd2)
  rw [absDot_self] at h3
  have hrel : Rel (1 - 2 ^ (-24 : Int)) (2 * 48) r (dot x x) := by
    have h4 : |r - dot x x| ≤ 956 / 10 * 2 ^ (-24 : Int) * dot x x := by
      have h5 : (2 : ℝ) ^ (-138 : Int) ≤ 1 / 10 * 2 ^ (-24 : Int) * dot x x := by
        have := mul_le_mul_of_nonneg_left hd1 (show (0 : ℝ) ≤ 1 / 10 * 2 ^ (-24 : Int) by positivity)
        refine le_trans ?_ this
        norm_num
      refine h3.trans ?_
      rw [show (956 / 10 : ℝ) * 2 ^ (-24 : Int) * dot x x = 191 / 2 * 2 ^ (-24 : Int) * dot x x + 1 / 10 * 2 ^ (-24 : Int) * dot x x by ring]
      exact add_le_add_right h5 _
    have h6 : |r / dot x x - 1| ≤ 956 / 10 * 2 ^ (-24 : Int) := by
      rw [show r / dot x x - 1 = (r - dot x x) / dot x x by field_simp, abs_div, abs_of_pos hd0, div_le_iff₀ hd0]
      exact h4
    obtain ⟨h7, h8⟩ := abs_le.1 h6
    have n1 : ((1 : ℝ) - 2 ^ (-24 : Int)) ^ (2 * 48) ≤ 1 - 956 / 10 * 2 ^ (-24 : Int) := by norm_num
    have n2 : (1 + 956 / 10 * 2 ^ (-24 : Int)) * ((1 : ℝ) - 2 ^ (-24 : Int)) ^ (2 * 48) ≤ 1 := by norm_num
    refine ⟨r / dot x x, by field_simp, ?_, ?_⟩
    · refine n1.trans ?_
      generalize (956 / 10 : ℝ) * 2 ^ (-24 : Int) = w at *
      linarith
    · refine le_trans (mul_le_mul_of_nonneg_right ?_ (pow_pos hq0 (2 * 48)).le) n2
      generalize (956 / 10 : ℝ) * 2 ^ (-24 : Int) = w at *
      linarith
  exact ⟨r, h1, hrel⟩

/-- Small absolute changes of the components. -/
theorem dot_perturb {η : ℝ} (hη : 0 ≤ η) (hη1 : η ≤ 1) : ∀ {c e d f : List ℝ}, List.Forall₂ (fun c e => |c - e| ≤ η) c e →
    List.Forall₂ (fun d f => |d - f| ≤ η) d f → (∀ a ∈ e, |a| ≤ 2) → (∀ a ∈ f, |a| ≤ 2) →
    |dot c d - dot e f| ≤ 5 * η * c.length ∧ absDot c d ≤ absDot e f + 5 * η * c.length
  | _, _, _, _, .nil, _, _, _ => by simp [dot, absDot]
  | _, _, _, _, .cons _ _, .nil, _, _ => by simp [dot, absDot]; positivity
  | c :: cs, e :: es, d :: ds, f :: fs, .cons hc hcs, .cons hd hds, he, hf => by
    obtain ⟨h1, h2⟩ := dot_perturb hη hη1 hcs hds (fun a ha => he a (by simp [ha])) (fun a ha => hf a (by simp [ha]))
    have he0 := he e (by simp)
    have hf0 := hf f (by simp)
    have hcd : |c * d - e * f| ≤ 5 * η := by
      rw [show c * d - e * f = (c - e) * (d - f) + (c - e) * f + e * (d - f) by ring]
      have a1 := abs_add_le ((c - e) * (d - f) + (c - e) * f) (e * (d - f))
      have a2 := abs_add_le ((c - e) * (d - f)) ((c - e) * f)
      rw [abs_mul, abs_mul] at a2
      rw [abs_mul e] at a1
      have b1 : |c - e| * |d - f| ≤ η * 1 := mul_le_mul hc (hd.trans hη1) (abs_nonneg _) hη
      have b2 : |c - e| * |f| ≤ η * 2 := mul_le_mul hc hf0 (abs_nonneg _) hη
      have b3 : |e| * |d - f| ≤ 2 * η := mul_le_mul he0 hd (abs_nonneg _) (by norm_num)
      linarith
    push_cast [List.length_cons]
    constructor
    · rw [dot_cons, dot_cons, show c * d + dot cs ds - (e * f + dot es fs) = (c * d - e * f) + (dot cs ds - dot es fs) by ring]
      have := abs_add_le (c * d - e * f) (dot cs ds - dot es fs)
      linarith
    · have h3 : |c| * |d| ≤ |e| * |f| + 5 * η := by
        rw [← abs_mul, ← abs_mul]
        have := abs_add_le (c * d - e * f) (e * f)
        rw [sub_add_cancel] at this
        linarith
      rw [absDot, absDot] at h2 ⊢
      simp only [List.map_cons, dot_cons]
      linarith

theorem f32_oneMinus_err {q c E : ℝ} (hc : |c| ≤ 1) (hE : E ≤ 1 / 1000) (h : |q - c| ≤ E) :
    ∃ d, (if FloatOps.isNan (FloatOps.sub (FloatOps.ofInt 1) (fin q) : F32) then none
        else some (maxZero (FloatOps.sub (FloatOps.ofInt 1) (fin q) : F32))) = some (fin d) ∧
      0 ≤ d ∧ |d - (1 - c)| ≤ E + 3 * 2 ^ (-24 : Int) := by
  have hu0 := two_zpow_pos (-24)
  have hη : (2 : ℝ) ^ (-150 : Int) ≤ 2 ^ (-24 : Int) := two_zpow_le (by norm_num)
  have herr0 := rne32_err (1 + -q)
  generalize (2 : ℝ) ^ (-24 : Int) = u at *
  generalize (2 : ℝ) ^ (-150 : Int) = v at *
  obtain ⟨c1, c2⟩ := abs_le.1 hc
  obtain ⟨q1, q2⟩ := abs_le.1 h
  have hz : |1 + -q| ≤ 3 := by rw [abs_le]; constructor <;> linarith
  have e : (FloatOps.sub (FloatOps.ofInt 1) (fin q) : F32) = fin (rne32 (1 + -q)) := by
    rw [ofInt_one]
    refine ofReal_pow (e := 2) (by norm_num) (by norm_num) (hz.trans ?_)
    norm_num
  have herr : |rne32 (1 + -q) - (1 + -q)| ≤ 3 * u := by
    refine herr0.trans (max_le ?_ ?_)
    · have := mul_le_mul_of_nonneg_left hz hu0.le
      linarith
    · linarith
  have htot : |rne32 (1 + -q) - (1 - c)| ≤ E + 3 * u := by
    have h1 := abs_add_le (rne32 (1 + -q) - (1 + -q)) (1 + -q - (1 - c))
    rw [sub_add_sub_cancel] at h1
    have h2 : |1 + -q - (1 - c)| ≤ E := by
      rw [show 1 + -q - (1 - c) = -(q - c) by ring, abs_neg]; exact h
    linarith
  rw [e]
  have e2 : FloatOps.isNan (fin (rne32 (1 + -q)) : F32) = false := rfl
  simp only [e2, Bool.false_eq_true, if_false, maxZero, ofInt_zero]
  have e3 : FloatOps.gt (fin 0 : F32) (fin (rne32 (1 + -q))) = decide (rne32 (1 + -q) < 0) := rfl
  rw [e3]
  by_cases hneg : rne32 (1 + -q) < 0
  · rw [decide_eq_true hneg]
    refine ⟨0, by simp, le_rfl, ?_⟩
    obtain ⟨h1, h2⟩ := abs_le.1 htot
    rw [abs_le]
    constructor <;> linarith
  · rw [decide_eq_false hneg]
    exact ⟨_, by simp, not_lt.1 hneg, htot⟩

/-- The distance of two converted vectors. -/
theorem angularDist_f32 (x y : List ℝ) (hlen : x.length = y.length) (hn : ModestDim x.length)
    (hx : norm x = 0 ∨ (2 ^ (-50 : Int) ≤ norm x ∧ norm x ≤ 2 ^ (63 : Int)))
    (hy : norm y = 0 ∨ (2 ^ (-50 : Int) ≤ norm y ∧ norm y ≤ 2 ^ (63 : Int))) :
    ∃ d, angularDist (normalize (x.map fin)) (normalize (y.map fin)) = some (fin d) ∧ 0 ≤ d ∧
      |d - (1 - cosine x y)| < 200 * 2 ^ (-24 : Int) := by
  obtain ⟨c, e, ec, hce, hex⟩ := normalize_f32 x hn hx
  obtain ⟨d, f, ed, hdf, hfy⟩ := normalize_f32 y (hlen ▸ hn) hy
  have hq0 : (0 : ℝ) < 1 - 2 ^ (-24 : Int) := by norm_num
  have hc0 := abs_cosine_le x y
  have lc : c.length = x.length := by rw [hce.length_eq, hex.length_eq, unit_length]
  have ld : d.length = y.length := by rw [hdf.length_eq, hfy.length_eq, unit_length]
  have unit_abs : ∀ (x : List ℝ), ∀ a ∈ unit x, |a| ≤ 1 := by
    intro x a ha
    have h1 : |a| ≤ norm (unit x) := by
      refine Real.le_sqrt_of_sq_le ?_
      rw [sq_abs, sq]
      generalize unit x = l at ha
      induction l with
      | nil => simp at ha
      | cons b l ih =>
        rw [dot_cons]
        rcases List.mem_cons.1 ha with rfl | ha
        · have := dot_self_nonneg l; linarith
        · have := ih ha; have := mul_self_nonneg b; linarith
    exact h1.trans (norm_unit_le x)
  have hsmall : ∀ {e w : List ℝ}, List.Forall₂ (Rel (1 - 2 ^ (-24 : Int)) 50) e w → (∀ a ∈ w, |a| ≤ 1) →
      ∀ a ∈ e, |a| ≤ 2 := by
    intro e w h
    induction h with
    | nil => intro _ a ha; simp at ha
    | cons h _ ih =>
      intro hw a ha
      rcases List.mem_cons.1 ha with rfl | ha
      · have h1 := h.abs_le hq0
        have h2 := hw _ (List.mem_cons_self)
        have h3 : ((((1 : ℝ) - 2 ^ (-24 : Int)) ^ 50)⁻¹) ≤ 2 := by norm_num
        have h4 : (0 : ℝ) ≤ (((1 : ℝ) - 2 ^ (-24 : Int)) ^ 50)⁻¹ := by norm_num
        refine h1.trans ((mul_le_mul h3 h2 (abs_nonneg _) (by norm_num)).trans (by norm_num))
      · exact ih (fun b hb => hw b (List.mem_cons_of_mem _ hb)) a ha
  obtain ⟨p1, p2⟩ := dot_perturb (two_zpow_pos (-150)).le (by norm_num) hce hdf (hsmall hex (unit_abs x)) (hsmall hfy (unit_abs y))
  obtain ⟨r1, r2⟩ := dot_rel hq0 hex hfy
  rw [dot_unit] at r1
  have hA0 := absDot_nonneg (unit x) (unit y)
  have hA1 : absDot (unit x) (unit y) ≤ 1 := (absDot_le _ _).trans
    (mul_le_one₀ (norm_unit_le x) (norm_nonneg' _) (norm_unit_le y))
  have w1 : (((1 : ℝ) - 2 ^ (-24 : Int)) ^ (50 + 50))⁻¹ ≤ 1 + 201 / 2 * 2 ^ (-24 : Int) := by norm_num
  have w2 : (0 : ℝ) ≤ (((1 : ℝ) - 2 ^ (-24 : Int)) ^ (50 + 50))⁻¹ - 1 := by norm_num
  have hL : 5 * (2 : ℝ) ^ (-150 : Int) * (c.length : ℝ) ≤ 1 / 10 * 2 ^ (-24 : Int) := by
    have h1 : (c.length : ℝ) ≤ 2048 := by rw [lc]; exact_mod_cast (show x.length ≤ 2048 by omega)
    have := mul_le_mul_of_nonneg_left h1 (show (0 : ℝ) ≤ 5 * 2 ^ (-150 : Int) by positivity)
    refine this.trans ?_
    norm_num
  have t1 : |dot c d - cosine x y| ≤ 1006 / 10 * 2 ^ (-24 : Int) := by
    have h1 := abs_add_le (dot c d - dot e f) (dot e f - cosine x y)
    rw [sub_add_sub_cancel] at h1
    have h2 : ((((1 : ℝ) - 2 ^ (-24 : Int)) ^ (50 + 50))⁻¹ - 1) * absDot (unit x) (unit y) ≤ 201 / 2 * 2 ^ (-24 : Int) := by
      calc _ ≤ ((((1 : ℝ) - 2 ^ (-24 : Int)) ^ (50 + 50))⁻¹ - 1) * 1 := mul_le_mul_of_nonneg_left hA1 w2
        _ ≤ _ := by rw [mul_one]; exact sub_le_iff_le_add'.2 w1
    have h3 := add_le_add (p1.trans hL) (r1.trans h2)
    refine h1.trans (h3.trans (le_of_eq ?_))
    ring
  have t2 : absDot c d ≤ 1001 / 1000 := by
    have h2 : (((1 : ℝ) - 2 ^ (-24 : Int)) ^ (50 + 50))⁻¹ * absDot (unit x) (unit y) ≤ 1 + 201 / 2 * 2 ^ (-24 : Int) := by
      calc _ ≤ (((1 : ℝ) - 2 ^ (-24 : Int)) ^ (50 + 50))⁻¹ * 1 :=
            mul_le_mul_of_nonneg_left hA1 (by positivity)
        _ ≤ _ := by rw [mul_one]; exact w1
    refine p2.trans ((add_le_add (r2.trans h2) hL).trans ?_)
    norm_num
  obtain ⟨r, e1, _, e3⟩ := dotProduct_f32 c d (by rw [lc, ld, hlen]) (by rw [lc]; exact hn)
    (t2.trans (by norm_num))
  have t3 : |r - cosine x y| ≤ 1964 / 10 * 2 ^ (-24 : Int) := by
    have h1 := abs_add_le (r - dot c d) (dot c d - cosine x y)
    rw [sub_add_sub_cancel] at h1
    have h2 : 191 / 2 * 2 ^ (-24 : Int) * absDot c d ≤ 957 / 10 * 2 ^ (-24 : Int) := by
      have := mul_le_mul_of_nonneg_left t2 (show (0 : ℝ) ≤ 191 / 2 * 2 ^ (-24 : Int) by positivity)
      refine this.trans ?_
      norm_num
    have h3 : (2 : ℝ) ^ (-138 : Int) ≤ 1 / 10 * 2 ^ (-24 : Int) := by norm_num
    have h4 := add_le_add (e3.trans (add_le_add h2 h3)) t1
    refine h1.trans (h4.trans (le_of_eq ?_))
    ring
  obtain ⟨v, v1, v2, v3⟩ := f32_oneMinus_err hc0 (by norm_num) t3
  refine ⟨v, ?_, v2, lt_of_le_of_lt v3 ?_⟩
  · rw [ec, ed, angularDist, e1]
    exact v1
  · norm_num

end Granne
