import Verif.Model.Rounded
import Verif.Proofs.Quantize
import Mathlib.Algebra.Order.Ring.Pow
import Mathlib.Tactic.GCongr
import Mathlib.Tactic.Positivity
import Mathlib.Tactic.FieldSimp

/-! Rounding errors of the dot product and of the angular distance. -/
namespace Granne
open Spec

section dot
variable {fl : ℝ → ℝ} {u : ℝ}

/-- `c` approximates `s` after `k` roundings, the absolute values of the terms adding up to `A`. -/
structure Approx (u : ℝ) (k : Nat) (c s A : ℝ) : Prop where
  err : |c - s| ≤ ((1 + u) ^ k - 1) * A
  le : |s| ≤ A
  /-- if no term is negative, the error is relative -/
  lower : u ≤ 1 → s = A → (1 - u) ^ k * A ≤ c

theorem Approx.nonneg {k : Nat} {c s A : ℝ} (h : Approx u k c s A) : 0 ≤ A := (abs_nonneg s).trans h.le

theorem one_le_pow_u (hu : 0 ≤ u) (k : Nat) : 1 ≤ (1 + u) ^ k := one_le_pow₀ (by linarith)

theorem Approx.mono {k k' : Nat} {c s A : ℝ} (h : Approx u k c s A) (hu : 0 ≤ u) (hk : k ≤ k') : Approx u k' c s A := by
  refine ⟨h.err.trans ?_, h.le, fun h1 hs => ?_⟩
  · have := pow_le_pow_right₀ (show (1 : ℝ) ≤ 1 + u by linarith) hk
    exact mul_le_mul_of_nonneg_right (by linarith) h.nonneg
  · have := pow_le_pow_of_le_one (show (0 : ℝ) ≤ 1 - u by linarith) (by linarith) hk
    exact (mul_le_mul_of_nonneg_right this h.nonneg).trans (h.lower h1 hs)

theorem Approx.abs_le {k : Nat} {c s A : ℝ} (h : Approx u k c s A) : |c| ≤ (1 + u) ^ k * A := by
  have h1 : |c| ≤ |c - s| + |s| := by
    have := abs_add_le (c - s) s
    rwa [sub_add_cancel] at this
  have := h.err
  have := h.le
  linarith

/-- One rounding of the sum of two approximations. -/
theorem Approx.add {k : Nat} {a s A b t B : ℝ} (h1 : Approx u k a s A) (h2 : Approx u k b t B)
    (hfl : RoundsWithin fl u) (hu : 0 ≤ u) : Approx u (k + 1) (fl (a + b)) (s + t) (A + B) := by
  have e1 := hfl (a + b)
  refine ⟨?_, (abs_add_le s t).trans (add_le_add h1.le h2.le), fun hu1 hst => ?_⟩
  swap
  · have hs := (le_abs_self s).trans h1.le
    have ht := (le_abs_self t).trans h2.le
    have l1 := h1.lower hu1 (by linarith)
    have l2 := h2.lower hu1 (by linarith)
    have hp : 0 ≤ (1 - u) ^ k := pow_nonneg (by linarith) k
    have hab : (1 - u) ^ k * (A + B) ≤ a + b := by linarith
    have hab0 : 0 ≤ a + b := le_trans (mul_nonneg hp (add_nonneg h1.nonneg h2.nonneg)) hab
    rw [abs_of_nonneg hab0] at e1
    have e2 := (_root_.abs_le.1 e1).1
    rw [pow_succ]
    nlinarith
  have e2 : |a + b| ≤ (1 + u) ^ k * (A + B) := by
    have := abs_add_le a b
    have := h1.abs_le
    have := h2.abs_le
    linarith
  have e3 : |fl (a + b) - (s + t)| ≤ |fl (a + b) - (a + b)| + |a - s| + |b - t| := by
    have e : fl (a + b) - (s + t) = (fl (a + b) - (a + b)) + (a - s) + (b - t) := by ring
    rw [e]
    have := abs_add_le ((fl (a + b) - (a + b)) + (a - s)) (b - t)
    have := abs_add_le (fl (a + b) - (a + b)) (a - s)
    linarith
  have e4 := h1.err
  have e5 := h2.err
  have e6 : u * |a + b| ≤ u * ((1 + u) ^ k * (A + B)) := mul_le_mul_of_nonneg_left e2 hu
  rw [pow_succ]
  nlinarith

theorem Approx.exact (c : ℝ) : Approx u 0 c c |c| := ⟨by simp, le_rfl, fun _ h => by simp [← h]⟩

theorem Approx.mulAdd {k : Nat} {c s A : ℝ} (a b : ℝ) (h : Approx u k c s A) (hfl : RoundsWithin fl u) (hu : 0 ≤ u) :
    Approx u (k + 1) (fl (a * b + c)) (a * b + s) (|a| * |b| + A) := by
  have h1 : Approx u k (a * b) (a * b) (|a| * |b|) := by
    have := (Approx.exact (u := u) (a * b)).mono hu (Nat.zero_le k)
    rwa [abs_mul] at this
  exact h1.add h hfl hu

/-- Lanes: every lane approximates. -/
def Lanes (u : ℝ) (k : Nat) (c : List ℝ) (t : List (ℝ × ℝ)) : Prop :=
  List.Forall₂ (fun c p => Approx u k c p.1 p.2) c t

theorem lanes_step (hfl : RoundsWithin fl u) (hu : 0 ≤ u) {k : Nat} : ∀ {c : List ℝ} {t : List (ℝ × ℝ)} {a b : List ℝ},
    Lanes u k c t → c.length = a.length → a.length = b.length →
    ∃ t', Lanes u (k + 1) (@laneStep ℝ (roundedOps fl).toMulAddOps c (a, b)) t' ∧
      (t'.map Prod.fst).sum = dot a b + (t.map Prod.fst).sum ∧
      (t'.map Prod.snd).sum = absDot a b + (t.map Prod.snd).sum
  | [], [], [], [], _, _, _ => ⟨[], List.Forall₂.nil, by simp [dot], by simp [dot, absDot]⟩
  | c :: cs, p :: t, a :: as, b :: bs, h, h1, h2 => by
    obtain ⟨hc, ht⟩ := List.forall₂_cons.1 h
    obtain ⟨t', h3, h4, h5⟩ := lanes_step hfl hu ht (show cs.length = as.length by simpa using h1)
      (show as.length = bs.length by simpa using h2)
    refine ⟨(a * b + p.1, |a| * |b| + p.2) :: t', ?_, ?_, ?_⟩
    · exact List.Forall₂.cons (hc.mulAdd a b hfl hu) h3
    · rw [List.map_cons, List.sum_cons, h4, dot_cons, List.map_cons, List.sum_cons]; ring
    · rw [List.map_cons, List.sum_cons, h5, absDot, absDot, List.map_cons, List.map_cons, dot_cons, List.map_cons,
        List.sum_cons]; ring
  | [], _ :: _, _, _, h, _, _ => by cases h
  | _ :: _, [], _, _, h, _, _ => by cases h
  | [], [], _ :: _, _, _, h, _ => by simp at h
  | [], [], [], _ :: _, _, _, h => by simp at h
  | _ :: _, _ :: _, [], _, _, h, _ => by simp at h
  | _ :: _, _ :: _, _ :: _, [], _, _, h => by simp at h

theorem lanes_fold (hfl : RoundsWithin fl u) (hu : 0 ≤ u) : ∀ (ps : List (List ℝ × List ℝ)) (k : Nat) (c : List ℝ)
    (t : List (ℝ × ℝ)), Lanes u k c t → c.length = 32 → (∀ p ∈ ps, p.1.length = 32 ∧ p.2.length = 32) →
    ∃ t', Lanes u (k + ps.length) (ps.foldl (@laneStep ℝ (roundedOps fl).toMulAddOps) c) t' ∧
      (t'.map Prod.fst).sum = (ps.map fun p => dot p.1 p.2).sum + (t.map Prod.fst).sum ∧
      (t'.map Prod.snd).sum = (ps.map fun p => absDot p.1 p.2).sum + (t.map Prod.snd).sum ∧
      (ps.foldl (@laneStep ℝ (roundedOps fl).toMulAddOps) c).length = 32
  | [], k, c, t, h, hc, _ => ⟨t, by simpa using h, by simp, by simp, hc⟩
  | (a, b) :: ps, k, c, t, h, hc, hp => by
    have hab := hp (a, b) (by simp)
    obtain ⟨t1, h1, h2, h3⟩ := lanes_step hfl hu h (hc.trans hab.1.symm) (hab.1.trans hab.2.symm)
    obtain ⟨t2, h4, h5, h6, h7⟩ := lanes_fold hfl hu ps (k + 1) _ t1 h1
      (@laneStep_length ℝ (roundedOps fl).toMulAddOps _ _ _ _ hc hab.1 hab.2) (fun p h => hp p (by simp [h]))
    refine ⟨t2, ?_, ?_, ?_, h7⟩
    · rw [List.length_cons, show k + (ps.length + 1) = k + 1 + ps.length by omega]
      exact h4
    · rw [h5, h2, List.map_cons, List.sum_cons]; ring
    · rw [h6, h3, List.map_cons, List.sum_cons]; ring

theorem sum_fold (hfl : RoundsWithin fl u) (hu : 0 ≤ u) {k : Nat} : ∀ (c : List ℝ) (t : List (ℝ × ℝ)) (j : Nat) (r s A : ℝ),
    Lanes u k c t → Approx u (k + j) r s A →
    Approx u (k + j + c.length) (c.foldl (fun a b => fl (a + b)) r) (s + (t.map Prod.fst).sum) (A + (t.map Prod.snd).sum)
  | [], [], j, r, s, A, _, hr => by simpa using hr
  | c :: cs, p :: t, j, r, s, A, h, hr => by
    obtain ⟨hc, ht⟩ := List.forall₂_cons.1 h
    have h1 := hr.add (hc.mono hu (show k ≤ k + j by omega)) hfl hu
    have := sum_fold hfl hu cs t (j + 1) _ _ _ ht (show Approx u (k + (j + 1)) _ _ _ from h1)
    rw [List.foldl_cons, List.length_cons, show k + j + (cs.length + 1) = k + (j + 1) + cs.length by omega]
    convert this using 1 <;> simp <;> ring
  | [], _ :: _, _, _, _, _, h, _ => by cases h
  | _ :: _, [], _, _, _, _, h, _ => by cases h

theorem rem_fold (hfl : RoundsWithin fl u) (hu : 0 ≤ u) : ∀ (x y : List ℝ) (k : Nat) (r s A : ℝ), x.length = y.length →
    Approx u k r s A →
    Approx u (k + x.length) ((x.zip y).foldl (fun r (p : ℝ × ℝ) => fl (p.1 * p.2 + r)) r) (s + dot x y) (A + absDot x y)
  | [], [], k, r, s, A, _, h => by simpa [dot, absDot] using h
  | a :: x, b :: y, k, r, s, A, hl, h => by
    have := rem_fold hfl hu x y (k + 1) _ _ _ (by simpa using hl) (h.mulAdd a b hfl hu)
    rw [List.zip_cons_cons, List.foldl_cons, List.length_cons, show k + (x.length + 1) = k + 1 + x.length by omega]
    convert this using 1
    · rw [dot_cons]; ring
    · rw [absDot, List.map_cons, List.map_cons, dot_cons, absDot]; ring
  | [], _ :: _, _, _, _, _, h, _ => by simp at h
  | _ :: _, [], _, _, _, _, h, _ => by simp at h

theorem absDot_append {a b c d : List ℝ} (h : a.length = b.length) :
    absDot (a ++ c) (b ++ d) = absDot a b + absDot c d := by
  rw [absDot, List.map_append, List.map_append, dot_append (by simpa using h)]; rfl

theorem absDot_flatten : ∀ (xs ys : List (List ℝ)), (∀ c ∈ xs, c.length = 32) → (∀ c ∈ ys, c.length = 32) →
    xs.length = ys.length → absDot xs.flatten ys.flatten = ((xs.zip ys).map fun p => absDot p.1 p.2).sum
  | [], [], _, _, _ => by simp [dot, absDot]
  | [], _ :: _, _, _, h => by simp at h
  | _ :: _, [], _, _, h => by simp at h
  | a :: xs, b :: ys, hx, hy, h => by
    rw [List.flatten_cons, List.flatten_cons, absDot_append ((hx a (by simp)).trans (hy b (by simp)).symm),
      absDot_flatten xs ys (fun c hc => hx c (by simp [hc])) (fun c hc => hy c (by simp [hc])) (by simpa using h)]
    simp

theorem dotProduct_rounded (hfl : RoundsWithin fl u) (hu : 0 ≤ u) (x y : List ℝ) (h : x.length = y.length) :
    Approx u (roundings x.length) (@dotProduct ℝ (roundedOps fl).toMulAddOps x y) (dot x y) (absDot x y) := by
  have e1 : @dotProduct ℝ (roundedOps fl).toMulAddOps x y
      = ((chunksRemainder 32 x).zip (chunksRemainder 32 y)).foldl (fun r (p : ℝ × ℝ) => fl (p.1 * p.2 + r))
        ((((chunksExact 32 x).zip (chunksExact 32 y)).foldl (@laneStep ℝ (roundedOps fl).toMulAddOps)
          (List.replicate 32 0)).foldl (fun a b => fl (a + b)) 0) := rfl
  have h0 : Lanes u 0 (List.replicate 32 0) (List.replicate 32 ((0 : ℝ), (0 : ℝ))) := by
    refine List.forall₂_iff_get.2 ⟨by simp, ?_⟩
    intro i h1 h2
    simp only [List.get_eq_getElem, List.getElem_replicate]
    exact ⟨by simp, by simp, by simp⟩
  have hlen : ((chunksExact 32 x).zip (chunksExact 32 y)).length = x.length / 32 := by
    rw [List.length_zip, chunksExact_length, chunksExact_length, h, Nat.min_self]
  obtain ⟨t, h1, h2, h3, h4⟩ := lanes_fold hfl hu ((chunksExact 32 x).zip (chunksExact 32 y)) 0 _ _ h0 (by simp)
    (fun p hp => zip_chunks_mem hp)
  have h5 := sum_fold hfl hu _ t 0 0 0 0 h1 ⟨by simp, by simp, by simp⟩
  have h6 := rem_fold hfl hu (chunksRemainder 32 x) (chunksRemainder 32 y) _ _ _ _
    (by rw [chunksRemainder_length, chunksRemainder_length, h]) h5
  rw [h4, chunksRemainder_length, hlen, h2, h3] at h6
  have hx := congrArg List.length (chunksExact_flatten 32 x)
  have hy := congrArg List.length (chunksExact_flatten 32 y)
  rw [List.length_append, chunksRemainder_length] at hx hy
  rw [h] at hx
  have hfl : (chunksExact 32 x).flatten.length = (chunksExact 32 y).flatten.length := by omega
  have d1 : dot x y = dot (chunksExact 32 x).flatten (chunksExact 32 y).flatten
      + dot (chunksRemainder 32 x) (chunksRemainder 32 y) := by
    rw [← dot_append hfl, chunksExact_flatten, chunksExact_flatten]
  have d2 : absDot x y = absDot (chunksExact 32 x).flatten (chunksExact 32 y).flatten
      + absDot (chunksRemainder 32 x) (chunksRemainder 32 y) := by
    rw [← absDot_append hfl, chunksExact_flatten, chunksExact_flatten]
  have hcl : (chunksExact 32 x).length = (chunksExact 32 y).length := by
    rw [chunksExact_length, chunksExact_length, h]
  rw [e1, d1, d2, dot_flatten _ _ (fun c => chunksExact_mem) (fun c => chunksExact_mem) hcl,
    absDot_flatten _ _ (fun c => chunksExact_mem) (fun c => chunksExact_mem) hcl]
  simp only [List.map_replicate, List.sum_replicate, smul_zero, add_zero, zero_add] at h6
  exact h6

end dot

/-! ### Relative errors -/

section rel
variable {fl : ℝ → ℝ} {u q : ℝ}

/-- `a` is `b`, up to a factor between `q^k` and `q^(-k)`. -/
def Rel (q : ℝ) (k : Nat) (a b : ℝ) : Prop := ∃ t, a = b * t ∧ q ^ k ≤ t ∧ t * q ^ k ≤ 1

theorem Rel.refl (a : ℝ) : Rel q 0 a a := ⟨1, by simp, by simp, by simp⟩

theorem Rel.mono {k k' : Nat} {a b : ℝ} (h : Rel q k a b) (h0 : 0 < q) (h1 : q ≤ 1) (hk : k ≤ k') : Rel q k' a b := by
  obtain ⟨t, e, h2, h3⟩ := h
  have := pow_le_pow_of_le_one h0.le h1 hk
  have ht : 0 < t := lt_of_lt_of_le (pow_pos h0 k) h2
  exact ⟨t, e, this.trans h2, (mul_le_mul_of_nonneg_left this ht.le).trans h3⟩

theorem Rel.mul {k l : Nat} {a b c d : ℝ} (h : Rel q k a b) (h' : Rel q l c d) (h0 : 0 < q) :
    Rel q (k + l) (a * c) (b * d) := by
  obtain ⟨t, e, h2, h3⟩ := h
  obtain ⟨s, e', h2', h3'⟩ := h'
  have hk := pow_pos h0 k
  have hl := pow_pos h0 l
  refine ⟨t * s, by rw [e, e']; ring, ?_, ?_⟩
  · rw [pow_add]; exact mul_le_mul h2 h2' hl.le (hk.le.trans h2)
  · rw [pow_add, show t * s * (q ^ k * q ^ l) = (t * q ^ k) * (s * q ^ l) by ring]
    exact mul_le_one₀ h3 (mul_nonneg (hl.le.trans h2') hl.le) h3'

theorem Rel.inv {k : Nat} {a b : ℝ} (h : Rel q k a b) (h0 : 0 < q) : Rel q k a⁻¹ b⁻¹ := by
  obtain ⟨t, e, h2, h3⟩ := h
  have hk := pow_pos h0 k
  have ht : 0 < t := lt_of_lt_of_le hk h2
  refine ⟨t⁻¹, by rw [e, mul_inv], ?_, ?_⟩
  · rw [le_inv_comm₀ hk ht, ← one_div]
    rwa [le_div_iff₀ hk]
  · rw [inv_mul_le_iff₀ ht, mul_one]; exact h2

theorem Rel.div {k l : Nat} {a b c d : ℝ} (h : Rel q k a b) (h' : Rel q l c d) (h0 : 0 < q) :
    Rel q (k + l) (a / c) (b / d) := by
  rw [div_eq_mul_inv, div_eq_mul_inv]
  exact h.mul (h'.inv h0) h0

theorem Rel.trans {k l : Nat} {a b c : ℝ} (h : Rel q k a b) (h' : Rel q l b c) (h0 : 0 < q) : Rel q (k + l) a c := by
  obtain ⟨t, e, h2, h3⟩ := h
  obtain ⟨s, e', h2', h3'⟩ := h'
  have hk := pow_pos h0 k
  have hl := pow_pos h0 l
  refine ⟨t * s, by rw [e, e']; ring, ?_, ?_⟩
  · rw [pow_add]; exact mul_le_mul h2 h2' hl.le (hk.le.trans h2)
  · rw [pow_add, show t * s * (q ^ k * q ^ l) = (t * q ^ k) * (s * q ^ l) by ring]
    exact mul_le_one₀ h3 (mul_nonneg (hl.le.trans h2') hl.le) h3'

theorem Rel.sqrt {k : Nat} {a b : ℝ} (h : Rel q k a b) (h0 : 0 < q) (h1 : q ≤ 1) (hb : 0 ≤ b) :
    Rel q k (Real.sqrt a) (Real.sqrt b) := by
  obtain ⟨t, e, h2, h3⟩ := h
  have hk := pow_pos h0 k
  have hk1 : q ^ k ≤ 1 := pow_le_one₀ h0.le h1
  have ht : 0 < t := lt_of_lt_of_le hk h2
  refine ⟨Real.sqrt t, by rw [e, Real.sqrt_mul hb], ?_, ?_⟩
  · apply Real.le_sqrt_of_sq_le
    nlinarith
  · have : Real.sqrt t ≤ (q ^ k)⁻¹ := by
      apply Real.sqrt_le_iff.2 ⟨(inv_pos.2 hk).le, ?_⟩
      have h4 : t ≤ (q ^ k)⁻¹ := by rw [← one_div, le_div_iff₀ hk]; exact h3
      have h5 : 1 ≤ (q ^ k)⁻¹ := (one_le_inv₀ hk).2 hk1
      nlinarith
    calc Real.sqrt t * q ^ k ≤ (q ^ k)⁻¹ * q ^ k := mul_le_mul_of_nonneg_right this hk.le
      _ = 1 := inv_mul_cancel₀ hk.ne'

theorem Rel.abs_sub_le {k : Nat} {a b : ℝ} (h : Rel q k a b) (h0 : 0 < q) : |a - b| ≤ ((q ^ k)⁻¹ - 1) * |b| := by
  obtain ⟨t, e, h2, h3⟩ := h
  have hk := pow_pos h0 k
  have h4 : t ≤ (q ^ k)⁻¹ := by rw [← one_div, le_div_iff₀ hk]; exact h3
  rw [e, show b * t - b = (t - 1) * b by ring, abs_mul]
  apply mul_le_mul_of_nonneg_right _ (abs_nonneg b)
  rw [abs_le]
  constructor
  · have h5 : q ^ k * (q ^ k)⁻¹ = 1 := mul_inv_cancel₀ hk.ne'
    have h6 : 0 < (q ^ k)⁻¹ := inv_pos.2 hk
    nlinarith [sq_nonneg (q ^ k - 1), sq_nonneg ((q ^ k)⁻¹ - q ^ k), sq_nonneg ((q ^ k)⁻¹ - 1), mul_pos hk h6]
  · linarith

theorem Rel.abs_le {k : Nat} {a b : ℝ} (h : Rel q k a b) (h0 : 0 < q) : |a| ≤ (q ^ k)⁻¹ * |b| := by
  have := h.abs_sub_le h0
  have h1 : |a| ≤ |a - b| + |b| := by
    have := abs_add_le (a - b) b
    rwa [sub_add_cancel] at this
  linarith

theorem Spec.RoundsWithin.rel (hfl : RoundsWithin fl u) (h0 : 0 ≤ u) (h1 : u < 1) (z : ℝ) : Rel (1 - u) 1 (fl z) z := by
  by_cases hz : z = 0
  · have := hfl z
    rw [hz, abs_zero, mul_zero] at this
    rw [hz]
    have h2 : fl 0 = 0 := by
      have := abs_nonpos_iff.1 this
      linarith
    rw [h2]
    exact ⟨1, by simp, by simp; exact h0, by simp; exact h0⟩
  · have h2 := hfl z
    have hz' : 0 < |z| := abs_pos.2 hz
    have h3 : |fl z / z - 1| ≤ u := by
      rw [show fl z / z - 1 = (fl z - z) / z by field_simp, abs_div, div_le_iff₀ hz']
      exact h2
    obtain ⟨h4, h5⟩ := abs_le.1 h3
    refine ⟨fl z / z, by field_simp, by rw [pow_one]; linarith, ?_⟩
    rw [pow_one]
    nlinarith

theorem Spec.RoundsWithin.zero (hfl : RoundsWithin fl u) : fl 0 = 0 := by
  have := hfl 0
  rw [abs_zero, mul_zero] at this
  have := abs_nonpos_iff.1 this
  linarith

/-- The squared norm: all terms are non-negative, so the error is relative. -/
theorem Approx.rel {k : Nat} {c s : ℝ} (h : Approx u k c s s) (h0 : 0 ≤ u) (h1 : u < 1) : Rel (1 - u) k c s := by
  have hs : 0 ≤ s := (abs_nonneg s).trans h.le
  by_cases hz : s = 0
  · have := h.err
    rw [hz, mul_zero, sub_zero] at this
    rw [hz, abs_nonpos_iff.1 this]
    refine ⟨1, by simp, ?_, ?_⟩
    · exact pow_le_one₀ (by linarith) (by linarith)
    · rw [one_mul]; exact pow_le_one₀ (by linarith) (by linarith)
  · have hs' : 0 < s := lt_of_le_of_ne hs (Ne.symm hz)
    have h2 : |c / s - 1| ≤ (1 + u) ^ k - 1 := by
      rw [show c / s - 1 = (c - s) / s by field_simp, abs_div, abs_of_pos hs', div_le_iff₀ hs']
      exact h.err
    obtain ⟨h4, h5⟩ := _root_.abs_le.1 h2
    refine ⟨c / s, by field_simp, ?_, ?_⟩
    · rw [le_div_iff₀ hs']; exact h.lower h1.le rfl
    · have b2 : (1 + u) ^ k * (1 - u) ^ k ≤ 1 := by
        rw [← mul_pow]
        apply pow_le_one₀ <;> nlinarith
      have : 0 < (1 - u) ^ k := pow_pos (by linarith) k
      nlinarith

/-! ### The distance of two converted vectors -/

theorem absDot_self (x : List ℝ) : absDot x x = dot x x := by
  induction x with
  | nil => simp [absDot, dot]
  | cons a x ih =>
    rw [absDot, List.map_cons, dot_cons, dot_cons, ← ih, abs_mul_abs_self]; rfl

theorem norm_abs (x : List ℝ) : norm (x.map fun a => |a|) = norm x := by
  rw [norm, norm]
  congr 1
  exact absDot_self x

theorem absDot_le (x y : List ℝ) : absDot x y ≤ norm x * norm y := by
  have := abs_dot_le (x.map fun a => |a|) (y.map fun a => |a|)
  rw [norm_abs, norm_abs] at this
  exact (le_abs_self _).trans this

theorem absDot_nonneg : ∀ x y : List ℝ, 0 ≤ absDot x y
  | [], y => by simp [absDot, dot]
  | _ :: _, [] => by simp [absDot, dot]
  | a :: x, b :: y => by
    have := absDot_nonneg x y
    rw [absDot, List.map_cons, List.map_cons, dot_cons]
    exact add_nonneg (mul_nonneg (abs_nonneg a) (abs_nonneg b)) this

/-- Componentwise relative errors. -/
theorem dot_rel (h0 : 0 < q) {k l : Nat} : ∀ {x x' y y' : List ℝ}, List.Forall₂ (Rel q k) x' x →
    List.Forall₂ (Rel q l) y' y →
    |dot x' y' - dot x y| ≤ ((q ^ (k + l))⁻¹ - 1) * absDot x y ∧ absDot x' y' ≤ (q ^ (k + l))⁻¹ * absDot x y
  | _, _, _, _, List.Forall₂.nil, _ => by simp [dot, absDot]
  | _, _, _, _, List.Forall₂.cons _ _, List.Forall₂.nil => by simp [dot, absDot]
  | a :: x, a' :: x', b :: y, b' :: y', List.Forall₂.cons ha hx, List.Forall₂.cons hb hy => by
    obtain ⟨h1, h2⟩ := dot_rel h0 hx hy
    have h3 := (ha.mul hb h0).abs_sub_le h0
    have h4 := (ha.mul hb h0).abs_le h0
    rw [abs_mul a b] at h3
    rw [abs_mul a b, abs_mul a' b'] at h4
    constructor
    · rw [dot_cons, dot_cons, absDot, List.map_cons, List.map_cons, dot_cons]
      rw [absDot] at h1
      have e : a' * b' + dot x' y' - (a * b + dot x y) = (a' * b' - a * b) + (dot x' y' - dot x y) := by ring
      rw [e]
      have := abs_add_le (a' * b' - a * b) (dot x' y' - dot x y)
      linarith
    · rw [absDot, absDot, List.map_cons, List.map_cons, List.map_cons, List.map_cons, dot_cons, dot_cons]
      rw [absDot, absDot] at h2
      linarith

/-- Either the vector is zero and is left alone, or every component is close to that of the unit vector. -/
theorem normalize_rounded (hfl : RoundsWithin fl u) (h0 : 0 ≤ u) (h1 : u < 1) (x : List ℝ) :
    List.Forall₂ (Rel (1 - u) (roundings x.length + 2)) (@normalize ℝ (roundedOps fl) x) (unit x) := by
  have hq : (0 : ℝ) < 1 - u := by linarith
  have hq1 : (1 : ℝ) - u ≤ 1 := by linarith
  have ha := dotProduct_rounded hfl h0 x x rfl
  rw [absDot_self] at ha
  have hr := ((hfl.rel h0 h1 _).trans ((ha.rel h0 h1).sqrt hq hq1 (dot_self_nonneg x)) hq)
  set c := @dotProduct ℝ (roundedOps fl).toMulAddOps x x
  have e : @normalize ℝ (roundedOps fl) x
      = if decide (fl ((0 : Int) : ℝ) < fl (Real.sqrt c)) = true then x.map fun a => fl (a / fl (Real.sqrt c)) else x := rfl
  rw [e, Int.cast_zero, hfl.zero]
  change Rel (1 - u) (1 + roundings x.length) (fl (Real.sqrt c)) (norm x) at hr
  by_cases hn : 0 < norm x
  · have hpos : 0 < fl (Real.sqrt c) := by
      obtain ⟨t, e, h2, _⟩ := hr
      rw [e]
      exact mul_pos hn (lt_of_lt_of_le (pow_pos hq _) h2)
    rw [if_pos (by simpa using hpos), unit, if_pos hn, List.forall₂_map_left_iff, List.forall₂_map_right_iff,
      List.forall₂_same]
    intro a _
    have := (hfl.rel h0 h1 (a / fl (Real.sqrt c))).trans ((Rel.refl a).div hr hq) hq
    rwa [show 1 + (0 + (1 + roundings x.length)) = roundings x.length + 2 by omega] at this
  · have hz : norm x = 0 := le_antisymm (not_lt.1 hn) (norm_nonneg' x)
    have hc : fl (Real.sqrt c) = 0 := by
      obtain ⟨t, e, _, _⟩ := hr
      rw [e, hz, zero_mul]
    rw [hc, if_neg (by simp), unit, if_neg hn, List.forall₂_same]
    intro a _
    exact (Rel.refl a).mono hq hq1 (Nat.zero_le _)

theorem norm_unit_le (x : List ℝ) : norm (unit x) ≤ 1 := by
  rw [norm, dot_unit]
  calc Real.sqrt (cosine x x) ≤ Real.sqrt 1 := Real.sqrt_le_sqrt ((le_abs_self _).trans (abs_cosine_le x x))
    _ = 1 := Real.sqrt_one

/-- The rounding error of the dot product of two converted vectors. -/
theorem dot_normalized_rounded (hfl : RoundsWithin fl u) (h0 : 0 ≤ u) (h1 : u < 1) (x y : List ℝ)
    (hlen : x.length = y.length) :
    |@dotProduct ℝ (roundedOps fl).toMulAddOps (@normalize ℝ (roundedOps fl) x) (@normalize ℝ (roundedOps fl) y)
      - cosine x y| ≤ ((1 - u) ^ (3 * roundings x.length + 4))⁻¹ - 1 := by
  have hq : (0 : ℝ) < 1 - u := by linarith
  have hx := normalize_rounded hfl h0 h1 x
  have hy := normalize_rounded hfl h0 h1 y
  rw [← hlen] at hy
  set x' := @normalize ℝ (roundedOps fl) x
  set y' := @normalize ℝ (roundedOps fl) y
  have hl : x'.length = x.length := by rw [hx.length_eq, unit_length]
  have hl' : y'.length = x.length := by rw [hy.length_eq, unit_length, hlen]
  obtain ⟨h2, h3⟩ := dot_rel hq hx hy
  have h4 := (dotProduct_rounded hfl h0 x' y' (hl.trans hl'.symm)).err
  rw [hl] at h4
  rw [dot_unit] at h2
  set r := @dotProduct ℝ (roundedOps fl).toMulAddOps x' y'
  set K := roundings x.length
  set A := absDot (unit x) (unit y)
  have hA0 : 0 ≤ A := absDot_nonneg _ _
  have hA1 : A ≤ 1 := by
    refine (absDot_le _ _).trans ?_
    exact mul_le_one₀ (norm_unit_le x) (norm_nonneg' _) (norm_unit_le y)
  set W := ((1 - u) ^ (K + 2 + (K + 2)))⁻¹
  have hW : 0 < W := inv_pos.2 (pow_pos hq _)
  have hV : (1 + u) ^ K ≤ ((1 - u) ^ K)⁻¹ := by
    rw [← one_div, le_div_iff₀ (pow_pos hq K), ← mul_pow]
    apply pow_le_one₀ <;> nlinarith
  have hE : ((1 - u) ^ (3 * K + 4))⁻¹ = ((1 - u) ^ K)⁻¹ * W := by
    rw [show 3 * K + 4 = K + (K + 2 + (K + 2)) by omega, pow_add, mul_inv]
  have h5 : |r - cosine x y| ≤ |r - dot x' y'| + |dot x' y' - cosine x y| := by
    have := abs_add_le (r - dot x' y') (dot x' y' - cosine x y)
    rwa [show r - dot x' y' + (dot x' y' - cosine x y) = r - cosine x y by ring] at this
  have h6 : 1 ≤ (1 + u) ^ K := one_le_pow_u h0 K
  have h7 : |r - cosine x y| ≤ ((1 + u) ^ K * W - 1) * A := by nlinarith
  have h8 : (1 + u) ^ K * W ≤ ((1 - u) ^ K)⁻¹ * W := mul_le_mul_of_nonneg_right hV hW.le
  have h9 : 0 ≤ ((1 - u) ^ K)⁻¹ * W - 1 := by
    rw [← hE, sub_nonneg]
    exact (one_le_inv₀ (pow_pos hq _)).2 (pow_le_one₀ hq.le (by linarith))
  rw [hE]
  calc |r - cosine x y| ≤ ((1 + u) ^ K * W - 1) * A := h7
    _ ≤ (((1 - u) ^ K)⁻¹ * W - 1) * A := mul_le_mul_of_nonneg_right (by linarith) hA0
    _ ≤ ((1 - u) ^ K)⁻¹ * W - 1 := by nlinarith

theorem angularDist_rounded_eq (hfl : RoundsWithin fl u) (hone : fl 1 = 1) (x y : List ℝ) :
    @angularDist ℝ (roundedOps fl) x y
      = some (max 0 (fl (1 - @dotProduct ℝ (roundedOps fl).toMulAddOps x y))) := by
  have e : @angularDist ℝ (roundedOps fl) x y = some (if decide (fl (fl ((1 : Int) : ℝ)
      - @dotProduct ℝ (roundedOps fl).toMulAddOps x y) < fl ((0 : Int) : ℝ)) = true then fl ((0 : Int) : ℝ)
      else fl (fl ((1 : Int) : ℝ) - @dotProduct ℝ (roundedOps fl).toMulAddOps x y)) := rfl
  rw [e, Int.cast_zero, Int.cast_one, hfl.zero, hone]
  congr 1
  by_cases h : fl (1 - @dotProduct ℝ (roundedOps fl).toMulAddOps x y) < 0
  · rw [if_pos (by simpa using h), max_eq_left h.le]
  · rw [if_neg (by simpa using h), max_eq_right (not_lt.1 h)]

theorem angularDist_rounded (hfl : RoundsWithin fl u) (h0 : 0 ≤ u) (h1 : u < 1) (hone : fl 1 = 1) (x y : List ℝ)
    (hlen : x.length = y.length) :
    ∃ d, @angularDist ℝ (roundedOps fl) (@normalize ℝ (roundedOps fl) x) (@normalize ℝ (roundedOps fl) y) = some d ∧
      0 ≤ d ∧ |d - (1 - cosine x y)| ≤ (1 + u) * (((1 - u) ^ (3 * roundings x.length + 4))⁻¹ - 1) + 2 * u := by
  rw [angularDist_rounded_eq hfl hone]
  have h2 := dot_normalized_rounded hfl h0 h1 x y hlen
  set r := @dotProduct ℝ (roundedOps fl).toMulAddOps (@normalize ℝ (roundedOps fl) x) (@normalize ℝ (roundedOps fl) y)
  refine ⟨_, rfl, le_max_left _ _, ?_⟩
  have hc := abs_le.1 (abs_cosine_le x y)
  have hd := hfl (1 - r)
  set E := ((1 - u) ^ (3 * roundings x.length + 4))⁻¹ - 1
  have h3 : |1 - r| ≤ 2 + E := by
    have := abs_add_le (1 - cosine x y) (cosine x y - r)
    rw [show 1 - cosine x y + (cosine x y - r) = 1 - r by ring, abs_sub_comm (cosine x y) r,
      abs_of_nonneg (show 0 ≤ 1 - cosine x y by linarith)] at this
    linarith
  have h4 : |fl (1 - r) - (1 - cosine x y)| ≤ (1 + u) * E + 2 * u := by
    have := abs_add_le (fl (1 - r) - (1 - r)) (cosine x y - r)
    rw [show fl (1 - r) - (1 - r) + (cosine x y - r) = fl (1 - r) - (1 - cosine x y) by ring,
      abs_sub_comm (cosine x y) r] at this
    nlinarith
  refine le_trans ?_ h4
  have h5 : 0 ≤ 1 - cosine x y := by linarith
  by_cases h : fl (1 - r) < 0
  · rw [max_eq_left h.le, abs_sub_comm, abs_sub_comm (fl (1 - r))]
    rw [abs_of_nonneg (by linarith), abs_of_nonneg (by linarith)]
    linarith
  · rw [max_eq_right (not_lt.1 h)]

end rel

/-! ### 24 binary digits -/

theorem fl32_rounds : RoundsWithin fl32 (2 ^ (-24 : Int)) := by
  intro z
  by_cases hz : z = 0
  · simp [hz, fl32]
  have hz' : 0 < |z| := abs_pos.2 hz
  have h2 : (2 : ℝ) ^ Int.log 2 |z| ≤ |z| := by
    have := Int.zpow_log_le_self (b := 2) (r := |z|) (by norm_num) hz'
    exact_mod_cast this
  set e := Int.log 2 |z|
  have hp : (0 : ℝ) < 2 ^ (e - 23) := zpow_pos (by norm_num) _
  have h3 := abs_sub_round (z / 2 ^ (e - 23))
  have h4 : fl32 z - z = -((z / 2 ^ (e - 23) - round (z / 2 ^ (e - 23))) * 2 ^ (e - 23)) := by
    rw [sub_mul, div_mul_cancel₀ _ hp.ne', fl32]
    ring
  rw [h4, abs_neg, abs_mul, abs_of_pos hp]
  calc |z / 2 ^ (e - 23) - round (z / 2 ^ (e - 23))| * 2 ^ (e - 23) ≤ 1 / 2 * 2 ^ (e - 23) :=
        mul_le_mul_of_nonneg_right h3 hp.le
    _ = 2 ^ (-24 : Int) * 2 ^ e := by
      rw [show e - 23 = e + (-24 : Int) + 1 by ring, zpow_add₀ (by norm_num), zpow_add₀ (by norm_num)]
      ring
    _ ≤ 2 ^ (-24 : Int) * |z| := mul_le_mul_of_nonneg_left h2 (zpow_pos (by norm_num) _).le

/-- `fl32` on a binade. -/
theorem fl32_eq {z : ℝ} {e : Int} (h1 : (2 : ℝ) ^ e ≤ |z|) (h2 : |z| < 2 ^ (e + 1)) :
    fl32 z = (round (z / 2 ^ (e - 23)) : ℝ) * 2 ^ (e - 23) := by
  have hz : 0 < |z| := lt_of_lt_of_le (zpow_pos (by norm_num) _) h1
  have : Int.log 2 |z| = e := by
    apply le_antisymm
    · have := (Int.lt_zpow_iff_log_lt (b := 2) (by norm_num) (x := e + 1) hz).1 (by exact_mod_cast h2)
      omega
    · exact (Int.zpow_le_iff_le_log (b := 2) (by norm_num) hz).1 (by exact_mod_cast h1)
  rw [fl32, this]

theorem fl32_one : fl32 1 = 1 := by
  rw [fl32_eq (e := 0) (by norm_num) (by norm_num)]
  have : (1 : ℝ) / 2 ^ ((0 : Int) - 23) = ((8388608 : Int) : ℝ) := by norm_num
  rw [this, round_intCast]
  norm_num

/-! ### Quantisation with rounding -/

theorem foldl_max_rounded (fl : ℝ → ℝ) : ∀ (l : List ℝ) (a : ℝ),
    l.foldl (fun (m b : ℝ) => if @FloatOps.gt ℝ (roundedOps fl) m b then m else b) a = l.foldl (fun m b => max m b) a
  | [], a => rfl
  | b :: l, a => by
    rw [List.foldl_cons, List.foldl_cons, ← foldl_max_rounded fl l]
    congr 1
    show (if decide (b < a) = true then a else b) = max a b
    by_cases h : b < a
    · rw [if_pos (by simpa using h), max_eq_left h.le]
    · rw [if_neg (by simpa using h), max_eq_right (not_lt.1 h)]

theorem maxOf_rounded (fl : ℝ → ℝ) (x : List ℝ) (m : ℝ) (hm : m ∈ x) (hall : ∀ a ∈ x, a ≤ m) :
    @maxOf ℝ (roundedOps fl) x = some m := by
  cases x with
  | nil => simp at hm
  | cons a t =>
    rw [@maxOf.eq_def ℝ (roundedOps fl)]
    simp only
    rw [foldl_max_rounded]
    congr 1
    obtain ⟨h1, h2, h3⟩ := foldl_max_spec t a
    apply le_antisymm
    · rcases h1 with h1 | h1
      · rw [h1]; exact hall a (by simp)
      · exact hall _ (by simp [h1])
    · rcases List.mem_cons.1 hm with rfl | hm
      · exact h2
      · exact h3 m hm

theorem quantize_rounded (fl : ℝ → ℝ) (h127 : fl 127 = 127) (x : List ℝ) (m : ℝ) (hm : ∃ a ∈ x, |a| = m)
    (hall : ∀ a ∈ x, |a| ≤ m) :
    @quantize ℝ (roundedOps fl) x = some (x.map fun a => truncI8 (fl (fl (a * 127) / m))) := by
  rw [@quantize.eq_def ℝ (roundedOps fl), if_neg]
  · have e : x.map (@FloatOps.abs ℝ (roundedOps fl)) = x.map fun a => |a| := rfl
    rw [e, maxOf_rounded fl (x.map fun a => |a|) m (by simpa using hm) (by simpa using hall)]
    simp only
    congr 1
    apply List.map_congr_left
    intro a _
    show truncI8 (fl (fl (a * fl ((127 : Int) : ℝ)) / m)) = _
    norm_num [h127]
  · have : ∀ a : ℝ, @FloatOps.isNan ℝ (roundedOps fl) a = false := fun _ => rfl
    simp [this]

/-- Truncation on the slightly larger range that rounding can give. -/
theorem truncI8_wide {a : ℝ} (h1 : -128 < a) (h2 : a < 128) :
    (-127 ≤ truncI8 a ∧ truncI8 a ≤ 127) ∧ (0 ≤ a → 0 ≤ truncI8 a) ∧ (a ≤ 0 → truncI8 a ≤ 0) ∧
    |(truncI8 a : ℝ) - a| < 1 := by
  have e : truncI8 a = if 0 ≤ a then ⌊a⌋ else ⌈a⌉ := by
    rw [truncI8]
    split
    · rename_i h
      have : ⌊a⌋ < 128 := Int.floor_lt.2 (by exact_mod_cast h2)
      have : 0 ≤ ⌊a⌋ := Int.floor_nonneg.2 h
      omega
    · rename_i h
      have : -128 < ⌈a⌉ := Int.lt_ceil.2 (by exact_mod_cast h1)
      have : ⌈a⌉ ≤ 0 := Int.ceil_le.2 (by push_cast; linarith)
      omega
  rw [e]
  by_cases h : 0 ≤ a
  · rw [if_pos h]
    have hf : 0 ≤ ⌊a⌋ := Int.floor_nonneg.2 h
    have h127 : ⌊a⌋ < 128 := Int.floor_lt.2 (by exact_mod_cast h2)
    refine ⟨⟨by omega, by omega⟩, fun _ => hf, fun h' => ?_, ?_⟩
    · have : a = 0 := le_antisymm h' h
      subst this
      simp
    · rw [abs_lt]
      have := Int.floor_le a
      have := Int.lt_floor_add_one a
      constructor <;> linarith
  · rw [if_neg h]
    push Not at h
    have hc : ⌈a⌉ ≤ 0 := Int.ceil_le.2 (by push_cast; linarith)
    have h127 : -128 < ⌈a⌉ := Int.lt_ceil.2 (by exact_mod_cast h1)
    refine ⟨⟨by omega, by omega⟩, fun h' => absurd h' (not_le.2 h), fun _ => hc, ?_⟩
    rw [abs_lt]
    have := Int.le_ceil a
    have := Int.ceil_lt_add_one a
    constructor <;> linarith

theorem quantize_component_rounded {fl : ℝ → ℝ} {u : ℝ} (hfl : RoundsWithin fl u) (h0 : 0 ≤ u) (h1 : u ≤ 2 ^ (-10 : Int))
    {a m : ℝ} (hm : 0 < m) (ha : |a| ≤ m) :
    let z := fl (fl (a * 127) / m)
    |z - a * 127 / m| ≤ 127 * (2 * u + u ^ 2) ∧ -128 < z ∧ z < 128 ∧ (0 ≤ a → 0 ≤ z) ∧ (a ≤ 0 → z ≤ 0) := by
  have h1' : u ≤ 1 / 1024 := by
    refine h1.trans (le_of_eq ?_)
    norm_num
  intro z
  have hr := (hfl.rel h0 (by linarith) (fl (a * 127) / m)).trans
    ((hfl.rel h0 (by linarith) (a * 127)).div (Rel.refl m) (by linarith)) (show (0 : ℝ) < 1 - u by linarith)
  have e1 := hfl (a * 127)
  have e2 := hfl (fl (a * 127) / m)
  have hb : |a * 127 / m| ≤ 127 := by
    rw [abs_div, abs_mul, abs_of_pos hm, div_le_iff₀ hm]
    norm_num
    linarith
  have e3 : |fl (a * 127) / m - a * 127 / m| ≤ 127 * u := by
    rw [← sub_div, abs_div, abs_of_pos hm, div_le_iff₀ hm]
    refine e1.trans ?_
    rw [abs_mul]
    norm_num
    nlinarith
  have e4 : |fl (a * 127) / m| ≤ 127 * (1 + u) := by
    have := abs_add_le (fl (a * 127) / m - a * 127 / m) (a * 127 / m)
    rw [sub_add_cancel] at this
    linarith
  have main : |z - a * 127 / m| ≤ 127 * (2 * u + u ^ 2) := by
    have := abs_add_le (z - fl (a * 127) / m) (fl (a * 127) / m - a * 127 / m)
    rw [show z - fl (a * 127) / m + (fl (a * 127) / m - a * 127 / m) = z - a * 127 / m by ring] at this
    have h5 := mul_le_mul_of_nonneg_left e4 h0
    change |z - fl (a * 127) / m| ≤ _ at e2
    nlinarith
  have hsmall : 127 * (2 * u + u ^ 2) < 1 := by nlinarith
  obtain ⟨m1, m2⟩ := abs_le.1 main
  obtain ⟨b1, b2⟩ := abs_le.1 hb
  refine ⟨main, by linarith, by linarith, ?_, ?_⟩
  · intro ha0
    obtain ⟨t, e, h2, _⟩ := hr
    change z = _ at e
    rw [e]
    have : 0 < t := lt_of_lt_of_le (pow_pos (by linarith) _) h2
    positivity
  · intro ha0
    obtain ⟨t, e, h2, _⟩ := hr
    change z = _ at e
    rw [e]
    have : 0 < t := lt_of_lt_of_le (pow_pos (by linarith) _) h2
    exact mul_nonpos_of_nonpos_of_nonneg (div_nonpos_of_nonpos_of_nonneg (by linarith) hm.le) this.le

theorem fl32_127 : fl32 127 = 127 := by
  rw [fl32_eq (e := 6) (by norm_num) (by norm_num)]
  have : (127 : ℝ) / 2 ^ ((6 : Int) - 23) = ((16646144 : Int) : ℝ) := by norm_num
  rw [this, round_intCast]
  norm_num

/-- The `f32` number nearest to 1.1. -/
theorem quantize_fl32_example :
    @quantize ℝ (roundedOps fl32) [9227469 / 8388608] = some [126] := by
  rw [quantize_rounded fl32 fl32_127 _ (9227469 / 8388608)
    ⟨9227469 / 8388608, by simp, abs_of_pos (by norm_num)⟩ (by simp [abs_div])]
  have e1 : fl32 (9227469 / 8388608 * 127) = 9155379 / 65536 := by
    rw [fl32_eq (e := 7) (by norm_num) (by norm_num)]
    have : round ((9227469 / 8388608 * 127 : ℝ) / 2 ^ ((7 : Int) - 23)) = 9155379 := by
      rw [round_eq, Int.floor_eq_iff]
      constructor <;> norm_num
    rw [this]
    norm_num
  have e2 : fl32 (9155379 / 65536 / (9227469 / 8388608)) = 16646143 / 131072 := by
    rw [fl32_eq (e := 6) (by norm_num) (by norm_num)]
    have : round ((9155379 / 65536 / (9227469 / 8388608) : ℝ) / 2 ^ ((6 : Int) - 23)) = 16646143 := by
      rw [round_eq, Int.floor_eq_iff]
      constructor <;> norm_num
    rw [this]
    norm_num
  simp only [List.map_cons, List.map_nil, e1, e2]
  congr 2
  rw [truncI8, if_pos (by norm_num)]
  have : ⌊(16646143 / 131072 : ℝ)⌋ = 126 := by
    rw [Int.floor_eq_iff]
    constructor <;> norm_num
  rw [this]
  rfl

end Granne
