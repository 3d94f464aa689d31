import Verif.Proofs.Rounded

/-! Scaling a vector, with rounding. -/
namespace Granne
open Spec List

section
variable {fl : ℝ → ℝ} {c : ℝ}

theorem chunksExact_map {α β : Type} (k : Nat) (f : α → β) (l : List α) :
    chunksExact k (l.map f) = (chunksExact k l).map (List.map f) := by
  simp [chunksExact, List.map_map, Function.comp_def, List.map_take, List.map_drop]

theorem laneStep_scaled (hfl : ∀ z, fl (c * z) = c * fl z) (s : List ℝ) (p q : List ℝ) :
    @laneStep ℝ (roundedOps fl).toMulAddOps (s.map (c * ·)) (p.map (c * ·), q) =
      (@laneStep ℝ (roundedOps fl).toMulAddOps s (p, q)).map (c * ·) := by
  simp only [laneStep, List.map_zipWith]
  induction p generalizing q s with
  | nil => simp
  | cons a p ih =>
    cases q with
    | nil => simp
    | cons b q =>
      cases s with
      | nil => simp
      | cons t s =>
        simp only [List.map_cons, List.zip_cons_cons, List.zipWith_cons_cons, List.cons.injEq]
        refine ⟨?_, ih s q⟩
        show fl _ = c * fl _
        rw [← hfl]; congr 1; ring

theorem lanes_scaled (hfl : ∀ z, fl (c * z) = c * fl z) (s : List ℝ) (ps qs : List (List ℝ)) :
    ((ps.map (List.map (c * ·))).zip qs).foldl (@laneStep ℝ (roundedOps fl).toMulAddOps) (s.map (c * ·)) =
      ((ps.zip qs).foldl (@laneStep ℝ (roundedOps fl).toMulAddOps) s).map (c * ·) := by
  induction ps generalizing qs s with
  | nil => simp
  | cons p ps ih =>
    cases qs with
    | nil => simp
    | cons q qs => simp only [List.map_cons, List.zip_cons_cons, List.foldl_cons, laneStep_scaled hfl, ih]

theorem dotProduct_scaled (hfl : ∀ z, fl (c * z) = c * fl z) (x y : List ℝ) :
    @dotProduct ℝ (roundedOps fl).toMulAddOps (x.map (c * ·)) y =
      c * @dotProduct ℝ (roundedOps fl).toMulAddOps x y := by
  have hsum : ∀ (l : List ℝ) (r : ℝ),
      (l.map (c * ·)).foldl (roundedOps fl).add (c * r) = c * l.foldl (roundedOps fl).add r := by
    intro l
    induction l with
    | nil => intro r; rfl
    | cons a l ih =>
      intro r
      simp only [List.map_cons, List.foldl_cons]
      rw [← ih]; congr 1
      show fl _ = c * fl _
      rw [← hfl]; congr 1; ring
  have hrem : ∀ (l m : List ℝ) (r : ℝ),
      ((l.map (c * ·)).zip m).foldl (fun r p => (roundedOps fl).mulAdd p.1 p.2 r) (c * r) =
        c * (l.zip m).foldl (fun r p => (roundedOps fl).mulAdd p.1 p.2 r) r := by
    intro l
    induction l with
    | nil => intro m r; rfl
    | cons a l ih =>
      intro m r
      cases m with
      | nil => rfl
      | cons b m =>
        simp only [List.map_cons, List.zip_cons_cons, List.foldl_cons]
        rw [← ih]; congr 1
        show fl _ = c * fl _
        rw [← hfl]; congr 1; ring
  have hz : List.replicate 32 (0 : ℝ) = (List.replicate 32 (0 : ℝ)).map (c * ·) := by simp
  simp only [dotProduct, chunksExact_map, chunksRemainder, List.length_map, ← List.map_drop]
  have hz0 : @MulAddOps.zero ℝ (roundedOps fl).toMulAddOps = 0 := rfl
  rw [hz0, ← hrem, ← hsum, ← lanes_scaled hfl, ← hz, mul_zero]

theorem dotProduct_comm_rounded (x y : List ℝ) :
    @dotProduct ℝ (roundedOps fl).toMulAddOps x y = @dotProduct ℝ (roundedOps fl).toMulAddOps y x :=
  @dotProduct_comm ℝ (roundedOps fl).toMulAddOps (fun a b c => by show fl _ = fl _; rw [mul_comm]) x y

theorem normalize_rounded_eq (h0 : fl 0 = 0) (x : List ℝ) :
    @normalize ℝ (roundedOps fl) x =
      if 0 < fl (Real.sqrt (@dotProduct ℝ (roundedOps fl).toMulAddOps x x)) then
        x.map fun a => fl (a / fl (Real.sqrt (@dotProduct ℝ (roundedOps fl).toMulAddOps x x)))
      else x := by
  have : ∀ r : ℝ, (@FloatOps.gt ℝ (roundedOps fl) r (@FloatOps.ofInt ℝ (roundedOps fl) 0) = true) = (0 < r) := by
    intro r
    show (decide (fl ((0 : Int) : ℝ) < r) = true) = _
    rw [Int.cast_zero, h0, decide_eq_true_eq]
  unfold normalize
  simp only [this]
  rfl

theorem normalize_scaled (hfl : ∀ z, fl (c * z) = c * fl z) (h0 : fl 0 = 0) (hc : 0 < c) (x : List ℝ) :
    @normalize ℝ (roundedOps fl) (x.map (c * ·)) =
      if 0 < fl (Real.sqrt (@dotProduct ℝ (roundedOps fl).toMulAddOps x x)) then @normalize ℝ (roundedOps fl) x
      else x.map (c * ·) := by
  have hn : fl (Real.sqrt (@dotProduct ℝ (roundedOps fl).toMulAddOps (x.map (c * ·)) (x.map (c * ·)))) =
      c * fl (Real.sqrt (@dotProduct ℝ (roundedOps fl).toMulAddOps x x)) := by
    rw [dotProduct_scaled hfl, dotProduct_comm_rounded, dotProduct_scaled hfl, ← mul_assoc,
      Real.sqrt_mul (mul_self_nonneg c), Real.sqrt_mul_self hc.le, hfl]
  rw [normalize_rounded_eq h0, normalize_rounded_eq h0, hn]
  by_cases h : 0 < fl (Real.sqrt (@dotProduct ℝ (roundedOps fl).toMulAddOps x x))
  · rw [if_pos (mul_pos hc h), if_pos h, if_pos h, List.map_map]
    refine List.map_congr_left fun a _ => ?_
    show fl _ = fl _
    congr 1
    exact mul_div_mul_left _ _ hc.ne'
  · rw [if_neg (fun h' => h ((mul_pos_iff_of_pos_left hc).1 h')), if_neg h]
end

theorem fl32_zero : fl32 0 = 0 := by simp [fl32]

theorem norm_pos_rounded {fl : ℝ → ℝ} {u : ℝ} (hfl : RoundsWithin fl u) (h0 : 0 ≤ u) (h1 : u < 1) (x : List ℝ)
    (hn : 0 < norm x) : 0 < fl (Real.sqrt (@dotProduct ℝ (roundedOps fl).toMulAddOps x x)) := by
  have hq : (0 : ℝ) < 1 - u := by linarith
  have ha := dotProduct_rounded hfl h0 x x rfl
  rw [absDot_self] at ha
  have hr := ((hfl.rel h0 h1 _).trans ((ha.rel h0 h1).sqrt hq (by linarith) (dot_self_nonneg x)) hq)
  change Rel (1 - u) (1 + roundings x.length) _ (norm x) at hr
  obtain ⟨t, e, h2, _⟩ := hr
  rw [e]
  exact mul_pos hn (lt_of_lt_of_le (pow_pos hq _) h2)

/-- Rounding commutes with multiplication by powers of two. -/
theorem fl32_scale (k : Int) (z : ℝ) : fl32 (2 ^ k * z) = 2 ^ k * fl32 z := by
  have hk : (0 : ℝ) < 2 ^ k := zpow_pos (by norm_num) k
  by_cases hz : z = 0
  · simp [hz, fl32_zero]
  have hp : 0 < |z| := abs_pos.2 hz
  have a1 : (2 : ℝ) ^ Int.log 2 |z| ≤ |z| := by exact_mod_cast Int.zpow_log_le_self (b := 2) (by norm_num) hp
  have a2 : |z| < (2 : ℝ) ^ (Int.log 2 |z| + 1) := by
    exact_mod_cast Int.lt_zpow_succ_log_self (b := 2) (by norm_num) |z|
  rw [fl32_eq (z := 2 ^ k * z) (e := k + Int.log 2 |z|), fl32,
    show k + Int.log 2 |z| - 23 = k + (Int.log 2 |z| - 23) by ring, zpow_add₀ (by norm_num),
    mul_div_mul_left _ _ hk.ne']
  · ring
  · rw [abs_mul, abs_of_pos hk, zpow_add₀ (by norm_num)]
    exact mul_le_mul_of_nonneg_left a1 hk.le
  · rw [abs_mul, abs_of_pos hk, add_assoc, zpow_add₀ (by norm_num)]
    exact mul_lt_mul_of_pos_left a2 hk

/-- Some component has the largest absolute value. -/
theorem exists_max_abs : ∀ {x : List ℝ}, x ≠ [] → ∃ m, (∃ a ∈ x, |a| = m) ∧ ∀ a ∈ x, |a| ≤ m
  | [a], _ => ⟨|a|, by simp, by simp⟩
  | a :: b :: t, _ => by
    obtain ⟨m, ⟨e, he, hm⟩, hall⟩ := exists_max_abs (x := b :: t) (by simp)
    rcases le_total |a| m with h | h
    · exact ⟨m, ⟨e, List.mem_cons_of_mem _ he, hm⟩, fun z hz => by
        rcases List.mem_cons.1 hz with rfl | hz
        · exact h
        · exact hall z hz⟩
    · exact ⟨|a|, ⟨a, by simp, rfl⟩, fun z hz => by
        rcases List.mem_cons.1 hz with rfl | hz
        · exact le_rfl
        · exact (hall z hz).trans h⟩

theorem quantize_scaled {fl : ℝ → ℝ} {c : ℝ} (h127 : fl 127 = 127) (hc : 0 < c)
    (hscale : ∀ z, fl (c * z) = c * fl z) (x : List ℝ) :
    @quantize ℝ (roundedOps fl) (x.map (c * ·)) = @quantize ℝ (roundedOps fl) x := by
  by_cases hx : x = []
  · rw [hx]; rfl
  obtain ⟨m, ⟨e, he, hm⟩, hall⟩ := exists_max_abs hx
  rw [quantize_rounded fl h127 x m ⟨e, he, hm⟩ hall,
    quantize_rounded fl h127 (x.map (c * ·)) (c * m) ⟨c * e, List.mem_map.2 ⟨e, he, rfl⟩, by
      rw [abs_mul, abs_of_pos hc, hm]⟩, List.map_map]
  · congr 1
    refine List.map_congr_left fun a _ => ?_
    simp only [Function.comp_apply]
    rw [mul_assoc, hscale, mul_div_mul_left _ _ hc.ne']
  · intro a ha
    obtain ⟨b, hb, rfl⟩ := List.mem_map.1 ha
    rw [abs_mul, abs_of_pos hc]
    exact mul_le_mul_of_nonneg_left (hall b hb) hc.le

end Granne
