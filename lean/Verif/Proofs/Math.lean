import Verif.Model.Math
import Verif.Spec.Math
import Mathlib.Tactic.Ring
import Mathlib.Tactic.Linarith
import Mathlib.Algebra.BigOperators.Group.List.Basic

/-! The dot product, norms, the Cauchy-Schwarz inequality for lists. -/
namespace Granne
open Spec

section chunks
variable {α : Type}

theorem chunksExact_flatten (k : Nat) (l : List α) : (chunksExact k l).flatten ++ chunksRemainder k l = l := by
  have key : ∀ m : Nat, m ≤ l.length / k →
      ((List.range m).map fun i => (l.drop (i * k)).take k).flatten = l.take (m * k) := by
    intro m
    induction m with
    | zero => simp
    | succ m ih =>
      intro h
      rw [List.range_succ, List.map_append, List.flatten_append, ih (by omega)]
      simp only [List.map_cons, List.map_nil, List.flatten_cons, List.flatten_nil, List.append_nil]
      rw [Nat.succ_mul, List.take_add]
  rw [chunksExact, chunksRemainder, key _ le_rfl, List.take_append_drop]

theorem chunksExact_length (k : Nat) (l : List α) : (chunksExact k l).length = l.length / k := by
  simp [chunksExact]

theorem chunksExact_mem {k : Nat} {l c : List α} (h : c ∈ chunksExact k l) : c.length = k := by
  obtain ⟨i, hi, rfl⟩ := List.mem_map.1 h
  rw [List.mem_range] at hi
  rw [List.length_take, List.length_drop]
  have : (i + 1) * k ≤ l.length := (Nat.mul_le_mul_right k hi).trans (Nat.div_mul_le_self _ _)
  rw [Nat.add_mul, Nat.one_mul] at this
  omega

theorem chunksRemainder_length (k : Nat) (l : List α) : (chunksRemainder k l).length = l.length % k := by
  rw [chunksRemainder, List.length_drop, Nat.mod_eq_sub_div_mul]

end chunks

section ring
variable {R : Type} [CommRing R]

theorem dot_append {a b c d : List R} (h : a.length = b.length) : dot (a ++ c) (b ++ d) = dot a b + dot c d := by
  rw [dot, List.zipWith_append h, List.sum_append, dot, dot]

theorem dot_comm (x y : List R) : dot x y = dot y x := by
  rw [dot, dot, List.zipWith_comm_of_comm mul_comm]

theorem dot_cons (a b : R) (x y : List R) : dot (a :: x) (b :: y) = a * b + dot x y := by simp [dot]

theorem dot_nil_left (y : List R) : dot ([] : List R) y = 0 := by simp [dot]
theorem dot_nil_right (x : List R) : dot x ([] : List R) = 0 := by simp [dot]

/-- The dot product of chunks of equal shape. -/
theorem dot_flatten : ∀ (xs ys : List (List R)), (∀ c ∈ xs, c.length = 32) → (∀ c ∈ ys, c.length = 32) →
    xs.length = ys.length → dot xs.flatten ys.flatten = ((xs.zip ys).map fun p => dot p.1 p.2).sum
  | [], [], _, _, _ => by simp [dot]
  | [], _ :: _, _, _, h => by simp at h
  | _ :: _, [], _, _, h => by simp at h
  | a :: xs, b :: ys, hx, hy, h => by
    rw [List.flatten_cons, List.flatten_cons, dot_append ((hx a (by simp)).trans (hy b (by simp)).symm),
      dot_flatten xs ys (fun c hc => hx c (by simp [hc])) (fun c hc => hy c (by simp [hc])) (by simpa using h)]
    simp

theorem laneStep_length {F : Type} [MulAddOps F] {chunk a b : List F} {n : Nat} (hc : chunk.length = n)
    (ha : a.length = n) (hb : b.length = n) : (laneStep chunk (a, b)).length = n := by
  simp [laneStep, hc, ha, hb]

theorem laneStep_sum : ∀ (chunk a b : List R), chunk.length = a.length → a.length = b.length →
    (@laneStep R (ringMulAdd R) chunk (a, b)).sum = dot a b + chunk.sum
  | [], [], [], _, _ => by simp [laneStep, dot]
  | c :: cs, a :: as, b :: bs, h1, h2 => by
    have := laneStep_sum cs as bs (by simpa using h1) (by simpa using h2)
    rw [dot_cons, List.sum_cons]
    have e : @laneStep R (ringMulAdd R) (c :: cs) (a :: as, b :: bs)
        = (a * b + c) :: @laneStep R (ringMulAdd R) cs (as, bs) := rfl
    rw [e, List.sum_cons, this]
    ring
  | [], [], _ :: _, _, h => by simp at h
  | [], _ :: _, _, h, _ => by simp at h
  | _ :: _, [], _, h, _ => by simp at h
  | _ :: _, _ :: _, [], _, h => by simp at h

theorem lanes_foldl : ∀ (ps : List (List R × List R)) (chunk : List R), chunk.length = 32 →
    (∀ p ∈ ps, p.1.length = 32 ∧ p.2.length = 32) →
    (ps.foldl (@laneStep R (ringMulAdd R)) chunk).sum = chunk.sum + (ps.map fun p => dot p.1 p.2).sum
  | [], chunk, _, _ => by simp
  | (a, b) :: ps, chunk, hc, hp => by
    have hab := hp (a, b) (by simp)
    rw [List.foldl_cons, lanes_foldl ps _ (@laneStep_length R (ringMulAdd R) _ _ _ _ hc hab.1 hab.2)
      (fun p h => hp p (by simp [h])), laneStep_sum chunk a b (hc.trans hab.1.symm) (hab.1.trans hab.2.symm)]
    simp
    ring

theorem rem_foldl : ∀ (x y : List R) (r : R),
    (x.zip y).foldl (fun r (p : R × R) => p.1 * p.2 + r) r = r + dot x y
  | [], y, r => by simp [dot]
  | a :: x, [], r => by simp [dot]
  | a :: x, b :: y, r => by
    rw [List.zip_cons_cons, List.foldl_cons, rem_foldl x y, dot_cons]
    ring

theorem foldl_add_eq_sum : ∀ (l : List R) (r : R), l.foldl (fun a b => a + b) r = r + l.sum
  | [], r => by simp
  | a :: l, r => by rw [List.foldl_cons, foldl_add_eq_sum l, List.sum_cons]; ring

theorem zip_chunks_mem {F : Type} {x y : List F} {p : List F × List F} (h : p ∈ (chunksExact 32 x).zip (chunksExact 32 y)) :
    p.1.length = 32 ∧ p.2.length = 32 :=
  ⟨chunksExact_mem (List.of_mem_zip h).1, chunksExact_mem (List.of_mem_zip h).2⟩

theorem dotProduct_ring (x y : List R) (h : x.length = y.length) : @dotProduct R (ringMulAdd R) x y = dot x y := by
  have e1 : @dotProduct R (ringMulAdd R) x y
      = ((chunksRemainder 32 x).zip (chunksRemainder 32 y)).foldl (fun r (p : R × R) => p.1 * p.2 + r)
        ((((chunksExact 32 x).zip (chunksExact 32 y)).foldl (@laneStep R (ringMulAdd R))
          (List.replicate 32 0)).foldl (fun a b => a + b) 0) := rfl
  rw [e1, rem_foldl, foldl_add_eq_sum, lanes_foldl _ _ (by simp) (fun p hp => zip_chunks_mem hp),
    ← dot_flatten _ _ (fun c => chunksExact_mem) (fun c => chunksExact_mem)
      (by rw [chunksExact_length, chunksExact_length, h])]
  conv_rhs => rw [← chunksExact_flatten 32 x, ← chunksExact_flatten 32 y, dot_append (by
    have hx := congrArg List.length (chunksExact_flatten 32 x)
    have hy := congrArg List.length (chunksExact_flatten 32 y)
    rw [List.length_append, chunksRemainder_length] at hx hy
    rw [h] at hx
    omega)]
  simp

end ring

/-! ### A map that respects the operations -/

theorem dotProduct_map {F G : Type} [MulAddOps F] [MulAddOps G] (φ : F → G) (h0 : φ MulAddOps.zero = MulAddOps.zero)
    (ha : ∀ a b, φ (MulAddOps.add a b) = MulAddOps.add (φ a) (φ b))
    (hm : ∀ a b c, φ (MulAddOps.mulAdd a b c) = MulAddOps.mulAdd (φ a) (φ b) (φ c)) (x y : List F) :
    dotProduct (x.map φ) (y.map φ) = φ (dotProduct x y) := by
  have hchunks : ∀ l : List F, chunksExact 32 (l.map φ) = (chunksExact 32 l).map (List.map φ) := by
    intro l
    simp [chunksExact, List.map_take, List.map_drop, Function.comp_def]
  have hrem : ∀ l : List F, chunksRemainder 32 (l.map φ) = (chunksRemainder 32 l).map φ := by
    intro l
    simp [chunksRemainder, List.map_drop]
  have hstep : ∀ (c a b : List F), laneStep (c.map φ) (a.map φ, b.map φ) = (laneStep c (a, b)).map φ := by
    intro c a b
    rw [laneStep, laneStep, List.map_zipWith]
    simp only [List.zip_map, List.zipWith_map, hm]
    rfl
  have hfold : ∀ (ps : List (List F × List F)) (c : List F),
      (ps.map fun p => (p.1.map φ, p.2.map φ)).foldl laneStep (c.map φ) = (ps.foldl laneStep c).map φ := by
    intro ps
    induction ps with
    | nil => intro c; rfl
    | cons p ps ih => intro c; rw [List.map_cons, List.foldl_cons, List.foldl_cons, hstep, ih]
  have hsum : ∀ (l : List F) (r : F), (l.map φ).foldl MulAddOps.add (φ r) = φ (l.foldl MulAddOps.add r) := by
    intro l
    induction l with
    | nil => intro r; rfl
    | cons a l ih => intro r; rw [List.map_cons, List.foldl_cons, List.foldl_cons, ← ha, ih]
  have hrest : ∀ (ps : List (F × F)) (r : F),
      (ps.map (Prod.map φ φ)).foldl (fun r p => MulAddOps.mulAdd p.1 p.2 r) (φ r)
        = φ (ps.foldl (fun r p => MulAddOps.mulAdd p.1 p.2 r) r) := by
    intro ps
    induction ps with
    | nil => intro r; rfl
    | cons p ps ih =>
      intro r
      rw [List.map_cons, List.foldl_cons, List.foldl_cons, ← ih, hm]
      rfl
  unfold dotProduct
  simp only [hchunks, hrem, List.zip_map]
  rw [← hrest, ← hsum, ← h0, ← hfold]
  simp only [List.map_replicate]
  rfl

theorem dotProduct_some (x y : List ℝ) (h : x.length = y.length) :
    dotProduct (F := ExactF) (x.map some) (y.map some) = some (dot x y) := by
  rw [← dotProduct_ring x y h]
  exact @dotProduct_map ℝ ExactF (ringMulAdd ℝ) _ some rfl (fun _ _ => rfl) (fun _ _ _ => rfl) x y

/-- Only symmetry of `mul_add` in its factors is needed, which `f32` has. -/
theorem dotProduct_comm {F : Type} [MulAddOps F] (hc : ∀ a b c : F, MulAddOps.mulAdd a b c = MulAddOps.mulAdd b a c)
    (x y : List F) : dotProduct x y = dotProduct y x := by
  have hz : ∀ (a b : List F), a.zip b = (b.zip a).map Prod.swap := fun a b => by rw [List.zip_swap]
  have hz' : ∀ (a b : List (List F)), a.zip b = (b.zip a).map Prod.swap := fun a b => by rw [List.zip_swap]
  have hstep : ∀ (c : List F) (p : List F × List F), laneStep c p.swap = laneStep c p := by
    intro c p
    rw [laneStep, laneStep]
    show List.zipWith _ (p.2.zip p.1) c = _
    rw [hz p.2 p.1, List.zipWith_map_left]
    congr 1
    funext q r
    exact hc _ _ _
  unfold dotProduct
  simp only
  rw [hz (chunksRemainder 32 x), hz' (chunksExact 32 x), List.foldl_map, List.foldl_map]
  simp only [hstep, Prod.fst_swap, Prod.snd_swap, hc]

/-! ### Real vectors -/

theorem dot_self_nonneg (x : List ℝ) : 0 ≤ dot x x := by
  induction x with
  | nil => simp [dot]
  | cons a x ih => rw [dot_cons]; nlinarith [mul_self_nonneg a]

theorem dot_self_eq_zero {x : List ℝ} : dot x x = 0 ↔ ∀ a ∈ x, a = 0 := by
  induction x with
  | nil => simp [dot]
  | cons a x ih =>
    rw [dot_cons]
    constructor
    · intro h
      have h1 := mul_self_nonneg a
      have h2 := dot_self_nonneg x
      have ha : a = 0 := mul_self_eq_zero.1 (by linarith)
      have hx := ih.1 (by linarith)
      intro b hb
      rcases List.mem_cons.1 hb with rfl | hb
      · exact ha
      · exact hx b hb
    · intro h
      rw [h a (by simp), ih.2 (fun b hb => h b (by simp [hb]))]
      simp

theorem cauchy_schwarz : ∀ x y : List ℝ, dot x y ^ 2 ≤ dot x x * dot y y
  | [], y => by simp [dot]
  | x :: xs, [] => by simp [dot]
  | a :: xs, b :: ys => by
    have ih := cauchy_schwarz xs ys
    have hA := dot_self_nonneg xs
    have hB := dot_self_nonneg ys
    rw [dot_cons, dot_cons, dot_cons]
    set A := dot xs xs
    set B := dot ys ys
    set C := dot xs ys
    clear_value A B C
    have h1 : (2 * C * (a * b)) ^ 2 ≤ (A * b ^ 2 + B * a ^ 2) ^ 2 := by
      nlinarith [sq_nonneg (A * b ^ 2 - B * a ^ 2), mul_le_mul_of_nonneg_right ih (sq_nonneg (a * b))]
    have h2 : 2 * C * (a * b) ≤ A * b ^ 2 + B * a ^ 2 :=
      le_of_sq_le_sq h1 (by positivity)
    nlinarith

theorem dot_map_div_right (c : ℝ) (x y : List ℝ) : dot x (y.map fun a => a / c) = dot x y / c := by
  induction x generalizing y with
  | nil => simp [dot]
  | cons a x ih =>
    cases y with
    | nil => simp [dot]
    | cons b y => rw [List.map_cons, dot_cons, dot_cons, ih]; ring

theorem dot_map_div_left (c : ℝ) (x y : List ℝ) : dot (x.map fun a => a / c) y = dot x y / c := by
  rw [dot_comm, dot_map_div_right, dot_comm]

theorem norm_nonneg' (x : List ℝ) : 0 ≤ norm x := Real.sqrt_nonneg _

theorem norm_eq_zero' {x : List ℝ} : norm x = 0 ↔ ∀ a ∈ x, a = 0 := by
  rw [norm, Real.sqrt_eq_zero (dot_self_nonneg x), dot_self_eq_zero]

theorem norm_mul_self (x : List ℝ) : norm x * norm x = dot x x := Real.mul_self_sqrt (dot_self_nonneg x)

theorem abs_dot_le (x y : List ℝ) : |dot x y| ≤ norm x * norm y := by
  apply abs_le_of_sq_le_sq _ (mul_nonneg (norm_nonneg' x) (norm_nonneg' y))
  rw [mul_pow, sq (norm x), sq (norm y), norm_mul_self, norm_mul_self]
  exact cauchy_schwarz x y

theorem abs_cosine_le (x y : List ℝ) : |cosine x y| ≤ 1 := by
  rw [cosine, abs_div, abs_of_nonneg (mul_nonneg (norm_nonneg' x) (norm_nonneg' y))]
  exact div_le_one_of_le₀ (abs_dot_le x y) (mul_nonneg (norm_nonneg' x) (norm_nonneg' y))

theorem cosine_comm (x y : List ℝ) : cosine x y = cosine y x := by rw [cosine, cosine, dot_comm, mul_comm (norm x)]

theorem cosine_zero_left {x : List ℝ} (h : ∀ a ∈ x, a = 0) (y : List ℝ) : cosine x y = 0 := by
  rw [cosine, norm_eq_zero'.2 h, zero_mul, div_zero]

theorem cosine_self {x : List ℝ} (h : ∃ a ∈ x, a ≠ 0) : cosine x x = 1 := by
  rw [cosine, norm_mul_self]
  refine div_self fun hc => ?_
  obtain ⟨a, ha, hne⟩ := h
  exact hne (dot_self_eq_zero.1 hc a ha)

/-- `normalize`, on real vectors. -/
noncomputable def unit (x : List ℝ) : List ℝ := if 0 < norm x then x.map fun a => a / norm x else x

theorem unit_length (x : List ℝ) : (unit x).length = x.length := by
  rw [unit]; split <;> simp

theorem sqrt_some {a : ℝ} (h : 0 ≤ a) : FloatOps.sqrt (some a : ExactF) = some (Real.sqrt a) := by
  show (if a < 0 then none else some (Real.sqrt a)) = _
  rw [if_neg (not_lt.2 h)]

theorem normalize_some (x : List ℝ) : normalize (F := ExactF) (x.map some) = (unit x).map some := by
  have h1 : FloatOps.sqrt (dotProduct (F := ExactF) (x.map some) (x.map some)) = some (norm x) := by
    rw [dotProduct_some x x rfl, sqrt_some (dot_self_nonneg x)]; rfl
  rw [normalize]
  simp only [h1]
  have h2 : FloatOps.gt (some (norm x) : ExactF) (FloatOps.ofInt 0) = decide (0 < norm x) := by
    show decide (((0 : Int) : ℝ) < norm x) = _
    simp
  rw [h2, unit]
  by_cases h : 0 < norm x
  · rw [if_pos h, if_pos (by simpa using h), List.map_map, List.map_map]
    apply List.map_congr_left
    intro a _
    show (if norm x = 0 then none else some (a / norm x)) = _
    rw [if_neg h.ne']; rfl
  · rw [if_neg h, if_neg (by simpa using h)]

theorem dot_unit (x y : List ℝ) : dot (unit x) (unit y) = cosine x y := by
  have key : ∀ z : List ℝ, ¬ 0 < norm z → ∀ w, dot z w = 0 := by
    intro z hz w
    have h0 : norm z = 0 := le_antisymm (not_lt.1 hz) (norm_nonneg' z)
    have := abs_dot_le z w
    rw [h0, zero_mul] at this
    exact abs_nonpos_iff.1 this
  by_cases hx : 0 < norm x
  · by_cases hy : 0 < norm y
    · rw [unit, unit, if_pos hx, if_pos hy, dot_map_div_left, dot_map_div_right, cosine, div_div, mul_comm (norm y)]
    · rw [unit, if_pos hx, unit, if_neg hy, dot_comm, key y hy, cosine, dot_comm, key y hy, zero_div]
  · rw [show unit x = x by rw [unit, if_neg hx], key x hx, cosine, key x hx, zero_div]

theorem maxZero_some (d : ℝ) : maxZero (some d : ExactF) = some (max 0 d) := by
  rw [maxZero]
  have h2 : FloatOps.gt (FloatOps.ofInt 0) (some d : ExactF) = decide (d < 0) := by
    show decide (d < ((0 : Int) : ℝ)) = _
    simp
  have h0 : (FloatOps.ofInt 0 : ExactF) = some 0 := by show some ((0 : Int) : ℝ) = _; simp
  rw [h2, h0]
  by_cases h : d < 0
  · rw [if_pos (by simpa using h), max_eq_left h.le]
  · rw [if_neg (by simpa using h), max_eq_right (not_lt.1 h)]

theorem angularDist_some (x y : List ℝ) (h : x.length = y.length) :
    angularDist (F := ExactF) (x.map some) (y.map some) = some (some (max 0 (1 - dot x y))) := by
  rw [angularDist, dotProduct_some x y h]
  have h1 : FloatOps.sub (FloatOps.ofInt 1) (some (dot x y) : ExactF) = some (1 - dot x y) := by
    show some (((1 : Int) : ℝ) - dot x y) = _
    simp
  simp only [h1]
  rw [if_neg (by simp [FloatOps.isNan]), maxZero_some]

end Granne
