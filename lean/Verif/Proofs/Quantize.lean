import Verif.Proofs.Math

/-! The quantised vectors: the integer sums, the distance, the conversion. -/
namespace Granne
open Spec

/-! ### Integer sums -/

theorem Spec.IsI8.mul_le {a b : Int} (ha : IsI8 a) (hb : IsI8 b) : -16384 ≤ a * b ∧ a * b ≤ 16384 := by
  obtain ⟨h1, h2⟩ := ha
  obtain ⟨h3, h4⟩ := hb
  constructor <;> nlinarith

theorem i32MulAcc_exact {checked : Bool} {acc a b : Int} {n : Nat} (hn : n ≤ 131070) (ha : IsI8 a) (hb : IsI8 b)
    (h1 : -(16384 * (n : Int)) ≤ acc) (h2 : acc ≤ 16384 * (n : Int)) :
    i32MulAcc checked acc a b = some (acc + a * b) := by
  obtain ⟨h3, h4⟩ := ha.mul_le hb
  rw [i32MulAcc, i32Mul, if_pos (by constructor <;> omega)]
  simp only
  rw [i32Add, if_pos (by constructor <;> omega)]

theorem sumsI8Loop_exact (checked : Bool) : ∀ (l : List (Int × Int)) (n : Nat) (r dx dy : Int),
    (∀ p ∈ l, IsI8 p.1 ∧ IsI8 p.2) → n + l.length ≤ 131071 →
    (∀ z ∈ [r, dx, dy], -(16384 * (n : Int)) ≤ z ∧ z ≤ 16384 * (n : Int)) →
    sumsI8Loop checked l (r, dx, dy) = some (r + (l.map fun p => p.1 * p.2).sum,
      dx + (l.map fun p => p.1 * p.1).sum, dy + (l.map fun p => p.2 * p.2).sum)
  | [], n, r, dx, dy, _, _, _ => by simp [sumsI8Loop]
  | (a, b) :: t, n, r, dx, dy, hl, hn, hz => by
    have ha : IsI8 a := (hl (a, b) (by simp)).1
    have hb : IsI8 b := (hl (a, b) (by simp)).2
    rw [List.length_cons] at hn
    have hr := hz r (by simp)
    have hdx := hz dx (by simp)
    have hdy := hz dy (by simp)
    rw [sumsI8Loop, i32MulAcc_exact (by omega) ha hb hr.1 hr.2]
    simp only
    rw [i32MulAcc_exact (by omega) ha ha hdx.1 hdx.2]
    simp only
    rw [i32MulAcc_exact (by omega) hb hb hdy.1 hdy.2]
    simp only
    rw [sumsI8Loop_exact checked t (n + 1) _ _ _ (fun p hp => hl p (by simp [hp])) (by omega)]
    · simp [add_assoc]
    · have h1 := ha.mul_le hb
      have h2 := ha.mul_le ha
      have h3 := hb.mul_le hb
      intro z hz
      simp only [List.mem_cons, List.not_mem_nil, or_false] at hz
      rcases hz with rfl | rfl | rfl <;> constructor <;> push_cast <;> omega

theorem sumsI8_exact (checked : Bool) (x y : List Int) (hx : ∀ a ∈ x, IsI8 a) (hy : ∀ a ∈ y, IsI8 a)
    (hlen : x.length = y.length) (hdim : x.length ≤ 131071) :
    sumsI8 checked x y = some (dot x y, dot x x, dot y y) := by
  rw [sumsI8, sumsI8Loop_exact checked (x.zip y) 0 0 0 0
    (fun p hp => ⟨hx _ (List.of_mem_zip hp).1, hy _ (List.of_mem_zip hp).2⟩)
    (by rw [List.length_zip]; omega) (by simp)]
  have key : ∀ x y : List Int, x.length = y.length → ((x.zip y).map fun p => p.1 * p.2).sum = dot x y ∧
      ((x.zip y).map fun p => p.1 * p.1).sum = dot x x ∧ ((x.zip y).map fun p => p.2 * p.2).sum = dot y y := by
    intro x
    induction x with
    | nil => intro y h; cases y with
      | nil => simp [dot]
      | cons _ _ => simp at h
    | cons a x ih =>
      intro y h
      cases y with
      | nil => simp at h
      | cons b y =>
        obtain ⟨h1, h2, h3⟩ := ih y (by simpa using h)
        rw [dot_cons, dot_cons, dot_cons, ← h1, ← h2, ← h3]
        simp
  obtain ⟨h1, h2, h3⟩ := key x y hlen
  rw [h1, h2, h3]
  simp

theorem i32MulAcc_min {checked : Bool} {m : Nat} (h : m + 1 ≤ 131071) {z : Int} (hz : z = 16384 * (m : Int)) :
    i32MulAcc checked z (-128) (-128) = some (16384 * ((m + 1 : Nat) : Int)) := by
  have hi : IsI8 (-128) := ⟨by norm_num, by norm_num⟩
  rw [i32MulAcc_exact (n := m) (by omega) hi hi (by omega) (by omega), hz]
  congr 1

/-- The accumulator after `n` components `-128`. -/
theorem sumsI8Loop_min (checked : Bool) (l : List (Int × Int)) (n : Nat) : ∀ m : Nat, n + m ≤ 131071 →
    ∀ z : Int, z = 16384 * (m : Int) →
    sumsI8Loop checked (List.replicate n (-128, -128) ++ l) (z, z, z)
      = sumsI8Loop checked l (16384 * ((n + m : Nat) : Int), 16384 * ((n + m : Nat) : Int),
          16384 * ((n + m : Nat) : Int)) := by
  induction n with
  | zero => intro m _ z hz; rw [hz]; simp
  | succ n ih =>
    intro m h z hz
    rw [List.replicate_succ, List.cons_append, sumsI8Loop]
    simp only [i32MulAcc_min (checked := checked) (show m + 1 ≤ 131071 by omega) hz]
    rw [ih (m + 1) (by omega) _ rfl, show n + (m + 1) = n + 1 + m by omega]

theorem sumsI8_overflow (checked : Bool) :
    sumsI8 checked (List.replicate 131072 (-128)) (List.replicate 131072 (-128))
      = if checked then none else some (-2 ^ 31, -2 ^ 31, -2 ^ 31) := by
  rw [sumsI8, List.zip_replicate']
  have e : (List.replicate 131072 ((-128 : Int), (-128 : Int)))
      = List.replicate 131071 ((-128 : Int), (-128 : Int)) ++ [(-128, -128)] := by
    rw [show (131072 : Nat) = 131071 + 1 from rfl, List.replicate_succ']
  rw [e]
  rw [sumsI8Loop_min checked [(-128, -128)] 131071 0 (by norm_num) 0 (by norm_num)]
  cases checked <;> rfl

/-! ### Quantised distance, exact arithmetic -/

theorem dot_toReal : ∀ x y : List Int, dot (toReal x) (toReal y) = ((dot x y : Int) : ℝ)
  | [], y => by simp [dot, toReal]
  | _ :: _, [] => by simp [dot, toReal]
  | a :: x, b :: y => by
    have := dot_toReal x y
    rw [toReal, toReal] at this
    rw [toReal, toReal, List.map_cons, List.map_cons, dot_cons, dot_cons, this]
    push_cast
    rfl

theorem angularIntDist_exact (checked : Bool) (x y : List Int) (hx : ∀ a ∈ x, IsI8 a) (hy : ∀ a ∈ y, IsI8 a)
    (hlen : x.length = y.length) (hdim : x.length ≤ 131071) :
    angularIntDist (F := ExactF) checked x y = some (some (max 0 (1 - cosine (toReal x) (toReal y)))) := by
  rw [angularIntDist, sumsI8_exact checked x y hx hy hlen hdim]
  simp only
  have hn : ∀ z : List Int, FloatOps.sqrt (FloatOps.ofInt (dot z z) : ExactF) = some (norm (toReal z)) := by
    intro z
    have : (FloatOps.ofInt (dot z z) : ExactF) = some (dot (toReal z) (toReal z)) := by
      rw [dot_toReal]; rfl
    rw [this, sqrt_some (dot_self_nonneg _)]; rfl
  rw [hn, hn]
  have hm : FloatOps.mul (some (norm (toReal x)) : ExactF) (some (norm (toReal y)))
      = some (norm (toReal x) * norm (toReal y)) := rfl
  have hr : (FloatOps.ofInt (dot x y) : ExactF) = some (dot (toReal x) (toReal y)) := by rw [dot_toReal]; rfl
  rw [hm, hr]
  have hd : ∀ a b : ℝ, FloatOps.div (some a : ExactF) (some b) = if b = 0 then none else some (a / b) := fun _ _ => rfl
  have h0 : (FloatOps.ofInt 0 : ExactF) = some 0 := by show some ((0 : Int) : ℝ) = _; simp
  have hq : (if FloatOps.isNan (FloatOps.div (some (dot (toReal x) (toReal y)) : ExactF)
      (some (norm (toReal x) * norm (toReal y)))) = true then FloatOps.ofInt 0 else
      FloatOps.div (some (dot (toReal x) (toReal y)) : ExactF) (some (norm (toReal x) * norm (toReal y))))
      = some (cosine (toReal x) (toReal y)) := by
    rw [hd]
    by_cases hz : norm (toReal x) * norm (toReal y) = 0
    · rw [if_pos hz, if_pos (by rfl), h0, cosine, hz, div_zero]
    · rw [if_neg hz, if_neg (by simp [FloatOps.isNan]), cosine]
  rw [hq]
  have h1 : FloatOps.sub (FloatOps.ofInt 1) (some (cosine (toReal x) (toReal y)) : ExactF)
      = some (1 - cosine (toReal x) (toReal y)) := by
    show some (((1 : Int) : ℝ) - _) = _
    simp
  rw [h1, if_neg (by simp [FloatOps.isNan]), maxZero_some]

/-! ### Conversion -/

theorem gt_some (a b : ℝ) : FloatOps.gt (some a : ExactF) (some b) = decide (b < a) := rfl

theorem foldl_max_some : ∀ (l : List ℝ) (a : ℝ),
    (l.map some).foldl (fun (m b : ExactF) => if FloatOps.gt m b then m else b) (some a)
      = some (l.foldl (fun m b => max m b) a)
  | [], a => rfl
  | b :: l, a => by
    rw [List.map_cons, List.foldl_cons, List.foldl_cons, gt_some, ← foldl_max_some l]
    congr 1
    by_cases h : b < a
    · rw [if_pos (by simpa using h), max_eq_left h.le]
    · rw [if_neg (by simpa using h), max_eq_right (not_lt.1 h)]

theorem foldl_max_spec : ∀ (l : List ℝ) (a : ℝ), (l.foldl (fun m b => max m b) a = a ∨
    l.foldl (fun m b => max m b) a ∈ l) ∧ a ≤ l.foldl (fun m b => max m b) a ∧
    ∀ b ∈ l, b ≤ l.foldl (fun m b => max m b) a
  | [], a => by simp
  | b :: l, a => by
    rw [List.foldl_cons]
    obtain ⟨h1, h2, h3⟩ := foldl_max_spec l (max a b)
    refine ⟨?_, (le_max_left a b).trans h2, ?_⟩
    · rcases h1 with h1 | h1
      · rw [h1]
        rcases max_choice a b with h | h <;> rw [h] <;> simp
      · right; simp [h1]
    · intro c hc
      rcases List.mem_cons.1 hc with rfl | hc
      · exact (le_max_right a c).trans h2
      · exact h3 c hc

theorem maxOf_some (x : List ℝ) (m : ℝ) (hm : m ∈ x) (hall : ∀ a ∈ x, a ≤ m) :
    maxOf (x.map some : List ExactF) = some (some m) := by
  cases x with
  | nil => simp at hm
  | cons a t =>
    rw [List.map_cons, maxOf, foldl_max_some]
    congr 2
    obtain ⟨h1, h2, h3⟩ := foldl_max_spec t a
    apply le_antisymm
    · rcases h1 with h1 | h1
      · rw [h1]; exact hall a (by simp)
      · exact hall _ (by simp [h1])
    · rcases List.mem_cons.1 hm with rfl | hm
      · exact h2
      · exact h3 m hm

theorem quantize_some (x : List ℝ) (m : ℝ) (hm : ∃ a ∈ x, |a| = m) (hall : ∀ a ∈ x, |a| ≤ m) :
    quantize (F := ExactF) (x.map some)
      = some (x.map fun a => if m = 0 then 0 else truncI8 (a * 127 / m)) := by
  rw [quantize, if_neg]
  · have e : (x.map some).map (FloatOps.abs (F := ExactF)) = (x.map fun a => |a|).map some := by
      rw [List.map_map, List.map_map]; rfl
    rw [e, maxOf_some (x.map fun a => |a|) m (by simpa using hm) (by simpa using hall)]
    simp only [List.map_map]
    congr 1
    apply List.map_congr_left
    intro a _
    have h1 : FloatOps.div (FloatOps.mul (some a) (FloatOps.ofInt 127)) (some m : ExactF)
        = if m = 0 then none else some (a * ((127 : Int) : ℝ) / m) := rfl
    simp only [Function.comp, Option.getD_some]
    rw [h1]
    by_cases h : m = 0
    · rw [if_pos h, if_pos h]; rfl
    · rw [if_neg h, if_neg h]
      show truncI8 _ = _
      norm_num
  · simp [FloatOps.isNan, FloatOps.abs]

/-- Truncation towards zero inside the range. -/
theorem truncI8_eq {a : ℝ} (h1 : -127 ≤ a) (h2 : a ≤ 127) :
    truncI8 a = if 0 ≤ a then ⌊a⌋ else ⌈a⌉ := by
  rw [truncI8]
  split
  · rename_i h
    have : ⌊a⌋ ≤ 127 := by
      have := Int.floor_mono h2
      simpa using this
    have : 0 ≤ ⌊a⌋ := Int.floor_nonneg.2 h
    omega
  · rename_i h
    have : -127 ≤ ⌈a⌉ := by
      have := Int.ceil_mono h1
      rwa [show (-127 : ℝ) = ((-127 : Int) : ℝ) by norm_num, Int.ceil_intCast] at this
    have : ⌈a⌉ ≤ 0 := Int.ceil_le.2 (by push_cast; linarith)
    omega

theorem truncI8_spec {a : ℝ} (h1 : -127 ≤ a) (h2 : a ≤ 127) :
    (-127 ≤ truncI8 a ∧ truncI8 a ≤ 127) ∧ (0 ≤ a → 0 ≤ truncI8 a ∧ (truncI8 a : ℝ) ≤ a ∧ a < truncI8 a + 1) ∧
    (a ≤ 0 → truncI8 a ≤ 0 ∧ a ≤ truncI8 a ∧ (truncI8 a : ℝ) < a + 1) := by
  rw [truncI8_eq h1 h2]
  by_cases h : 0 ≤ a
  · rw [if_pos h]
    have hf : 0 ≤ ⌊a⌋ := Int.floor_nonneg.2 h
    have h127 : ⌊a⌋ ≤ 127 := by
      have := Int.floor_mono h2
      simpa using this
    refine ⟨⟨by omega, h127⟩, fun _ => ⟨hf, Int.floor_le a, Int.lt_floor_add_one a⟩, fun h' => ?_⟩
    have : a = 0 := le_antisymm h' h
    subst this
    simp
  · rw [if_neg h]
    push Not at h
    have hc : ⌈a⌉ ≤ 0 := Int.ceil_le.2 (by push_cast; linarith)
    have h127 : -127 ≤ ⌈a⌉ := by
      have := Int.ceil_mono h1
      rwa [show (-127 : ℝ) = ((-127 : Int) : ℝ) by norm_num, Int.ceil_intCast] at this
    exact ⟨⟨h127, by omega⟩, fun h' => absurd h' (not_le.2 h), fun _ => ⟨hc, Int.le_ceil a, Int.ceil_lt_add_one a⟩⟩

theorem truncI8_mono {a b : ℝ} (h : a ≤ b) : truncI8 a ≤ truncI8 b := by
  rw [truncI8, truncI8]
  have : (if 0 ≤ a then ⌊a⌋ else ⌈a⌉) ≤ (if 0 ≤ b then ⌊b⌋ else ⌈b⌉) := by
    by_cases ha : 0 ≤ a
    · rw [if_pos ha, if_pos (ha.trans h)]; exact Int.floor_mono h
    · rw [if_neg ha]
      by_cases hb : 0 ≤ b
      · rw [if_pos hb]
        have h1 : ⌈a⌉ ≤ 0 := Int.ceil_le.2 (by push_cast; linarith)
        have h2 : 0 ≤ ⌊b⌋ := Int.floor_nonneg.2 hb
        omega
      · rw [if_neg hb]; exact Int.ceil_mono h
  omega

end Granne
