import Verif.Props.Math

/-! C78: vectors of different dimensions. -/
namespace Granne
open Spec List

/-- The components of `x` that take part when `x` is compared with a vector of `m` components: as many whole blocks of 32 as both
have, and of what remains of `x` after its last whole block as many as the other has after its own. -/
def usedWith {α : Type} (m : Nat) (x : List α) : List α :=
  x.take (32 * min (x.length / 32) (m / 32)) ++ (x.drop (32 * (x.length / 32))).take (m % 32)

theorem usedWith_length {α : Type} (m : Nat) (x : List α) :
    (usedWith m x).length = 32 * min (x.length / 32) (m / 32) + min (m % 32) (x.length % 32) := by
  unfold usedWith
  rw [List.length_append, List.length_take, List.length_take, List.length_drop]
  omega

theorem usedWith_chunks {α : Type} (m : Nat) (x : List α) :
    chunksExact 32 (usedWith m x) = (chunksExact 32 x).take (min (x.length / 32) (m / 32)) := by
  have hl : (usedWith m x).length / 32 = min (x.length / 32) (m / 32) := by rw [usedWith_length]; omega
  unfold chunksExact
  rw [hl, ← List.map_take, List.take_range]
  have e : min (min (x.length / 32) (m / 32)) (x.length / 32) = min (x.length / 32) (m / 32) := by omega
  rw [e]
  apply List.map_congr_left
  intro i hi
  rw [List.mem_range] at hi
  unfold usedWith
  have h1 : i * 32 ≤ (x.take (32 * min (x.length / 32) (m / 32))).length := by rw [List.length_take]; omega
  rw [List.drop_append_of_le_length h1, List.take_append_of_le_length (by rw [List.length_drop, List.length_take]; omega),
    List.drop_take, List.take_take]
  congr 1
  omega

theorem usedWith_remainder {α : Type} (m : Nat) (x : List α) :
    chunksRemainder 32 (usedWith m x) = (chunksRemainder 32 x).take (m % 32) := by
  have hl : (usedWith m x).length / 32 = min (x.length / 32) (m / 32) := by rw [usedWith_length]; omega
  unfold chunksRemainder
  rw [hl]
  unfold usedWith
  rw [List.drop_append, List.drop_eq_nil_of_le (by rw [List.length_take]; omega), List.nil_append,
    show min (x.length / 32) (m / 32) * 32 - (x.take (32 * min (x.length / 32) (m / 32))).length = 0 by
      rw [List.length_take]; omega, List.drop_zero, Nat.mul_comm]

theorem zip_take_both {α β : Type} : ∀ (l : List α) (m : List β) (a b : Nat), min l.length m.length ≤ a →
    min l.length m.length ≤ b → (l.take a).zip (m.take b) = l.zip m
  | [], _, _, _, _, _ => by simp
  | _ :: _, [], _, _, _, _ => by simp
  | x :: l, y :: m, 0, _, h, _ => by simp at h
  | x :: l, y :: m, _ + 1, 0, _, h => by simp at h
  | x :: l, y :: m, a + 1, b + 1, h1, h2 => by
    simp only [List.length_cons] at h1 h2
    simp only [List.take_succ_cons, List.zip_cons_cons]
    rw [zip_take_both l m a b (by omega) (by omega)]

theorem dotProduct_used {F : Type} [MulAddOps F] (x y : List F) :
    dotProduct x y = dotProduct (usedWith y.length x) (usedWith x.length y) := by
  unfold dotProduct
  rw [usedWith_chunks, usedWith_chunks, usedWith_remainder, usedWith_remainder, zip_take_both, zip_take_both]
  · unfold chunksRemainder; simp only [List.length_drop]; omega
  · unfold chunksRemainder; simp only [List.length_drop]; omega
  · simp [chunksExact]
  · simp [chunksExact]

/-! ### C78 -/

/-- C78. Comparing float vectors of any two dimensions does not panic for the dimensions (with any arithmetic: the result is that for
two vectors of the same dimension), and this is the result: whole blocks of 32 components are compared as far as both vectors have
them; and what a vector has after its last whole block is compared with what the other one has after its own. -/
theorem C78_any_dimensions {F : Type} [FloatOps F] (x y : List F) :
    angularDist x y = angularDist (usedWith y.length x) (usedWith x.length y) ∧
    (usedWith y.length x).length = (usedWith x.length y).length := by
  refine ⟨?_, ?_⟩
  · unfold angularDist
    rw [dotProduct_used x y]
  · rw [usedWith_length, usedWith_length]
    omega

/-- C78. Hence, if both have the same number of whole blocks (for instance if both have fewer than 32 components), the common first
components are compared. -/
theorem C78_common_part {F : Type} [FloatOps F] (x y : List F) (h : x.length / 32 = y.length / 32) :
    angularDist x y = angularDist (x.take (min x.length y.length)) (y.take (min x.length y.length)) := by
  have key : ∀ (z : List F) (m : Nat), z.length / 32 = m / 32 → usedWith m z = z.take (min z.length m) := by
    intro z m hz
    unfold usedWith
    rw [hz, min_self]
    have e : z.take (min z.length m) = (z.take (min z.length m)).take (32 * (m / 32)) ++
        (z.take (min z.length m)).drop (32 * (m / 32)) := (List.take_append_drop _ _).symm
    rw [e, List.take_take, List.drop_take, min_eq_left (by omega : 32 * (m / 32) ≤ min z.length m)]
    congr 1
    rcases le_total z.length m with h1 | h1
    · rw [List.take_of_length_le (by rw [List.length_drop]; omega), List.take_of_length_le (by rw [List.length_drop]; omega)]
    · congr 1; omega
  rw [(C78_any_dimensions x y).1, key x _ h, key y _ h.symm, min_comm y.length]

theorem dot_append_zeros (x : List ℝ) (k : Nat) : ∀ y : List ℝ, dot (x ++ List.replicate k 0) y = dot x (y.take x.length) := by
  induction x with
  | nil =>
    intro y
    rw [List.nil_append, dot, dot, List.zipWith_nil_left, List.sum_nil]
    apply List.sum_eq_zero
    intro a ha
    rw [List.zipWith_eq_zipWith_take_min] at ha
    simp only [List.mem_iff_getElem?] at ha
    obtain ⟨i, hi⟩ := ha
    rw [List.getElem?_zipWith_eq_some] at hi
    obtain ⟨u, v, hu, _, rfl⟩ := hi
    have := List.mem_of_mem_take (List.mem_of_getElem? hu)
    rw [List.eq_of_mem_replicate this, zero_mul]
  | cons a x ih =>
    intro y
    cases y with
    | nil => simp [dot]
    | cons b y =>
      have := ih y
      unfold dot at this ⊢
      simp only [List.cons_append, List.zipWith_cons_cons, List.length_cons, List.take_succ_cons, List.sum_cons]
      rw [this]

theorem norm_append_zeros (x : List ℝ) (k : Nat) : norm (x ++ List.replicate k 0) = norm x := by
  rw [norm, norm, dot_append_zeros, List.take_append_of_le_length le_rfl, List.take_length]

theorem unit_append_zeros (x : List ℝ) (k : Nat) : unit (x ++ List.replicate k 0) = unit x ++ List.replicate k 0 := by
  unfold unit
  rw [norm_append_zeros]
  split
  · rw [List.map_append, List.map_replicate, zero_div]
  · rfl

/-- C78. In exact arithmetic: comparing with a vector of fewer components, but the same number of whole blocks, is comparing with that
vector filled up with zeros: a query of fewer components is silently taken to be zero in the missing ones. -/
theorem C78_filled_with_zeros (x y : List ℝ) (hle : x.length ≤ y.length) (h : x.length / 32 = y.length / 32) :
    angularDist (angularOf x) (angularOf y) =
      some (some (1 - cosine (x ++ List.replicate (y.length - x.length) 0) y)) := by
  have e1 : angularDist (angularOf x) (angularOf y) =
      angularDist (F := ExactF) ((unit x).map some) (((unit y).take x.length).map some) := by
    rw [angularOf, angularOf, normalize_some, normalize_some, C78_common_part _ _ (by simpa [unit_length] using h)]
    simp only [List.length_map, unit_length, min_eq_left hle]
    rw [List.take_of_length_le (by simp [unit_length]), List.map_take]
  rw [e1, angularDist_some _ _ (by simp [unit_length, hle])]
  have hlen : (x ++ List.replicate (y.length - x.length) 0).length = y.length := by simp; omega
  have e2 := dot_unit (x ++ List.replicate (y.length - x.length) 0) y
  rw [unit_append_zeros, dot_append_zeros, unit_length] at e2
  rw [e2, max_eq_right]
  have := (abs_le.1 (abs_cosine_le (x ++ List.replicate (y.length - x.length) 0) y)).2
  linarith

/-- C78, negative: with different numbers of whole blocks, components of different positions are compared: the vector whose only non-zero
component is the 65th (of 65) is at distance 0 of the vector whose only non-zero component is the 33rd (of 33). And components of the
common part are ignored: the dot product of two vectors of ones, of 64 and 33 components, is 32. -/
theorem C78_positions_mixed :
    angularDist (angularOf (List.replicate 64 0 ++ [1])) (angularOf (List.replicate 32 0 ++ [1])) = some (some 0) ∧
    dotProduct (F := ExactF) (List.replicate 64 (some 1)) (List.replicate 33 (some 1)) = some 32 := by
  constructor
  · rw [angularOf, angularOf, normalize_some, normalize_some]
    have hn : ∀ k : Nat, norm (List.replicate k 0 ++ [1]) = 1 := by
      intro k
      have hd : dot (List.replicate k (0 : ℝ) ++ [1]) (List.replicate k 0 ++ [1]) = 1 := by
        unfold dot
        rw [List.zipWith_append (by simp)]
        simp
      rw [norm, hd, Real.sqrt_one]
    have hu : ∀ k : Nat, unit (List.replicate k 0 ++ [1]) = List.replicate k 0 ++ [1] := by
      intro k
      unfold unit
      rw [hn, if_pos one_pos]
      simp
    rw [hu, hu, (C78_any_dimensions _ _).1]
    have a1 : usedWith ((List.replicate 32 (0 : ℝ) ++ [1]).map (some : ℝ → ExactF)).length
        ((List.replicate 64 (0 : ℝ) ++ [1]).map (some : ℝ → ExactF)) = (List.replicate 32 (0 : ℝ) ++ [1]).map some := by
      simp [usedWith]
    have a2 : usedWith ((List.replicate 64 (0 : ℝ) ++ [1]).map (some : ℝ → ExactF)).length
        ((List.replicate 32 (0 : ℝ) ++ [1]).map (some : ℝ → ExactF)) = (List.replicate 32 (0 : ℝ) ++ [1]).map some := by
      simp [usedWith]
    rw [a1, a2, angularDist_some _ _ rfl]
    have hd : dot (List.replicate 32 (0 : ℝ) ++ [1]) (List.replicate 32 0 ++ [1]) = 1 := by
      unfold dot
      rw [List.zipWith_append (by simp)]
      simp
    rw [hd, sub_self, max_self]
  · have e := dotProduct_some (List.replicate 32 1) (List.replicate 32 1) rfl
    rw [dotProduct_used]
    have a1 : usedWith (List.replicate 33 (some 1 : ExactF)).length (List.replicate 64 (some 1 : ExactF)) =
        (List.replicate 32 (1 : ℝ)).map some := by simp [usedWith]
    have a2 : usedWith (List.replicate 64 (some 1 : ExactF)).length (List.replicate 33 (some 1 : ExactF)) =
        (List.replicate 32 (1 : ℝ)).map some := by simp [usedWith]
    rw [a1, a2, e]
    unfold dot
    rw [List.zipWith_replicate]
    simp
    norm_num

/-- C78. Quantised vectors of different dimensions: everything beyond the shorter one is ignored, also in the norms, with any arithmetic
and with or without overflow checks. -/
theorem C78_quantised_truncated {F : Type} [FloatOps F] (checked : Bool) (x y : List Int) :
    angularIntDist (F := F) checked x y =
      angularIntDist (F := F) checked (x.take (min x.length y.length)) (y.take (min x.length y.length)) := by
  unfold angularIntDist sumsI8
  rw [zip_take_both _ _ _ _ le_rfl le_rfl]

/-- Non-vacuity: 40 and 33 components have one whole block each; 65 and 33 do not have the same number. -/
example : (40 / 32 = 33 / 32) ∧ (65 / 32 ≠ 33 / 32) ∧ usedWith 33 (List.range 65) = List.range 32 ++ [64] := by decide +kernel

end Granne
