import Verif.Props.EndToEnd
import Verif.Proofs.F32Exact

/-!
C53 and C51 for higher dimensions: the bound on the number of dimensions is needed. A vector with 3072 components, all of them
between 0 and 2933 and exact in `f32`, whose distance to itself is computed as `201 * 2^-24`; the library takes it for a zero
vector, so it is not linked to anything and never found. The rounding errors of the norm (up) and of the dot product of the
normalised vector (down) add up.
-/
namespace Granne
open Spec F32

/-- `n` times `a`, then `b`. -/
def lossyRow {α : Type} (n : Nat) (a b : α) : List α := List.replicate n a ++ [b]

/-- A row of `a` and `b` and `m` rows of `c` and `d`. -/
def lossyRows {α : Type} (m n : Nat) (a b c d : α) : List α := lossyRow n a b ++ (List.replicate m (lossyRow n c d)).flatten

theorem lossyRows_map {α β : Type} (f : α → β) (m n : Nat) (a b c d : α) :
    (lossyRows m n a b c d).map f = lossyRows m n (f a) (f b) (f c) (f d) := by
  simp [lossyRows, lossyRow]

theorem lossyRows_length {α : Type} (m n : Nat) (a b c d : α) : (lossyRows m n a b c d).length = (m + 1) * (n + 1) := by
  simp [lossyRows, lossyRow]
  ring

theorem lossyRows_mem {α : Type} {m n : Nat} {a b c d x : α} (h : x ∈ lossyRows m n a b c d) : x = a ∨ x = b ∨ x = c ∨ x = d := by
  simp only [lossyRows, lossyRow, List.mem_append, List.mem_replicate, List.mem_flatten, List.mem_singleton] at h
  rcases h with (⟨_, h⟩ | h) | ⟨l, ⟨_, rfl⟩, h⟩
  · exact Or.inl h
  · exact Or.inr (Or.inl h)
  · simp only [List.mem_append, List.mem_replicate, List.mem_singleton] at h
    rcases h with ⟨_, h⟩ | h
    · exact Or.inr (Or.inr (Or.inl h))
    · exact Or.inr (Or.inr (Or.inr h))

/-- The vector: 2933 (31 times), 2040, and then 95 times 727/1024 (31 times) and 0. -/
noncomputable def lossy : List ℝ := lossyRows 95 31 2933 2040 (727 / 1024) 0

/-- The vector, as rational numbers. -/
def lossyQ : List ℚ := lossyRows 95 31 2933 2040 (727 / 1024) 0

/-- The normalised vector. -/
def lossyN : List ℚ :=
  lossyRows 95 31 (11960079 / 67108864) (16637274 / 134217728) (11858135 / 274877906944) 0

theorem lossy_length : lossy.length = 3072 := by rw [lossy, lossyRows_length]

theorem lossy_eq : lossy.map fin = lossyQ.map fun a : ℚ => fin (a : ℝ) := by
  rw [lossy, lossyQ, lossyRows_map, lossyRows_map]
  norm_num

/-- The squared norm as computed. -/
theorem lossy_dot : dotProduct (lossy.map fin) (lossy.map fin) = fin 270841824 := by
  rw [lossy_eq]
  have := dotProduct_eval (x := lossyQ) (y := lossyQ) (r := 270841824) (by decide +kernel)
  rw [this]
  norm_num

/-- The norm as computed. -/
theorem lossy_norm : rne32 (Real.sqrt 270841824) = 8426124 / 512 := by
  have h0 : |Real.sqrt 270841824| = Real.sqrt 270841824 := abs_of_nonneg (Real.sqrt_nonneg _)
  rw [rne32_eq (e := 14) (m := 8426124) (by norm_num) ?_ ?_ ?_]
  · norm_num
  · rw [h0]; exact Real.le_sqrt_of_sq_le (by norm_num)
  · rw [h0, Real.sqrt_lt' (by norm_num)]; norm_num
  · rw [abs_lt]
    constructor
    · have : (8426124 - 31 / 64 : ℝ) / 512 ≤ Real.sqrt 270841824 := Real.le_sqrt_of_sq_le (by norm_num)
      norm_num at this ⊢
      linarith
    · have : Real.sqrt 270841824 < (8426124 + 31 / 64 : ℝ) / 512 := by
        rw [Real.sqrt_lt' (by norm_num)]; norm_num
      norm_num at this ⊢
      linarith

theorem lossy_stored : storedF32 lossy = lossyN.map fun a : ℚ => fin (a : ℝ) := by
  have hs : (FloatOps.sqrt (fin 270841824) : F32) = fin (8426124 / 512) := by
    show F32.sqrt (fin 270841824) = _
    unfold F32.sqrt
    simp only
    rw [if_neg (by norm_num), ofReal_fin, lossy_norm]
    rw [lossy_norm]
    exact le_trans (by norm_num [abs_of_nonneg]) maxF32_ge
  have hg : FloatOps.gt (fin (8426124 / 512) : F32) (fin 0) = true := decide_eq_true (by norm_num)
  unfold storedF32 normalize
  rw [lossy_dot, hs, ofInt_zero]
  simp only [hg, if_true]
  have hdiv : ∀ p q : ℚ, simRound (p / (8426124 / 512)) = some q →
      (FloatOps.div (fin (p : ℝ)) (fin (8426124 / 512)) : F32) = fin (q : ℝ) := by
    intro p q h
    have := simRound_eq h
    rw [← this]
    show F32.div _ _ = _
    unfold F32.div
    simp only
    rw [if_neg (by norm_num)]
    norm_num
  have h1 := hdiv 2933 (11960079 / 67108864) (by decide +kernel)
  have h2 := hdiv 2040 (16637274 / 134217728) (by decide +kernel)
  have h3 := hdiv (727 / 1024) (11858135 / 274877906944) (by decide +kernel)
  have h4 := hdiv 0 0 (by decide +kernel)
  rw [lossy_eq, lossyQ, lossyN, lossyRows_map, lossyRows_map, lossyRows_map, h1, h2, h3, h4]

/-- The computed distance of the vector to itself. -/
theorem lossy_dist : angularDist (storedF32 lossy) (storedF32 lossy) = some (fin (201 * 2 ^ (-24 : Int))) := by
  rw [lossy_stored, angularDist]
  have h := dotProduct_eval (x := lossyN) (y := lossyN) (r := 1 - 201 / 16777216) (by decide +kernel)
  rw [h, ofInt_one]
  have e : (FloatOps.sub (fin 1) (fin ((1 - 201 / 16777216 : ℚ) : ℝ)) : F32) = fin (201 * 2 ^ (-24 : Int)) := by
    show ofReal (1 + -(((1 - 201 / 16777216 : ℚ) : ℝ))) = _
    have := simRound_eq (q := 201 / 16777216) (p := 201 / 16777216) (by decide +kernel)
    norm_num at this ⊢
    exact this
  rw [e]
  have e2 : FloatOps.isNan (fin (201 * 2 ^ (-24 : Int)) : F32) = false := rfl
  have e3 : maxZero (fin (201 * 2 ^ (-24 : Int)) : F32) = fin (201 * 2 ^ (-24 : Int)) := by
    rw [maxZero, ofInt_zero]
    have : FloatOps.gt (fin 0 : F32) (fin (201 * 2 ^ (-24 : Int))) = false := decide_eq_false (by norm_num)
    rw [this]; rfl
  simp only [e2, e3]
  rfl

theorem dot_self_append {x y : List ℝ} : dot (x ++ y) (x ++ y) = dot x x + dot y y := by
  rw [dot, List.zipWith_append rfl, List.sum_append]; rfl

theorem dot_self_replicate (n : Nat) (a : ℝ) : dot (List.replicate n a) (List.replicate n a) = n * (a * a) := by
  simp [dot]

theorem dot_self_rows (x : List ℝ) : ∀ m : Nat, dot (List.replicate m x).flatten (List.replicate m x).flatten = m * dot x x
  | 0 => by simp [dot]
  | m + 1 => by
    rw [List.replicate_succ, List.flatten_cons, dot_self_append, dot_self_rows x m]
    push_cast
    ring

theorem lossy_dot_exact : dot lossy lossy = 283996579075089 / 1048576 := by
  have h1 : ∀ a : ℝ, dot [a] [a] = a * a := fun a => by simp [dot]
  rw [lossy, lossyRows, dot_self_append, dot_self_rows, lossyRow, lossyRow, dot_self_append, dot_self_append, dot_self_replicate,
    dot_self_replicate, h1, h1]
  norm_num

/-- C53. The bound on the dimension is needed: there is a vector with 3072 components, all of them exact in `f32`, of a norm
between `2^14` and `2^15` and with cosine 1 to itself, whose distance to itself is computed as `201 * 2^-24`, which is
larger than the threshold for zero elements. -/
theorem C53_dimension_3072 :
    ∃ x : List ℝ, x.length = 3072 ∧ (∀ a ∈ x, rne32 a = a ∧ 0 ≤ a ∧ a ≤ 2933) ∧ 2 ^ 14 ≤ norm x ∧ norm x ≤ 2 ^ 15 ∧
      cosine x x = 1 ∧ angularDist (storedF32 x) (storedF32 x) = some (fin (201 * 2 ^ (-24 : Int))) ∧
      zeroThreshold < 201 * 2 ^ (-24 : Int) := by
  have hn : norm lossy = Real.sqrt (283996579075089 / 1048576) := by rw [Spec.norm, lossy_dot_exact]
  have n1 : 2 ^ 14 ≤ norm lossy := by rw [hn]; exact Real.le_sqrt_of_sq_le (by norm_num)
  have n2 : norm lossy ≤ 2 ^ 15 := by rw [hn]; exact Real.sqrt_le_iff.2 ⟨by norm_num, by norm_num⟩
  refine ⟨lossy, lossy_length, fun a ha => ?_, n1, n2, ?_, lossy_dist, ?_⟩
  · rcases lossyRows_mem ha with rfl | rfl | rfl | rfl
    · exact ⟨by simpa using rne32_int (m := 2933) (by norm_num), by norm_num, by norm_num⟩
    · exact ⟨by simpa using rne32_int (m := 2040) (by norm_num), by norm_num, by norm_num⟩
    · have := rne32_digits (m := 727) (e := -10) (by norm_num) (by norm_num)
      norm_num at this ⊢
      exact this
    · exact ⟨rne32_zero, le_refl _, by norm_num⟩
  · rw [cosine, Spec.norm, Real.mul_self_sqrt, div_self]
    · rw [lossy_dot_exact]; norm_num
    · rw [lossy_dot_exact]; norm_num
  · rw [zeroThreshold_eq]
    have := two_zpow_pos (-24)
    linarith

/-- C53. What this means for an index, whatever the history and the interleaving: if this vector is element `i` (not the first),
no other element links to it, it has no neighbors itself, and no search ever returns it, not even a search for the vector itself. -/
theorem C53_lost_vector {srt : List (Nat × ℝ) → List (Nat × ℝ)} (hsrt : IsSortByDist srt) (b : Builder (List F32) ℝ)
    (hb : Reachable srt b) (hc : GoodConfig b.config) (heps : b.config.eps = zeroThreshold) (raw : List (List ℝ))
    (hel : b.elements = angularElements (raw.map storedF32)) (i : Nat) (hi : i ≠ 0) (x : List ℝ) (hx : raw[i]? = some x)
    (hd : angularDist (storedF32 x) (storedF32 x) = some (fin (201 * 2 ^ (-24 : Int)))) :
    (∀ g ∈ b.graphs, ∀ nbrs ∈ g, i ∉ nbrs) ∧ (∀ g ∈ b.graphs, ∀ nbrs, g[i]? = some nbrs → nbrs = []) ∧
    ∀ (q : List ℝ) (maxSearch k : Nat) (r : List (Nat × ℝ)),
      search b.graphs b.elements (storedF32 q) maxSearch k = some r → i ∉ r.map Prod.fst := by
  have hz : IsZero b.elements b.config.eps i := by
    rw [hel, heps]
    refine ⟨201 * 2 ^ (-24 : Int), ?_, ?_⟩
    · simp only [Elements.dist?, Elements.distTo, angularElements, List.getElem?_map, hx, Option.map_some, hd]
      rfl
    · rw [zeroThreshold_eq]
      have := two_zpow_pos (-24)
      linarith
  obtain ⟨h1, h2⟩ := C19_zero_never_linked hsrt b hb hc i hz hi
  exact ⟨h1, C19_zero_has_no_neighbors hsrt b hb hc i hz hi, fun q => h2 (storedF32 q)⟩

/-- Non-vacuity of `C53_lost_vector`: an index over two such vectors. -/
example : ∃ (b : Builder (List F32) ℝ) (raw : List (List ℝ)), Reachable exSortReal b ∧ GoodConfig b.config ∧
    b.config.eps = zeroThreshold ∧ b.elements = angularElements (raw.map storedF32) ∧ raw[1]? = some lossy ∧
    lastLen b.layers = 2 ∧ angularDist (storedF32 lossy) (storedF32 lossy) = some (fin (201 * 2 ^ (-24 : Int))) := by
  obtain ⟨b, h1, h2, h3, h4⟩ := exists_built exSortReal_sorts (angularElements ([lossy, lossy].map storedF32)) exConfigReal
    exConfigReal_good (by simp [angularElements]) (by simp [angularElements])
  exact ⟨b, [lossy, lossy], h1.reachable, by rw [h3]; exact exConfigReal_good, by rw [h3]; rfl, h2, rfl,
    by rw [h4]; simp [angularElements], lossy_dist⟩

end Granne
