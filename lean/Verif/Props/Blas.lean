import Verif.Props.EndToEnd
import Verif.Proofs.BlasError

/-!
Property C82: the library built with the feature `blas`, over any BLAS library that meets `GoodBlas` (Spec/Blas).
-/
namespace Granne
open Spec F32

/-- C82. The distance of two converted vectors (zero or of a norm between `2^-50` and `2^63`, like in C51) does not panic, is finite, not
negative, and differs from 1 minus the cosine by at most `(k + 2 e + 11) * 2^-24`, in whatever order `sdot` adds. -/
theorem C82_error (B : Blas) (dim k e : Nat) (hB : GoodBlas B dim k e) (hk : k ≤ 2048) (he : e ≤ 1000) (hd : dim ≤ 65536) (x y : List ℝ)
    (hxd : x.length = dim) (hyd : y.length = dim) (hx : InRange x) (hy : InRange y) (rows : List (List F32)) :
    blasDist B (blasStored B x) (blasStored B y) = some (fin ((blasElements B rows).dist (blasStored B x) (blasStored B y))) ∧
    0 ≤ (blasElements B rows).dist (blasStored B x) (blasStored B y) ∧
    |(blasElements B rows).dist (blasStored B x) (blasStored B y) - (1 - cosine x y)| ≤ ((k : ℝ) + 2 * (e : ℝ) + 11) * 2 ^ (-24 : Int) := by
  obtain ⟨d, h1, h2, h3⟩ := blasDist_f32 hB hk he hd x y hxd hyd hx hy
  have e' : (blasElements B rows).dist (blasStored B x) (blasStored B y) = d := by
    show ((blasDist B (blasStored B x) (blasStored B y)).getD nan).val = d
    rw [blasStored, blasStored, h1]; rfl
  rw [e']
  exact ⟨h1, h2, h3⟩

/-- C82. With few enough roundings (`k + 2 e` below 189, for example one accumulator per 8 components in dimension 1000) the test by which
the builder recognises zero vectors is right: an element is skipped exactly if all its components are zero. -/
theorem C82_skipped_iff_zero (B : Blas) (dim k e : Nat) (hB : GoodBlas B dim k e) (hke : k + 2 * e < 189) (hd : dim ≤ 65536)
    (raw : List (List ℝ)) (hlen : ∀ x ∈ raw, x.length = dim) (hr : ∀ x ∈ raw, InRange x) (i : Nat) :
    IsZero (blasElements B (raw.map (blasStored B))) zeroThreshold i ↔ ∃ x, raw[i]? = some x ∧ ZeroVector x := by
  rcases Option.eq_none_or_eq_some raw[i]? with hn | ⟨x, hx⟩
  · simp [IsZero, Elements.dist?, blasElements, hn]
  · have hm := List.mem_of_getElem? hx
    have e1 : (blasElements B (raw.map (blasStored B))).dist? i i =
        some ((blasElements B (raw.map (blasStored B))).dist (blasStored B x) (blasStored B x)) := by
      simp [Elements.dist?, Elements.distTo, blasElements, hx]
    have hd0 := (C82_error B dim k e hB (by omega) (by omega) hd x x (hlen x hm) (hlen x hm) (hr x hm) (hr x hm)
      (raw.map (blasStored B))).2.2
    have hlt : ((k : ℝ) + 2 * (e : ℝ) + 11) * 2 ^ (-24 : Int) < zeroThreshold := by
      rw [zeroThreshold_eq]
      refine mul_lt_mul_of_pos_right ?_ (two_zpow_pos _)
      have : ((k + 2 * e : Nat) : ℝ) < 189 := by exact_mod_cast hke
      push_cast at this
      linarith
    replace hd0 := lt_of_le_of_lt hd0 hlt
    rw [abs_lt] at hd0
    constructor
    · rintro ⟨d, h1, h2⟩
      rw [e1] at h1
      refine ⟨x, hx, ?_⟩
      by_contra hc
      unfold ZeroVector at hc
      push Not at hc
      rw [← Option.some.inj h1] at h2
      rw [cosine_self hc] at hd0
      linarith [hd0.2]
    · rintro ⟨x', hx', hz⟩
      rw [hx] at hx'
      cases hx'
      refine ⟨_, e1, ?_⟩
      rw [cosine_zero_left hz] at hd0
      have : zeroThreshold < 1 / 2 := by unfold zeroThreshold; norm_num
      linarith [hd0.1]

/-- A builder, with any history, over the stored form of `raw`. -/
structure BlasBuilder (B : Blas) (srt : List (Nat × ℝ) → List (Nat × ℝ)) (b : Builder (List F32) ℝ) (raw : List (List ℝ)) (dim : Nat) :
    Prop where
  length : ∀ x ∈ raw, x.length = dim
  range : ∀ x ∈ raw, InRange x
  history : Reachable srt b
  config : GoodConfig b.config
  threshold : b.config.eps = zeroThreshold
  elements : b.elements = blasElements B (raw.map (blasStored B))

theorem BlasBuilder.approx {B : Blas} {srt : List (Nat × ℝ) → List (Nat × ℝ)} {b : Builder (List F32) ℝ} {raw : List (List ℝ)}
    {dim k e : Nat} (h : BlasBuilder B srt b raw dim) (hB : GoodBlas B dim k e) (hke : k + 2 * e < 189) (hd : dim ≤ 65536) {q : List ℝ}
    (hq : q.length = dim) (hr : InRange q) : Approximates b.elements raw (blasStored B q) q (((k : ℝ) + 2 * (e : ℝ) + 11) * 2 ^ (-24 : Int)) := by
  rw [h.elements]
  refine ⟨by simp [blasElements], fun i v x he hx => ?_⟩
  have hm := List.mem_of_getElem? hx
  have : v = blasStored B x := by
    simp only [blasElements, List.getElem?_map, hx, Option.map_some, Option.some.injEq] at he
    exact he.symm
  subst this
  exact (C82_error B dim k e hB (by omega) (by omega) hd x q (h.length x hm) hq (h.range x hm) hr _).2.2

/-- C82. A search of an index over such vectors: it does not panic, every reported distance is within `(k + 2 e + 11) * 2^-24` of 1 minus
the cosine, the order is that of the cosines up to twice that, and zero vectors are not returned (unless it is element 0). -/
theorem C82_search (B : Blas) (dim k e : Nat) (hB : GoodBlas B dim k e) (hke : k + 2 * e < 189) (hd : dim ≤ 65536)
    {srt : List (Nat × ℝ) → List (Nat × ℝ)} (hsrt : IsSortByDist srt) (b : Builder (List F32) ℝ) (raw : List (List ℝ))
    (h : BlasBuilder B srt b raw dim) (q : List ℝ) (hq : q.length = dim) (hr : InRange q) (maxSearch n : Nat) (hms : 1 ≤ maxSearch) :
    ∃ r, search b.graphs b.elements (blasStored B q) maxSearch n = some r ∧
      (∀ p ∈ r, ∃ x, raw[p.1]? = some x ∧ |p.2 - (1 - cosine x q)| ≤ ((k : ℝ) + 2 * (e : ℝ) + 11) * 2 ^ (-24 : Int) ∧
        (p.1 ≠ 0 → ¬ ZeroVector x)) ∧
      r.Pairwise fun p p' => ∀ x x', raw[p.1]? = some x → raw[p'.1]? = some x' →
        cosine x' q ≤ cosine x q + 2 * (((k : ℝ) + 2 * (e : ℝ) + 11) * 2 ^ (-24 : Int)) := by
  refine approx_search hsrt b h.history h.config raw _ q _ (h.approx hB hke hd hq hr) (fun i x hx hz => ?_) maxSearch n hms
  rw [h.elements, h.threshold]
  exact (C82_skipped_iff_zero B dim k e hB hke hd raw h.length h.range i).2 ⟨x, hx, hz⟩

/-- C82. In a small collection a search with `max_search` at least the number of indexed vectors misses nothing, up to the rounding
errors. -/
theorem C82_small_exact (B : Blas) (dim k e : Nat) (hB : GoodBlas B dim k e) (hke : k + 2 * e < 189) (hd : dim ≤ 65536)
    {srt : List (Nat × ℝ) → List (Nat × ℝ)} (hsrt : IsSortByDist srt) (b : Builder (List F32) ℝ) (raw : List (List ℝ))
    (h : BlasBuilder B srt b raw dim) (hsmall : SmallCollection srt b) (hpos : 0 < lastLen b.layers) (q : List ℝ)
    (hq : q.length = dim) (hr : InRange q) (maxSearch n : Nat) (hms : lastLen b.layers ≤ maxSearch) :
    ∃ r, search b.graphs b.elements (blasStored B q) maxSearch n = some r ∧ r.length ≤ n ∧
      ∀ j x, j < lastLen b.layers → raw[j]? = some x → ¬ ZeroVector x → j ∉ r.map Prod.fst →
        r.length = n ∧ ∀ p ∈ r, ∃ y, raw[p.1]? = some y ∧ cosine x q ≤ cosine y q + 2 * (((k : ℝ) + 2 * (e : ℝ) + 11) * 2 ^ (-24 : Int)) := by
  refine approx_small hsrt b hsmall raw _ q _ (h.approx hB hke hd hq hr) (fun i x hx hnz => ?_) hpos maxSearch n hms
  rw [h.elements, h.threshold]
  intro hc
  obtain ⟨y, hy, hz⟩ := (C82_skipped_iff_zero B dim k e hB hke hd raw h.length h.range i).1 hc
  rw [hx] at hy; cases hy
  exact hnz hz

theorem one_mul_finite {b : F32} (h : b.Finite) : F32.mul (FloatOps.ofInt 1) b = b := by
  obtain ⟨x, rfl, h1, h2⟩ := h
  rw [ofInt_one]
  show ofReal (1 * x) = fin x
  rw [one_mul, ofReal_fin (by rw [h1]; exact h2), h1]

/-- C82. Sums of embeddings are the same with and without the feature: component by component the two numbers are added, whether `saxpy`
rounds the product with 1 or not. -/
theorem C82_sum (x y : List F32) (hx : ∀ v ∈ x, v.Finite) (hy : ∀ v ∈ y, v.Finite) :
    blasSumInto x y = List.zipWith F32.add x y ∧ blasSumIntoFused x y = List.zipWith F32.add x y := by
  have hcomm : ∀ a b : F32, a.Finite → b.Finite → F32.add b a = F32.add a b := by
    rintro _ _ ⟨a, rfl, _⟩ ⟨b, rfl, _⟩
    show ofReal (b + a) = ofReal (a + b)
    rw [add_comm]
  have hf : ∀ a b : F32, a.Finite → b.Finite → F32.mulAdd (FloatOps.ofInt 1) b a = F32.add a b := by
    rintro _ _ ⟨a, rfl, _⟩ ⟨b, rfl, _⟩
    rw [ofInt_one]
    show ofReal (1 * b + a) = ofReal (a + b)
    rw [one_mul, add_comm]
  unfold blasSumInto blasSumIntoFused
  induction x generalizing y with
  | nil => simp
  | cons a x ih =>
    cases y with
    | nil => simp
    | cons b y =>
      obtain ⟨h1, h2⟩ := ih y (fun v hv => hx v (by simp [hv])) (fun v hv => hy v (by simp [hv]))
      have ha := hx a (by simp)
      have hb := hy b (by simp)
      rw [List.zipWith_cons_cons, List.zipWith_cons_cons, List.zipWith_cons_cons, h1, h2, one_mul_finite hb, hcomm a b ha hb, hf a b ha hb]
      exact ⟨rfl, rfl⟩

/-- C82. Where the library without the feature never panics (C51_finite_never_panics), it does with it: a vector with a zero component
whose norm, as `snrm2` gives it, is not zero and at most `2^-129`, has after the conversion a component that is not a number (1 divided by
the norm is infinite), and its distance to any vector panics. -/
theorem C82_tiny_vector_panics (B : Blas) (dim k e : Nat) (hB : GoodBlas B dim k e) (x y : List F32) (hx : x.length = dim)
    (hy : y.length = dim) (r : ℝ) (hr0 : 0 < r) (hr : r ≤ 2 ^ (-129 : Int)) (hn : B.snrm2 x = fin r) (hz : fin 0 ∈ x) :
    nan ∈ blasNormalize B x ∧ blasDist B (blasNormalize B x) y = none := by
  have h129 : (2 : ℝ) ^ (129 : Int) ≤ 1 / r := by
    rw [le_div_iff₀ hr0]
    calc (2 : ℝ) ^ (129 : Int) * r ≤ 2 ^ (129 : Int) * 2 ^ (-129 : Int) := mul_le_mul_of_nonneg_left hr (two_zpow_pos _).le
      _ = 1 := by norm_num
  have hdiv : (FloatOps.div (FloatOps.ofInt 1) (fin r) : F32) = inf false := by
    rw [ofInt_one]
    show (if r = 0 then _ else ofReal (1 / r)) = _
    rw [if_neg hr0.ne', ofReal, if_neg, decide_eq_false (not_lt.2 (by positivity))]
    intro hc
    have h1 : (2 : ℝ) ^ (129 : Int) ≤ rne32 (1 / r) := pow_le_rne32 (by norm_num) h129
    have h2 := (le_abs_self _).trans hc
    have h3 : maxF32 < 2 ^ (129 : Int) := by unfold maxF32; norm_num
    linarith
  have en : blasNormalize B x = x.map fun a => FloatOps.mul (inf false) a := by
    unfold blasNormalize
    rw [hn]
    have : FloatOps.gt (fin r : F32) (FloatOps.ofInt 0) = true := by
      rw [ofInt_zero]; exact decide_eq_true hr0
    simp only [this, if_true, hdiv]
  have hnan : nan ∈ blasNormalize B x := by
    rw [en]
    refine List.mem_map.2 ⟨fin 0, hz, ?_⟩
    show F32.mulInf false 0 = nan
    exact if_pos rfl
  refine ⟨hnan, ?_⟩
  have hl : (blasNormalize B x).length = dim := by rw [en, List.length_map, hx]
  obtain ⟨k', _, hs⟩ := hB.sdot (blasNormalize B x) y hl hy
  have hv : B.sdot (blasNormalize B x) y = nan := by
    refine acc_nan hs.acc ?_
    obtain ⟨i, hi, he⟩ := List.mem_iff_getElem.1 hnan
    have hiy : i < y.length := by omega
    refine ⟨y[i], ?_⟩
    rw [← he, ← List.getElem_zip (h := by rw [List.length_zip]; omega)]
    exact List.getElem_mem _
  unfold blasDist
  rw [hv, ofInt_one]
  have : (FloatOps.sub (fin 1) nan : F32) = nan := rfl
  rw [this]
  have h2 : FloatOps.isNan (nan : F32) = true := rfl
  simp only [h2, if_true]

/-- A BLAS library: one accumulator, fused operations, the correctly rounded norm. -/
noncomputable def naiveBlas : Blas :=
  ⟨fun x y => (x.zip y).foldr (fun p c => F32.mulAdd p.1 p.2 c) (fin 0), fun x => ofReal (norm (x.map F32.val))⟩

theorem naiveBlas_good (dim : Nat) : GoodBlas naiveBlas dim dim 1 := by
  have hval : ∀ x : List ℝ, (x.map fin).map F32.val = x := fun x => by rw [List.map_map]; exact List.map_id x
  refine ⟨fun x y hx hy => ⟨(x.zip y).length, by rw [List.length_zip]; omega, ?_⟩, ?_, ?_⟩
  · show SumInAnyOrder _ _ ((x.zip y).foldr (fun p c => F32.mulAdd p.1 p.2 c) (fin 0))
    generalize x.zip y = l
    induction l with
    | nil => exact .nothing
    | cons p l ih => exact .fused p.1 p.2 ih
  · intro x _ hz
    show ofReal (norm ((x.map fin).map F32.val)) = fin 0
    rw [hval, hz, ofReal_fin (by rw [rne32_zero, abs_zero]; exact maxF32_pos.le), rne32_zero]
  · intro x _ h1 h2
    have h0 := norm_nonneg' x
    refine ⟨rne32 (norm x), ?_, ?_⟩
    · show ofReal (norm ((x.map fin).map F32.val)) = _
      rw [hval]
      exact ofReal_pow (e := 63) (by norm_num) (by norm_num) (by rwa [abs_of_nonneg h0])
    · refine (rne32_err _).trans (max_le ?_ ?_)
      · rw [abs_of_nonneg h0]; push_cast; rw [one_mul]
      · push_cast
        rw [one_mul]
        have h3 := mul_le_mul_of_nonneg_left h1 (two_zpow_pos (-24)).le
        refine le_trans ?_ h3
        norm_num

/-- With it vectors of dimension 128: the error of the distance is below `2^-16`. And the vector `(2^-140, 0)` panics. -/
example (x y : List ℝ) (hx : x.length = 128) (hy : y.length = 128) (h1 : InRange x) (h2 : InRange y) :
    |(blasElements naiveBlas []).dist (blasStored naiveBlas x) (blasStored naiveBlas y) - (1 - cosine x y)| < 2 ^ (-16 : Int) := by
  refine lt_of_le_of_lt (C82_error naiveBlas 128 128 1 (naiveBlas_good 128) (by norm_num) (by norm_num) (by norm_num) x y hx hy h1 h2 []).2.2 ?_
  norm_num

example (y : List F32) (hy : y.length = 2) :
    blasDist naiveBlas (blasNormalize naiveBlas [fin (2 ^ (-140 : Int)), fin 0]) y = none := by
  refine (C82_tiny_vector_panics naiveBlas 2 2 1 (naiveBlas_good 2) _ y rfl hy (2 ^ (-140 : Int)) (by positivity)
    (two_zpow_le (by norm_num)) ?_ (by simp)).2
  show ofReal (Spec.norm [2 ^ (-140 : Int), 0]) = _
  have e : Spec.norm [2 ^ (-140 : Int), 0] = 2 ^ (-140 : Int) := by
    unfold Spec.norm dot
    simp only [List.zipWith_cons_cons, List.zipWith_nil_left, List.sum_cons, List.sum_nil, mul_zero, add_zero]
    exact Real.sqrt_mul_self (two_zpow_pos _).le
  rw [e, ofReal_pow (e := -140) (by norm_num) (by norm_num) (by rw [abs_of_pos (two_zpow_pos _)])]
  have h := rne32_digits (m := 1) (e := -140) (by norm_num) (by norm_num)
  push_cast at h
  rw [one_mul] at h
  rw [h]

end Granne
