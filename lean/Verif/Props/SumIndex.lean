import Verif.Props.TextIndex

/-!
C57: indexes over sums of embeddings, with the distances as they are computed, in terms of the exact sums.
-/
namespace Granne
open Spec F32

/-- The terms have embeddings, and there are none of them, or at most 1024 whose embeddings do not nearly cancel out:
the exact sum is at least `2^-49` long, and the rounding errors at most half as long. -/
structure SumRange (emb : List (List ℝ)) (dim : Nat) (ts : List Nat) : Prop where
  known : ∀ w ∈ ts, w < emb.length
  range : ts = [] ∨ (ts.length ≤ 1024 ∧ 2 ^ (-49 : Int) ≤ norm (exactSum emb dim ts) ∧ normSum emb ts ≤ 2 ^ (62 : Int) ∧
    sumError emb dim ts ≤ 1 / 2)

/-- A collection of sums: `emb` are the embeddings, of one dimension, with `f32` components, and `terms` the terms of the
elements. -/
structure SumInput (s : SumEmb F32) (emb : List (List ℝ)) (dim : Nat) (terms : List (List Nat)) : Prop where
  pos : 0 < dim
  small : ModestDim dim
  nonempty : emb ≠ []
  embeddings : ShowsVectors s.embeddings dim (emb.map fun v => v.map fin)
  floats : ∀ v ∈ emb, ∀ a ∈ v, rne32 a = a
  elements : ShowsTerms s terms
  range : ∀ ts ∈ terms, SumRange emb dim ts

theorem SumInput.length {s : SumEmb F32} {emb : List (List ℝ)} {dim : Nat} {terms : List (List Nat)}
    (h : SumInput s emb dim terms) : ∀ v ∈ emb, v.length = dim := by
  intro v hv
  have := h.embeddings.equalLength (v.map fin) (List.mem_map_of_mem hv)
  simpa using this

theorem exactSum_length (emb : List (List ℝ)) (dim : Nat) (ts : List Nat) : (exactSum emb dim ts).length = dim :=
  vecSum_length _ _

theorem exactSum_nil (emb : List (List ℝ)) (dim : Nat) : ZeroVector (exactSum emb dim []) := by
  intro a ha
  simp only [exactSum, vecSum, embeddingsOf, List.map_nil, List.sum_nil, List.mem_map] at ha
  obtain ⟨_, _, rfl⟩ := ha
  rfl

theorem sumError_nil (emb : List (List ℝ)) (dim : Nat) : sumError emb dim [] = 0 := by simp [sumError]

theorem sumError_nonneg (emb : List (List ℝ)) (dim : Nat) (ts : List Nat) : 0 ≤ sumError emb dim ts := by
  unfold sumError
  apply mul_nonneg
  · exact sub_nonneg.2 (one_le_pow₀ (by have := two_zpow_pos (-24); linarith))
  · apply div_nonneg _ (norm_nonneg' _)
    unfold normSum
    apply List.sum_nonneg
    intro a ha
    obtain ⟨v, _, rfl⟩ := List.mem_map.1 ha
    exact norm_nonneg' v

/-- The embedding of terms as it is computed. -/
theorem computed_sum_floats {s : SumEmb F32} {emb : List (List ℝ)} {dim : Nat} {terms : List (List Nat)}
    (h : SumInput s emb dim terms) (ts : List Nat) (hr : SumRange emb dim ts) :
    ∃ c : List ℝ, s.createEmbedding ts = some (c.map fin) ∧ c.length = dim ∧ InRange c ∧ (ZeroVector c ↔ ts = []) ∧
      (∀ a ∈ c, rne32 a = a) ∧
      ∀ y : List ℝ, y.length = dim → |cosine c y - cosine (exactSum emb dim ts) y| ≤ 2 * sumError emb dim ts := by
  obtain ⟨c1, c2, _⟩ := C36_embedding_is_sum s dim _ h.embeddings h.pos
  cases ts with
  | nil =>
    have hz : ZeroVector (List.replicate dim (0 : ℝ)) := fun a ha => List.eq_of_mem_replicate ha
    refine ⟨List.replicate dim 0, ?_, by simp, Or.inl (norm_eq_zero'.2 hz), by simpa using hz,
      fun a ha => by rw [List.eq_of_mem_replicate ha, rne32_zero], ?_⟩
    · rw [c1 (by simpa using h.nonempty), List.map_replicate]
      rfl
    · intro y _
      rw [cosine_zero_left hz, cosine_zero_left (exactSum_nil emb dim), sumError_nil]
      simp
  | cons w t =>
    obtain ⟨hlen, hlo, hhi, herr⟩ := hr.range.resolve_left (by simp)
    have hw := hr.known w (by simp)
    have hmem : ∀ u ∈ embeddingsOf emb (w :: t), u ∈ emb := by
      intro u hu
      obtain ⟨i, hi, rfl⟩ := List.mem_map.1 hu
      have := hr.known i hi
      rw [List.getD_eq_getElem?_getD, List.getElem?_eq_getElem this, Option.getD_some]
      exact List.getElem_mem this
    have e : embeddingsOf emb (w :: t) = emb.getD w [] :: embeddingsOf emb t := rfl
    have hcreate := c2 w t ((emb.getD w []).map fin) ((embeddingsOf emb t).map fun u => u.map fin)
      (by rw [List.getElem?_map, List.getElem?_eq_getElem hw]; simp [hw]) (by
        have : ∀ i ∈ t, i < emb.length := fun i hi => hr.known i (by simp [hi])
        clear hmem e hr hlen hlo hhi herr
        induction t with
        | nil => exact .nil
        | cons i t ih =>
          refine .cons ?_ (ih fun j hj => this j (by simp [hj]))
          have hi := this i (by simp)
          rw [List.getElem?_map, List.getElem?_eq_getElem hi]
          simp [hi])
    rw [List.length_cons] at hlen
    have hhi' := hhi
    rw [normSum, e] at hhi'
    obtain ⟨c, hc1, hc2, hc3, hc4⟩ := sumVectors_err (emb.getD w []) (embeddingsOf emb t) dim
      (by rw [← e]; exact fun u hu => h.length u (hmem u hu))
      (by rw [← e]; exact fun u hu => h.floats u (hmem u hu))
      (by rw [embeddingsOf, List.length_map]; omega)
      (hhi'.trans (zpow_le_zpow_right₀ (by norm_num) (by norm_num)))
    rw [hc1] at hcreate
    have hpos : 0 < norm (exactSum emb dim (w :: t)) := lt_of_lt_of_le (two_zpow_pos _) hlo
    have hdiff : norm (diff c (exactSum emb dim (w :: t))) ≤ sumError emb dim (w :: t) * norm (exactSum emb dim (w :: t)) := by
      rw [sumError, mul_assoc, div_mul_cancel₀ _ hpos.ne', exactSum, normSum, e]
      rw [embeddingsOf, List.length_map] at hc4
      exact hc4
    have hl : c.length = (exactSum emb dim (w :: t)).length := by rw [hc2, exactSum_length]
    have hn := abs_norm_sub_le hl
    rw [abs_le] at hn
    have hhalf : norm (diff c (exactSum emb dim (w :: t))) ≤ 1 / 2 * norm (exactSum emb dim (w :: t)) :=
      hdiff.trans (mul_le_mul_of_nonneg_right herr hpos.le)
    have hex : norm (exactSum emb dim (w :: t)) ≤ 2 ^ (62 : Int) :=
      le_trans (norm_vecSum_le fun u hu => h.length u (hmem u hu)) hhi
    have h49 : (2 : ℝ) ^ (-50 : Int) = 1 / 2 * 2 ^ (-49 : Int) := by norm_num
    have h63 : (2 : ℝ) ^ (63 : Int) = 2 * 2 ^ (62 : Int) := by norm_num
    have hlow : 1 / 2 * norm (exactSum emb dim (w :: t)) ≤ norm c := by linarith [hn.1]
    refine ⟨c, hcreate, hc2, Or.inr ⟨?_, ?_⟩, ?_, hc3, ?_⟩
    · rw [h49]
      exact le_trans (mul_le_mul_of_nonneg_left hlo (by norm_num)) hlow
    · rw [h63]
      have : norm c ≤ 2 * norm (exactSum emb dim (w :: t)) := by linarith [hn.2]
      exact this.trans (mul_le_mul_of_nonneg_left hex (by norm_num))
    · constructor
      · intro hz
        rw [norm_eq_zero'.2 hz] at hlow
        linarith
      · intro hc; cases hc
    · intro y hy
      refine (cosine_perturb hl (by rw [exactSum_length, hy]) hpos).trans ?_
      rw [div_le_iff₀ hpos]
      linarith

theorem computed_sum {s : SumEmb F32} {emb : List (List ℝ)} {dim : Nat} {terms : List (List Nat)}
    (h : SumInput s emb dim terms) (ts : List Nat) (hr : SumRange emb dim ts) :
    ∃ c : List ℝ, s.createEmbedding ts = some (c.map fin) ∧ c.length = dim ∧ InRange c ∧ (ZeroVector c ↔ ts = []) ∧
      ∀ y : List ℝ, y.length = dim → |cosine c y - cosine (exactSum emb dim ts) y| ≤ 2 * sumError emb dim ts := by
  obtain ⟨c, h1, h2, h3, h4, _, h5⟩ := computed_sum_floats h ts hr
  exact ⟨c, h1, h2, h3, h4, h5⟩

/-- C57. A distance of two elements with the given terms, as it is computed, never panics, is finite, not negative, and
equals 1 minus the cosine of the exact sums up to 100 times `f32::EPSILON` and the errors of the sums. -/
theorem C57_distance (s : SumEmb F32) (emb : List (List ℝ)) (dim : Nat) (terms : List (List Nat))
    (h : SumInput s emb dim terms) (ts us : List Nat) (ht : SumRange emb dim ts) (hu : SumRange emb dim us) :
    ∃ v w d, s.createEmbedding ts = some v ∧ s.createEmbedding us = some w ∧
      angularDist (normalize v) (normalize w) = some (fin d) ∧ 0 ≤ d ∧
      |d - (1 - cosine (exactSum emb dim ts) (exactSum emb dim us))| <
        zeroThreshold + 2 * sumError emb dim ts + 2 * sumError emb dim us := by
  obtain ⟨c, c1, c2, c3, _, c5⟩ := computed_sum h ts ht
  obtain ⟨e, e1, e2, e3, _, e5⟩ := computed_sum h us hu
  obtain ⟨d, d1, d2, d3⟩ := C51_error c e (by rw [c2, e2]) (by rw [c2]; exact h.small) c3 e3
  refine ⟨_, _, d, c1, e1, d1, d2, ?_⟩
  have f1 := c5 e e2
  have f2 := e5 (exactSum emb dim ts) (exactSum_length _ _ _)
  rw [cosine_comm e, cosine_comm (exactSum emb dim us)] at f2
  rw [← zeroThreshold_eq] at d3
  rw [abs_lt] at d3 ⊢
  rw [abs_le] at f1 f2
  constructor <;> linarith [d3.1, d3.2, f1.1, f1.2, f2.1, f2.2]

/-- The elements as the index sees them. -/
theorem SumInput.computed {s : SumEmb F32} {emb : List (List ℝ)} {dim : Nat} {terms : List (List Nat)}
    (h : SumInput s emb dim terms) :
    ∃ cs : List (List ℝ), sumElements s = some (angularElements (cs.map storedF32)) ∧ F32Input cs dim ∧
      cs.length = terms.length ∧ ∀ (i : Nat) (ts : List Nat) (c : List ℝ), terms[i]? = some ts → cs[i]? = some c →
        (ZeroVector c ↔ ts = []) ∧
        ∀ y : List ℝ, y.length = dim → |cosine c y - cosine (exactSum emb dim ts) y| ≤ 2 * sumError emb dim ts := by
  have key : ∀ ts ∈ terms, ∃ c : List ℝ, s.createEmbedding ts = some (c.map fin) ∧ c.length = dim ∧ InRange c ∧
      (ZeroVector c ↔ ts = []) ∧
      ∀ y : List ℝ, y.length = dim → |cosine c y - cosine (exactSum emb dim ts) y| ≤ 2 * sumError emb dim ts :=
    fun ts hts => computed_sum h ts (h.range ts hts)
  choose! f hf using key
  refine ⟨terms.map f, ?_, ⟨h.small, ?_, ?_⟩, by simp, ?_⟩
  · refine sumElements_eq (by simp [h.elements.len]) fun i hi => ?_
    rw [h.elements.len] at hi
    rw [sumElement, getEmbedding_terms, h.elements.get, List.getElem?_eq_getElem hi]
    simp only [List.getElem?_map, List.getElem?_eq_getElem hi, Option.map_some]
    rw [(hf _ (List.getElem_mem hi)).1]
    rfl
  · intro x hx
    obtain ⟨ts, hts, rfl⟩ := List.mem_map.1 hx
    exact (hf ts hts).2.1
  · intro x hx
    obtain ⟨ts, hts, rfl⟩ := List.mem_map.1 hx
    exact (hf ts hts).2.2.1
  · intro i ts c hi hc
    rw [List.getElem?_map, hi, Option.map_some, Option.some.injEq] at hc
    subst hc
    exact (hf ts (List.mem_of_getElem? hi)).2.2.2

/-- C57. The builder recognises the elements without terms, and only these, as zero. -/
theorem C57_skipped_iff_no_terms (s : SumEmb F32) (emb : List (List ℝ)) (dim : Nat) (terms : List (List Nat))
    (h : SumInput s emb dim terms) :
    ∃ es, sumElements s = some es ∧ es.data.length = terms.length ∧
      ∀ i : Nat, IsZero es zeroThreshold i ↔ terms[i]? = some [] := by
  obtain ⟨cs, h1, h2, h3, h4⟩ := h.computed
  refine ⟨_, h1, by simp [angularElements, h3], fun i => ?_⟩
  rw [C53_skipped_iff_zero cs dim h2 i]
  constructor
  · rintro ⟨c, hc, hz⟩
    have hi : i < terms.length := by rw [← h3]; exact (List.getElem?_eq_some_iff.1 hc).1
    rw [List.getElem?_eq_getElem hi, ((h4 i _ c (List.getElem?_eq_getElem hi) hc).1).1 hz]
  · intro hi
    have hlt : i < cs.length := by rw [h3]; exact (List.getElem?_eq_some_iff.1 hi).1
    exact ⟨cs[i], List.getElem?_eq_getElem hlt, ((h4 i _ _ hi (List.getElem?_eq_getElem hlt)).1).2 rfl⟩

section
variable {srt : List (Nat × ℝ) → List (Nat × ℝ)}

/-- A builder over a collection of sums, in any state it can get into. -/
structure SumBuilder (srt : List (Nat × ℝ) → List (Nat × ℝ)) (b : Builder (List F32) ℝ) (s : SumEmb F32)
    (emb : List (List ℝ)) (dim : Nat) (terms : List (List Nat)) : Prop where
  input : SumInput s emb dim terms
  history : Reachable srt b
  config : GoodConfig b.config
  threshold : b.config.eps = zeroThreshold
  elements : sumElements s = some b.elements

/-- The error of a distance between an element and a query with the terms `q`, if the sums of the elements have errors
of at most `τ`. -/
noncomputable def sumTolerance (emb : List (List ℝ)) (dim : Nat) (q : List Nat) (τ : ℝ) : ℝ :=
  zeroThreshold + 2 * τ + 2 * sumError emb dim q

theorem SumInput.approx {es : Elements (List F32) ℝ} {s : SumEmb F32} {emb : List (List ℝ)} {dim : Nat}
    {terms : List (List Nat)} (h : SumInput s emb dim terms) (hes : sumElements s = some es) {τ : ℝ}
    (hτ : ∀ ts ∈ terms, sumError emb dim ts ≤ τ) (q : List Nat) (hq : SumRange emb dim q) :
    ∃ v, s.createEmbedding q = some v ∧
      Approximates es (terms.map (exactSum emb dim)) (normalize v) (exactSum emb dim q) (sumTolerance emb dim q τ) := by
  obtain ⟨cs, h1, h2, h3, h4⟩ := h.computed
  obtain ⟨c, c1, c2, c3, _, c5⟩ := computed_sum h q hq
  have hb : es = angularElements (cs.map storedF32) := by
    rw [h1] at hes
    exact (Option.some.inj hes).symm
  have ha := h2.approx c2 c3
  refine ⟨_, c1, by rw [hb]; simp [angularElements, h3], fun i e x he hx => ?_⟩
  rw [List.getElem?_map, Option.map_eq_some_iff] at hx
  obtain ⟨ts, hts, rfl⟩ := hx
  have hlt : i < cs.length := by rw [h3]; exact (List.getElem?_eq_some_iff.1 hts).1
  rw [hb] at he ⊢
  have n1 := ha.near i e cs[i] he (List.getElem?_eq_getElem hlt)
  have n2 := (h4 i ts _ hts (List.getElem?_eq_getElem hlt)).2 c c2
  have n3 := c5 (exactSum emb dim ts) (exactSum_length _ _ _)
  rw [cosine_comm c, cosine_comm (exactSum emb dim q)] at n3
  have n4 := hτ ts (List.mem_of_getElem? hts)
  change |(angularElements (cs.map storedF32)).dist e (storedF32 c) - _| ≤ _
  rw [abs_le] at n1 n2 n3 ⊢
  unfold sumTolerance
  constructor <;> linarith [n1.1, n1.2, n2.1, n2.2, n3.1, n3.2]

theorem SumBuilder.approx {b : Builder (List F32) ℝ} {s : SumEmb F32} {emb : List (List ℝ)} {dim : Nat}
    {terms : List (List Nat)} (h : SumBuilder srt b s emb dim terms) {τ : ℝ}
    (hτ : ∀ ts ∈ terms, sumError emb dim ts ≤ τ) (q : List Nat) (hq : SumRange emb dim q) :
    ∃ v, s.createEmbedding q = some v ∧
      Approximates b.elements (terms.map (exactSum emb dim)) (normalize v) (exactSum emb dim q) (sumTolerance emb dim q τ) :=
  h.input.approx h.elements hτ q hq

/-- The same for a query given by a vector. -/
theorem SumInput.approxVector {es : Elements (List F32) ℝ} {s : SumEmb F32} {emb : List (List ℝ)} {dim : Nat}
    {terms : List (List Nat)} (h : SumInput s emb dim terms) (hes : sumElements s = some es) {τ : ℝ}
    (hτ : ∀ ts ∈ terms, sumError emb dim ts ≤ τ) (q : List ℝ) (hq : q.length = dim) (hqr : InRange q) :
    Approximates es (terms.map (exactSum emb dim)) (storedF32 q) q (zeroThreshold + 2 * τ) := by
  obtain ⟨cs, c1, c2, c3, c4⟩ := h.computed
  have hel : es = angularElements (cs.map storedF32) := by
    rw [c1] at hes
    exact (Option.some.inj hes).symm
  have ha := c2.approx hq hqr
  rw [hel]
  refine ⟨by simp only [angularElements, List.length_map]; rw [c3], fun i el y he hy => ?_⟩
  rw [List.getElem?_map, Option.map_eq_some_iff] at hy
  obtain ⟨ts, hts, rfl⟩ := hy
  have hlt : i < cs.length := by rw [c3]; exact (List.getElem?_eq_some_iff.1 hts).1
  have n1 := ha.near i el cs[i] he (List.getElem?_eq_getElem hlt)
  have n2 := (c4 i ts _ hts (List.getElem?_eq_getElem hlt)).2 q hq
  have n3 := hτ ts (List.mem_of_getElem? hts)
  rw [abs_le] at n1 n2 ⊢
  constructor <;> linarith [n1.1, n1.2, n2.1, n2.2]

theorem SumBuilder.zero_iff {b : Builder (List F32) ℝ} {s : SumEmb F32} {emb : List (List ℝ)} {dim : Nat}
    {terms : List (List Nat)} (h : SumBuilder srt b s emb dim terms) (i : Nat) :
    IsZero b.elements b.config.eps i ↔ terms[i]? = some [] := by
  obtain ⟨es, h1, _, h2⟩ := C57_skipped_iff_no_terms s emb dim terms h.input
  have := h.elements
  rw [h1] at this
  rw [← Option.some.inj this, h.threshold]
  exact h2 i

theorem SumRange.zero_iff {emb : List (List ℝ)} {dim : Nat} {ts : List Nat}
    (hr : SumRange emb dim ts) : ZeroVector (exactSum emb dim ts) ↔ ts = [] := by
  constructor
  · intro hz
    rcases hr.range with h | ⟨_, hlo, _⟩
    · exact h
    · rw [norm_eq_zero'.2 hz] at hlo
      exact absurd hlo (not_le.2 (two_zpow_pos _))
  · rintro rfl
    exact exactSum_nil emb dim

/-- C57. A search of an index over sums of embeddings, for a query made of terms: it does not panic, every reported
distance is 1 minus the cosine of the exact sums, up to `100 * f32::EPSILON` and the errors of the sums; the order is
that of these cosines up to twice that; elements without terms are not returned (unless it is element 0). -/
theorem C57_search (hsrt : IsSortByDist srt) (b : Builder (List F32) ℝ) (s : SumEmb F32) (emb : List (List ℝ)) (dim : Nat)
    (terms : List (List Nat)) (h : SumBuilder srt b s emb dim terms) (τ : ℝ)
    (hτ : ∀ ts ∈ terms, sumError emb dim ts ≤ τ) (q : List Nat) (hq : SumRange emb dim q) (maxSearch k : Nat)
    (hms : 1 ≤ maxSearch) :
    ∃ v r, s.createEmbedding q = some v ∧ search b.graphs b.elements (normalize v) maxSearch k = some r ∧
      (∀ p ∈ r, ∃ ts, terms[p.1]? = some ts ∧
        |p.2 - (1 - cosine (exactSum emb dim ts) (exactSum emb dim q))| ≤ zeroThreshold + 2 * τ + 2 * sumError emb dim q ∧
        (p.1 ≠ 0 → ts ≠ [])) ∧
      r.Pairwise fun p p' => ∀ ts ts', terms[p.1]? = some ts → terms[p'.1]? = some ts' →
        cosine (exactSum emb dim ts') (exactSum emb dim q) ≤ cosine (exactSum emb dim ts) (exactSum emb dim q) +
          2 * (zeroThreshold + 2 * τ + 2 * sumError emb dim q) := by
  obtain ⟨v, hv, ha⟩ := h.approx hτ q hq
  obtain ⟨r, r1, r2, r3⟩ := approx_search hsrt b h.history h.config _ _ _ _ ha (by
    intro i x hx hz
    rw [List.getElem?_map, Option.map_eq_some_iff] at hx
    obtain ⟨ts, hts, rfl⟩ := hx
    rw [h.zero_iff, hts, ((h.input.range ts (List.mem_of_getElem? hts)).zero_iff).1 hz]) maxSearch k hms
  refine ⟨v, r, hv, r1, fun p hp => ?_, ?_⟩
  · obtain ⟨x, hx, hd, hz⟩ := r2 p hp
    rw [List.getElem?_map, Option.map_eq_some_iff] at hx
    obtain ⟨ts, hts, rfl⟩ := hx
    refine ⟨ts, hts, hd, fun h0 hc => hz h0 ?_⟩
    rw [hc]
    exact exactSum_nil emb dim
  · refine r3.imp fun {p p'} hpp ts ts' hts hts' => ?_
    exact hpp _ _ (by rw [List.getElem?_map, hts]; rfl) (by rw [List.getElem?_map, hts']; rfl)

/-- C57, C50. In a small collection a search with `max_search` at least the number of indexed elements misses nothing, up
to the errors. -/
theorem C57_small_exact (hsrt : IsSortByDist srt) (b : Builder (List F32) ℝ) (s : SumEmb F32) (emb : List (List ℝ))
    (dim : Nat) (terms : List (List Nat)) (h : SumBuilder srt b s emb dim terms) (hsmall : SmallCollection srt b)
    (hpos : 0 < lastLen b.layers) (τ : ℝ) (hτ : ∀ ts ∈ terms, sumError emb dim ts ≤ τ) (q : List Nat)
    (hq : SumRange emb dim q) (maxSearch k : Nat) (hms : lastLen b.layers ≤ maxSearch) :
    ∃ v r, s.createEmbedding q = some v ∧ search b.graphs b.elements (normalize v) maxSearch k = some r ∧ r.length ≤ k ∧
      ∀ (j : Nat) (ts : List Nat), j < lastLen b.layers → terms[j]? = some ts → ts ≠ [] → j ∉ r.map Prod.fst →
        r.length = k ∧ ∀ p ∈ r, ∃ us, terms[p.1]? = some us ∧
          cosine (exactSum emb dim ts) (exactSum emb dim q) ≤ cosine (exactSum emb dim us) (exactSum emb dim q) +
            2 * (zeroThreshold + 2 * τ + 2 * sumError emb dim q) := by
  obtain ⟨v, hv, ha⟩ := h.approx hτ q hq
  obtain ⟨r, r1, r2, r3⟩ := approx_small hsrt b hsmall _ _ _ _ ha (by
    intro i x hx hnz
    rw [List.getElem?_map, Option.map_eq_some_iff] at hx
    obtain ⟨ts, hts, rfl⟩ := hx
    rw [h.zero_iff, hts, Option.some.injEq]
    rintro rfl
    exact hnz (exactSum_nil emb dim)) hpos maxSearch k hms
  refine ⟨v, r, hv, r1, r2, fun j ts hj hts hne hnot => ?_⟩
  obtain ⟨hk, hall⟩ := r3 j (exactSum emb dim ts) hj (by rw [List.getElem?_map, hts]; rfl)
    (fun hz => hne (((h.input.range ts (List.mem_of_getElem? hts)).zero_iff).1 hz)) hnot
  refine ⟨hk, fun p hp => ?_⟩
  obtain ⟨y, hy, hle⟩ := hall p hp
  rw [List.getElem?_map, Option.map_eq_some_iff] at hy
  obtain ⟨us, hus, rfl⟩ := hy
  exact ⟨us, hus, hle⟩

/-- C57, C49. If the exact sums of no two elements point in nearly the same direction, then in every layer every element
with terms, except possibly element 0, has a neighbor. -/
theorem C57_every_element_linked (hsrt : IsSortByDist srt) (b : Builder (List F32) ℝ) (s : SumEmb F32)
    (emb : List (List ℝ)) (dim : Nat) (terms : List (List Nat)) (h : SumBuilder srt b s emb dim terms) (τ : ℝ)
    (hτ : ∀ ts ∈ terms, sumError emb dim ts ≤ τ)
    (hfar : ∀ (i j : Nat) ts us, i ≠ j → terms[i]? = some ts → terms[j]? = some us →
      2 * zeroThreshold + 4 * τ ≤ 1 - cosine (exactSum emb dim ts) (exactSum emb dim us))
    (g : Graph) (hg : g ∈ b.graphs) (j : Nat) (hj : j < g.length) (hj0 : j ≠ 0)
    (hz : ∃ ts, terms[j]? = some ts ∧ ts ≠ []) : ∃ i, Edge g j i ∧ i < g.length ∧ i ≠ j := by
  obtain ⟨cs, h1, h2, h3, h4⟩ := h.input.computed
  have hb : b.elements = angularElements (cs.map storedF32) := by
    have := h.elements
    rw [h1] at this
    exact (Option.some.inj this).symm
  have hin : F32Builder srt b cs dim := ⟨h2, h.history, h.config, h.threshold, hb⟩
  refine C53_every_vector_linked hsrt b cs dim hin ?_ g hg j hj hj0 ?_
  · intro i j x y hne hx hy
    have hi : i < terms.length := by rw [← h3]; exact (List.getElem?_eq_some_iff.1 hx).1
    have hj : j < terms.length := by rw [← h3]; exact (List.getElem?_eq_some_iff.1 hy).1
    have n1 := (h4 i _ x (List.getElem?_eq_getElem hi) hx).2 y (h2.length y (List.mem_of_getElem? hy))
    have n2 := (h4 j _ y (List.getElem?_eq_getElem hj) hy).2 (exactSum emb dim terms[i]) (exactSum_length _ _ _)
    rw [cosine_comm y, cosine_comm (exactSum emb dim terms[j])] at n2
    have n3 := hfar i j _ _ hne (List.getElem?_eq_getElem hi) (List.getElem?_eq_getElem hj)
    have t1 := hτ _ (List.getElem_mem hi)
    have t2 := hτ _ (List.getElem_mem hj)
    rw [abs_le] at n1 n2
    linarith [n1.2, n2.2]
  · obtain ⟨ts, hts, hne⟩ := hz
    have hlt : j < cs.length := by rw [h3]; exact (List.getElem?_eq_some_iff.1 hts).1
    exact ⟨cs[j], List.getElem?_eq_getElem hlt, fun hc => hne (((h4 j ts _ hts (List.getElem?_eq_getElem hlt)).1).1 hc)⟩

end

/-- C57. Pushing an element of a builder over sums appends its vector to the elements and leaves the others as they
are. -/
theorem C57_push (s s' : SumEmb F32) (hs : EmbState s) (terms : List (List Nat)) (ht : ShowsTerms s terms)
    (es : Elements (List F32) ℝ) (hes : sumElements s = some es) (ids : List Nat) (h : s.push ids = some s')
    (v : List F32) (hv : s.createEmbedding ids = some v) :
    sumElements s' = some (angularElements (es.data ++ [normalize v])) := by
  obtain ⟨h1, h2⟩ := (C31_push_panics_iff s hs terms ht ids).2 s' h
  obtain ⟨e1, e2, e3⟩ := sumElements_some hes
  have hl : s'.len = s.len + 1 := by rw [h1.len, ht.len]; simp
  refine sumElements_eq (by rw [hl, List.length_append, e2]; rfl) fun i hi => ?_
  rcases lt_or_ge i s.len with hlt | hge
  · rw [List.getElem?_append_left (by rw [e2]; exact hlt), ← e3 i hlt, sumElement, sumElement, getEmbedding_terms,
      getEmbedding_terms, h1.get, ht.get, List.getElem?_append_left (by rw [← ht.len]; exact hlt)]
    cases terms[i]? with
    | none => rfl
    | some ts => simp only; rw [createEmbedding_embeddings h2]
  · obtain rfl : i = s.len := by omega
    rw [sumElement, getEmbedding_terms, h1.get, ht.len, List.getElem?_concat_length]
    simp only
    rw [createEmbedding_embeddings h2, hv, ← ht.len, ← e2, List.getElem?_concat_length]
    rfl

/-! ### Non-vacuity -/

def exSumEmb : List (List ℝ) := [[1, 0], [0, 1], [-1, 0], [0, -1]]

def exTerms : List (List Nat) := [[0], [1], [], [2, 3]]

theorem norm_pair {a b n : ℝ} (hn : 0 ≤ n) (h : a * a + b * b = n * n) : norm [a, b] = n := by
  rw [Spec.norm, ← Real.sqrt_mul_self hn, ← h]
  congr 1
  simp [dot]

theorem exSums : exTerms.map (exactSum exSumEmb 2) = [[1, 0], [0, 1], [0, 0], [-1, -1]] := by
  simp [exTerms, exactSum, embeddingsOf, exSumEmb, vecSum, List.range_succ]

theorem exRange : ∀ ts ∈ exTerms, SumRange exSumEmb 2 ts ∧ sumError exSumEmb 2 ts ≤ 2 * 2 ^ (-24 : Int) := by
  have n1 : norm [1, 0] = 1 := norm_pair (by norm_num) (by norm_num)
  have n2 : norm [0, 1] = 1 := norm_pair (by norm_num) (by norm_num)
  have n3 : norm [-1, 0] = 1 := norm_pair (by norm_num) (by norm_num)
  have n4 : norm [0, -1] = 1 := norm_pair (by norm_num) (by norm_num)
  have n5 : 1 ≤ norm [-1, -1] := by
    rw [Spec.norm, ← Real.sqrt_one]
    apply Real.sqrt_le_sqrt
    simp [dot]
  have hs := exSums
  simp only [exTerms, List.map_cons, List.map_nil, List.cons.injEq, and_true] at hs
  obtain ⟨s1, s2, s3, s4⟩ := hs
  intro ts hts
  simp only [exTerms, List.mem_cons, List.not_mem_nil, or_false] at hts
  rcases hts with rfl | rfl | rfl | rfl
  · have e : sumError exSumEmb 2 [0] = 0 := by simp [sumError]
    refine ⟨⟨by simp [exSumEmb], Or.inr ⟨by simp, ?_, ?_, ?_⟩⟩, ?_⟩
    · rw [s1, n1]; norm_num
    · simp only [normSum, embeddingsOf, exSumEmb, List.map_cons, List.map_nil, List.getD_cons_zero, n1]; norm_num
    · rw [e]; norm_num
    · rw [e]; norm_num
  · have e : sumError exSumEmb 2 [1] = 0 := by simp [sumError]
    refine ⟨⟨by simp [exSumEmb], Or.inr ⟨by simp, ?_, ?_, ?_⟩⟩, ?_⟩
    · rw [s2, n2]; norm_num
    · simp only [normSum, embeddingsOf, exSumEmb, List.map_cons, List.map_nil, List.getD_cons_zero, List.getD_cons_succ, n2]
      norm_num
    · rw [e]; norm_num
    · rw [e]; norm_num
  · refine ⟨⟨by simp, Or.inl rfl⟩, ?_⟩
    rw [sumError_nil]; norm_num
  · have hn : normSum exSumEmb [2, 3] = 2 := by
      simp only [normSum, embeddingsOf, exSumEmb, List.map_cons, List.map_nil, List.getD_cons_zero, List.getD_cons_succ, n3, n4]
      norm_num
    have e : sumError exSumEmb 2 [2, 3] ≤ 2 * 2 ^ (-24 : Int) := by
      rw [sumError, hn, s4]
      have : 2 / norm [-1, -1] ≤ 2 := by
        rw [div_le_iff₀ (lt_of_lt_of_le one_pos n5)]; linarith
      have h0 : ((1 : ℝ) + 2 ^ (-24 : Int)) ^ (([2, 3] : List Nat).length - 1) - 1 = 2 ^ (-24 : Int) := by norm_num
      rw [h0, mul_comm]
      exact mul_le_mul_of_nonneg_right this (two_zpow_pos _).le
    refine ⟨⟨by simp [exSumEmb], Or.inr ⟨by simp, ?_, ?_, ?_⟩⟩, e⟩
    · rw [s4]
      exact le_trans (by norm_num) n5
    · rw [hn]; norm_num
    · exact e.trans (by norm_num)

def exSumOps : List (EmbOp F32) :=
  [.pushEmbedding [fin 1, fin 0], .pushEmbedding [fin 0, fin 1], .pushEmbedding [fin (-1), fin 0],
    .pushEmbedding [fin 0, fin (-1)], .push [0], .push [1], .push [], .push [2, 3]]

theorem exSumInput : ∃ s : SumEmb F32, EmbState s ∧ SumInput s exSumEmb 2 exTerms := by
  obtain ⟨s0, s, h0, h1, he⟩ : ∃ s0 s : SumEmb F32, SumEmb.new = some s0 ∧ runEmb s0 exSumOps = some s ∧
      s.embeddings = ⟨[fin 1, fin 0, fin 0, fin 1, fin (-1), fin 0, fin 0, fin (-1)], 2⟩ := ⟨_, _, rfl, rfl, rfl⟩
  refine ⟨s, .pushed s0 s _ h0 h1, by decide, by decide, by simp [exSumEmb], ?_, ?_, C31_terms_are_lists s0 s _ h0 h1,
    fun ts hts => (exRange ts hts).1⟩
  · rw [he]
    exact (FixRepr.mk (by decide) rfl (by simp [exSumEmb]) (by simp [exSumEmb])).shows
  · intro v hv a ha
    have h0 := rne32_zero
    have h1 := rne32_one
    have h2 : rne32 (-1) = -1 := by rw [rne32_neg, h1]
    simp only [exSumEmb, List.mem_cons, List.not_mem_nil, or_false] at hv
    rcases hv with rfl | rfl | rfl | rfl <;> simp only [List.mem_cons, List.not_mem_nil, or_false] at ha <;>
      rcases ha with rfl | rfl <;> assumption

/-- Non-vacuity of C57: four elements, one without terms, one with two; all indexed. -/
example : ∃ (b : Builder (List F32) ℝ) (s : SumEmb F32), SumBuilder exSortReal b s exSumEmb 2 exTerms ∧
    SmallCollection exSortReal b ∧ lastLen b.layers = 4 ∧ (∃ g ∈ b.graphs, 3 < g.length) ∧
    (∀ ts ∈ exTerms, sumError exSumEmb 2 ts ≤ 2 * 2 ^ (-24 : Int)) ∧
    (∀ (i j : Nat) ts us, i ≠ j → exTerms[i]? = some ts → exTerms[j]? = some us →
      2 * zeroThreshold + 4 * (2 * 2 ^ (-24 : Int)) ≤ 1 - cosine (exactSum exSumEmb 2 ts) (exactSum exSumEmb 2 us)) := by
  obtain ⟨s, _, hs⟩ := exSumInput
  obtain ⟨es, he1, he2, _⟩ := C57_skipped_iff_no_terms s _ _ _ hs
  have he3 : es.data.length = 4 := he2
  obtain ⟨b, h1, h2, h3, h4⟩ := exists_built exSortReal_sorts es exConfigReal exConfigReal_good (by omega) (by omega)
  have h4' : lastLen b.layers = 4 := by rw [h4, he3]
  refine ⟨b, s, ⟨hs, h1.reachable, by rw [h3]; exact exConfigReal_good, by rw [h3]; rfl, by rw [h2]; exact he1⟩,
    ⟨by omega, ?_⟩, h4', ?_, fun ts hts => (exRange ts hts).2, ?_⟩
  · refine h1.mono fun c hc => ?_
    subst hc
    exact ⟨exConfigReal_good, by rw [h4']; decide, Or.inr (by rw [h4']; decide)⟩
  · unfold lastLen at h4'
    split at h4'
    · next l hl =>
      exact ⟨graphOf l.rows, List.mem_map_of_mem (List.mem_of_getLast? hl), by rw [graphOf_length]; omega⟩
    · omega
  · intro i j ts us hne hx hy
    have hthr : 2 * zeroThreshold + 4 * (2 * 2 ^ (-24 : Int)) ≤ 1 := by unfold zeroThreshold; norm_num
    have hs := exSums
    simp only [exTerms, List.map_cons, List.map_nil, List.cons.injEq, and_true] at hs
    obtain ⟨s1, s2, s3, s4⟩ := hs
    have hc : dot (exactSum exSumEmb 2 ts) (exactSum exSumEmb 2 us) ≤ 0 := by
      have hi := (List.getElem?_eq_some_iff.1 hx).1
      have hj := (List.getElem?_eq_some_iff.1 hy).1
      simp only [exTerms, List.length_cons, List.length_nil] at hi hj
      interval_cases i <;> interval_cases j <;> simp [exTerms] at hx hy hne <;> subst hx hy <;>
        simp [s1, s2, s3, s4, dot]
    have : cosine (exactSum exSumEmb 2 ts) (exactSum exSumEmb 2 us) ≤ 0 :=
      div_nonpos_of_nonpos_of_nonneg hc (mul_nonneg (norm_nonneg' _) (norm_nonneg' _))
    linarith

def exWords : List Text := ["north".toList, "east".toList, "south".toList, "west".toList]

def exDict : WordDict := ((((WordDict.empty.push "north".toList).1.push "east".toList).1.push "south".toList).1.push
  "west".toList).1

theorem exDict_holds : HoldsWords exDict exWords := by
  have h1 := (HoldsWords.empty.push_new (w := "north".toList) (by decide)).2
  have h2 := (h1.push_new (w := "east".toList) (by decide)).2
  have h3 := (h2.push_new (w := "south".toList) (by decide)).2
  exact (h3.push_new (w := "west".toList) (by decide)).2

/-- Non-vacuity of C55 (reordering) and C56: a text index with four elements in two layers. -/
example : ∃ (ix : TextIndex) (es : Elements (List F32) ℝ) (gs : List (List (List Nat))) (keys : List (List Nat)),
    EmbState ix.elements ∧ sumElements ix.elements = some es ∧ FullIndex ⟨ix.layers, es⟩ gs ∧
    computeKeys ix.elements = some keys ∧ keys.length = ix.elements.len ∧ HoldsWords ix.words exWords ∧
    ShowsTerms ix.elements exTerms ∧ ix.getInternalElement 3 = some "south west".toList ∧
    (∃ s', textPush ix.elements ix.words "  east of nowhere\tsouth".toList = some s') ∧
    knownWords exWords "  east of nowhere\tsouth".toList = ["east".toList, "south".toList] ∧
    knownWords exWords "nowhere".toList = [] := by
  obtain ⟨s, hst, hs⟩ := exSumInput
  obtain ⟨es, he1, he2, _⟩ := C57_skipped_iff_no_terms s _ _ _ hs
  have he3 : es.data.length = 4 := he2
  have hlen : s.len = 4 := hs.elements.len
  have hk : computeKeys s ≠ none := by
    intro hc
    rcases (C55_panics_iff s 2 _ hs.embeddings exTerms hs.elements).1 hc with ⟨r, hr, hn⟩ | ⟨ts, hts, _, w, hw, hle⟩
    · obtain ⟨v, _, rfl⟩ := List.mem_map.1 hr
      obtain ⟨a, _, ha⟩ := List.mem_map.1 hn
      cases ha
    · have : ∀ ts ∈ exTerms, ∀ w ∈ ts, w < 4 := by decide
      have h4 := this ts hts w hw
      simp only [List.length_map, exSumEmb, List.length_cons, List.length_nil] at hle
      omega
  obtain ⟨keys, hkeys⟩ := Option.ne_none_iff_exists'.1 hk
  refine ⟨⟨.fixWidth [⟨1, [[1], [0]]⟩, ⟨2, [[1, 3], [0, UNUSED], [UNUSED, UNUSED], [0, UNUSED]]⟩], s, exDict⟩, es,
    [[[1], [0]], [[1, 3], [0], [], [0]]], keys, hst, he1, ?_, hkeys, ?_, exDict_holds, hs.elements, ?_, ?_, ?_, ?_⟩
  · have edge : ∀ g ∈ ([[[1], [0]], [[1, 3], [0], [], [0]]] : List (List (List Nat))), ∀ l ∈ g, ∀ j ∈ l, j < g.length := by
      decide
    have hg : (Layers.fixWidth [⟨1, [[1], [0]]⟩, ⟨2, [[1, 3], [0, UNUSED], [UNUSED, UNUSED], [0, UNUSED]]⟩]).graphs =
        some [[[1], [0]], [[1, 3], [0], [], [0]]] := by decide +kernel
    refine ⟨hg, ⟨by decide, ?_, by decide, ?_⟩, ?_, (fun h => by cases h), ?_, by decide⟩
    · rintro g hg i j ⟨l, hl, hj⟩
      exact edge g hg l (List.mem_of_getElem? hl) j hj
    · show ∀ g ∈ _, _ ≤ es.data.length
      rw [he3]; decide
    · intro g hg
      cases hg
      exact he3.symm
    · show es.data.length ≤ _
      rw [he3]; decide
  · rw [(C55_keys s 2 _ hs.embeddings exTerms hs.elements keys hkeys).1, hlen]; rfl
  · unfold TextIndex.getInternalElement
    rw [hs.elements.get]
    show exDict.getWords [2, 3] = _
    decide +kernel
  · apply Option.ne_none_iff_exists'.1
    intro hc
    rcases (C56_push_panics_iff s hst exTerms hs.elements exDict exWords exDict_holds _).1 hc with h | ⟨w, i, _, hi, hle⟩ | h
    · omega
    · have := (List.getElem?_eq_some_iff.1 hi).1
      simp only [exWords, List.length_cons, List.length_nil] at this
      omega
    · revert h
      decide +kernel
  · decide +kernel
  · decide +kernel

end Granne
