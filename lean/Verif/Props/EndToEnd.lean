import Verif.Props.Float
import Verif.Props.Links
import Verif.Model.Concrete
import Verif.Proofs.QuantError
import Mathlib.Tactic.IntervalCases

/-!
C53 and C54: indexes over `f32` and `i8` vectors, with the distances as they are computed (IEEE binary32), in terms of
the real cosines.

`raw` are the vectors as given, `angularElements (raw.map storedF32)` is the collection stored in the index.
-/
namespace Granne
open Spec F32

/-- The vectors C51 gives an error bound for. -/
def InRange (x : List ℝ) : Prop := norm x = 0 ∨ (2 ^ (-50 : Int) ≤ norm x ∧ norm x ≤ 2 ^ (63 : Int))

/-- Vectors of one dimension, a modest one (at most 1118, and also 1536 or 2048), zero or of a norm between `2^-50` and `2^63`. -/
structure F32Input (raw : List (List ℝ)) (dim : Nat) : Prop where
  small : ModestDim dim
  length : ∀ x ∈ raw, x.length = dim
  range : ∀ x ∈ raw, InRange x

theorem zeroThreshold_eq : zeroThreshold = 200 * 2 ^ (-24 : Int) := by unfold zeroThreshold; norm_num

/-- A vector whose components are all 0. -/
def ZeroVector (x : List ℝ) : Prop := ∀ a ∈ x, a = 0

/-- What the elements of an index have to do with real vectors: there is one per vector, and the distance to `q` is `1`
minus the cosine with `rq`, up to `tol`. -/
structure Approximates {E : Type} (es : Elements E ℝ) (raw : List (List ℝ)) (q : E) (rq : List ℝ) (tol : ℝ) : Prop where
  len : es.data.length = raw.length
  near : ∀ (i : Nat) (e : E) (x : List ℝ), es.data[i]? = some e → raw[i]? = some x →
    |es.dist e q - (1 - cosine x rq)| ≤ tol

/-- Searching an index whose elements approximate real vectors. -/
theorem approx_search {E : Type} {srt : List (Nat × ℝ) → List (Nat × ℝ)} (hsrt : IsSortByDist srt) (b : Builder E ℝ)
    (hb : Reachable srt b) (hc : GoodConfig b.config) (raw : List (List ℝ)) (q : E) (rq : List ℝ) (tol : ℝ)
    (ha : Approximates b.elements raw q rq tol)
    (hz : ∀ i x, raw[i]? = some x → ZeroVector x → IsZero b.elements b.config.eps i) (maxSearch k : Nat)
    (hms : 1 ≤ maxSearch) :
    ∃ r, search b.graphs b.elements q maxSearch k = some r ∧
      (∀ p ∈ r, ∃ x, raw[p.1]? = some x ∧ |p.2 - (1 - cosine x rq)| ≤ tol ∧ (p.1 ≠ 0 → ¬ ZeroVector x)) ∧
      r.Pairwise fun p p' => ∀ x x', raw[p.1]? = some x → raw[p'.1]? = some x' →
        cosine x' rq ≤ cosine x rq + 2 * tol := by
  obtain ⟨r, hr1, _⟩ := C02_search_no_panic b.graphs b.elements (C16_index_wellformed hsrt b hb hc) q maxSearch k hms
  obtain ⟨s1, _, s3, _⟩ := C01_search_sound b.graphs b.elements q maxSearch k r hr1
  have key : ∀ p ∈ r, ∃ x, raw[p.1]? = some x ∧ |p.2 - (1 - cosine x rq)| ≤ tol := by
    intro p hp
    obtain ⟨_, e, he, hd⟩ := s3 p hp
    have hlt := (List.getElem?_eq_some_iff.1 he).1
    rw [ha.len] at hlt
    refine ⟨raw[p.1], List.getElem?_eq_getElem hlt, ?_⟩
    rw [hd]
    exact ha.near p.1 e _ he (List.getElem?_eq_getElem hlt)
  refine ⟨r, hr1, fun p hp => ?_, ?_⟩
  · obtain ⟨x, hx, hd⟩ := key p hp
    exact ⟨x, hx, hd, fun h0 hc' =>
      (C19_zero_never_linked hsrt b hb hc p.1 (hz _ x hx hc') h0).2 _ _ _ _ hr1 (List.mem_map_of_mem hp)⟩
  · refine List.Pairwise.imp_of_mem ?_ s1
    intro p p' hp hp' hlt x x' hx hx'
    obtain ⟨y, hy, hd⟩ := key p hp
    obtain ⟨y', hy', hd'⟩ := key p' hp'
    rw [hx] at hy; cases hy
    rw [hx'] at hy'; cases hy'
    rw [abs_le] at hd hd'
    have : p.2 ≤ p'.2 := by rcases hlt with h | ⟨h, _⟩ <;> linarith
    linarith [hd.2, hd'.1]

/-- The same for small collections: nothing is missed, up to the error of the distances. -/
theorem approx_small {E : Type} {srt : List (Nat × ℝ) → List (Nat × ℝ)} (hsrt : IsSortByDist srt) (b : Builder E ℝ)
    (h : SmallCollection srt b) (raw : List (List ℝ)) (q : E) (rq : List ℝ) (tol : ℝ)
    (ha : Approximates b.elements raw q rq tol)
    (hz : ∀ i x, raw[i]? = some x → ¬ ZeroVector x → ¬ IsZero b.elements b.config.eps i)
    (hpos : 0 < lastLen b.layers) (maxSearch k : Nat) (hms : lastLen b.layers ≤ maxSearch) :
    ∃ r, search b.graphs b.elements q maxSearch k = some r ∧ r.length ≤ k ∧
      ∀ j x, j < lastLen b.layers → raw[j]? = some x → ¬ ZeroVector x → j ∉ r.map Prod.fst →
        r.length = k ∧ ∀ p ∈ r, ∃ y, raw[p.1]? = some y ∧ cosine x rq ≤ cosine y rq + 2 * tol := by
  classical
  set searchable := (List.range (lastLen b.layers)).filter fun j => decide (Searchable b j) with hs
  obtain ⟨r, h1, h2, _, h4, h5⟩ := C50_small_exact hsrt b h hpos q maxSearch k hms searchable
    (List.nodup_range.filter _) (by
      intro j
      simp only [hs, List.mem_filter, List.mem_range, decide_eq_true_eq]
      exact ⟨fun h => h.2, fun h => ⟨h.1, h⟩⟩)
  refine ⟨r, h1, by omega, fun j x hj hx hnz hnot => ?_⟩
  have hmem : j ∈ searchable := by
    simp only [hs, List.mem_filter, List.mem_range, decide_eq_true_eq]
    exact ⟨hj, hj, Or.inr (hz j x hx hnz)⟩
  constructor
  · by_contra hne
    have hlen : searchable.length ≤ r.length := by omega
    have hsub : r.map Prod.fst ⊆ searchable := by
      intro i hi
      obtain ⟨p, hp, rfl⟩ := List.mem_map.1 hi
      exact (h4 p hp).1
    have hnd : (r.map Prod.fst).Nodup := (C01_search_sound b.graphs b.elements q maxSearch k r h1).2.1
    have := (List.subperm_of_subset hnd hsub).perm_of_length_le (by rw [List.length_map]; exact hlen)
    exact hnot (this.mem_iff.2 hmem)
  · intro p hp
    obtain ⟨e, he, hlt⟩ := h5 j hmem hnot
    obtain ⟨_, e', he', hd'⟩ := h4 p hp
    have hl' := (List.getElem?_eq_some_iff.1 he').1
    rw [ha.len] at hl'
    refine ⟨raw[p.1], List.getElem?_eq_getElem hl', ?_⟩
    have n1 := ha.near j e x he hx
    have n2 := ha.near p.1 e' _ he' (List.getElem?_eq_getElem hl')
    rw [abs_le] at n1 n2
    have : p.2 ≤ b.elements.dist e q := by rcases hlt p hp with h | ⟨h, _⟩ <;> linarith
    rw [hd'] at this
    linarith [n1.2, n2.1]

/-- C53. The stored `f32` vectors: a distance computed by the library never panics, is finite, not negative, and equals
1 minus the cosine of the original vectors up to 100 times `f32::EPSILON`. -/
theorem C53_distance (x y : List ℝ) (hlen : x.length = y.length) (hdim : ModestDim x.length) (hx : InRange x)
    (hy : InRange y) (rows : List (List F32)) :
    angularDist (storedF32 x) (storedF32 y) = some (fin ((angularElements rows).dist (storedF32 x) (storedF32 y))) ∧
    0 ≤ (angularElements rows).dist (storedF32 x) (storedF32 y) ∧
    |(angularElements rows).dist (storedF32 x) (storedF32 y) - (1 - cosine x y)| < zeroThreshold := by
  obtain ⟨d, h1, h2, h3⟩ := C51_error x y hlen hdim hx hy
  have e : (angularElements rows).dist (storedF32 x) (storedF32 y) = d := by
    show ((angularDist (storedF32 x) (storedF32 y)).getD nan).val = d
    rw [storedF32, storedF32, h1]; rfl
  rw [e, zeroThreshold_eq]
  exact ⟨h1, h2, h3⟩

theorem F32Input.approx {raw : List (List ℝ)} {dim : Nat} (h : F32Input raw dim) {q : List ℝ} (hq : q.length = dim)
    (hr : InRange q) : Approximates (angularElements (raw.map storedF32)) raw (storedF32 q) q zeroThreshold := by
  refine ⟨by simp [angularElements], fun i e x he hx => ?_⟩
  have hm := List.mem_of_getElem? hx
  have : e = storedF32 x := by
    simp only [angularElements, List.getElem?_map, hx, Option.map_some, Option.some.injEq] at he
    exact he.symm
  subst this
  exact (C53_distance x q (by rw [h.length x hm, hq]) (by rw [h.length x hm]; exact h.small) (h.range x hm) hr _).2.2.le

/-- C53. The test by which the builder recognises zero vectors (distance to itself above `100 * f32::EPSILON`) is right:
an element is skipped exactly if all its components are zero. No rounding error makes a vector look like zero. -/
theorem C53_skipped_iff_zero (raw : List (List ℝ)) (dim : Nat) (h : F32Input raw dim) (i : Nat) :
    IsZero (angularElements (raw.map storedF32)) zeroThreshold i ↔ ∃ x, raw[i]? = some x ∧ ZeroVector x := by
  rcases Option.eq_none_or_eq_some raw[i]? with hn | ⟨x, hx⟩
  · simp [IsZero, Elements.dist?, angularElements, hn]
  · have hm := List.mem_of_getElem? hx
    have e : (angularElements (raw.map storedF32)).dist? i i =
        some ((angularElements (raw.map storedF32)).dist (storedF32 x) (storedF32 x)) := by
      simp [Elements.dist?, Elements.distTo, angularElements, hx]
    have hd := (C53_distance x x rfl (by rw [h.length x hm]; exact h.small) (h.range x hm) (h.range x hm)
      (raw.map storedF32)).2.2
    rw [abs_lt] at hd
    constructor
    · rintro ⟨d, h1, h2⟩
      rw [e] at h1
      refine ⟨x, hx, ?_⟩
      by_contra hc
      unfold ZeroVector at hc
      push Not at hc
      rw [← Option.some.inj h1] at h2
      rw [cosine_self hc] at hd
      linarith [hd.2]
    · rintro ⟨x', hx', hz⟩
      rw [hx] at hx'
      cases hx'
      refine ⟨_, e, ?_⟩
      rw [cosine_zero_left hz] at hd
      have : zeroThreshold < 1 / 2 := by unfold zeroThreshold; norm_num
      linarith [hd.1]

section
variable {srt : List (Nat × ℝ) → List (Nat × ℝ)}

/-- A builder over the stored form of `raw`, in any state it can get into. -/
structure F32Builder (srt : List (Nat × ℝ) → List (Nat × ℝ)) (b : Builder (List F32) ℝ) (raw : List (List ℝ))
    (dim : Nat) : Prop where
  input : F32Input raw dim
  history : Reachable srt b
  config : GoodConfig b.config
  threshold : b.config.eps = zeroThreshold
  elements : b.elements = angularElements (raw.map storedF32)

/-- C53. A search of an index over `f32` vectors, for any query vector in range: it does not panic, every reported
distance is within `100 * f32::EPSILON` of 1 minus the cosine, the order is that of the cosines up to twice that, and
zero vectors are not returned (unless it is element 0). -/
theorem C53_search (hsrt : IsSortByDist srt) (b : Builder (List F32) ℝ) (raw : List (List ℝ)) (dim : Nat)
    (h : F32Builder srt b raw dim) (q : List ℝ) (hq : q.length = dim) (hr : InRange q) (maxSearch k : Nat)
    (hms : 1 ≤ maxSearch) :
    ∃ r, search b.graphs b.elements (storedF32 q) maxSearch k = some r ∧
      (∀ p ∈ r, ∃ x, raw[p.1]? = some x ∧ |p.2 - (1 - cosine x q)| ≤ zeroThreshold ∧ (p.1 ≠ 0 → ¬ ZeroVector x)) ∧
      r.Pairwise fun p p' => ∀ x x', raw[p.1]? = some x → raw[p'.1]? = some x' →
        cosine x' q ≤ cosine x q + 2 * zeroThreshold := by
  have ha := h.input.approx hq hr
  rw [← h.elements] at ha
  refine approx_search hsrt b h.history h.config raw _ q _ ha (fun i x hx hz => ?_) maxSearch k hms
  rw [h.elements, h.threshold]
  exact (C53_skipped_iff_zero raw dim h.input i).2 ⟨x, hx, hz⟩

/-- C53 in any dimension up to 63551: a search does not panic, every reported distance is within
`(2 * roundings + 9) * 2^-24` of 1 minus the cosine, the order is that of the cosines up to twice that, and zero vectors are not
returned (unless it is element 0). What can fail in a dimension that is not modest is only that a vector is taken for a zero
vector (`C53_dimension_3072`). -/
theorem C53_search_any_dim (hsrt : IsSortByDist srt) (b : Builder (List F32) ℝ) (raw : List (List ℝ)) (dim : Nat)
    (hdim : roundings dim ≤ 2048) (hlen : ∀ x ∈ raw, x.length = dim) (hrange : ∀ x ∈ raw, InRange x)
    (hb : Reachable srt b) (hc : GoodConfig b.config) (heps : b.config.eps = zeroThreshold)
    (hel : b.elements = angularElements (raw.map storedF32)) (q : List ℝ) (hq : q.length = dim) (hr : InRange q)
    (maxSearch k : Nat) (hms : 1 ≤ maxSearch) :
    ∃ r, search b.graphs b.elements (storedF32 q) maxSearch k = some r ∧
      (∀ p ∈ r, ∃ x, raw[p.1]? = some x ∧ |p.2 - (1 - cosine x q)| ≤ (2 * (roundings dim : ℝ) + 9) * 2 ^ (-24 : Int) ∧
        (p.1 ≠ 0 → ¬ ZeroVector x)) ∧
      r.Pairwise fun p p' => ∀ x x', raw[p.1]? = some x → raw[p'.1]? = some x' →
        cosine x' q ≤ cosine x q + 2 * ((2 * (roundings dim : ℝ) + 9) * 2 ^ (-24 : Int)) := by
  have hd : ∀ x y : List ℝ, x.length = dim → y.length = dim → InRange x → InRange y →
      |b.elements.dist (storedF32 x) (storedF32 y) - (1 - cosine x y)| ≤ (2 * (roundings dim : ℝ) + 9) * 2 ^ (-24 : Int) := by
    intro x y lx ly rx ry
    obtain ⟨d, h1, _, h3⟩ := C51_error_any_dim x y (by rw [lx, ly]) (by rw [lx]; exact hdim) rx ry
    have e : b.elements.dist (storedF32 x) (storedF32 y) = d := by
      rw [hel]
      show ((angularDist (storedF32 x) (storedF32 y)).getD nan).val = d
      rw [storedF32, storedF32, h1]; rfl
    rw [e, ← lx]
    exact h3
  have hat : ∀ (i : Nat) (x : List ℝ), raw[i]? = some x → b.elements.data[i]? = some (storedF32 x) := by
    intro i x hx
    rw [hel]
    simp [angularElements, hx]
  refine approx_search hsrt b hb hc raw (storedF32 q) q _ ⟨by rw [hel]; simp [angularElements], fun i e x he hx => ?_⟩
    (fun i x hx hz => ?_) maxSearch k hms
  · rw [hat i x hx] at he
    cases he
    exact hd x q (hlen x (List.mem_of_getElem? hx)) hq (hrange x (List.mem_of_getElem? hx)) hr
  · have hm := List.mem_of_getElem? hx
    refine ⟨b.elements.dist (storedF32 x) (storedF32 x), ?_, ?_⟩
    · simp [Elements.dist?, Elements.distTo, hat i x hx]
    · have h1 := hd x x (hlen x hm) (hlen x hm) (hrange x hm) (hrange x hm)
      rw [cosine_zero_left hz, abs_le] at h1
      have h2 : (2 * (roundings dim : ℝ) + 9) * 2 ^ (-24 : Int) ≤ 1 / 1000 := by
        have h3 : (roundings dim : ℝ) ≤ 2048 := by exact_mod_cast hdim
        have h4 := mul_le_mul_of_nonneg_right (show 2 * (roundings dim : ℝ) + 9 ≤ 4105 by linarith) (two_zpow_pos (-24)).le
        refine h4.trans ?_
        norm_num
      have h5 : zeroThreshold < 1 / 2 := by unfold zeroThreshold; norm_num
      rw [heps]
      generalize (2 * (roundings dim : ℝ) + 9) * 2 ^ (-24 : Int) = tol at *
      generalize b.elements.dist (storedF32 x) (storedF32 x) = d at *
      have h6 := h1.1
      linarith

/-- C53, C50. In a small collection a search with `max_search` at least the number of indexed vectors misses nothing: if
a vector that is not zero is not returned, then `k` vectors are, and the cosine of none of them is smaller by more than
`200 * f32::EPSILON`. -/
theorem C53_small_exact (hsrt : IsSortByDist srt) (b : Builder (List F32) ℝ) (raw : List (List ℝ)) (dim : Nat)
    (h : F32Builder srt b raw dim) (hsmall : SmallCollection srt b) (hpos : 0 < lastLen b.layers) (q : List ℝ)
    (hq : q.length = dim) (hr : InRange q) (maxSearch k : Nat) (hms : lastLen b.layers ≤ maxSearch) :
    ∃ r, search b.graphs b.elements (storedF32 q) maxSearch k = some r ∧ r.length ≤ k ∧
      ∀ j x, j < lastLen b.layers → raw[j]? = some x → ¬ ZeroVector x → j ∉ r.map Prod.fst →
        r.length = k ∧ ∀ p ∈ r, ∃ y, raw[p.1]? = some y ∧ cosine x q ≤ cosine y q + 2 * zeroThreshold := by
  have ha := h.input.approx hq hr
  rw [← h.elements] at ha
  refine approx_small hsrt b hsmall raw _ q _ ha (fun i x hx hnz => ?_) hpos maxSearch k hms
  rw [h.elements, h.threshold]
  intro hc
  obtain ⟨y, hy, hz⟩ := (C53_skipped_iff_zero raw dim h.input i).1 hc
  rw [hx] at hy; cases hy
  exact hnz hz

/-- C53, C49. If no two vectors point in nearly the same direction (1 minus the cosine at least `200 * f32::EPSILON`), then
in every layer every vector that is not zero, except possibly element 0, has a neighbor. -/
theorem C53_every_vector_linked (hsrt : IsSortByDist srt) (b : Builder (List F32) ℝ) (raw : List (List ℝ)) (dim : Nat)
    (h : F32Builder srt b raw dim)
    (hfar : ∀ (i j : Nat) x y, i ≠ j → raw[i]? = some x → raw[j]? = some y → 2 * zeroThreshold ≤ 1 - cosine x y)
    (g : Graph) (hg : g ∈ b.graphs) (j : Nat) (hj : j < g.length) (hj0 : j ≠ 0)
    (hz : ∃ x, raw[j]? = some x ∧ ¬ ZeroVector x) : ∃ i, Edge g j i ∧ i < g.length ∧ i ≠ j := by
  refine C49_every_element_linked hsrt b h.history h.config ?_ g hg j hj hj0 ?_
  · intro i j x y _ _ hne hx hy
    rw [h.elements] at hx hy ⊢
    rw [h.threshold]
    simp only [angularElements, List.getElem?_map, Option.map_eq_some_iff] at hx hy
    obtain ⟨u, hu, rfl⟩ := hx
    obtain ⟨v, hv, rfl⟩ := hy
    have mu := List.mem_of_getElem? hu
    have mv := List.mem_of_getElem? hv
    have hd := (C53_distance u v (by rw [h.input.length u mu, h.input.length v mv])
      (by rw [h.input.length u mu]; exact h.input.small) (h.input.range u mu) (h.input.range v mv) (raw.map storedF32)).2.2
    rw [abs_lt] at hd
    have := hfar i j u v hne hu hv
    linarith [hd.1]
  · rw [h.elements, h.threshold]
    intro hc
    obtain ⟨x, hx, hx0⟩ := (C53_skipped_iff_zero raw dim h.input j).1 hc
    obtain ⟨y, hy, hy0⟩ := hz
    rw [hx] at hy; cases hy
    exact hy0 hx0


/-- A fully built index over any elements exists (for the examples). -/
theorem exists_built {E : Type} (hsrt : IsSortByDist srt) (es : Elements E ℝ) (c : BuildConfig ℝ) (hc : GoodConfig c)
    (hn : es.data.length < 4294967295) (hpos : es.data.length ≠ 0) :
    ∃ b : Builder E ℝ, ReachableBy srt (fun c' => c' = c) b ∧ b.elements = es ∧ b.config = c ∧
      lastLen b.layers = es.data.length := by
  have h0 : Builder.new c es = some ⟨es, [], c⟩ := if_pos hn
  have hr : Reachable srt (⟨es, [], c⟩ : Builder E ℝ) := .new c es _ h0
  obtain ⟨⟨out, hout⟩, hall⟩ := buildPartial_ok hsrt hc (hr.inv hsrt hc) (num := es.data.length) le_rfl (by omega)
    (Nat.zero_le _)
  obtain ⟨b, rfl, _, h1, h2, h3, _⟩ := hall out hout
  exact ⟨b, .build _ _ _ (.new c es _ rfl h0) hout, h1, h2, h3⟩

noncomputable def exSortReal (l : List (Nat × ℝ)) : List (Nat × ℝ) := l.insertionSort fun a b => a.2 ≤ b.2

theorem exSortReal_sorts : IsSortByDist exSortReal := by
  intro l
  have : Std.Total (fun a b : Nat × ℝ => a.2 ≤ b.2) := ⟨fun a b => le_total a.2 b.2⟩
  have : IsTrans (Nat × ℝ) (fun a b : Nat × ℝ => a.2 ≤ b.2) := ⟨fun a b c h1 h2 => le_trans h1 h2⟩
  exact ⟨List.perm_insertionSort _ l, List.pairwise_insertionSort _ l⟩

/-- Thirty neighbors, as by default, and a few layers. -/
noncomputable def exConfigReal : BuildConfig ℝ := ⟨fun total i => min total (2 * i + 2), none, 30, 200, true, zeroThreshold⟩

theorem exConfigReal_good : GoodConfig exConfigReal := by
  refine ⟨by decide, by decide, ⟨fun t i => by simp [exConfigReal], fun t i h => by simp [exConfigReal]; omega,
    fun t => ⟨t, fun i hi => by simp [exConfigReal]; omega⟩⟩⟩

def exRaw : List (List ℝ) := [[1, 0], [0, -4], [0, 0], [-1, 0]]

theorem exRaw_input : F32Input exRaw 2 := by
  refine ⟨by norm_num, by simp [exRaw], ?_⟩
  intro x hx
  have hone : ∀ n : ℝ, 0 ≤ n → Real.sqrt (n * n) = n := fun n h => Real.sqrt_mul_self h
  simp only [exRaw, List.mem_cons, List.not_mem_nil, or_false] at hx
  rcases hx with rfl | rfl | rfl | rfl
  · right
    have : norm [1, 0] = 1 := by rw [Spec.norm, ← hone 1 (by norm_num)]; congr 1; simp [dot]
    rw [this]; norm_num
  · right
    have : norm [0, -4] = 4 := by rw [Spec.norm, ← hone 4 (by norm_num)]; congr 1; simp [dot]
    rw [this]; norm_num
  · left
    exact norm_eq_zero'.2 (by simp)
  · right
    have : norm [-1, 0] = 1 := by rw [Spec.norm, ← hone 1 (by norm_num)]; congr 1; simp [dot]
    rw [this]; norm_num

/-- Non-vacuity of `C53_search_any_dim`: an index of two vectors with 4096 components. -/
example : ∃ (b : Builder (List F32) ℝ) (raw : List (List ℝ)), roundings 4096 ≤ 2048 ∧ (∀ x ∈ raw, x.length = 4096) ∧
    (∀ x ∈ raw, InRange x) ∧ Reachable exSortReal b ∧ GoodConfig b.config ∧ b.config.eps = zeroThreshold ∧
    b.elements = angularElements (raw.map storedF32) ∧ lastLen b.layers = 2 := by
  have hn : ∀ (n : Nat) (a : ℝ), n = 4096 → a * a = 1 → InRange (List.replicate n a) := by
    intro n a hn ha
    have : norm (List.replicate n a) = 64 := by
      rw [Spec.norm, dot, List.zipWith_replicate, List.sum_replicate, ha, Nat.min_self, hn]
      rw [show ((4096 : Nat) • (1 : ℝ)) = 64 * 64 by norm_num, Real.sqrt_mul_self (by norm_num)]
    refine Or.inr ⟨?_, ?_⟩ <;> rw [this] <;> norm_num
  have key : ∀ u v : List ℝ, u.length = 4096 → v.length = 4096 → InRange u → InRange v →
      ∃ (b : Builder (List F32) ℝ) (raw : List (List ℝ)), roundings 4096 ≤ 2048 ∧ (∀ x ∈ raw, x.length = 4096) ∧
        (∀ x ∈ raw, InRange x) ∧ Reachable exSortReal b ∧ GoodConfig b.config ∧ b.config.eps = zeroThreshold ∧
        b.elements = angularElements (raw.map storedF32) ∧ lastLen b.layers = 2 := by
    intro u v lu lv ru rv
    obtain ⟨b, h1, h2, h3, h4⟩ := exists_built exSortReal_sorts (angularElements ([u, v].map storedF32)) exConfigReal
      exConfigReal_good (by simp [angularElements]) (by simp [angularElements])
    exact ⟨b, [u, v], by decide, by simp [lu, lv], by simp [ru, rv], h1.reachable,
      by rw [h3]; exact exConfigReal_good, by rw [h3]; rfl, h2, by rw [h4]; simp [angularElements]⟩
  exact key _ _ (List.length_replicate (n := 4096) (a := 1)) (List.length_replicate (n := 4096) (a := -1))
    (hn _ _ rfl (by norm_num)) (hn _ _ rfl (by norm_num))

/-- Non-vacuity of C53: four vectors, one of them zero, pairwise orthogonal or opposite, all indexed. -/
example : ∃ b : Builder (List F32) ℝ, F32Builder exSortReal b exRaw 2 ∧ SmallCollection exSortReal b ∧
    lastLen b.layers = 4 ∧ (∃ g ∈ b.graphs, 3 < g.length) ∧
    (∀ (i j : Nat) x y, i ≠ j → exRaw[i]? = some x → exRaw[j]? = some y → 2 * zeroThreshold ≤ 1 - cosine x y) := by
  obtain ⟨b, h1, h2, h3, h4⟩ := exists_built exSortReal_sorts (angularElements (exRaw.map storedF32)) exConfigReal
    exConfigReal_good (by simp [angularElements, exRaw]) (by simp [angularElements, exRaw])
  have h4' : lastLen b.layers = 4 := by rw [h4]; simp [angularElements, exRaw]
  refine ⟨b, ⟨exRaw_input, h1.reachable, by rw [h3]; exact exConfigReal_good, by rw [h3]; rfl, h2⟩, ⟨by omega, ?_⟩, h4', ?_, ?_⟩
  · refine h1.mono fun c hc => ?_
    subst hc
    exact ⟨exConfigReal_good, by rw [h4']; decide, Or.inr (by rw [h4']; decide)⟩
  · unfold lastLen at h4'
    split at h4'
    · next l hl =>
      exact ⟨graphOf l.rows, List.mem_map_of_mem (List.mem_of_getLast? hl), by rw [graphOf_length]; omega⟩
    · omega
  · intro i j x y hne hx hy
    have hthr : 2 * zeroThreshold ≤ 1 := by unfold zeroThreshold; norm_num
    have hc : dot x y ≤ 0 := by
      have hi := (List.getElem?_eq_some_iff.1 hx).1
      have hj := (List.getElem?_eq_some_iff.1 hy).1
      simp only [exRaw, List.length_cons, List.length_nil] at hi hj
      interval_cases i <;> interval_cases j <;> simp [exRaw] at hx hy hne <;> subst hx hy <;> simp [dot]
    have : cosine x y ≤ 0 := div_nonpos_of_nonpos_of_nonneg hc (mul_nonneg (norm_nonneg' _) (norm_nonneg' _))
    linarith

end

/-! ### C54: quantised vectors -/

/-- Vectors of one dimension, at most 131071, with `i8` components. -/
structure I8Input (raw : List (List Int)) (dim : Nat) : Prop where
  small : dim ≤ 131071
  length : ∀ x ∈ raw, x.length = dim
  range : ∀ x ∈ raw, ∀ a ∈ x, IsI8 a

/-- The error of a distance of `i8` vectors. -/
noncomputable def i8Error : ℝ := 11 * 2 ^ (-24 : Int)

/-- C54. A distance of two `i8` vectors computed by the library never panics, is finite, not negative, and equals 1 minus
the cosine up to `11 * 2^-24`. -/
theorem C54_distance (checked : Bool) (x y : List Int) (hx : ∀ a ∈ x, IsI8 a) (hy : ∀ a ∈ y, IsI8 a)
    (hlen : x.length = y.length) (hdim : x.length ≤ 131071) (rows : List (List Int)) :
    angularIntDist (F := F32) checked x y = some (fin ((angularIntElements checked rows).dist x y)) ∧
    0 ≤ (angularIntElements checked rows).dist x y ∧
    |(angularIntElements checked rows).dist x y - (1 - cosine (toReal x) (toReal y))| ≤ i8Error := by
  obtain ⟨d, h1, h2, h3, _⟩ := C52_quantised_distance checked x y hx hy hlen hdim
  have e : (angularIntElements checked rows).dist x y = d := by
    show ((angularIntDist (F := F32) checked x y).getD nan).val = d
    rw [h1]; rfl
  rw [e]
  exact ⟨h1, h2, h3⟩

theorem I8Input.approx {raw : List (List Int)} {dim : Nat} (h : I8Input raw dim) {q : List Int} (hq : q.length = dim)
    (hr : ∀ a ∈ q, IsI8 a) (checked : Bool) :
    Approximates (angularIntElements checked raw) (raw.map toReal) q (toReal q) i8Error := by
  refine ⟨by simp [angularIntElements], fun i e x he hx => ?_⟩
  have he' : raw[i]? = some e := he
  have hm := List.mem_of_getElem? he'
  have : x = toReal e := by
    simp only [List.getElem?_map, he', Option.map_some, Option.some.injEq] at hx
    exact hx.symm
  subst this
  exact (C54_distance checked e q (h.range e hm) hr (by rw [h.length e hm, hq]) (by rw [h.length e hm]; exact h.small)
    raw).2.2

theorem zeroVector_toReal {x : List Int} : ZeroVector (toReal x) ↔ ∀ a ∈ x, a = 0 := by
  unfold ZeroVector toReal
  simp

/-- C54. The test by which the builder recognises zero vectors is right for `i8` vectors, too. -/
theorem C54_skipped_iff_zero (checked : Bool) (raw : List (List Int)) (dim : Nat) (h : I8Input raw dim) (i : Nat) :
    IsZero (angularIntElements checked raw) zeroThreshold i ↔ ∃ x, raw[i]? = some x ∧ ∀ a ∈ x, a = 0 := by
  rcases Option.eq_none_or_eq_some raw[i]? with hn | ⟨x, hx⟩
  · simp [IsZero, Elements.dist?, angularIntElements, hn]
  · have hm := List.mem_of_getElem? hx
    have e : (angularIntElements checked raw).dist? i i = some ((angularIntElements checked raw).dist x x) := by
      simp [Elements.dist?, Elements.distTo, angularIntElements, hx]
    have hd := (C54_distance checked x x (h.range x hm) (h.range x hm) rfl (by rw [h.length x hm]; exact h.small) raw).2.2
    rw [abs_le] at hd
    have herr : i8Error < zeroThreshold := by unfold i8Error zeroThreshold; norm_num
    constructor
    · rintro ⟨d, h1, h2⟩
      rw [e] at h1
      refine ⟨x, hx, ?_⟩
      rw [← zeroVector_toReal]
      by_contra hc
      unfold ZeroVector at hc
      push Not at hc
      rw [← Option.some.inj h1] at h2
      rw [cosine_self hc] at hd
      linarith [hd.2]
    · rintro ⟨x', hx', hz⟩
      rw [hx] at hx'
      cases hx'
      refine ⟨_, e, ?_⟩
      rw [cosine_zero_left (zeroVector_toReal.2 hz)] at hd
      have : zeroThreshold < 1 / 2 := by unfold zeroThreshold; norm_num
      linarith [hd.1]

section
variable {srt : List (Nat × ℝ) → List (Nat × ℝ)}

/-- A builder over `i8` vectors, in any state it can get into. -/
structure I8Builder (srt : List (Nat × ℝ) → List (Nat × ℝ)) (checked : Bool) (b : Builder (List Int) ℝ)
    (raw : List (List Int)) (dim : Nat) : Prop where
  input : I8Input raw dim
  history : Reachable srt b
  config : GoodConfig b.config
  threshold : b.config.eps = zeroThreshold
  elements : b.elements = angularIntElements checked raw

/-- C54. A search of an index over `i8` vectors, for any `i8` query vector: it does not panic, every reported distance is
within `11 * 2^-24` of 1 minus the cosine, the order is that of the cosines up to twice that, and zero vectors are not
returned (unless it is element 0). -/
theorem C54_search (hsrt : IsSortByDist srt) (checked : Bool) (b : Builder (List Int) ℝ) (raw : List (List Int)) (dim : Nat)
    (h : I8Builder srt checked b raw dim) (q : List Int) (hq : q.length = dim) (hr : ∀ a ∈ q, IsI8 a) (maxSearch k : Nat)
    (hms : 1 ≤ maxSearch) :
    ∃ r, search b.graphs b.elements q maxSearch k = some r ∧
      (∀ p ∈ r, ∃ x, raw[p.1]? = some x ∧ |p.2 - (1 - cosine (toReal x) (toReal q))| ≤ 11 * 2 ^ (-24 : Int) ∧
        (p.1 ≠ 0 → ∃ a ∈ x, a ≠ 0)) ∧
      r.Pairwise fun p p' => ∀ x x', raw[p.1]? = some x → raw[p'.1]? = some x' →
        cosine (toReal x') (toReal q) ≤ cosine (toReal x) (toReal q) + 22 * 2 ^ (-24 : Int) := by
  have ha := h.input.approx hq hr checked
  rw [← h.elements] at ha
  obtain ⟨r, h1, h2, h3⟩ := approx_search hsrt b h.history h.config _ _ _ _ ha (by
    intro i x hx hz
    rw [h.elements, h.threshold]
    simp only [List.getElem?_map, Option.map_eq_some_iff] at hx
    obtain ⟨y, hy, rfl⟩ := hx
    exact (C54_skipped_iff_zero checked raw dim h.input i).2 ⟨y, hy, zeroVector_toReal.1 hz⟩) maxSearch k hms
  refine ⟨r, h1, fun p hp => ?_, h3.imp fun {p p'} hpp x x' hx hx' => ?_⟩
  · obtain ⟨x, hx, hd, hz⟩ := h2 p hp
    simp only [List.getElem?_map, Option.map_eq_some_iff] at hx
    obtain ⟨y, hy, rfl⟩ := hx
    refine ⟨y, hy, hd, fun h0 => ?_⟩
    by_contra hc
    push Not at hc
    exact hz h0 (zeroVector_toReal.2 hc)
  · have := hpp (toReal x) (toReal x') (by simp [hx]) (by simp [hx'])
    rw [i8Error] at this
    linarith

/-- C54, C50. In a small collection a search with `max_search` at least the number of indexed vectors misses nothing. -/
theorem C54_small_exact (hsrt : IsSortByDist srt) (checked : Bool) (b : Builder (List Int) ℝ) (raw : List (List Int))
    (dim : Nat) (h : I8Builder srt checked b raw dim) (hsmall : SmallCollection srt b) (hpos : 0 < lastLen b.layers)
    (q : List Int) (hq : q.length = dim) (hr : ∀ a ∈ q, IsI8 a) (maxSearch k : Nat) (hms : lastLen b.layers ≤ maxSearch) :
    ∃ r, search b.graphs b.elements q maxSearch k = some r ∧ r.length ≤ k ∧
      ∀ j x, j < lastLen b.layers → raw[j]? = some x → (∃ a ∈ x, a ≠ 0) → j ∉ r.map Prod.fst →
        r.length = k ∧ ∀ p ∈ r, ∃ y, raw[p.1]? = some y ∧
          cosine (toReal x) (toReal q) ≤ cosine (toReal y) (toReal q) + 22 * 2 ^ (-24 : Int) := by
  have ha := h.input.approx hq hr checked
  rw [← h.elements] at ha
  obtain ⟨r, h1, h2, h3⟩ := approx_small hsrt b hsmall _ _ _ _ ha (by
    intro i x hx hnz
    rw [h.elements, h.threshold]
    simp only [List.getElem?_map, Option.map_eq_some_iff] at hx
    obtain ⟨y, hy, rfl⟩ := hx
    intro hc
    obtain ⟨y', hy', hz⟩ := (C54_skipped_iff_zero checked raw dim h.input i).1 hc
    rw [hy] at hy'; cases hy'
    exact hnz (zeroVector_toReal.2 hz)) hpos maxSearch k hms
  refine ⟨r, h1, h2, fun j x hj hx hz hnot => ?_⟩
  obtain ⟨g1, g2⟩ := h3 j (toReal x) hj (by simp [hx]) (fun hc => by
    obtain ⟨a, ha, ha0⟩ := hz
    exact ha0 (zeroVector_toReal.1 hc a ha)) hnot
  refine ⟨g1, fun p hp => ?_⟩
  obtain ⟨y, hy, hle⟩ := g2 p hp
  simp only [List.getElem?_map, Option.map_eq_some_iff] at hy
  obtain ⟨y, hy, rfl⟩ := hy
  refine ⟨y, hy, ?_⟩
  rw [i8Error] at hle
  linarith

/-- C54, C49. If no two vectors point in nearly the same direction, then in every layer every vector that is not zero,
except possibly element 0, has a neighbor. -/
theorem C54_every_vector_linked (hsrt : IsSortByDist srt) (checked : Bool) (b : Builder (List Int) ℝ)
    (raw : List (List Int)) (dim : Nat) (h : I8Builder srt checked b raw dim)
    (hfar : ∀ (i j : Nat) x y, i ≠ j → raw[i]? = some x → raw[j]? = some y →
      2 * zeroThreshold ≤ 1 - cosine (toReal x) (toReal y))
    (g : Graph) (hg : g ∈ b.graphs) (j : Nat) (hj : j < g.length) (hj0 : j ≠ 0)
    (hz : ∃ x, raw[j]? = some x ∧ ∃ a ∈ x, a ≠ 0) : ∃ i, Edge g j i ∧ i < g.length ∧ i ≠ j := by
  refine C49_every_element_linked hsrt b h.history h.config ?_ g hg j hj hj0 ?_
  · intro i j u v _ _ hne hu hv
    rw [h.elements] at hu hv ⊢
    rw [h.threshold]
    have mu := List.mem_of_getElem? hu
    have mv := List.mem_of_getElem? hv
    have hd := (C54_distance checked u v (h.input.range u mu) (h.input.range v mv)
      (by rw [h.input.length u mu, h.input.length v mv]) (by rw [h.input.length u mu]; exact h.input.small) raw).2.2
    rw [abs_le] at hd
    have := hfar i j u v hne hu hv
    have herr : i8Error < zeroThreshold := by unfold i8Error zeroThreshold; norm_num
    linarith [hd.1]
  · rw [h.elements, h.threshold]
    intro hc
    obtain ⟨x, hx, hx0⟩ := (C54_skipped_iff_zero checked raw dim h.input j).1 hc
    obtain ⟨y, hy, a, ha, ha0⟩ := hz
    rw [hx] at hy; cases hy
    exact ha0 (hx0 a ha)

/-- Non-vacuity of C54: four vectors, one of them zero, all indexed. -/
example : ∃ b : Builder (List Int) ℝ, I8Builder exSortReal true b [[127, 0], [0, -128], [0, 0], [3, 4]] 2 ∧
    SmallCollection exSortReal b ∧ lastLen b.layers = 4 := by
  obtain ⟨b, h1, h2, h3, h4⟩ := exists_built exSortReal_sorts (angularIntElements true [[127, 0], [0, -128], [0, 0], [3, 4]])
    exConfigReal exConfigReal_good (by simp [angularIntElements]) (by simp [angularIntElements])
  have h4' : lastLen b.layers = 4 := by rw [h4]; simp [angularIntElements]
  refine ⟨b, ⟨⟨by norm_num, by simp, by simp [IsI8]⟩, h1.reachable, by rw [h3]; exact exConfigReal_good, by rw [h3]; rfl, h2⟩,
    ⟨by omega, ?_⟩, h4'⟩
  refine h1.mono fun c hc => ?_
  subst hc
  exact ⟨exConfigReal_good, by rw [h4']; decide, Or.inr (by rw [h4']; decide)⟩

end

/-- C54. What quantisation costs: for `f32` vectors with largest absolute components `mx` and `my`, the distance of the
quantised vectors differs from 1 minus the cosine of the original ones by at most
`2 (1 + 2^-16) / 127 * sqrt(dimension) * (mx / |x| + my / |y|) + 11 * 2^-24`. -/
theorem C54_quantisation_error (checked : Bool) (x y : List ℝ) (mx my : ℝ) (hx : IsMaxAbs x mx) (hy : IsMaxAbs y my)
    (hx1 : 2 ^ (-100 : Int) ≤ mx) (hx2 : mx ≤ 2 ^ (120 : Int)) (hy1 : 2 ^ (-100 : Int) ≤ my) (hy2 : my ≤ 2 ^ (120 : Int))
    (hlen : x.length = y.length) (hdim : x.length ≤ 131071) :
    ∃ qx qy d, quantize (x.map fin) = some qx ∧ quantize (y.map fin) = some qy ∧
      angularIntDist (F := F32) checked qx qy = some (fin d) ∧
      |d - (1 - cosine x y)| ≤ 2 * (1 + 2 ^ (-16 : Int)) / 127 * Real.sqrt x.length * (mx / norm x + my / norm y) +
        11 * 2 ^ (-24 : Int) := by
  obtain ⟨qx, h1, _, h2, h3⟩ := C52_quantize x mx hx hx1 hx2
  obtain ⟨qy, g1, _, g2, g3⟩ := C52_quantize y my hy hy1 hy2
  have i8 : ∀ {x : List ℝ} {q : List Int} {P : Nat → ℝ → Int → Prop}, q.length = x.length →
      (∀ (i : Nat) (a : ℝ) (v : Int), x[i]? = some a → q[i]? = some v → (-127 ≤ v ∧ v ≤ 127) ∧ P i a v) →
      ∀ v ∈ q, IsI8 v := by
    intro x q P hl h v hv
    obtain ⟨i, hi, rfl⟩ := List.getElem_of_mem hv
    have := (h i x[i] q[i] (List.getElem?_eq_getElem (by omega)) (List.getElem?_eq_getElem hi)).1
    exact ⟨by omega, this.2⟩
  obtain ⟨d, d1, _, d3, _⟩ := C52_quantised_distance checked qx qy (i8 h2 h3) (i8 g2 g3) (by omega) (by omega)
  refine ⟨qx, qy, d, h1, g1, d1, ?_⟩
  have pos : ∀ {z : List ℝ} {m : ℝ}, IsMaxAbs z m → 2 ^ (-100 : Int) ≤ m → 0 < m ∧ 0 < norm z := by
    intro z m hz hm
    have hm0 : 0 < m := lt_of_lt_of_le (two_zpow_pos _) hm
    refine ⟨hm0, lt_of_le_of_ne (norm_nonneg' z) fun h0 => ?_⟩
    obtain ⟨a, ha, hab⟩ := hz.1
    rw [norm_eq_zero'.1 h0.symm a ha, abs_zero] at hab
    linarith
  have hc := cosine_quantised (qx := toReal qx) (qy := toReal qy) (c := 1 + 2 ^ (-16 : Int)) (by positivity)
    (pos hx hx1).1 (pos hy hy1).1 (pos hx hx1).2 (pos hy hy1).2 hlen (by simp [toReal, h2]) (by simp [toReal, g2])
    (by
      intro i a b ha hb
      simp only [toReal, List.getElem?_map, Option.map_eq_some_iff] at hb
      obtain ⟨v, hv, rfl⟩ := hb
      exact (h3 i a v ha hv).2.2.2.1.le)
    (by
      intro i a b ha hb
      simp only [toReal, List.getElem?_map, Option.map_eq_some_iff] at hb
      obtain ⟨v, hv, rfl⟩ := hb
      exact (g3 i a v ha hv).2.2.2.1.le)
  have e : d - (1 - cosine x y) = (d - (1 - cosine (toReal qx) (toReal qy))) -
      (cosine (toReal qx) (toReal qy) - cosine x y) := by ring
  rw [e]
  refine le_trans (abs_sub _ _) ?_
  rw [add_comm]
  exact add_le_add hc d3

/-- Non-vacuity: a vector with its largest absolute component and its norm. -/
example : IsMaxAbs [3, -4] 4 ∧ norm [3, -4] = 5 := by
  refine ⟨⟨⟨-4, by simp, by norm_num⟩, ?_⟩, ?_⟩
  · intro a ha
    simp only [List.mem_cons, List.not_mem_nil, or_false] at ha
    rcases ha with rfl | rfl <;> norm_num
  · rw [Spec.norm, show (dot [3, -4] [3, -4] : ℝ) = 5 * 5 by simp [dot]; norm_num, Real.sqrt_mul_self (by norm_num)]

end Granne
