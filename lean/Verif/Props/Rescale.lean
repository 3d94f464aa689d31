import Verif.Proofs.RescaleBuild
import Verif.Spec.Rescale
import Verif.Props.Sequential
import Mathlib.Data.Real.Basic

/-!
C84: only the order of the distances matters, for searching and for building.

`SameOrderToQuery`, `SameOrder` and `SameUpToScale` (Spec/Rescale) say which distances are compared; `search`, `BuildPartial`,
`RunCalls` are the calls of the library, `none` a panic.
-/
namespace Granne
open Spec

variable {E E' D D' : Type} [LinearOrder D] [LinearOrder D']

/-- C84. A search in the same graph finds the same ids, in the same order, whenever of any two elements the same one is nearer
to the query: how far away they are does not matter. It panics in the same cases. -/
theorem C84_search (es : Elements E D) (q : E) (es' : Elements E' D') (q' : E') (h : SameOrderToQuery es q es' q')
    (layers : List Graph) (maxSearch k : Nat) :
    (search layers es' q' maxSearch k).map (List.map Prod.fst) =
      (search layers es q maxSearch k).map (List.map Prod.fst) := by
  let g : Fin es.data.length → D := fun i => es.dist (es.data[i]) q
  let g' : Fin es.data.length → D' := fun i => es'.dist (es'.data[i]'(by rw [h.size]; exact i.2)) q'
  have ho : ∀ i j, g' i < g' j ↔ g i < g j := fun i j =>
    h.order i j _ _ _ _ (List.getElem?_eq_getElem i.2) (List.getElem?_eq_getElem j.2)
      (List.getElem?_eq_getElem (by rw [h.size]; exact i.2)) (List.getElem?_eq_getElem (by rw [h.size]; exact j.2))
  let dq : Nat → Option (Set.range g) := fun i =>
    if hi : i < es.data.length then some ⟨g ⟨i, hi⟩, Set.mem_range_self _⟩ else none
  have h1 : es.distTo q = fun i => (dq i).map Subtype.val := by
    funext i
    simp only [Elements.distTo, dq]
    by_cases hi : i < es.data.length
    · simp [hi, g]
    · simp [hi]
  have h2 : es'.distTo q' = fun i => (dq i).map (toOther g g') := by
    funext i
    simp only [Elements.distTo, dq]
    by_cases hi : i < es.data.length
    · have hi' : i < es'.data.length := by rw [h.size]; exact hi
      simp only [hi, hi', dif_pos, Option.map_some, List.getElem?_eq_getElem, toOther_eq ho]
      rfl
    · have hi' : ¬ i < es'.data.length := by rw [h.size]; exact hi
      simp [hi, hi']
  unfold search
  rw [h2, searchInternal_lift (toOther_strictMono ho), h1, searchInternal_lift (val_strictMono _)]
  cases searchInternal layers dq maxSearch k with
  | none => rfl
  | some r => simp [Function.comp_def]

/-- C84. With every distance `d` replaced by `f d`, where `f` is strictly increasing, a search returns the same ids with these
distances. -/
theorem C84_search_rescaled (f : D → D') (hf : StrictMono f) (es : Elements E D) (es' : Elements E D')
    (h : Rescaled f es es') (q : E) (layers : List Graph) (maxSearch k : Nat) :
    search layers es' q maxSearch k =
      (search layers es q maxSearch k).map (List.map fun r => (r.1, f r.2)) := by
  have : es'.distTo q = (es.lift f).distTo q := by
    funext i
    simp only [Elements.distTo, h.data, h.dist]
    rfl
  unfold search
  rw [this]
  exact search_lift hf layers es q maxSearch k

/-- Both collections come from one with distances in a third type. -/
theorem Spec.SameOrder.common {es : Elements E D} {eps : D} {es' : Elements E D'} {eps' : D'} (h : SameOrder es eps es' eps') :
    ∃ (S : Set D) (f : S → D') (es0 : Elements E S) (eps0 : S), StrictMono f ∧
      es = es0.lift Subtype.val ∧ eps = eps0.val ∧ es' = es0.lift f ∧ eps' = f eps0 := by
  let g : Option (E × E) → D := fun p => match p with
    | none => eps
    | some p => es.dist p.1 p.2
  let g' : Option (E × E) → D' := fun p => match p with
    | none => eps'
    | some p => es'.dist p.1 p.2
  have ho : ∀ i j, g' i < g' j ↔ g i < g j := by
    intro i j
    cases i with
    | none =>
      cases j with
      | none => simp [g, g']
      | some p => exact h.above p.1 p.2
    | some p =>
      cases j with
      | none => exact h.below p.1 p.2
      | some p' => exact h.order _ _ _ _
  refine ⟨Set.range g, toOther g g', @Elements.mk E (Set.range g) es.data (fun a b => ⟨g (some (a, b)), Set.mem_range_self (f := g) (some (a, b))⟩) es.batch,
    ⟨g none, Set.mem_range_self (f := g) none⟩, toOther_strictMono ho, rfl, rfl, ?_, (toOther_eq ho none).symm⟩
  have hd : es'.dist = fun a b => toOther g g' ⟨g (some (a, b)), Set.mem_range_self (f := g) (some (a, b))⟩ := by
    funext a b
    exact (toOther_eq (h := g) (h' := g') ho (some (a, b))).symm
  obtain @⟨data', dist', batch'⟩ := es'
  have h1 : data' = es.data := h.data
  have h2 : batch' = es.batch := h.batch
  subst h1 h2
  have h3 : dist' = _ := hd
  rw [h3]
  rfl

/-- Transformed builders differ only in scale. -/
theorem sameUpToScale_lift {D₀ : Type} [LinearOrder D₀] {f : D₀ → D} {f' : D₀ → D'} (hf : StrictMono f)
    (hf' : StrictMono f') (b : Builder E D₀) : SameUpToScale (b.lift f) (b.lift f') where
  elements := {
    data := rfl
    batch := rfl
    order := fun a b c d => by
      show f' _ < f' _ ↔ f _ < f _
      rw [hf.lt_iff_lt, hf'.lt_iff_lt]
    above := fun a b => by
      show f' _ < f' _ ↔ f _ < f _
      rw [hf.lt_iff_lt, hf'.lt_iff_lt]
    below := fun a b => by
      show f' _ < f' _ ↔ f _ < f _
      rw [hf.lt_iff_lt, hf'.lt_iff_lt] }
  layers := rfl
  schedule := rfl
  expected := rfl
  neighbors := rfl
  search := rfl
  reinsert := rfl

/-- Two such builders come from one. -/
theorem Spec.SameUpToScale.common {b : Builder E D} {b' : Builder E D'} (h : SameUpToScale b b') :
    ∃ (S : Set D) (f : S → D') (b0 : Builder E S), StrictMono f ∧ b = b0.lift Subtype.val ∧ b' = b0.lift f := by
  obtain ⟨S, f, es0, eps0, hf, h1, h2, h3, h4⟩ := h.elements.common
  refine ⟨S, f, ⟨es0, b.layers, ⟨b.config.schedule, b.config.expectedNumElements, b.config.numNeighbors,
    b.config.maxSearch, b.config.reinsertElements, eps0⟩⟩, hf, ?_, ?_⟩
  · obtain ⟨es, layers, c1, c2, c3, c4, c5, eps⟩ := b
    simp only at h1 h2
    simp only [Builder.lift]
    rw [← h1, ← h2]
  · obtain ⟨es', layers', c1, c2, c3, c4, c5, eps'⟩ := b'
    have e1 := h.layers
    have e2 := h.schedule
    have e3 := h.expected
    have e4 := h.neighbors
    have e5 := h.search
    have e6 := h.reinsert
    simp only at h3 h4 e1 e2 e3 e4 e5 e6
    simp only [Builder.lift]
    rw [← h3, ← h4, e1, e2, e3, e4, e5, e6]

/-- Sorting the candidates of the one collection corresponds to a way of sorting those of the other. -/
theorem corresponding_sort {S : Set D} {f : S → D'} (hf : StrictMono f) {srt : List (Nat × D) → List (Nat × D)}
    (hsrt : IsSortByDist srt) : ∃ (srt0 : List (Nat × S) → List (Nat × S)) (srt' : List (Nat × D') → List (Nat × D')),
      IsSortByDist srt' ∧ SortLift Subtype.val srt0 srt ∧ SortLift f srt0 srt' := by
  obtain ⟨srt0, h1, h2⟩ := exists_sort_down (val_strictMono S) hsrt
  obtain ⟨srt', h3, h4⟩ := exists_sort_up hf h1
  exact ⟨srt0, srt', h3, h2, h4⟩

/-- C84. One call of `build_partial`, by any number of threads: with distances in the same order it can panic in the same
cases, and it can build the same graphs. (`sort_unstable_by_key` may order equally distant candidates in any way; the two builds
are compared with corresponding ways.) -/
theorem C84_build_partial (srt : List (Nat × D) → List (Nat × D)) (hsrt : IsSortByDist srt) (b : Builder E D)
    (b' : Builder E D') (h : SameUpToScale b b') :
    ∃ srt' : List (Nat × D') → List (Nat × D'), IsSortByDist srt' ∧ ∀ num,
      (BuildPartial srt b num none ↔ BuildPartial srt' b' num none) ∧
      (∀ b1, BuildPartial srt b num (some b1) → ∃ b1', BuildPartial srt' b' num (some b1') ∧ SameUpToScale b1 b1') ∧
      ∀ b1', BuildPartial srt' b' num (some b1') → ∃ b1, BuildPartial srt b num (some b1) ∧ SameUpToScale b1 b1' := by
  obtain ⟨S, f, b0, hf, rfl, rfl⟩ := h.common
  obtain ⟨srt0, srt', h1, h2, h3⟩ := corresponding_sort hf hsrt
  have hv := val_strictMono S
  refine ⟨srt', h1, fun num => ⟨⟨fun hn => ?_, fun hn => ?_⟩, fun b1 hb => ?_, fun b1' hb => ?_⟩⟩
  · obtain ⟨out, h4, h5⟩ := buildPartial_unlift hv h2 b0 num none hn
    have := buildPartial_lift hf h3 b0 num out h4
    cases out with
    | none => exact this
    | some o => exact absurd h5 (by simp)
  · obtain ⟨out, h4, h5⟩ := buildPartial_unlift hf h3 b0 num none hn
    have := buildPartial_lift hv h2 b0 num out h4
    cases out with
    | none => exact this
    | some o => exact absurd h5 (by simp)
  · obtain ⟨out, h4, h5⟩ := buildPartial_unlift hv h2 b0 num _ hb
    cases out with
    | none => exact absurd h5 (by simp)
    | some o =>
      obtain rfl : b1 = o.lift Subtype.val := by simpa using h5
      exact ⟨o.lift f, buildPartial_lift hf h3 b0 num _ h4, sameUpToScale_lift hv hf o⟩
  · obtain ⟨out, h4, h5⟩ := buildPartial_unlift hf h3 b0 num _ hb
    cases out with
    | none => exact absurd h5 (by simp)
    | some o =>
      obtain rfl : b1' = o.lift f := by simpa using h5
      exact ⟨o.lift Subtype.val, buildPartial_lift hv h2 b0 num _ h4, sameUpToScale_lift hv hf o⟩

/-- C84. A whole program of pushes and builds, by any number of threads: with distances in the same order it can end with the
same graphs. -/
theorem C84_program (srt : List (Nat × D) → List (Nat × D)) (hsrt : IsSortByDist srt) (b : Builder E D)
    (b' : Builder E D') (h : SameUpToScale b b') :
    ∃ srt' : List (Nat × D') → List (Nat × D'), IsSortByDist srt' ∧ ∀ calls : List (BuilderCall E),
      (∀ b1, RunCalls (fun b c b' => c.Runs srt b b') b calls b1 →
        ∃ b1', RunCalls (fun b c b' => c.Runs srt' b b') b' calls b1' ∧ SameUpToScale b1 b1') ∧
      ∀ b1', RunCalls (fun b c b' => c.Runs srt' b b') b' calls b1' →
        ∃ b1, RunCalls (fun b c b' => c.Runs srt b b') b calls b1 ∧ SameUpToScale b1 b1' := by
  obtain ⟨S, f, b0, hf, rfl, rfl⟩ := h.common
  obtain ⟨srt0, srt', h1, h2, h3⟩ := corresponding_sort hf hsrt
  have hv := val_strictMono S
  refine ⟨srt', h1, fun calls => ⟨fun b1 hb => ?_, fun b1' hb => ?_⟩⟩
  · obtain ⟨o, h4, rfl⟩ := runCalls_unlift hv h2 hb b0 rfl
    exact ⟨o.lift f, runCalls_lift hf h3 h4, sameUpToScale_lift hv hf o⟩
  · obtain ⟨o, h4, rfl⟩ := runCalls_unlift hf h3 hb b0 rfl
    exact ⟨o.lift Subtype.val, runCalls_lift hv h2 h4, sameUpToScale_lift hv hf o⟩

/-- C84. On one thread such a program builds one graph, and it is the same with both distances. -/
theorem C84_one_thread (srt : List (Nat × D) → List (Nat × D)) (hsrt : IsSortByDist srt) (b : Builder E D)
    (b' : Builder E D') (h : SameUpToScale b b') :
    ∃ srt' : List (Nat × D') → List (Nat × D'), IsSortByDist srt' ∧ ∀ (calls : List (BuilderCall E)) (b1 : Builder E D),
      RunCalls (fun b c b' => c.RunsSeq srt b b') b calls b1 →
      (∃ b1', RunCalls (fun b c b' => c.RunsSeq srt' b b') b' calls b1') ∧
      ∀ b1', RunCalls (fun b c b' => c.RunsSeq srt' b b') b' calls b1' → SameUpToScale b1 b1' := by
  obtain ⟨S, f, b0, hf, rfl, rfl⟩ := h.common
  obtain ⟨srt0, srt', h1, h2, h3⟩ := corresponding_sort hf hsrt
  have hv := val_strictMono S
  refine ⟨srt', h1, fun calls b1 hb => ?_⟩
  obtain ⟨o, h4, rfl⟩ := runCallsSeq_unlift hv h2 hb b0 rfl
  refine ⟨⟨o.lift f, runCallsSeq_lift hf h3 h4⟩, fun b1' hb' => ?_⟩
  obtain ⟨rfl, _⟩ := C68_reproducible _ _ _ _ hb' (runCallsSeq_lift hf h3 h4)
  exact sameUpToScale_lift hv hf o

/-- C84. Builders that differ only in scale answer every query with the same ids in the same order. -/
theorem C84_search_built (b : Builder E D) (b' : Builder E D') (h : SameUpToScale b b') (q : E) (maxSearch k : Nat) :
    (search b'.graphs b'.elements q maxSearch k).map (List.map Prod.fst) =
      (search b.graphs b.elements q maxSearch k).map (List.map Prod.fst) := by
  have hg : b'.graphs = b.graphs := by unfold Builder.graphs; rw [h.layers]
  rw [hg]
  refine C84_search _ _ _ _ ⟨by rw [h.elements.data], ?_⟩ _ _ _
  intro i j x y x' y' h1 h2 h3 h4
  rw [h.elements.data, h1, Option.some_inj] at h3
  rw [h.elements.data, h2, Option.some_inj] at h4
  subst h3 h4
  exact h.elements.order _ _ _ _

/-! ### Examples -/

/-- Squared distances are in the same order as distances: the usual shortcut of not taking the root changes nothing. -/
theorem squares_same_order (es : Elements E ℝ) (eps : ℝ) (h0 : ∀ a b, 0 ≤ es.dist a b) (he : 0 ≤ eps) :
    SameOrder es eps (@Elements.mk E ℝ es.data (fun a b => es.dist a b ^ 2) es.batch) (eps ^ 2) where
  data := rfl
  batch := rfl
  order := fun a b c d => pow_lt_pow_iff_left₀ (h0 a b) (h0 c d) (by norm_num)
  above := fun a b => pow_lt_pow_iff_left₀ he (h0 a b) (by norm_num)
  below := fun a b => pow_lt_pow_iff_left₀ (h0 a b) he (by norm_num)

/-- The three elements of `exThree`, with squared distances. -/
def exThreeSquared : Elements Int Nat := ⟨[0, 10, 11], fun a b => (a - b).natAbs ^ 2⟩

/-- The builders satisfy the hypothesis of the theorems. -/
example : SameUpToScale exThreeBuilder ⟨exThreeSquared, [], exThreeConfig⟩ where
  elements := {
    data := rfl
    batch := rfl
    order := fun a b c d => Nat.pow_lt_pow_iff_left (n := 2) (by norm_num)
    above := fun a b => Nat.pow_lt_pow_iff_left (a := 0) (n := 2) (by norm_num)
    below := fun a b => ⟨fun h => absurd h (Nat.not_lt_zero _), fun h => absurd h (Nat.not_lt_zero _)⟩ }
  layers := rfl
  schedule := rfl
  expected := rfl
  neighbors := rfl
  search := rfl
  reinsert := rfl

/-- A search that has something to find: same ids, other distances. -/
example : search [[[1], [0, 2], [1]]] exThree 12 2 2 = some [(2, 1), (1, 2)] ∧
    search [[[1], [0, 2], [1]]] exThreeSquared 12 2 2 = some [(2, 1), (1, 4)] := by decide +kernel

/-- The order does matter: with the distances turned round another element is found. -/
example : search [[[1], [0, 2], [1]]] exThree 12 2 1 = some [(2, 1)] ∧
    search [[[1], [0, 2], [1]]] (⟨[0, 10, 11], fun a b => 100 - (a - b).natAbs⟩ : Elements Int Nat) 12 2 1 =
      some [(0, 88)] := by decide +kernel

end Granne
