import Verif.Proofs.Mono
import Verif.Props.Search

/-!
C59: a larger `max_search` never gives worse results, unless distances are tied.
-/
namespace Granne
open List Spec

variable {D : Type} [LinearOrder D] {E : Type}

/-- C59. Let the nodes of the bottom layer have pairwise different distances to the query. Then a search with a larger
`max_search` (and at least as many results asked for) returns at least as many results, and its `i`-th result is at least
as close as the `i`-th result of the other search, for every `i`. -/
theorem C59_larger_search_no_worse (layers : List Graph) (es : Elements E D)
    (hwf : WellFormedIndex layers es.data.length) (q : E) (m m' k k' : Nat) (hm : m ≤ m') (hk : k ≤ k')
    (hties : ∀ bottom, layers.getLast? = some bottom → ∀ (i j : Nat) (x y : E), i < bottom.length → j < bottom.length →
      es.data[i]? = some x → es.data[j]? = some y → es.dist x q = es.dist y q → i = j)
    (r r' : List (Nat × D)) (h : search layers es q m k = some r) (h' : search layers es q m' k' = some r') :
    r.length ≤ r'.length ∧ ∀ (i : Nat) (p : Nat × D), r[i]? = some p → ∃ p', r'[i]? = some p' ∧ p'.2 ≤ p.2 := by
  have key : ∀ (i : Nat) (p : Nat × D), r[i]? = some p → ∃ p', r'[i]? = some p' ∧ p'.2 ≤ p.2 := by
    cases hb : layers.getLast? with
    | none =>
      simp only [search, searchInternal, hb, Option.some.injEq] at h
      subst h
      simp
    | some bottom =>
      obtain ⟨e, l, he, hp, rfl, hr⟩ := searchInternal_some hb h
      obtain ⟨e', l', he', hp', rfl, hr'⟩ := searchInternal_some hb h'
      rw [he] at he'
      cases he'
      obtain ⟨e2, he2, hlt⟩ := findEntrypoint_total (dq := es.distTo q) hwf (fun i hi => distTo_isSome es q hi) hb
      rw [he] at he2
      cases he2
      have hin : ∀ i : Nat, Reach bottom e i → i < bottom.length := by
        intro i hi
        cases hi with
        | refl => exact hlt
        | step _ hedge => exact hwf.inside bottom (List.mem_of_getLast? hb) _ _ hedge
      have ht : ∀ i j : Nat, Reach bottom e i → Reach bottom e j → (es.distTo q i).isSome →
          es.distTo q i = es.distTo q j → i = j := by
        intro i j hi hj hs heq
        obtain ⟨d, hd⟩ := Option.isSome_iff_exists.1 hs
        obtain ⟨x, hx, rfl⟩ := distTo_eq hd
        rw [hd] at heq
        obtain ⟨y, hy, hxy⟩ := distTo_eq heq.symm
        exact hties bottom hb i j x y (hin i hi) (hin j hj) hx hy hxy
      intro i p hi
      have hik : i < k := by
        by_contra hc
        rw [List.getElem?_eq_none (by rw [List.length_take]; omega)] at hi
        cases hi
      rw [List.getElem?_take_of_lt hik] at hi
      obtain ⟨p', h1, h2⟩ := searchForNeighbors_mono hm ht hr hr' i p hi
      exact ⟨p', by rw [List.getElem?_take_of_lt (by omega)]; exact h1, h2⟩
  refine ⟨?_, key⟩
  by_contra hlt
  have hlt := not_le.1 hlt
  obtain ⟨p', h1, _⟩ := key r'.length r[r'.length] (List.getElem?_eq_getElem hlt)
  simp at h1

/-- Non-vacuity: distances 8, 2, 5, 4, 1 to the query 8. A wider search finds a closer element. -/
example : WellFormedIndex exLayers exElements.data.length ∧
    (∀ bottom, exLayers.getLast? = some bottom → ∀ (i j : Nat) (x y : Int), i < bottom.length → j < bottom.length →
      exElements.data[i]? = some x → exElements.data[j]? = some y → exElements.dist x 8 = exElements.dist y 8 → i = j) ∧
    search exLayers exElements 8 2 2 = some [(1, 2), (3, 4)] ∧
    search exLayers exElements 8 3 2 = some [(4, 1), (1, 2)] := by
  refine ⟨exLayers_wf, ?_, by decide +kernel, by decide +kernel⟩
  intro bottom hb i j x y hi hj hx hy h
  obtain rfl : [[1, 2], [0, 3], [0, 4], [1], [2]] = bottom := Option.some.inj hb
  have : ∀ i < 5, ∀ j < 5, (exElements.data[i]?.map fun x => exElements.dist x 8) =
      (exElements.data[j]?.map fun x => exElements.dist x 8) → i = j := by decide +kernel
  exact this i hi j hj (by rw [hx, hy]; exact congrArg some h)

/-- Seven elements on a line; 1, 2 and 3 are equally far from 0. -/
def exTied : Elements Int Nat := ⟨[10, 5, -5, 5, 1, 3, 4], fun a b => (a - b).natAbs⟩

/-- One layer over them. -/
def exTiedLayers : List Graph := [[[1, 3], [2], [5, 6], [4], [], [], []]]

/-- C59. The condition on ties is needed: here a search with `max_search` 1 finds the nearest element, at distance 1, and
one with `max_search` 2 does not, it returns elements at distances 3 and 4. -/
theorem C59_ties_can_hurt : WellFormedIndex exTiedLayers exTied.data.length ∧
    search exTiedLayers exTied 0 1 2 = some [(4, 1)] ∧ search exTiedLayers exTied 0 2 2 = some [(5, 3), (6, 4)] := by
  have edge : ∀ g ∈ exTiedLayers, ∀ l ∈ g, ∀ j ∈ l, j < g.length := by decide
  refine ⟨⟨by decide, ?_, by decide, by decide⟩, by decide +kernel, by decide +kernel⟩
  rintro g hg i j ⟨l, hl, hj⟩
  exact edge g hg l (List.mem_of_getElem? hl) j hj

end Granne
