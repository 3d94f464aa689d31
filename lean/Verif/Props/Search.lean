import Verif.Proofs.SearchIndex

/-!
Properties of `Granne::search`: C01, C02, C03, C04, C05.

`search layers es q maxSearch k` models `Granne::search`; `none` is a panic. `layers` are the neighbor
lists of each layer, top first; `es.data` the elements and `es.dist` their distance function.
-/
namespace Granne
open List Spec

variable {D : Type} [LinearOrder D] {E : Type}

/-! ### A concrete index used for the non-vacuity examples -/

/-- Five elements on the integer line, distance |x - y|. -/
def exElements : Elements Int Nat := ⟨[0, 10, 3, 12, 7], fun a b => (a - b).natAbs⟩
/-- Two layers over them. -/
def exLayers : List Graph := [[[1], [0]], [[1, 2], [0, 3], [0, 4], [1], [2]]]

theorem exLayers_wf : WellFormedIndex exLayers exElements.data.length := by
  have edge : ∀ g ∈ exLayers, ∀ l ∈ g, ∀ j ∈ l, j < g.length := by decide
  refine ⟨by decide, ?_, by decide, by decide⟩
  rintro g hg i j ⟨l, hl, hj⟩
  exact edge g hg l (List.mem_of_getElem? hl) j hj

/-! ### C01 -/

/-- C01. Whatever a search returns: pairs in ascending order of distance (ties by id), distinct ids, each
id a node of the bottom layer, each distance the true one, at most `min k max_search` of them. -/
theorem C01_search_sound (layers : List Graph) (es : Elements E D) (q : E) (maxSearch k : Nat)
    (r : List (Nat × D)) (h : search layers es q maxSearch k = some r) :
    r.Pairwise (fun a b => a.2 < b.2 ∨ (a.2 = b.2 ∧ a.1 < b.1)) ∧
    (r.map Prod.fst).Nodup ∧
    (∀ p ∈ r, (∃ bottom, layers.getLast? = some bottom ∧ p.1 < bottom.length) ∧
      ∃ e, es.data[p.1]? = some e ∧ p.2 = es.dist e q) ∧
    r.length ≤ min k maxSearch := by
  cases hb : layers.getLast? with
  | none =>
    simp only [search, searchInternal, hb, Option.some.injEq] at h
    subst h; simp
  | some bottom =>
    obtain ⟨e, l, _, hp, rfl, _⟩ := searchInternal_some hb h
    refine ⟨?_, ?_, ?_, ?_⟩
    · refine (List.Pairwise.map _ (fun a b hab => ?_) hp.sorted).sublist (List.take_sublist _ _)
      exact (Cand.lt_iff a b).1 hab
    · rw [List.map_take, List.map_map]
      exact (hp.ids_nodup).sublist (List.take_sublist _ _)
    · intro p hpm
      obtain ⟨c, hc, rfl⟩ := List.mem_map.1 (List.mem_of_mem_take hpm)
      have := hp.mem c hc
      exact ⟨⟨bottom, rfl, this.2.1⟩, distTo_eq this.1⟩
    · simp only [List.length_take, List.length_map]
      have := hp.len
      omega

/-- C01. Asking for fewer results gives a prefix. -/
theorem C01_search_prefix (layers : List Graph) (es : Elements E D) (q : E) (maxSearch k k' : Nat)
    (hk : k' ≤ k) :
    search layers es q maxSearch k' = (search layers es q maxSearch k).map (List.take k') := by
  unfold search searchInternal
  cases layers.getLast? with
  | none => simp
  | some bottom =>
    cases findEntrypoint layers.dropLast (es.distTo q) with
    | none => simp
    | some e =>
      simp only
      cases (searchForNeighbors bottom.length e (es.distTo q) maxSearch).runRO bottom with
      | none => simp
      | some r => simp [List.take_take, Nat.min_eq_left hk]

/-- Non-vacuity: a search that returns three of five elements. -/
example : search exLayers exElements 8 3 3 = some [(4, 1), (1, 2), (3, 4)] := by decide +kernel

/-! ### C02 -/

/-- C02. On a well-formed index a search with `max_search >= 1` does not panic, and it finds something
when the index has layers and `k >= 1`. -/
theorem C02_search_no_panic (layers : List Graph) (es : Elements E D)
    (hwf : WellFormedIndex layers es.data.length) (q : E) (maxSearch k : Nat) (hms : 1 ≤ maxSearch) :
    ∃ r, search layers es q maxSearch k = some r ∧ (layers ≠ [] → 1 ≤ k → r ≠ []) := by
  unfold search searchInternal
  cases hb : layers.getLast? with
  | none => exact ⟨[], rfl, fun h => absurd (List.getLast?_eq_none_iff.1 hb) h⟩
  | some bottom =>
    have hmem : bottom ∈ layers := List.mem_of_getLast? hb
    have hdq : ∀ i < es.data.length, (es.distTo q i).isSome := fun i hi => distTo_isSome es q hi
    obtain ⟨e, he, hlt⟩ := findEntrypoint_total hwf hdq hb
    obtain ⟨r, hr⟩ := searchForNeighbors_total (ms := maxSearch) hms (hwf.inside bottom hmem)
      (fun i hi => hdq i (lt_of_lt_of_le hi (hwf.bounded bottom hmem))) hlt le_rfl
    simp only [he, hr]
    refine ⟨_, rfl, fun _ hk hnil => ?_⟩
    obtain ⟨l, rfl, hp⟩ := searchForNeighbors_post hr
    have := hp.ne_nil hms
    rcases List.take_eq_nil_iff.1 hnil with h | h
    · omega
    · exact this (List.map_eq_nil_iff.1 h)

/-- C02. Termination: the loop of the code has no bound; in the model it is cut off after
`layer.len() + 1` rounds. Any larger bound gives the same result, on every graph, so the cut-off is
never what ends a search. -/
theorem C02_search_terminates (g : Graph) (dq : Nat → Option D) (entry maxSearch bound : Nat)
    (hb : g.length ≤ bound) :
    (searchForNeighbors bound entry dq maxSearch).runRO g =
      (searchForNeighbors g.length entry dq maxSearch).runRO g :=
  searchForNeighbors_fuel hb le_rfl

/-- C02. An index without layers returns nothing. -/
theorem C02_search_empty (es : Elements E D) (q : E) (maxSearch k : Nat) :
    search [] es q maxSearch k = some [] := rfl

/-- C02. `max_search == 0` panics on every non-empty index. -/
theorem C02_search_zero_panics (layers : List Graph) (es : Elements E D)
    (hwf : WellFormedIndex layers es.data.length) (q : E) (k : Nat) (hne : layers ≠ []) :
    search layers es q 0 k = none := by
  unfold search searchInternal
  cases hb : layers.getLast? with
  | none => exact absurd (List.getLast?_eq_none_iff.1 hb) hne
  | some bottom =>
    have hdq : ∀ i < es.data.length, (es.distTo q i).isSome := fun i hi => distTo_isSome es q hi
    obtain ⟨e, he, hlt⟩ := findEntrypoint_total hwf hdq hb
    have hd := hdq e (lt_of_lt_of_le hlt (hwf.bounded bottom (List.mem_of_getLast? hb)))
    obtain ⟨d, hd⟩ := Option.isSome_iff_exists.1 hd
    simp only [he, searchForNeighbors, hd, searchLoop]
    simp [shouldStop, MaxSizeHeap.new, MaxSizeHeap.isFull, MaxSizeHeap.peek, Prog.runRO]

example : WellFormedIndex exLayers exElements.data.length ∧ exLayers ≠ [] := ⟨exLayers_wf, by decide⟩

/-! ### C03 -/

/-- C03. If `max_search` is at least the number of bottom-layer nodes reachable from the entry point `e`
to which the descent through the upper layers leads, the search returns exactly the `k` nearest of
them: only reachable nodes, `min k (number of reachable nodes)` of them, and every reachable node that is
not returned is at least as far as every returned one (ties: larger id). Soundness and order are C01. -/
theorem C03_search_exact (layers : List Graph) (es : Elements E D) (q : E) (maxSearch k : Nat)
    (bottom : Graph) (hb : layers.getLast? = some bottom) (e : Nat)
    (he : findEntrypoint layers.dropLast (es.distTo q) = some e)
    (reachable : List Nat) (hnodup : reachable.Nodup) (hR : ∀ j, j ∈ reachable ↔ Reach bottom e j)
    (hms : reachable.length ≤ maxSearch)
    (r : List (Nat × D)) (h : search layers es q maxSearch k = some r) :
    (∀ p ∈ r, Reach bottom e p.1) ∧ r.length = min k reachable.length ∧
    (∀ j, Reach bottom e j → j ∉ r.map Prod.fst →
      ∃ x, es.data[j]? = some x ∧ ∀ p ∈ r, p.2 < es.dist x q ∨ (p.2 = es.dist x q ∧ p.1 < j)) := by
  obtain ⟨e', l, he', hp, rfl, _⟩ := searchInternal_some hb h
  rw [he] at he'
  cases he'
  have hex := hp.exact reachable hR hms
  have hlen : l.length = reachable.length := by
    have hperm : l.map Cand.id ~ reachable :=
      (List.perm_ext_iff_of_nodup hp.ids_nodup hnodup).2 fun j => (hex j).trans (hR j).symm
    simpa using hperm.length_eq
  refine ⟨?_, ?_, ?_⟩
  · intro p hpm
    obtain ⟨c, hc, rfl⟩ := List.mem_map.1 (List.mem_of_mem_take hpm)
    exact (hp.mem c hc).2.2
  · simp [hlen]
  · intro j hj hnot
    obtain ⟨c, hc, rfl⟩ := List.mem_map.1 ((hex j).2 hj)
    obtain ⟨x, hx, hcd⟩ := distTo_eq (hp.mem c hc).1
    refine ⟨x, hx, ?_⟩
    rw [← hcd]
    intro p hpm
    rw [← List.map_take] at hpm hnot
    obtain ⟨c', hc', rfl⟩ := List.mem_map.1 hpm
    have hcd : c ∈ l.drop k := by
      have : c ∈ l.take k ++ l.drop k := by rw [List.take_append_drop]; exact hc
      rcases List.mem_append.1 this with h | h
      · exact absurd (List.mem_map.2 ⟨_, List.mem_map.2 ⟨c, h, rfl⟩, rfl⟩) hnot
      · exact h
    have hs := hp.sorted
    rw [← List.take_append_drop k l] at hs
    exact (Cand.lt_iff c' c).1 ((List.pairwise_append.1 hs).2.2 c' hc' c hcd)

/-- C03. In particular, if every bottom-layer node is reachable from every other one and `max_search` is at
least the size of the index, the search returns the true `k` nearest neighbors among all nodes. -/
theorem C03_search_exact_connected (layers : List Graph) (es : Elements E D)
    (hwf : WellFormedIndex layers es.data.length) (q : E) (maxSearch k : Nat)
    (bottom : Graph) (hb : layers.getLast? = some bottom)
    (hconn : ∀ i < bottom.length, ∀ j < bottom.length, Reach bottom i j)
    (hms : bottom.length ≤ maxSearch) :
    ∃ r, search layers es q maxSearch k = some r ∧ r.length = min k bottom.length ∧
    (∀ j < bottom.length, j ∉ r.map Prod.fst →
      ∃ x, es.data[j]? = some x ∧ ∀ p ∈ r, p.2 < es.dist x q ∨ (p.2 = es.dist x q ∧ p.1 < j)) := by
  have hmem : bottom ∈ layers := List.mem_of_getLast? hb
  have hpos : 0 < bottom.length :=
    Nat.pos_of_ne_zero fun h => hwf.nonempty bottom hmem (List.length_eq_zero_iff.1 h)
  obtain ⟨r, hr, _⟩ := C02_search_no_panic layers es hwf q maxSearch k (by omega)
  obtain ⟨e, he, hlt⟩ := findEntrypoint_total (dq := es.distTo q) hwf (fun i hi => distTo_isSome es q hi) hb
  have hR : ∀ j, j ∈ List.range bottom.length ↔ Reach bottom e j := by
    intro j
    rw [List.mem_range]
    refine ⟨fun hj => hconn e hlt j hj, fun hj => ?_⟩
    cases hj with
    | refl => exact hlt
    | step _ hedge => exact hwf.inside bottom hmem _ _ hedge
  obtain ⟨_, h2, h3⟩ := C03_search_exact layers es q maxSearch k bottom hb e he
    (List.range bottom.length) List.nodup_range hR (by simpa using hms) r hr
  exact ⟨r, hr, by simpa using h2, fun j hj => h3 j (hconn e hlt j hj)⟩

/-- Non-vacuity of the connectivity hypothesis on the concrete index. -/
example : ∀ i < 5, ∀ j < 5, Reach [[1, 2], [0, 3], [0, 4], [1], [2]] i j := by
  have e : ∀ i j l, ([[1, 2], [0, 3], [0, 4], [1], [2]] : Graph)[i]? = some l → j ∈ l →
      Edge [[1, 2], [0, 3], [0, 4], [1], [2]] i j := fun i j l h hj => ⟨l, h, hj⟩
  have to0 : ∀ i < 5, Reach [[1, 2], [0, 3], [0, 4], [1], [2]] i 0 := by
    intro i hi
    match i, hi with
    | 0, _ => exact .refl
    | 1, _ => exact .step .refl (e 1 0 _ rfl (by decide))
    | 2, _ => exact .step .refl (e 2 0 _ rfl (by decide))
    | 3, _ => exact .step (.step .refl (e 3 1 _ rfl (by decide))) (e 1 0 _ rfl (by decide))
    | 4, _ => exact .step (.step .refl (e 4 2 _ rfl (by decide))) (e 2 0 _ rfl (by decide))
  have trans : ∀ {i j k}, Reach [[1, 2], [0, 3], [0, 4], [1], [2]] i j →
      Reach [[1, 2], [0, 3], [0, 4], [1], [2]] j k → Reach [[1, 2], [0, 3], [0, 4], [1], [2]] i k := by
    intro i j k h1 h2
    induction h2 with
    | refl => exact h1
    | step _ he ih => exact ih.step he
  intro i hi j hj
  refine trans (to0 i hi) ?_
  match j, hj with
  | 0, _ => exact .refl
  | 1, _ => exact .step .refl (e 0 1 _ rfl (by decide))
  | 2, _ => exact .step .refl (e 0 2 _ rfl (by decide))
  | 3, _ => exact .step (.step .refl (e 0 1 _ rfl (by decide))) (e 1 3 _ rfl (by decide))
  | 4, _ => exact .step (.step .refl (e 0 2 _ rfl (by decide))) (e 2 4 _ rfl (by decide))

/-! ### C04 -/

/-- C04. Local optimality: when all kept candidates are returned (`k >= max_search`), every bottom-layer
neighbor of a returned node is returned too, or is at least as far from the query as every returned node
and `max_search` nodes were returned. -/
theorem C04_locally_optimal (layers : List Graph) (es : Elements E D) (q : E) (maxSearch k : Nat)
    (bottom : Graph) (hb : layers.getLast? = some bottom) (hk : maxSearch ≤ k)
    (r : List (Nat × D)) (h : search layers es q maxSearch k = some r) :
    ∀ p ∈ r, ∀ j, Edge bottom p.1 j →
      ∃ x, es.data[j]? = some x ∧
        ((j, es.dist x q) ∈ r ∨ (r.length = maxSearch ∧ ∀ p' ∈ r, p'.2 ≤ es.dist x q)) := by
  obtain ⟨e, l, _, hp, rfl, _⟩ := searchInternal_some hb h
  have hlen : (l.map fun c => (c.id, c.d)).take k = l.map fun c => (c.id, c.d) :=
    List.take_of_length_le (by simp; exact hp.len.trans hk)
  rw [hlen]
  intro p hpm j hj
  obtain ⟨c, hc, rfl⟩ := List.mem_map.1 hpm
  obtain ⟨d, hd, hcase⟩ := hp.localOpt c hc j hj
  obtain ⟨x, hx, rfl⟩ := distTo_eq hd
  refine ⟨x, hx, ?_⟩
  rcases hcase with h1 | ⟨h1, h2⟩
  · exact Or.inl (List.mem_map.2 ⟨_, h1, rfl⟩)
  · right
    refine ⟨by simp; exact le_antisymm hp.len h1, ?_⟩
    intro p' hp'
    obtain ⟨c', hc', rfl⟩ := List.mem_map.1 hp'
    exact h2 c' hc'

/-- C04. The best result is at least as close to the query as the node the bottom-layer search started
from, and that one is at least as close as element 0, where the descent starts. -/
theorem C04_improves_entry (layers : List Graph) (es : Elements E D) (q : E) (maxSearch k : Nat)
    (r : List (Nat × D)) (h : search layers es q maxSearch k = some r) (p : Nat × D)
    (hp : r.head? = some p) :
    ∃ e x x₀, findEntrypoint layers.dropLast (es.distTo q) = some e ∧ es.data[e]? = some x ∧
      p.2 ≤ es.dist x q ∧ (es.data[0]? = some x₀ → es.dist x q ≤ es.dist x₀ q) := by
  cases hb : layers.getLast? with
  | none =>
    simp only [search, searchInternal, hb, Option.some.injEq] at h
    subst h; simp at hp
  | some bottom =>
    obtain ⟨e, l, he, hpost, rfl, _⟩ := searchInternal_some hb h
    obtain ⟨d, hd, hcase⟩ := hpost.entry
    obtain ⟨x, hx, hxd⟩ := distTo_eq hd
    subst hxd
    have hhead : ∃ c t, l = c :: t ∧ p = (c.id, c.d) := by
      cases l with
      | nil => simp at hp
      | cons c t =>
        cases k with
        | zero => simp at hp
        | succ k => simp only [List.map_cons, List.take_succ_cons, List.head?_cons, Option.some.injEq] at hp
                    exact ⟨c, t, rfl, hp.symm⟩
    obtain ⟨c, t, rfl, rfl⟩ := hhead
    have hle : c.d ≤ es.dist x q := by
      rcases hcase with hm | ⟨_, hm⟩
      · rcases List.mem_cons.1 hm with hm | hm
        · rw [← hm]
        · exact Cand.d_le ((List.pairwise_cons.1 hpost.sorted).1 _ hm).le
      · exact hm c (by simp)
    cases h0 : es.data[0]? with
    | none => exact ⟨e, x, x, he, hx, hle, by simp⟩
    | some x₀ =>
      refine ⟨e, x, x₀, he, hx, hle, fun _ => ?_⟩
      have hd0 : es.distTo q 0 = some (es.dist x₀ q) := by simp [Elements.distTo, h0]
      obtain ⟨d', hd', hle'⟩ := findEntrypointFrom_closer _ 0 e _ hd0 he
      rw [hd] at hd'
      cases hd'
      exact hle'

/-- Non-vacuity: here `max_search = 2` is reached and node 0, a neighbor of the returned node 1, is not
returned (nor is the true nearest neighbor 4: the search is only locally optimal). -/
example : search exLayers exElements 8 2 5 = some [(1, 2), (3, 4)] ∧ Edge exLayers[1] 1 0 :=
  ⟨by decide +kernel, ⟨[0, 3], rfl, by decide⟩⟩

theorem findEntrypointFrom_path {dq : Nat → Option D} : ∀ (layers : List Graph) (entry e : Nat),
    findEntrypointFrom dq layers entry = some e → ∃ path : List Nat, path.length = layers.length + 1 ∧ path[0]? = some entry ∧
      path.getLast? = some e ∧ ∀ (i : Nat) (g : Graph), layers[i]? = some g → ∃ a b da db, path[i]? = some a ∧
        path[i + 1]? = some b ∧ dq a = some da ∧ dq b = some db ∧ Reach g a b ∧ b < g.length ∧ db ≤ da ∧
        ∀ j, Edge g b j → ∃ dj, dq j = some dj ∧ db ≤ dj := by
  intro layers
  induction layers with
  | nil =>
    intro entry e h
    simp only [findEntrypointFrom, Option.some.injEq] at h
    subst h
    exact ⟨[entry], rfl, rfl, rfl, fun i g hg => by simp at hg⟩
  | cons g layers ih =>
    intro entry e h
    rw [findEntrypointFrom] at h
    cases hr : (searchForNeighbors g.length entry dq 1).runRO g with
    | none => simp [hr] at h
    | some r =>
      obtain ⟨l, hl, hpost⟩ := searchForNeighbors_post hr
      cases l with
      | nil => exact absurd rfl (hpost.ne_nil (by omega))
      | cons c l =>
        have hnil : l = [] := by
          have := hpost.len
          simp only [List.length_cons] at this
          exact List.length_eq_zero_iff.1 (by omega)
        subst hnil
        simp only [hr, hl, List.map_cons] at h
        obtain ⟨path, p1, p2, p3, p4⟩ := ih c.id e h
        have hkey : ∀ {d : D} {j : Nat}, ((⟨d, j⟩ : Cand D) ∈ [c] ∨ (1 ≤ [c].length ∧ ∀ r ∈ [c], r.d ≤ d)) → c.d ≤ d := by
          intro d j hcase
          rcases hcase with hm | ⟨_, hm⟩
          · rw [← List.mem_singleton.1 hm]
          · exact hm c (by simp)
        have hne : path ≠ [] := by intro hn; rw [hn] at p1; simp at p1
        refine ⟨entry :: path, by simp [p1], rfl, by rw [List.getLast?_cons_of_ne_nil hne]; exact p3, ?_⟩
        intro i g' hg'
        cases i with
        | zero =>
          simp only [List.getElem?_cons_zero, Option.some.injEq] at hg'
          subst hg'
          obtain ⟨d, hd, hcase⟩ := hpost.entry
          obtain ⟨m1, m2, m3⟩ := hpost.mem c (by simp)
          refine ⟨entry, c.id, d, c.d, rfl, by simpa using p2, hd, m1, m3, m2, hkey hcase, ?_⟩
          intro j hj
          obtain ⟨dj, hdj, hcase⟩ := hpost.localOpt c (by simp) j hj
          exact ⟨dj, hdj, hkey hcase⟩
        | succ i =>
          simp only [List.getElem?_cons_succ] at hg'
          obtain ⟨a, b, da, db, q1, q2, q⟩ := p4 i g' hg'
          exact ⟨a, b, da, db, by simpa using q1, by simpa using q2, q⟩

/-- C04. The descent through the upper layers: starting at element 0, each layer is left at a node that can be reached in it from where it
was entered, is at least as close to the query as that, and has no neighbor in this layer that is closer. The last of these nodes is the
one the search in the bottom layer starts from. -/
theorem C04_descent (layers : List Graph) (es : Elements E D) (q : E) (maxSearch k : Nat) (hne : layers ≠ [])
    (r : List (Nat × D)) (h : search layers es q maxSearch k = some r) :
    ∃ path : List Nat, path.length = layers.length ∧ path[0]? = some 0 ∧
      findEntrypoint layers.dropLast (es.distTo q) = path.getLast? ∧
      ∀ (i : Nat) (g : Graph), i + 1 < layers.length → layers[i]? = some g → ∃ (a b : Nat) (x y : E), path[i]? = some a ∧
        path[i + 1]? = some b ∧ es.data[a]? = some x ∧ es.data[b]? = some y ∧ Reach g a b ∧ b < g.length ∧
        es.dist y q ≤ es.dist x q ∧ ∀ j, Edge g b j → ∃ z, es.data[j]? = some z ∧ es.dist y q ≤ es.dist z q := by
  obtain ⟨e, l, he, _, _, _⟩ := searchInternal_some (List.getLast?_eq_some_getLast hne) h
  obtain ⟨path, p1, p2, p3, p4⟩ := findEntrypointFrom_path _ 0 e he
  have hpos := List.length_pos_iff.2 hne
  refine ⟨path, by rw [p1, List.length_dropLast]; omega, p2, by rw [he, p3], ?_⟩
  intro i g hi hg
  obtain ⟨a, b, da, db, q1, q2, q3, q4, q5, q6, q7, q8⟩ := p4 i g (by
    rw [List.dropLast_eq_take, List.getElem?_take_of_lt (by omega)]; exact hg)
  obtain ⟨x, hx, rfl⟩ := distTo_eq q3
  obtain ⟨y, hy, rfl⟩ := distTo_eq q4
  refine ⟨a, b, x, y, q1, q2, hx, hy, q5, q6, q7, fun j hj => ?_⟩
  obtain ⟨dj, hdj, hle⟩ := q8 j hj
  obtain ⟨z, hz, rfl⟩ := distTo_eq hdj
  exact ⟨z, hz, hle⟩

/-- Non-vacuity: in the example the upper layer leads from element 0 to element 1. -/
example : exLayers ≠ [] ∧ 0 + 1 < exLayers.length ∧ findEntrypoint exLayers.dropLast (exElements.distTo 8) = some 1 :=
  ⟨by decide, by decide, by decide +kernel⟩

/-! ### C05 -/

/-- C05. Two indexes over the same elements with equal layer sizes and, node by node, the same *set* of
neighbors (order and multiplicity may differ) give identical results (including panics). -/
theorem C05_neighbor_sets_only (layers₁ layers₂ : List Graph) (es : Elements E D)
    (hsame : List.Forall₂ (fun g₁ g₂ : Graph => g₁.length = g₂.length ∧
      ∀ i j, Edge g₁ i j ↔ Edge g₂ i j) layers₁ layers₂)
    (q : E) (maxSearch k : Nat) :
    search layers₁ es q maxSearch k = search layers₂ es q maxSearch k := by
  unfold search
  rw [searchInternal_sim (σ := fun i => i) (dq₁ := es.distTo q) layers₁ layers₂ ?_ rfl]
  · cases searchInternal layers₁ (es.distTo q) maxSearch k <;> simp
  · refine hsame.imp ?_
    rintro g₁ g₂ ⟨hlen, hedge⟩
    refine ⟨hlen, ⟨fun a b h => h, fun _ => rfl, ?_, fun _ _ _ _ _ => Iff.rfl⟩⟩
    intro i
    by_cases hi : i < g₁.length
    · right
      refine ⟨g₁[i], g₂[i], List.getElem?_eq_getElem hi, List.getElem?_eq_getElem (hlen ▸ hi), ?_⟩
      intro j
      have h1 : Edge g₁ i j ↔ j ∈ g₁[i] := by
        simp [Edge, List.getElem?_eq_getElem hi]
      have h2 : Edge g₂ i j ↔ j ∈ g₂[i] := by
        simp [Edge, List.getElem?_eq_getElem (show i < g₂.length from hlen ▸ hi)]
      rw [← h2, ← hedge, h1]
      simp
    · left
      exact ⟨List.getElem?_eq_none (by omega), List.getElem?_eq_none (by omega)⟩

/-- Non-vacuity: a differently ordered copy of the concrete index. -/
example : List.Forall₂ (fun g₁ g₂ : Graph => g₁.length = g₂.length ∧ ∀ i j, Edge g₁ i j ↔ Edge g₂ i j)
    [[[1, 2], [0], [1, 0]]] [[[2, 1, 2], [0], [0, 1]]] := by
  refine List.Forall₂.cons ⟨rfl, ?_⟩ List.Forall₂.nil
  intro i j
  match i with
  | 0 => simp [Edge]; omega
  | 1 => simp [Edge]
  | 2 => simp [Edge]; omega
  | n + 3 => simp [Edge]

end Granne
