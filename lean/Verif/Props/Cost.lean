import Verif.Proofs.Cost
import Verif.Props.Build
import Verif.Props.Search
import Mathlib.Algebra.Order.BigOperators.Group.List

/-!
C69: what a search costs.

`searchTraced` is `search` together with a record, for each layer from the top, of the ids whose distance to the query
is computed (`dists`) and of the nodes whose neighbors are read (`reads`), in the order of the calls.
-/
namespace Granne
open List Spec

variable {D : Type} [LinearOrder D] {E : Type}

/-- C69. Recording changes nothing: the recorded search gives the answer of the search, and panics when it does. -/
theorem C69_same_search (layers : List Graph) (es : Elements E D) (q : E) (maxSearch k : Nat) :
    (searchTraced layers es q maxSearch k).map Prod.fst = search layers es q maxSearch k := by
  unfold searchTraced search searchInternal
  cases layers.getLast? with
  | none => rfl
  | some bottom =>
    simp only
    rw [show findEntrypoint layers.dropLast (es.distTo q) =
      (findEntrypointTraced (es.distTo q) layers.dropLast 0).map Prod.fst from
      (findEntrypointTraced_erase _ _ _).symm]
    rcases Option.eq_none_or_eq_some (findEntrypointTraced (es.distTo q) layers.dropLast 0) with h | ⟨⟨e, ts⟩, h⟩
    · rw [h]; rfl
    · rw [h]
      simp only [Option.map_some]
      rw [← searchForNeighborsTraced_erase]
      rcases Option.eq_none_or_eq_some (searchForNeighborsTraced bottom e (es.distTo q) maxSearch) with
        h | ⟨⟨r, t⟩, h⟩
      · rw [h]; rfl
      · rw [h]; rfl

theorem findEntrypointTraced_cost (dq : Nat → Option D) : ∀ (layers : List Graph) (entry e : Nat) (ts : List Trace),
    findEntrypointTraced dq layers entry = some (e, ts) → List.Forall₂ LayerCost layers ts
  | [], entry, e, ts, h => by
    simp only [findEntrypointTraced, Option.some.injEq, Prod.mk.injEq] at h
    obtain ⟨_, rfl⟩ := h
    exact .nil
  | g :: gs, entry, e, ts, h => by
    rw [findEntrypointTraced] at h
    rcases Option.eq_none_or_eq_some (searchForNeighborsTraced g entry dq 1) with h1 | ⟨⟨r, t⟩, h1⟩
    · simp [h1] at h
    · cases r with
      | nil => simp [h1] at h
      | cons p r =>
        obtain ⟨i, d⟩ := p
        simp only [h1] at h
        obtain ⟨⟨e', ts'⟩, h2, he⟩ := Option.map_eq_some_iff.1 h
        simp only [Prod.mk.injEq] at he
        obtain ⟨_, rfl⟩ := he
        exact .cons (searchForNeighborsTraced_cost h1).1 (findEntrypointTraced_cost dq gs i e' ts' h2)

theorem searchTraced_cost {layers : List Graph} {es : Elements E D} {q : E} {maxSearch k : Nat}
    {r : List (Nat × D)} {ts : List Trace} (h : searchTraced layers es q maxSearch k = some (r, ts)) :
    List.Forall₂ LayerCost layers ts := by
  unfold searchTraced at h
  rcases Option.eq_none_or_eq_some layers.getLast? with hl | ⟨bottom, hl⟩
  · simp only [hl, Option.some.injEq, Prod.mk.injEq] at h
    obtain ⟨_, rfl⟩ := h
    rw [List.getLast?_eq_none_iff.1 hl]; exact .nil
  · simp only [hl] at h
    rcases Option.eq_none_or_eq_some (findEntrypointTraced (es.distTo q) layers.dropLast 0) with h1 | ⟨⟨e, ts'⟩, h1⟩
    · simp [h1] at h
    · simp only [h1] at h
      rcases Option.eq_none_or_eq_some (searchForNeighborsTraced bottom e (es.distTo q) maxSearch) with
        h2 | ⟨⟨r', t⟩, h2⟩
      · simp [h2] at h
      · simp only [h2, Option.some.injEq, Prod.mk.injEq] at h
        obtain ⟨_, rfl⟩ := h
        rw [← List.dropLast_append_getLast? bottom hl]
        exact List.rel_append (findEntrypointTraced_cost _ _ _ _ _ h1)
          (.cons (searchForNeighborsTraced_cost h2).1 .nil)

/-- C69. In every layer, on every graph, no distance is computed twice and no node is read twice; only nodes whose
distance is known are read; and apart from the distance of the entry point, a distance is computed only for a neighbor
of a node that is read: at most one distance more than these nodes have neighbors. -/
theorem C69_each_layer (layers : List Graph) (es : Elements E D) (q : E) (maxSearch k : Nat) (r : List (Nat × D))
    (ts : List Trace) (h : searchTraced layers es q maxSearch k = some (r, ts)) :
    ts.length = layers.length ∧ ∀ (i : Nat) (g : Graph) (t : Trace), layers[i]? = some g → ts[i]? = some t →
      t.dists.Nodup ∧ t.reads.Nodup ∧ t.reads ⊆ t.dists ∧ (∀ j ∈ t.reads, j < g.length) ∧
      (∀ j ∈ t.dists.tail, ∃ l ∈ t.reads, Edge g l j) ∧
      t.dists.length ≤ 1 + (t.reads.map fun j => (g[j]?.getD []).length).sum := by
  have hc := searchTraced_cost h
  refine ⟨hc.length_eq.symm, fun i g t hg ht => ?_⟩
  have hl := (List.forall₂_iff_get.1 hc).2 i (List.getElem?_eq_some_iff.1 hg).1 (List.getElem?_eq_some_iff.1 ht).1
  have e1 : layers.get ⟨i, (List.getElem?_eq_some_iff.1 hg).1⟩ = g := (List.getElem?_eq_some_iff.1 hg).2
  have e2 : ts.get ⟨i, (List.getElem?_eq_some_iff.1 ht).1⟩ = t := (List.getElem?_eq_some_iff.1 ht).2
  rw [e1, e2] at hl
  exact ⟨hl.distsOnce, hl.readsOnce, hl.readsKnown, hl.inside, hl.linked, hl.bound⟩

theorem findEntrypointTraced_reach {n : Nat} (dq : Nat → Option D) : ∀ (layers : List Graph) (entry e : Nat)
    (ts : List Trace), WellFormedIndex layers n → (∀ g, layers.head? = some g → entry < g.length) →
    findEntrypointTraced dq layers entry = some (e, ts) →
    List.Forall₂ (fun g t => ∀ i ∈ t.dists, i < g.length) layers ts ∧ (layers = [] → e = entry) ∧
    ∀ g, layers.getLast? = some g → e < g.length
  | [], entry, e, ts, _, _, h => by
    simp only [findEntrypointTraced, Option.some.injEq, Prod.mk.injEq] at h
    obtain ⟨rfl, rfl⟩ := h
    exact ⟨.nil, fun _ => rfl, by simp⟩
  | g :: gs, entry, e, ts, hwf, hen, h => by
    rw [findEntrypointTraced] at h
    rcases Option.eq_none_or_eq_some (searchForNeighborsTraced g entry dq 1) with h1 | ⟨⟨r, t⟩, h1⟩
    · simp [h1] at h
    · cases r with
      | nil => simp [h1] at h
      | cons p r =>
        obtain ⟨i, d⟩ := p
        simp only [h1] at h
        obtain ⟨⟨e', ts'⟩, h2, he⟩ := Option.map_eq_some_iff.1 h
        simp only [Prod.mk.injEq] at he
        obtain ⟨rfl, rfl⟩ := he
        have hg : entry < g.length := hen g rfl
        have hreach := (searchForNeighborsTraced_cost h1).2.2
        have hin := reach_lt (hwf.inside g (by simp)) hg
        have hrun := searchForNeighborsTraced_erase g entry dq 1
        rw [h1] at hrun
        obtain ⟨l, hl, hp⟩ := searchForNeighbors_post hrun.symm
        have hi : i < g.length := by
          cases l with
          | nil => simp at hl
          | cons c l =>
            simp only [List.map_cons, List.cons.injEq, Prod.mk.injEq] at hl
            rw [hl.1.1]
            exact (hp.mem c (by simp)).2.1
        have hwf' : WellFormedIndex gs n := ⟨fun g hg => hwf.nonempty g (by simp [hg]),
          fun g hg => hwf.inside g (by simp [hg]), (List.pairwise_cons.1 hwf.nested).2,
          fun g hg => hwf.bounded g (by simp [hg])⟩
        obtain ⟨k1, k2, k3⟩ := findEntrypointTraced_reach dq gs i e' ts' hwf' (by
          intro g' hg'
          have := (List.pairwise_cons.1 hwf.nested).1 g' (List.mem_of_head? hg')
          omega) h2
        refine ⟨.cons (fun j hj => hin j (hreach j hj)) k1, by simp, ?_⟩
        intro g' hg'
        cases gs with
        | nil =>
          simp at hg'
          subst hg'
          rw [k2 rfl]; exact hi
        | cons a as => exact k3 g' (by simpa using hg')
where
  reach_lt {g : Graph} {entry : Nat} (hin : EdgesInside g) (he : entry < g.length) :
      ∀ i, Reach g entry i → i < g.length := by
    intro i h
    cases h with
    | refl => exact he
    | step _ hedge => exact hin _ _ hedge

theorem nodup_length_le {l : List Nat} {n : Nat} (h : l.Nodup) (hb : ∀ i ∈ l, i < n) : l.length ≤ n := by
  have : l ⊆ List.range n := fun i hi => List.mem_range.2 (hb i hi)
  simpa using (List.subperm_of_subset h this).length_le

/-- C69. On a well-formed index a search computes in each layer at most as many distances as the layer has nodes; so
all in all at most the sum of the layer sizes, however large `max_search` is. -/
theorem C69_total (layers : List Graph) (es : Elements E D) (hwf : WellFormedIndex layers es.data.length) (q : E)
    (maxSearch k : Nat) (r : List (Nat × D)) (ts : List Trace)
    (h : searchTraced layers es q maxSearch k = some (r, ts)) :
    (∀ (i : Nat) (g : Graph) (t : Trace), layers[i]? = some g → ts[i]? = some t → t.dists.length ≤ g.length) ∧
    (ts.map fun t => t.dists.length).sum ≤ (layers.map List.length).sum ∧
    (ts.map fun t => t.reads.length).sum ≤ (layers.map List.length).sum := by
  have hall : List.Forall₂ (fun (g : Graph) (t : Trace) => t.dists.length ≤ g.length ∧ t.reads.length ≤ g.length)
      layers ts := by
    have hc := searchTraced_cost h
    have hin : List.Forall₂ (fun (g : Graph) (t : Trace) => ∀ i ∈ t.dists, i < g.length) layers ts := by
      unfold searchTraced at h
      rcases Option.eq_none_or_eq_some layers.getLast? with hl | ⟨bottom, hl⟩
      · simp only [hl, Option.some.injEq, Prod.mk.injEq] at h
        obtain ⟨_, rfl⟩ := h
        rw [List.getLast?_eq_none_iff.1 hl]; exact .nil
      · simp only [hl] at h
        have hsplit := List.dropLast_append_getLast? bottom hl
        rcases Option.eq_none_or_eq_some (findEntrypointTraced (es.distTo q) layers.dropLast 0) with
          h1 | ⟨⟨e, ts'⟩, h1⟩
        · simp [h1] at h
        · simp only [h1] at h
          rcases Option.eq_none_or_eq_some (searchForNeighborsTraced bottom e (es.distTo q) maxSearch) with
            h2 | ⟨⟨r', t⟩, h2⟩
          · simp [h2] at h
          · simp only [h2, Option.some.injEq, Prod.mk.injEq] at h
            obtain ⟨_, rfl⟩ := h
            have hsub := List.dropLast_sublist layers
            have hwf' : WellFormedIndex layers.dropLast es.data.length :=
              ⟨fun g hg => hwf.nonempty g (hsub.subset hg), fun g hg => hwf.inside g (hsub.subset hg),
                hwf.nested.sublist hsub, fun g hg => hwf.bounded g (hsub.subset hg)⟩
            obtain ⟨k1, k2, k3⟩ := findEntrypointTraced_reach (es.distTo q) _ 0 e ts' hwf' (by
              intro g hg
              exact List.length_pos_iff.2 (hwf'.nonempty g (List.mem_of_head? hg))) h1
            have hb : e < bottom.length := by
              rcases List.eq_nil_or_concat layers.dropLast with hd | ⟨up, g, hd⟩
              · rw [k2 hd]
                exact List.length_pos_iff.2 (hwf.nonempty bottom (List.mem_of_getLast? hl))
              · rw [List.concat_eq_append] at hd
                have h3 := k3 g (by rw [hd]; simp)
                have hn := hwf.nested
                rw [← hsplit, List.pairwise_append] at hn
                have := hn.2.2 g (by rw [hd]; simp) bottom (by simp)
                omega
            conv_lhs => rw [← hsplit]
            refine List.rel_append k1 (.cons (fun i hi => ?_) .nil)
            exact findEntrypointTraced_reach.reach_lt (hwf.inside bottom (List.mem_of_getLast? hl)) hb i
              ((searchForNeighborsTraced_cost h2).2.2 i hi)
    clear h hwf
    induction hc with
    | nil => exact .nil
    | cons hc _ ih =>
      cases hin with
      | cons hi hr => exact .cons ⟨nodup_length_le hc.distsOnce hi, nodup_length_le hc.readsOnce hc.inside⟩ (ih hr)
  have hsum : ∀ (ls : List Graph) (us : List Trace),
      List.Forall₂ (fun (g : Graph) (t : Trace) => t.dists.length ≤ g.length ∧ t.reads.length ≤ g.length) ls us →
      (us.map fun t => t.dists.length).sum ≤ (ls.map List.length).sum ∧
      (us.map fun t => t.reads.length).sum ≤ (ls.map List.length).sum := by
    intro ls us hf
    induction hf with
    | nil => simp
    | cons h1 _ ih => simp only [List.map_cons, List.sum_cons]; omega
  refine ⟨fun i g t hg ht => ?_, hsum _ _ hall⟩
  have hl := (List.forall₂_iff_get.1 hall).2 i (List.getElem?_eq_some_iff.1 hg).1 (List.getElem?_eq_some_iff.1 ht).1
  have e1 : layers.get ⟨i, (List.getElem?_eq_some_iff.1 hg).1⟩ = g := (List.getElem?_eq_some_iff.1 hg).2
  have e2 : ts.get ⟨i, (List.getElem?_eq_some_iff.1 ht).1⟩ = t := (List.getElem?_eq_some_iff.1 ht).2
  rw [e1, e2] at hl
  exact hl.1

/-- C69. On an index that was built: in each layer a search computes at most `1 + num_neighbors * r` distances, `r` the
number of nodes whose neighbors it reads, and all in all at most the number of layers times the number of indexed
elements. -/
theorem C69_built {srt : List (Nat × D) → List (Nat × D)} (hsrt : IsSortByDist srt) (b : Builder E D)
    (hb : Reachable srt b) (hc : GoodConfig b.config) (q : E) (maxSearch k : Nat) (r : List (Nat × D))
    (ts : List Trace) (h : searchTraced b.graphs b.elements q maxSearch k = some (r, ts)) :
    (∀ t ∈ ts, t.dists.length ≤ 1 + b.config.numNeighbors * t.reads.length) ∧
    (ts.map fun t => t.dists.length).sum ≤ b.layers.length * lastLen b.layers := by
  have hwf := C16_index_wellformed hsrt b hb hc
  constructor
  · have hcost := searchTraced_cost h
    have hg : ∀ g ∈ b.graphs, ∀ l ∈ g, l.length ≤ b.config.numNeighbors := by
      intro g hg l hl
      obtain ⟨layer, hlay, rfl⟩ := List.mem_map.1 hg
      obtain ⟨row, hrow, rfl⟩ := List.mem_map.1 hl
      obtain ⟨i, hi, he⟩ := List.getElem_of_mem hrow
      exact (((hb.inv hsrt hc).stack.layer layer.rows (List.mem_map.2 ⟨layer, hlay, rfl⟩)).1.rows i row
        (by rw [List.getElem?_eq_getElem hi, he])).len
    clear h
    generalize b.graphs = gs at hcost hg
    intro t ht
    induction hcost with
    | nil => cases ht
    | @cons g t' gs ts hc _ ih =>
      rcases List.mem_cons.1 ht with rfl | ht
      · refine hc.bound.trans ?_
        have : ∀ l : List Nat, (l.map fun i => (g[i]?.getD []).length).sum ≤ b.config.numNeighbors * l.length := by
          intro l
          induction l with
          | nil => simp
          | cons a l ih' =>
            have ha : (g[a]?.getD []).length ≤ b.config.numNeighbors := by
              cases hga : g[a]? with
              | none => simp
              | some x => exact hg g (by simp) x (List.mem_of_getElem? hga)
            simp only [List.map_cons, List.sum_cons, List.length_cons, Nat.mul_add, Nat.mul_one]
            omega
        have := this t.reads
        omega
      · exact ih (fun g' hg' => hg g' (by simp [hg'])) ht
  · refine (C69_total b.graphs b.elements hwf q maxSearch k r ts h).2.1.trans ?_
    have hle : ∀ n ∈ b.graphs.map List.length, n ≤ lastLen b.layers := by
      intro n hn
      obtain ⟨g, hg, rfl⟩ := List.mem_map.1 hn
      rcases Option.eq_none_or_eq_some b.layers.getLast? with hl | ⟨last, hl⟩
      · rw [Builder.graphs, List.getLast?_eq_none_iff.1 hl] at hg; simp at hg
      · have e1 : lastLen b.layers = (graphOf last.rows).length := by simp [lastLen, hl, graphOf]
        rw [e1]
        have hsplit : b.graphs = b.layers.dropLast.map (fun l => graphOf l.rows) ++ [graphOf last.rows] := by
          rw [Builder.graphs]
          conv_lhs => rw [← List.dropLast_append_getLast? last hl]
          simp
        have hn := hwf.nested
        rw [hsplit] at hg hn
        rcases List.mem_append.1 hg with h1 | h1
        · exact (List.pairwise_append.1 hn).2.2 g h1 _ (by simp)
        · rw [List.mem_singleton.1 h1]
    refine (List.sum_le_card_nsmul _ _ hle).trans ?_
    simp [Builder.graphs]

/-- C69. The room reserved for a search depends only on `max_search`, not on the index; in a debug build a search with
`max_search` of more than a twentieth of `2^64` panics. -/
theorem C69_reserve (maxSearch : Nat) :
    (maxSearch ≤ 922337203685477580 → searchReserve maxSearch = some (maxSearch, 20 * maxSearch)) ∧
    (922337203685477580 < maxSearch → searchReserve maxSearch = none) := by
  unfold searchReserve
  constructor
  · intro h
    rw [if_pos (by omega), Nat.mul_comm]
  · intro h
    rw [if_neg (by omega)]

/-- A search in the index of C01: seven distances in two layers of two and five nodes, six nodes read. -/
example : (searchTraced exLayers exElements 8 3 3).map (fun x => (x.1, x.2.map fun t => (t.dists, t.reads))) =
    some ([(4, 1), (1, 2), (3, 4)], [([0, 1], [0, 1]), ([1, 0, 3, 2, 4], [1, 3, 0, 2, 4])]) := by decide +kernel

/-- Even with `max_search = 1` all nodes of a layer may have to be read. -/
example : (searchTraced [[[1], [0, 2], [1, 3], [2]]] (⟨[0, 1, 2, 3], fun a b => (a - b).natAbs⟩ : Elements Int Nat)
    3 1 1).map (fun x => (x.1, x.2.map Trace.reads)) = some ([(3, 0)], [[0, 1, 2, 3]]) := by decide +kernel

end Granne
