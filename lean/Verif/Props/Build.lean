import Verif.Proofs.Histories
import Verif.Proofs.Seq
import Mathlib.Data.List.Sort

/-!
Properties of building an index: C14 - C20, C23.

`Reachable srt b`: the builder state `b` arises from some history of creating, pushing, (partially)
building, saving and reloading, with every interleaving of the worker tasks. `BuildPartial srt b num out`: `out` is a possible outcome
of `b.build_partial(num)` (`none`: a panic). `srt` is the library's unstable sort by distance, known only to sort.
-/
namespace Granne
open List Spec

variable {E D : Type} [LinearOrder D] {srt : List (Nat × D) → List (Nat × D)}

/-! ### A concrete builder for the non-vacuity examples -/

/-- Six elements on the line; element 3 is at distance 50 from itself, like a zero vector. -/
def exData : Elements Int Nat :=
  ⟨[10, 7, 2, 1000, 12, 9], fun a b => if a = 1000 then 50 else (a - b).natAbs⟩
/-- Two neighbors per node, layers of 1, 2, 3, ... elements. -/
def exConfig : BuildConfig Nat := ⟨fun total i => min total (2 * i + 2), none, 4, 3, true, 0⟩
def exBuilder : Builder Int Nat := ⟨exData, [], exConfig⟩
/-- A sort by distance. -/
def exSort (l : List (Nat × Nat)) : List (Nat × Nat) := l.insertionSort fun a b => a.2 ≤ b.2

theorem exSort_sorts : IsSortByDist exSort := by
  intro l
  have : Std.Total (fun a b : Nat × Nat => a.2 ≤ b.2) := ⟨fun a b => by omega⟩
  have : IsTrans (Nat × Nat) (fun a b : Nat × Nat => a.2 ≤ b.2) := ⟨fun a b c h1 h2 => by omega⟩
  exact ⟨List.perm_insertionSort _ l, List.pairwise_insertionSort _ l⟩

theorem exConfig_good : GoodConfig exConfig := by
  refine ⟨by decide, by decide, ⟨fun t i => by simp [exConfig], fun t i h => by simp [exConfig]; omega,
    fun t => ⟨t, fun i hi => by simp [exConfig]; omega⟩⟩⟩

theorem exBuilder_reachable : Reachable exSort exBuilder := .new exConfig exData _ rfl

/-- Indexing the bottom layer of six elements above one with the elements 0 and 1: the run with one worker
gives these neighbor lists (element 3 stays unlinked). -/
theorem exRun : IndexElements ⟨4, 3, 0⟩ exData exSort 6 [[[1], [0]]] ⟨4, [[1, UNUSED, UNUSED, UNUSED],
    [0, UNUSED, UNUSED, UNUSED]]⟩ false (some ⟨4, [[5, 4, 1, 2], [5, 0, 2, 4], [1, 0, 4, UNUSED],
      [UNUSED, UNUSED, UNUSED, UNUSED], [0, 5, 1, 2], [0, 1, 4, UNUSED]]⟩) :=
  indexSeq_outcome (by decide) (by decide +kernel)

/-- A reachable state in which all six elements are indexed. -/
theorem exBuilt : ∃ b, Reachable exSort b ∧ b.config = exConfig ∧ b.elements = exData ∧ lastLen b.layers = 6 := by
  obtain ⟨⟨out, hout⟩, hall⟩ := buildPartial_ok exSort_sorts exConfig_good
    (exBuilder_reachable.inv exSort_sorts exConfig_good) (num := 6) (by decide) (by decide) (by decide)
  obtain ⟨b, rfl, _, h1, h2, h3, _⟩ := hall out hout
  exact ⟨b, .build _ _ 6 exBuilder_reachable hout, h2, h1, h3⟩

/-! ### C14 -/

/-- C14. `build_partial(num)`: `0` changes nothing; it panics if fewer elements than already indexed or more
than there are elements are requested; otherwise exactly the first `num` elements are indexed, and elements and
configuration stay as they are. -/
theorem C14_build_partial_exact (hsrt : IsSortByDist srt) (b : Builder E D) (hb : Reachable srt b)
    (hc : GoodConfig b.config) (num : Nat) (out : Option (Builder E D)) (h : BuildPartial srt b num out) :
    (num = 0 → out = some b) ∧
    (num ≠ 0 → (num < lastLen b.layers ∨ b.elements.data.length < num) → out = none) ∧
    (num ≠ 0 → lastLen b.layers ≤ num → num ≤ b.elements.data.length →
      ∃ b', out = some b' ∧ lastLen b'.layers = num ∧ b'.elements = b.elements ∧ b'.config = b.config) := by
  refine ⟨?_, ?_, ?_⟩
  · intro h0
    cases h with
    | zero => rfl
    | fewer h1 => exact absurd h0 h1
    | more h1 => exact absurd h0 h1
    | fresh _ h1 => exact absurd h0 h1
    | lastPanics h1 => exact absurd h0 h1
    | «continue» _ _ h1 => exact absurd h0 h1
  · intro h0 hbad
    cases h with
    | zero h1 => exact absurd h1 h0
    | fewer => rfl
    | more => rfl
    | fresh _ _ h1 h2 => omega
    | lastPanics => rfl
    | «continue» _ _ _ h1 h2 => omega
  · intro h0 h1 h2
    obtain ⟨b', e, _, e2, e3, e4, _⟩ := (buildPartial_ok hsrt hc (hb.inv hsrt hc) h2 (by omega) h1).2 out h
    exact ⟨b', e, e4, e2, e3⟩

/-- C14. `build()` never panics and indexes all elements. -/
theorem C14_build_all (hsrt : IsSortByDist srt) (b : Builder E D) (hb : Reachable srt b)
    (hc : GoodConfig b.config) (out : Option (Builder E D)) (h : Build srt b out) :
    ∃ b', out = some b' ∧ lastLen b'.layers = b.elements.data.length ∧ b'.elements = b.elements := by
  have hi := hb.inv hsrt hc
  have hle : lastLen b.layers ≤ b.elements.data.length := by
    unfold lastLen
    split
    · next l hl => exact (hi.stack.layer _ (List.mem_map.2 ⟨l, List.mem_of_getLast? hl, rfl⟩)).2.2
    · omega
  by_cases h0 : b.elements.data.length = 0
  · refine ⟨b, (C14_build_partial_exact hsrt b hb hc _ out h).1 h0, by omega, rfl⟩
  · obtain ⟨b', e, e2, e3, _⟩ := (C14_build_partial_exact hsrt b hb hc _ out h).2.2 h0 hle le_rfl
    exact ⟨b', e, e2, e3⟩

/-- Non-vacuity: the concrete builder meets the hypotheses and has an outcome for `build_partial(4)`. -/
example : Reachable exSort exBuilder ∧ GoodConfig exBuilder.config ∧ ∃ out, BuildPartial exSort exBuilder 4 out :=
  ⟨exBuilder_reachable, exConfig_good, (buildPartial_ok exSort_sorts exConfig_good
    (exBuilder_reachable.inv exSort_sorts exConfig_good) (num := 4) (by decide) (by decide) (by decide)).1⟩

/-! ### C15 -/

/-- C15. In every reachable state: layers are non-empty, not larger than the element set, and their sizes do not
decrease. (A layer holds the nodes `0 .. len`, so each layer is a prefix of the next.) -/
theorem C15_layers_nested (hsrt : IsSortByDist srt) (b : Builder E D) (hb : Reachable srt b)
    (hc : GoodConfig b.config) :
    (∀ l ∈ b.layers, 0 < l.rows.length ∧ l.rows.length ≤ b.elements.data.length) ∧
    b.layers.Pairwise (fun a c => a.rows.length ≤ c.rows.length) := by
  have hi := hb.inv hsrt hc
  refine ⟨fun l hl => (hi.stack.layer l.rows (List.mem_map.2 ⟨l, hl, rfl⟩)).2, ?_⟩
  have := hi.stack.nested
  rw [List.pairwise_map] at this
  exact this.imp fun h => h.1

/-- C15. `build_partial` only changes the last existing layer and adds layers after it. -/
theorem C15_earlier_layers_kept (hsrt : IsSortByDist srt) (b b' : Builder E D) (hb : Reachable srt b)
    (hc : GoodConfig b.config) (num : Nat) (h : BuildPartial srt b num (some b')) :
    b.layers.length ≤ b'.layers.length ∧
    ∀ i, i + 1 < b.layers.length → b'.layers[i]? = b.layers[i]? := by
  by_cases h0 : num = 0
  · have := (C14_build_partial_exact hsrt b hb hc num _ h).1 h0
    cases this
    exact ⟨le_rfl, fun _ _ => rfl⟩
  · by_cases hbad : num < lastLen b.layers ∨ b.elements.data.length < num
    · have := (C14_build_partial_exact hsrt b hb hc num _ h).2.1 h0 hbad
      cases this
    · obtain ⟨b1, e, _, _, _, _, ⟨new, e2, e3⟩, _⟩ :=
        (buildPartial_ok hsrt hc (hb.inv hsrt hc) (by omega) (by omega) (by omega)).2 _ h
      cases e
      rw [e2]
      constructor
      · cases hl : b.layers with
        | nil => simp
        | cons x t =>
          have : new ≠ [] := e3 (by simp [hl])
          have := List.length_pos_iff.2 this
          simp; omega
      · intro i hi
        rw [List.getElem?_append_left (by simp; omega), List.getElem?_dropLast, if_pos (by omega)]

omit [LinearOrder D] in
/-- C15. `push` changes no layer. -/
theorem C15_push_keeps_layers (b b' : Builder E D) (e : E) (h : b.push e = some b') : b'.layers = b.layers := by
  unfold Builder.push at h
  split at h <;> cases h
  rfl

/-- Non-vacuity: a state with all six elements indexed (so at least one layer). -/
example : ∃ b : Builder Int Nat, Reachable exSort b ∧ GoodConfig b.config ∧ b.layers ≠ [] := by
  obtain ⟨b, h1, h2, _, h4⟩ := exBuilt
  refine ⟨b, h1, h2 ▸ exConfig_good, ?_⟩
  rintro h; simp [lastLen, h] at h4

/-! ### C16, C17 -/

/-- C16. In every reachable state, each neighbor of node `i` in a layer is a node of that layer other than `i`,
and `i` has at most `num_neighbors` neighbors. (`graphOf` is what `get_neighbors` of the layer returns.) -/
theorem C16_neighbors_valid (hsrt : IsSortByDist srt) (b : Builder E D) (hb : Reachable srt b)
    (hc : GoodConfig b.config) (layer : Layer) (hl : layer ∈ b.layers) (i : Nat) (nbrs : List Nat)
    (hi : (graphOf layer.rows)[i]? = some nbrs) :
    nbrs.length ≤ b.config.numNeighbors ∧ ∀ j ∈ nbrs, j < layer.rows.length ∧ j ≠ i := by
  have hinv := ((hb.inv hsrt hc).stack.layer layer.rows (List.mem_map.2 ⟨layer, hl, rfl⟩)).1
  simp only [graphOf, List.getElem?_map, Option.map_eq_some_iff] at hi
  obtain ⟨row, hrow, rfl⟩ := hi
  have := hinv.rows i row hrow
  exact ⟨this.len, fun j hj => ⟨(this.ids j hj).1, (this.ids j hj).2.1⟩⟩

/-- C16. A layer that `build_partial` adds as an upper layer (fewer elements planned than the total) has at most
`max(1, num_neighbors / 2)` neighbors per node, unless nothing was planned to be added to it, so that it is a
mere copy of the layer above it. -/
theorem C16_upper_layers_half (hsrt : IsSortByDist srt) (b b' : Builder E D) (hb : Reachable srt b)
    (hc : GoodConfig b.config) (num : Nat) (h : BuildPartial srt b num (some b')) (i : Nat)
    (hnew : b.layers.length ≤ i) (layer : Layer) (hl : b'.layers[i]? = some layer)
    (hupper : b.config.schedule (max b.total b.elements.data.length) i < b.total) :
    (1 ≤ i ∧ b'.layers[i - 1]? = some layer) ∨
    ∀ nbrs ∈ graphOf layer.rows, nbrs.length ≤ max 1 (b.config.numNeighbors / 2) := by
  by_cases h0 : num = 0
  · have := (C14_build_partial_exact hsrt b hb hc num _ h).1 h0
    cases this
    rw [List.getElem?_eq_none hnew] at hl
    cases hl
  · by_cases hbad : num < lastLen b.layers ∨ b.elements.data.length < num
    · have := (C14_build_partial_exact hsrt b hb hc num _ h).2.1 h0 hbad
      cases this
    · obtain ⟨b1, e, _, e1, e2, _, _, e5, _⟩ :=
        (buildPartial_ok hsrt hc (hb.inv hsrt hc) (by omega) (by omega) (by omega)).2 _ h
      cases e
      have e6 := e5 i hnew layer hl (by
        simp only [Builder.ideal, Builder.total, e1, e2, Nat.add_sub_cancel]
        exact hupper)
      rw [e2] at e6
      refine e6.imp id fun h7 nbrs hn => ?_
      obtain ⟨row, hrow, rfl⟩ := List.mem_map.1 hn
      exact h7 row hrow

/-- C17. No node lists a neighbor twice. -/
theorem C17_neighbors_nodup (hsrt : IsSortByDist srt) (b : Builder E D) (hb : Reachable srt b)
    (hc : GoodConfig b.config) (layer : Layer) (hl : layer ∈ b.layers) :
    ∀ nbrs ∈ graphOf layer.rows, nbrs.Nodup := by
  intro nbrs hn
  have hinv := ((hb.inv hsrt hc).stack.layer layer.rows (List.mem_map.2 ⟨layer, hl, rfl⟩)).1
  obtain ⟨row, hrow, rfl⟩ := List.mem_map.1 hn
  obtain ⟨i, hi, he⟩ := List.getElem_of_mem hrow
  exact (hinv.rows i row (by rw [List.getElem?_eq_getElem hi, he])).nodup

/-- C16, C17: the index a reachable builder hands out is well formed in the sense of C01 - C04, so searching it
never panics. -/
theorem C16_index_wellformed (hsrt : IsSortByDist srt) (b : Builder E D) (hb : Reachable srt b)
    (hc : GoodConfig b.config) : WellFormedIndex b.graphs b.elements.data.length := by
  have := (hb.inv hsrt hc).stack.wf
  rwa [List.map_map] at this

/-- Non-vacuity: `exRun` is a run in which neighbor lists are filled up to the limit. -/
example : (graphOf [[5, 4, 1, 2], [5, 0, 2, 4], [1, 0, 4, UNUSED]])[0]? = some [5, 4, 1, 2] := by decide

/-! ### C18 -/

/-- C18. A legal `build_partial` has no panicking outcome, whatever the interleaving (the panics modelled are
those of all worker tasks and of the builder itself, in a debug build except for src/index/mod.rs:887). -/
theorem C18_no_panic (hsrt : IsSortByDist srt) (b : Builder E D) (hb : Reachable srt b)
    (hc : GoodConfig b.config) (num : Nat) (h1 : lastLen b.layers ≤ num)
    (h2 : num ≤ b.elements.data.length) : ¬ BuildPartial srt b num none := by
  intro h
  by_cases h0 : num = 0
  · have := (C14_build_partial_exact hsrt b hb hc num _ h).1 h0
    cases this
  · obtain ⟨b', e, _⟩ := (C14_build_partial_exact hsrt b hb hc num _ h).2.2 h0 h1 h2
    cases e

/-- C18. It has an outcome, ... -/
theorem C18_has_outcome (hsrt : IsSortByDist srt) (b : Builder E D) (hb : Reachable srt b)
    (hc : GoodConfig b.config) (num : Nat) (h1 : lastLen b.layers ≤ num)
    (h2 : num ≤ b.elements.data.length) : ∃ b', BuildPartial srt b num (some b') := by
  by_cases h0 : num = 0
  · exact ⟨b, .zero h0⟩
  · obtain ⟨⟨out, hout⟩, hall⟩ := buildPartial_ok hsrt hc (hb.inv hsrt hc) h2 (by omega) h1
    obtain ⟨b', rfl, _⟩ := hall out hout
    exact ⟨b', hout⟩

/-- ... no execution of the workers gets stuck: unless all tasks are finished (or one panicked) some task can
take a step, ... -/
theorem C18_never_stuck (s : Par) (h : ¬ s.Panicked) : s.Done ∨ ∃ s', Par.Step s s' := Par.progress h

/-- ... every execution of the workers is finite, ... -/
theorem C18_schedules_finite : WellFounded fun s' s : Par => Par.Step s s' := Par.step_wellFounded

/-- ... and the loop that adds layers ends: there is no infinite sequence of rounds. -/
theorem C18_rounds_finite (hsrt : IsSortByDist srt) (b : Builder E D) (hb : Reachable srt b)
    (hc : GoodConfig b.config) (num : Nat) (h2 : num ≤ b.elements.data.length) :
    Acc (fun b' b => lastLen b.layers < num ∧ IndexLast srt b.addLayer num (some b')) b :=
  round_acc hsrt hc (hb.inv hsrt hc) h2

/-! ### C19 -/

/-- C19. A zero element (distance to itself above the threshold) other than element 0 is in no neighbor list and
is never returned by a search. -/
theorem C19_zero_never_linked (hsrt : IsSortByDist srt) (b : Builder E D) (hb : Reachable srt b)
    (hc : GoodConfig b.config) (z : Nat) (hz : IsZero b.elements b.config.eps z) (hz0 : z ≠ 0) :
    (∀ g ∈ b.graphs, ∀ nbrs ∈ g, z ∉ nbrs) ∧
    (∀ (q : E) (maxSearch k : Nat) (r : List (Nat × D)),
      search b.graphs b.elements q maxSearch k = some r → z ∉ r.map Prod.fst) := by
  have hi := hb.inv hsrt hc
  constructor
  · intro g hg nbrs hn hzn
    obtain ⟨layer, hl, rfl⟩ := List.mem_map.1 hg
    obtain ⟨row, hrow, rfl⟩ := List.mem_map.1 hn
    have hinv := (hi.stack.layer layer.rows (List.mem_map.2 ⟨layer, hl, rfl⟩)).1
    obtain ⟨i, hlt, he⟩ := List.getElem_of_mem hrow
    exact ((hinv.rows i row (by rw [List.getElem?_eq_getElem hlt, he])).ids z hzn).2.2 hz0 hz
  · intro q ms k r hr hzr
    obtain ⟨p, hp, rfl⟩ := List.mem_map.1 hzr
    have hg : b.graphs = (b.layers.map Layer.rows).map graphOf := by simp [Builder.graphs]
    rw [hg] at hr
    rcases List.eq_nil_or_concat b.layers with hnil | ⟨up, la, hcat⟩
    · simp only [hnil, List.map_nil, search, searchInternal, List.getLast?_nil, Option.some.injEq] at hr
      subst hr; simp at hp
    · rw [List.concat_eq_append] at hcat
      have hnest := hi.stack.nested
      have := hi.stack.search_pub (Rfin := la.rows) hr (by
        intro R hR
        rw [hcat, List.map_append] at hR hnest
        rcases List.mem_append.1 hR with h | h
        · exact ((List.pairwise_append.1 hnest).2.2 R h _ (by simp)).2
        · simp at h; subst h; exact fun _ h => h) p hp
      exact (this.1 hz0).2 hz

/-- C19. ... and its own neighbor list is empty in every layer: a zero element other than element 0 is isolated,
so a search that would start from it (as it does after a reordering that moves it to the front) goes nowhere. -/
theorem C19_zero_has_no_neighbors (hsrt : IsSortByDist srt) (b : Builder E D) (hb : Reachable srt b)
    (hc : GoodConfig b.config) (z : Nat) (hz : IsZero b.elements b.config.eps z) (hz0 : z ≠ 0) :
    ∀ g ∈ b.graphs, ∀ nbrs, g[z]? = some nbrs → nbrs = [] := by
  have hi := hb.inv hsrt hc
  intro g hg nbrs hn
  obtain ⟨layer, hl, rfl⟩ := List.mem_map.1 hg
  have hinv := (hi.stack.layer layer.rows (List.mem_map.2 ⟨layer, hl, rfl⟩)).1
  simp only [graphOf, List.getElem?_map, Option.map_eq_some_iff] at hn
  obtain ⟨row, hrow, rfl⟩ := hn
  by_contra hne
  exact ((hinv.rows z row hrow).own hne hz0).2 hz

/-- Non-vacuity: element 3 of the concrete builder is a zero element; in `exRun` it stays unlinked. -/
example : IsZero exData exConfig.eps 3 ∧ ¬ IsZero exData exConfig.eps 1 :=
  ⟨⟨50, by decide, by decide⟩, by rintro ⟨d, h1, h2⟩; simp [exData, Elements.dist?, Elements.distTo] at h1; subst h1; simp [exConfig] at h2⟩

/-! ### C20 -/

/-- C20. Limiting candidates to `m >= 1` neighbors keeps a sublist of at most `m` that starts with the first
candidate. If there were more than `m`, every kept candidate `c` is at least as close to the node as to every
neighbor kept before it, and for every candidate `c` the result splits into what was kept before it and after it:
`c` itself is kept, or `m` had been kept already, or `c` is strictly closer to one kept before it than to the
node. `c.2` is the distance of candidate `c` to the node. -/
theorem C20_select (es : Elements E D) (cands sel : List (Nat × D)) (m : Nat) (hm : 1 ≤ m)
    (h : selectNeighbors es cands m = some sel) :
    sel.Sublist cands ∧ sel.length ≤ m ∧ sel.head? = cands.head? ∧
    (cands.length ≤ m → sel = cands) ∧
    (m < cands.length →
      (∀ pre c post, sel = pre ++ c :: post → ∀ p ∈ pre, ∃ x, es.dist? p.1 c.1 = some x ∧ c.2 ≤ x) ∧
      (∀ pre c post, cands = pre ++ c :: post → ∃ kept later, sel = kept ++ later ∧ kept.Sublist pre ∧
        ((∃ later', later = c :: later' ∧ later'.Sublist post) ∨
         (later.Sublist post ∧ (kept.length = m ∧ later = [] ∨
            ∃ p ∈ kept, ∃ x, es.dist? p.1 c.1 = some x ∧ x < c.2))))) := by
  obtain ⟨hsub, hlen⟩ := selectNeighbors_sublist h
  unfold selectNeighbors at h
  refine ⟨hsub, hlen, ?_, ?_, ?_⟩
  · split at h
    · cases h; rfl
    split at h
    · cases cands with
      | nil => simp at *
      | cons c t => obtain ⟨t', rfl⟩ := selectLoop_head hm c t sel h; rfl
    · cases h
  · intro hle
    rw [if_pos hle] at h
    cases h; rfl
  · intro hlt
    rw [if_neg (by omega)] at h
    split at h
    · obtain ⟨added, rfl, _, _, h4, h5⟩ := selectLoop_spec _ _ _ h
      simp only [List.nil_append] at *
      refine ⟨fun pre c post he p hp => h4 pre c post he p hp, ?_⟩
      intro pre c post he
      obtain ⟨a1, a2, e1, e2, e3⟩ := h5 pre c post he
      refine ⟨a1, a2, e1, e2, ?_⟩
      rcases e3 with ⟨e3, e4⟩ | e3
      · right
        refine ⟨e3, ?_⟩
        rcases e4 with e4 | e4
        · left
          rw [e1, List.length_append] at hlen
          exact ⟨by omega, List.length_eq_zero_iff.1 (by omega)⟩
        · exact Or.inr e4
      · exact Or.inl e3
    · cases h

/-- C20. With candidates in ascending order that name existing elements, selection does not panic (neither
does its assertion that they are in order); the first one kept is the closest. -/
theorem C20_select_total (es : Elements E D) (cands : List (Nat × D)) (m : Nat) (hm : 1 ≤ m)
    (hids : ∀ p ∈ cands, p.1 < es.data.length) (hsorted : cands.Pairwise fun a b => a.2 ≤ b.2) :
    ∃ sel, selectNeighbors es cands m = some sel ∧ ∀ p, sel.head? = some p → ∀ c ∈ cands, p.2 ≤ c.2 := by
  obtain ⟨sel, h⟩ := selectNeighbors_isSome (m := m) hids hsorted
  refine ⟨sel, h, ?_⟩
  intro p hp c hcm
  rw [(C20_select es cands sel m hm h).2.2.1] at hp
  cases cands with
  | nil => simp at hp
  | cons a t =>
    simp only [List.head?_cons, Option.some.injEq] at hp
    subst hp
    rcases List.mem_cons.1 hcm with rfl | hcm
    · exact le_rfl
    · exact (List.pairwise_cons.1 hsorted).1 c hcm

/-- C20. Limiting the neighbors of a node (`add_and_limit_neighbors`) keeps the closest of the old neighbors and
the new ones. -/
theorem C20_limit_keeps_closest (hsrt : IsSortByDist srt) (es : Elements E D) (node : Nat)
    (extra : List (Nat × D)) (m : Nat) (hm : 1 ≤ m) (row row' : Row)
    (h : addAndLimit es srt node extra m row = some row') :
    ∃ (ds : List D) (sel : List (Nat × D)), es.dists node (visible row) = some ds ∧ sel.Sublist (srt ((visible row).zip ds ++ extra)) ∧
      sel.length ≤ m ∧ row' = sel.map Prod.fst ++ List.replicate (row.length - sel.length) UNUSED ∧
      ∀ p, sel.head? = some p → ∀ c ∈ (visible row).zip ds ++ extra, p.2 ≤ c.2 := by
  unfold addAndLimit at h
  split at h
  · next hle =>
    simp only at h
    rcases Option.eq_none_or_eq_some (es.dists node (visible row)) with hd | ⟨ds, hd⟩
    · simp [hd] at h
    · simp only [hd] at h
      rcases Option.eq_none_or_eq_some (selectNeighbors es (srt ((visible row).zip ds ++ extra)) m) with hs | ⟨sel, hs⟩
      · simp [hs] at h
      · simp only [hs] at h
        obtain ⟨h1, h2, h3, _⟩ := C20_select es _ sel m hm hs
        refine ⟨ds, sel, hd, h1, h2, ?_, ?_⟩
        · unfold writePadded at h
          rw [List.take_of_length_le (by simp; omega)] at h
          obtain ⟨ids, hm1, rfl⟩ := option_map_some_iff h
          have : ids = sel.map Prod.fst := by
            clear h hs h3 h1 h2
            generalize sel.map Prod.fst = l at hm1
            induction l generalizing ids with
            | nil => simpa using hm1.symm
            | cons a t ih =>
              rw [List.mapM_cons] at hm1
              unfold toNeighborId at hm1
              split at hm1
              · rcases Option.eq_none_or_eq_some (t.mapM toNeighborId) with ht | ⟨t', ht⟩
                · unfold toNeighborId at ht
                  simp [ht] at hm1
                · have := ih t' ht
                  unfold toNeighborId at ht
                  simp [ht] at hm1
                  rw [← hm1, this]
              · simp at hm1
          rw [this]; simp
        · intro p hp c hcm
          rw [h3] at hp
          obtain ⟨hperm, hsort⟩ := hsrt ((visible row).zip ds ++ extra)
          cases hcs : srt ((visible row).zip ds ++ extra) with
          | nil => simp [hcs] at hp
          | cons a t =>
            rw [hcs] at hp hsort hperm
            simp only [List.head?_cons, Option.some.injEq] at hp
            subst hp
            rcases List.mem_cons.1 (hperm.mem_iff.2 hcm) with rfl | hcm
            · exact le_rfl
            · exact (List.pairwise_cons.1 hsort).1 c hcm
  · cases h

/-- Non-vacuity: of five candidates at positions 9, 7, 10, 12, 2 for a node at position 8 the first two are kept;
the others are closer to one of these than to the node. -/
example : selectNeighbors exData [(5, 1), (1, 1), (0, 2), (4, 4), (2, 6)] 3 = some [(5, 1), (1, 1)] := by
  decide +kernel

/-! ### C23 -/

/-- C23. The builder never holds `2^32 - 1` elements or more: creating or pushing beyond is refused. -/
theorem C23_size_bounded (b : Builder E D) (hb : Reachable srt b) : b.elements.data.length < 4294967295 := by
  have hl : ∀ {b b' : Builder E D} {num}, IndexLast srt b num (some b') → b'.elements = b.elements := by
    intro b b' num h
    generalize ho : some b' = o at h
    cases h with
    | noLayer => cases ho
    | nothing => cases ho; rfl
    | firstPanics => cases ho
    | once => cases ho; rfl
    | twice => obtain ⟨l, _, rfl⟩ := option_map_some_iff ho.symm; rfl
  have hloop : ∀ {num} {b : Builder E D} {o}, BuildLoop srt num b o → ∀ b', o = some b' →
      b'.elements = b.elements := by
    intro num b o h
    induction h with
    | done b _ => intro b' h; cases h; rfl
    | panic => intro b' h; cases h
    | round b b1 o _ hs _ ih => intro b' h; rw [ih b' h, hl hs]; rfl
  induction hb with
  | new c es b h =>
    unfold Builder.new at h
    split at h
    · cases h; assumption
    · cases h
  | push b b' e _ hp ih =>
    unfold Builder.push at hp
    split at hp
    · next hlt => cases hp; simp only [List.length_append, List.length_singleton]; unfold UNUSED at hlt; omega
    · cases hp
  | build b b' num _ hp ih =>
    have : b'.elements = b.elements := by
      cases hp with
      | zero => rfl
      | fresh _ _ _ _ _ h => exact hloop h _ rfl
      | «continue» b1 _ _ _ _ _ hs h => rw [hloop h _ rfl, hl hs]
    rw [this]; exact ih
  | reload b b' f f' start config es _ _ _ _ _ _ hp ih =>
    obtain ⟨_, h1, h2⟩ := fromBytes_config hp
    rw [h1]; exact h2
  | reorder b b' f f' g g' start start' vs es ix order config elements _ _ _ _ _ _ _ hp ih =>
    obtain ⟨_, h1, h2⟩ := fromBytes_config hp
    rw [h1]; exact h2

omit [LinearOrder D] in
/-- C23. A push is refused exactly when it would reach the limit. -/
theorem C23_push_refused (b : Builder E D) (e : E) :
    b.push e = none ↔ 4294967295 ≤ b.elements.data.length + 1 := by
  unfold Builder.push UNUSED
  split <;> simp <;> omega

/-- C23. Every slot of every node holds the unused marker `2^32 - 1` or the id of an element, which is smaller;
the used slots come first. -/
theorem C23_slots (hsrt : IsSortByDist srt) (b : Builder E D) (hb : Reachable srt b) (hc : GoodConfig b.config)
    (layer : Layer) (hl : layer ∈ b.layers) (row : Row) (hrow : row ∈ layer.rows) :
    ∃ ids, row = ids ++ List.replicate (b.config.numNeighbors - ids.length) 4294967295 ∧
      ids.length ≤ b.config.numNeighbors ∧ ∀ j ∈ ids, j < b.elements.data.length ∧ j < 4294967295 := by
  have hinv := (hb.inv hsrt hc).stack.layer layer.rows (List.mem_map.2 ⟨layer, hl, rfl⟩)
  obtain ⟨i, hlt, he⟩ := List.getElem_of_mem hrow
  have := hinv.1.rows i row (by rw [List.getElem?_eq_getElem hlt, he])
  refine ⟨visible row, this.shape, this.len, ?_⟩
  intro j hj
  have h1 := (this.ids j hj).1
  have h2 := C23_size_bounded b hb
  omega

end Granne
