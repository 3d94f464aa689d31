import Verif.Proofs.LinkedBuild
import Verif.Props.Search
import Verif.Props.Build

/-!
Properties of the links made while building: C49, C50.

Histories are `Reachable` / `ReachableBy` (creating, pushing, partially building under every interleaving of the
worker tasks, saving and reloading). `Edge`/`Reach` (`Spec/Graph`) are plain graph notions; `b.graphs` are the
neighbor lists as a search sees them, top layer first.
-/
namespace Granne
open List Spec

variable {E D : Type} [LinearOrder D] {srt : List (Nat × D) → List (Nat × D)}

theorem ReachableBy.mono {P P' : BuildConfig D → Prop} (hP : ∀ c, P c → P' c) {b : Builder E D}
    (h : ReachableBy srt P b) : ReachableBy srt P' b := by
  induction h with
  | new c es b hc h => exact .new c es b (hP c hc) h
  | push b b' e _ hp ih => exact .push b b' e ih hp
  | build b b' num _ hb ih => exact .build b b' num ih hb
  | reload b b' f f' start config es hc _ hg h1 h2 h3 h4 h5 ih =>
    exact .reload b b' f f' start config es (hP _ hc) ih hg h1 h2 h3 h4 h5
  | reorder b b' f f' g g' start start' vs es ix order config elements hc _ hg h1 h2 h3 h4 h5 h6 ih =>
    exact .reorder b b' f f' g g' start start' vs es ix order config elements (hP _ hc) ih hg h1 h2 h3 h4 h5 h6

theorem Reachable.by_good {b : Builder E D} (h : Reachable srt b) :
    GoodConfig b.config → ReachableBy srt GoodConfig b := by
  induction h with
  | new c es b h =>
    intro hc
    refine .new c es b ?_ h
    unfold Builder.new at h
    split at h
    · cases h; exact hc
    · cases h
  | push b b' e _ hp ih =>
    intro hc
    refine .push b b' e (ih ?_) hp
    unfold Builder.push at hp
    split at hp
    · cases hp; exact hc
    · cases hp
  | build b b' num _ hb ih => intro hc; exact .build b b' num (ih (hb.config ▸ hc)) hb
  | reload b b' f f' start config es _ hg h1 h2 h3 h4 h5 ih =>
    intro hc
    exact .reload b b' f f' start config es ((fromBytes_config h5).1 ▸ hc) (ih hg) hg h1 h2 h3 h4 h5
  | reorder b b' f f' g g' start start' vs es ix order config elements _ hg h1 h2 h3 h4 h5 h6 ih =>
    intro hc
    exact .reorder b b' f f' g g' start start' vs es ix order config elements ((fromBytes_config h6).1 ▸ hc) (ih hg) hg h1 h2
      h3 h4 h5 h6

/-! ### C49 -/

/-- C49. If no two of the indexed elements are closer to each other than the threshold `eps`, then every indexed
element, other than the first and other than zero elements, has a neighbor in every layer it belongs to. -/
theorem C49_every_element_linked (hsrt : IsSortByDist srt) (b : Builder E D) (hb : Reachable srt b)
    (hc : GoodConfig b.config)
    (hfar : ∀ i j x y, i < lastLen b.layers → j < lastLen b.layers → i ≠ j → b.elements.data[i]? = some x →
      b.elements.data[j]? = some y → b.config.eps ≤ b.elements.dist x y)
    (g : Graph) (hg : g ∈ b.graphs) (j : Nat) (hj : j < g.length) (hj0 : j ≠ 0)
    (hz : ¬ IsZero b.elements b.config.eps j) : ∃ i, Edge g j i ∧ i < g.length ∧ i ≠ j := by
  have hby := (hb.by_good hc).mono (P' := Roomy False True 0) fun c hc => ⟨hc, False.elim, fun h => absurd trivial h⟩
  have hall := hby.linked hsrt (by rintro (h | h) <;> exact absurd h (by simp)) (by
    intro _ i j d hi hj hne hd
    unfold Elements.dist? Elements.distTo at hd
    rcases Option.eq_none_or_eq_some b.elements.data[i]? with h1 | ⟨y, h1⟩
    · simp [h1] at hd
    · rcases Option.eq_none_or_eq_some b.elements.data[j]? with h2 | ⟨x, h2⟩
      · simp [h1, h2] at hd
      · simp only [h1, h2, Option.map_some, Option.some.injEq] at hd
        rw [← hd]
        exact not_lt.2 (hfar j i x y hj hi hne h2 h1))
  obtain ⟨l, hl, rfl⟩ := List.mem_map.1 hg
  rw [graphOf_length] at hj
  obtain ⟨⟨row, hr, hne⟩, _⟩ := (hall l hl).linked j hj hz hj0
  obtain ⟨i, hi⟩ := List.exists_mem_of_ne_nil _ hne
  have hinv := ((hb.inv hsrt hc).stack.layer l.rows (List.mem_map.2 ⟨l, hl, rfl⟩)).1
  exact ⟨i, edge_graphOf.2 ⟨row, hr, hi⟩, by rw [graphOf_length]; exact ((hinv.rows j row hr).ids i hi).1,
    ((hinv.rows j row hr).ids i hi).2.1⟩

/-- Non-vacuity: a reachable state with six indexed elements (element 3 is a zero element) and threshold 0, which
no distance is below. -/
example : ∃ b : Builder Int Nat, Reachable exSort b ∧ GoodConfig b.config ∧ lastLen b.layers = 6 ∧ b.config.eps = 0 ∧
    ¬ IsZero b.elements b.config.eps 5 := by
  obtain ⟨b, h1, h2, h3, h4⟩ := exBuilt
  refine ⟨b, h1, by rw [h2]; exact exConfig_good, h4, by rw [h2]; rfl, ?_⟩
  rw [h2, h3]
  rintro ⟨d, h1, h2⟩
  simp [exData, Elements.dist?, Elements.distTo] at h1; subst h1; simp [exConfig] at h2

/-! ### C50 -/

/-- The elements a search is able to return: the first one and all that are not zero elements. -/
def Searchable (b : Builder E D) (j : Nat) : Prop :=
  j < lastLen b.layers ∧ (j = 0 ∨ ¬ IsZero b.elements b.config.eps j)

/-- "Small" collections, for every configuration `c` used in the history: at most `num_neighbors / 2 + 1` indexed
elements (and at most 256, because saving keeps 255 neighbors per node), and either no two of them closer than
the threshold or at most `num_neighbors / 4 + 1` elements. -/
structure SmallCollection (srt : List (Nat × D) → List (Nat × D)) (b : Builder E D) : Prop where
  n256 : lastLen b.layers ≤ 256
  history : ReachableBy srt (fun c => GoodConfig c ∧ lastLen b.layers ≤ c.numNeighbors / 2 + 1 ∧
    ((∀ i j x y, i < lastLen b.layers → j < lastLen b.layers → i ≠ j → b.elements.data[i]? = some x →
      b.elements.data[j]? = some y → b.config.eps ≤ b.elements.dist x y) ∨
      lastLen b.layers ≤ c.numNeighbors / 2 / 2 + 1)) b

theorem SmallCollection.linked (hsrt : IsSortByDist srt) {b : Builder E D} (h : SmallCollection srt b) :
    AllLinked True b := by
  by_cases hf : ∀ i j x y, i < lastLen b.layers → j < lastLen b.layers → i ≠ j → b.elements.data[i]? = some x →
      b.elements.data[j]? = some y → b.config.eps ≤ b.elements.dist x y
  · have hby := h.history.mono (P' := Roomy True True (lastLen b.layers)) fun c hc =>
      ⟨hc.1, fun _ => ⟨by have := hc.2.1; omega, h.n256⟩, fun hn => absurd trivial hn⟩
    refine hby.linked hsrt (fun _ => le_rfl) ?_
    intro _ i j d hi hj hne hd
    unfold Elements.dist? Elements.distTo at hd
    rcases Option.eq_none_or_eq_some b.elements.data[i]? with h1 | ⟨y, h1⟩
    · simp [h1] at hd
    · rcases Option.eq_none_or_eq_some b.elements.data[j]? with h2 | ⟨x, h2⟩
      · simp [h1, h2] at hd
      · simp only [h1, h2, Option.map_some, Option.some.injEq] at hd
        rw [← hd]
        exact not_lt.2 (hf j i x y hj hi hne h2 h1)
  · have hby := h.history.mono (P' := Roomy True False (lastLen b.layers)) fun c hc =>
      ⟨hc.1, fun _ => ⟨by have := hc.2.1; omega, h.n256⟩, fun _ => by
        rcases hc.2.2 with h1 | h1
        · exact absurd h1 hf
        · have : c.numNeighbors / 2 ≤ max 1 (c.numNeighbors / 2) := by omega
          have := Nat.div_le_div_right (c := 2) this
          omega⟩
    exact hby.linked hsrt (fun _ => le_rfl) False.elim

theorem linked_connected {b : Builder E D} (h : AllLinked True b)
    (g : Graph) (hg : g ∈ b.graphs) (i j : Nat) (hi : i < g.length) (hj : j < g.length)
    (hsi : Searchable b i) (hsj : Searchable b j) : Reach g i j := by
  obtain ⟨l, hl, rfl⟩ := List.mem_map.1 hg
  rw [graphOf_length] at hi hj
  have hll := h l hl
  have hback : Reach (graphOf l.rows) i 0 := by
    by_cases h0 : i = 0
    · subst h0; exact .refl
    · exact hll.back trivial i (hll.linked i hi (hsi.2.resolve_left h0) h0).1
  by_cases h0 : j = 0
  · subst h0; exact hback
  · exact reach_trans hback ((hll.linked j hj (hsj.2.resolve_left h0) h0).2 trivial)

theorem linked_exact (hsrt : IsSortByDist srt) {b : Builder E D} (hr : Reachable srt b) (hc : GoodConfig b.config)
    (h : AllLinked True b)
    (hpos : 0 < lastLen b.layers) (q : E) (maxSearch k : Nat) (hms : lastLen b.layers ≤ maxSearch)
    (searchable : List Nat) (hnodup : searchable.Nodup) (hall : ∀ j, j ∈ searchable ↔ Searchable b j) :
    ∃ r, search b.graphs b.elements q maxSearch k = some r ∧
      r.length = min k searchable.length ∧
      r.Pairwise (fun a b => a.2 < b.2 ∨ (a.2 = b.2 ∧ a.1 < b.1)) ∧
      (∀ p ∈ r, p.1 ∈ searchable ∧ ∃ x, b.elements.data[p.1]? = some x ∧ p.2 = b.elements.dist x q) ∧
      (∀ j ∈ searchable, j ∉ r.map Prod.fst →
        ∃ x, b.elements.data[j]? = some x ∧ ∀ p ∈ r, p.2 < b.elements.dist x q ∨
          (p.2 = b.elements.dist x q ∧ p.1 < j)) := by
  have hi := hr.inv hsrt hc
  have hwf := C16_index_wellformed hsrt b hr hc
  rcases List.eq_nil_or_concat b.layers with hnil | ⟨up, la, hcat⟩
  · simp [lastLen, hnil] at hpos
  · rw [List.concat_eq_append] at hcat
    have hlast : lastLen b.layers = la.rows.length := by rw [hcat, lastLen_append]
    have hgl : b.graphs.getLast? = some (graphOf la.rows) := by simp [Builder.graphs, hcat]
    have hmem : graphOf la.rows ∈ b.graphs := List.mem_of_getLast? hgl
    obtain ⟨r, hsr, _⟩ := C02_search_no_panic b.graphs b.elements hwf q maxSearch k (by omega)
    obtain ⟨e, he, hlt⟩ := findEntrypoint_total (dq := b.elements.distTo q) hwf
      (fun i hi => distTo_isSome b.elements q hi) hgl
    rw [graphOf_length] at hlt
    have hdl : b.graphs.dropLast = (up.map Layer.rows).map graphOf := by
      simp [Builder.graphs, hcat]
    -- the entry point is searchable
    have hese : Searchable b e := by
      refine ⟨by omega, ?_⟩
      by_cases h0 : e = 0
      · exact Or.inl h0
      · right
        have hnest := hi.stack.nested
        rw [hcat, List.map_append] at hnest
        rw [hdl] at he
        have := (findEntrypointFrom_pub (w := b.config.numNeighbors) (Z := IsZero b.elements b.config.eps)
          (Rfin := la.rows) (up.map Layer.rows) 0 e (fun R hR =>
            ⟨(hi.stack.layer R (by rw [hcat, List.map_append]; exact List.mem_append_left _ hR)).1,
              ((List.pairwise_append.1 hnest).2.2 R hR _ (by simp)).2⟩) he).1 (fun h => absurd rfl h)
        exact (this h0).2
    have hinv := (hi.stack.layer la.rows (List.mem_map.2 ⟨la, by simp [hcat], rfl⟩)).1
    have hR : ∀ j, j ∈ searchable ↔ Reach (graphOf la.rows) e j := by
      intro j
      rw [hall]
      constructor
      · intro hj
        have := hj.1
        exact linked_connected h _ hmem e j (by rw [graphOf_length]; exact hlt)
          (by rw [graphOf_length]; omega) hese hj
      · intro hj
        rcases hinv.reach_pub hj with rfl | hp
        · exact hese
        · refine ⟨?_, ?_⟩
          · cases hj with
            | refl => omega
            | step _ hedge =>
              have := hinv.edgesInside _ _ hedge
              rw [graphOf_length] at this; omega
          · by_cases h0 : j = 0
            · exact Or.inl h0
            · exact Or.inr (hp h0).2
    have hlen : searchable.length ≤ maxSearch := by
      have hsub : searchable ⊆ List.range (lastLen b.layers) := fun j hj => List.mem_range.2 ((hall j).1 hj).1
      have := (List.subperm_of_subset hnodup hsub).length_le
      simp at this
      omega
    obtain ⟨g1, g2, g3⟩ := C03_search_exact b.graphs b.elements q maxSearch k _ hgl e he searchable hnodup hR hlen r hsr
    obtain ⟨s1, _, s3, _⟩ := C01_search_sound b.graphs b.elements q maxSearch k r hsr
    refine ⟨r, hsr, g2, s1, fun p hp => ⟨(hR _).2 (g1 p hp), (s3 p hp).2⟩, fun j hj => g3 j ((hR j).1 hj)⟩

/-- C50. In a small collection every searchable element can be reached from every other one, in every layer both
belong to. -/
theorem C50_small_connected (hsrt : IsSortByDist srt) (b : Builder E D) (h : SmallCollection srt b)
    (g : Graph) (hg : g ∈ b.graphs) (i j : Nat) (hi : i < g.length) (hj : j < g.length)
    (hsi : Searchable b i) (hsj : Searchable b j) : Reach g i j :=
  linked_connected (h.linked hsrt) g hg i j hi hj hsi hsj

/-- C50. A search in a small collection with `max_search` at least the number of indexed elements is exact: it
returns the `k` nearest of the searchable elements (`searchable` lists them), in ascending order of distance (ties:
smaller id first). -/
theorem C50_small_exact (hsrt : IsSortByDist srt) (b : Builder E D) (h : SmallCollection srt b)
    (hpos : 0 < lastLen b.layers) (q : E) (maxSearch k : Nat) (hms : lastLen b.layers ≤ maxSearch)
    (searchable : List Nat) (hnodup : searchable.Nodup) (hall : ∀ j, j ∈ searchable ↔ Searchable b j) :
    ∃ r, search b.graphs b.elements q maxSearch k = some r ∧
      r.length = min k searchable.length ∧
      r.Pairwise (fun a b => a.2 < b.2 ∨ (a.2 = b.2 ∧ a.1 < b.1)) ∧
      (∀ p ∈ r, p.1 ∈ searchable ∧ ∃ x, b.elements.data[p.1]? = some x ∧ p.2 = b.elements.dist x q) ∧
      (∀ j ∈ searchable, j ∉ r.map Prod.fst →
        ∃ x, b.elements.data[j]? = some x ∧ ∀ p ∈ r, p.2 < b.elements.dist x q ∨
          (p.2 = b.elements.dist x q ∧ p.1 < j)) :=
  linked_exact hsrt h.history.reachable h.history.config.1 (h.linked hsrt) hpos q maxSearch k hms searchable hnodup hall

/-! Non-vacuity: six elements with ten neighbors per node. -/

def exSmall : Builder Int Nat := ⟨exData, [], { exConfig with numNeighbors := 10 }⟩

theorem exSmall_good : GoodConfig exSmall.config :=
  ⟨by decide, by decide, exConfig_good.schedule⟩

example : ∃ b : Builder Int Nat, SmallCollection exSort b ∧ lastLen b.layers = 6 ∧ Searchable b 5 ∧ ¬ Searchable b 3 := by
  have h0 : Reachable exSort exSmall := .new exSmall.config exData _ rfl
  obtain ⟨⟨out, hout⟩, hall⟩ := buildPartial_ok exSort_sorts exSmall_good (h0.inv exSort_sorts exSmall_good)
    (num := 6) (by decide) (by decide) (by decide)
  obtain ⟨b, rfl, _, h1, h2, h3, _⟩ := hall out hout
  refine ⟨b, ⟨by omega, .build exSmall _ 6 (.new exSmall.config exData _ ⟨exSmall_good, ?_, Or.inl ?_⟩ rfl) hout⟩, h3, ?_, ?_⟩
  · rw [h3]; decide
  · intro i j x y _ _ _ _ _
    rw [h2]
    exact Nat.zero_le _
  · refine ⟨by omega, Or.inr ?_⟩
    rw [h2, h1]
    rintro ⟨d, h1, h2⟩
    simp [exSmall, exData, Elements.dist?, Elements.distTo] at h1; subst h1; simp [exSmall, exConfig] at h2
  · rintro ⟨_, h | h⟩
    · omega
    · apply h
      rw [h2, h1]
      exact ⟨50, by decide, by decide⟩

end Granne
