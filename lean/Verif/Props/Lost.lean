import Verif.Props.Sequential
import Verif.Props.Links
import Verif.Proofs.SearchIndex
import Verif.Proofs.Schedule
import Verif.Proofs.RwNew

/-!
C50 after a single build: with at most `num_neighbors + 1` elements all of them are found, and with one element more
an element may be lost.
-/
namespace Granne
open List Spec

variable {E D : Type} [LinearOrder D] {srt : List (Nat × D) → List (Nat × D)}

/-- A new builder whose elements are no closer to each other than the threshold, at most `num_neighbors + 1` of them,
and at most `num_neighbors / 2 + 1` in each planned layer that is not to hold all of them. -/
structure FitsOneBuild (b : Builder E D) : Prop where
  good : GoodConfig b.config
  fresh : b.layers = []
  plan : b.config.expectedNumElements = none
  number : b.elements.data.length ≤ b.config.numNeighbors + 1
  upper : ∀ i, b.config.schedule b.elements.data.length i < b.elements.data.length →
    b.config.schedule b.elements.data.length i ≤ b.config.numNeighbors / 2 + 1
  apart : ∀ (i j : Nat) (x y : E), i ≠ j → b.elements.data[i]? = some x → b.elements.data[j]? = some y →
    b.config.eps ≤ b.elements.dist x y

/-- With the schedule of the library and a layer multiplier of at least 2, the condition on the planned layers is
met. -/
theorem C50_planned_layers {m : ℝ} (hm : 2 ≤ m) (num n : Nat) (hn : n ≤ num + 1) (i : Nat)
    (h : numElementsInLayer m n i < n) : numElementsInLayer m n i ≤ num / 2 + 1 := by
  rcases sched_strict (total := n) hm i with hlt | heq
  swap
  · omega
  have hm0 : 0 < m := by linarith
  have hm1 : 1 < m := by linarith
  have hi : numElementsInLayer m n i = ⌈(n : ℝ) / m ^ ((⌊Real.logb m n⌋ : ℝ) - (i : ℝ))⌉₊ := by
    unfold numElementsInLayer at h ⊢
    rcases min_choice ⌈(n : ℝ) / m ^ ((⌊Real.logb m n⌋ : ℝ) - (i : ℝ))⌉₊ n with h' | h'
    · exact h'
    · exact absurd h' (by omega)
  have hfl : (i : ℤ) < ⌊Real.logb m n⌋ := by
    by_contra hcon
    have := sched_all hm1 (total := n) (i := i) (by omega)
    omega
  have he : (1 : ℝ) ≤ (⌊Real.logb m n⌋ : ℝ) - (i : ℝ) := by
    have h1 : (i : ℤ) + 1 ≤ ⌊Real.logb m n⌋ := hfl
    have h2 : ((i : ℤ) : ℝ) + 1 ≤ (⌊Real.logb m n⌋ : ℝ) := by exact_mod_cast h1
    have h3 : ((i : ℤ) : ℝ) = (i : ℝ) := by simp
    rw [h3] at h2
    linarith
  have hpow : m ≤ m ^ ((⌊Real.logb m n⌋ : ℝ) - (i : ℝ)) := by
    calc m = m ^ (1 : ℝ) := (Real.rpow_one m).symm
      _ ≤ _ := Real.rpow_le_rpow_of_exponent_le hm1.le he
  have hle : (n : ℝ) / m ^ ((⌊Real.logb m n⌋ : ℝ) - (i : ℝ)) ≤ (n : ℝ) / 2 :=
    div_le_div_of_nonneg_left (Nat.cast_nonneg n) (by norm_num) (by linarith)
  rw [hi, Nat.ceil_le]
  refine hle.trans ?_
  rw [div_le_iff₀ (by norm_num)]
  have : n ≤ (num / 2 + 1) * 2 := by omega
  exact_mod_cast this

theorem FitsOneBuild.linked (hsrt : IsSortByDist srt) {b b' : Builder E D} (hf : FitsOneBuild b)
    (hr : Reachable srt b) (h : Build srt b (some b')) : AllLinked True b' := by
  refine buildPartial_linked hsrt hf.good (hr.inv hsrt hf.good) ?_ (by simp [AllLinked, hf.fresh]) h
  intro k
  have ht : b.total = b.elements.data.length := by simp [Builder.total, hf.plan]
  have hid : b.ideal k = b.config.schedule b.elements.data.length (k - 1) := by simp [Builder.ideal, ht]
  refine ⟨fun _ => ?_, Or.inl ?_⟩
  · simp only [Builder.layerConfig, ht, hid]
    have h1 := hf.number
    have h2 := hf.upper (k - 1)
    have h3 := hf.good.neighbors
    split
    · rename_i h
      have := h2 h
      omega
    · omega
  · intro i j d _ _ hne hd
    unfold Elements.dist? Elements.distTo at hd
    rcases Option.eq_none_or_eq_some b.elements.data[i]? with h1 | ⟨x, h1⟩
    · simp [h1] at hd
    · rcases Option.eq_none_or_eq_some b.elements.data[j]? with h2 | ⟨y, h2⟩
      · simp [h1, h2] at hd
      · simp only [h1, h2, Option.map_some, Option.some.injEq] at hd
        rw [← hd]
        exact not_lt.2 (hf.apart j i y x hne h2 h1)

/-- C50. One build, on any number of threads, of at most `num_neighbors + 1` elements connects all searchable
elements in every layer they belong to. -/
theorem C50_one_build_connected (hsrt : IsSortByDist srt) (b b' : Builder E D) (hr : Reachable srt b)
    (hf : FitsOneBuild b) (h : Build srt b (some b'))
    (g : Graph) (hg : g ∈ b'.graphs) (i j : Nat) (hi : i < g.length) (hj : j < g.length)
    (hsi : Searchable b' i) (hsj : Searchable b' j) : Reach g i j :=
  linked_connected (hf.linked hsrt hr h) g hg i j hi hj hsi hsj

/-- C50. After one build, on any number of threads, of at most `num_neighbors + 1` elements, every search with a
`max_search` of at least the number of elements returns exactly the `k` nearest searchable elements. -/
theorem C50_one_build_exact (hsrt : IsSortByDist srt) (b b' : Builder E D) (hr : Reachable srt b)
    (hf : FitsOneBuild b) (h : Build srt b (some b')) (hpos : b.elements.data ≠ [])
    (q : E) (maxSearch k : Nat) (hms : b.elements.data.length ≤ maxSearch)
    (searchable : List Nat) (hnodup : searchable.Nodup)
    (hall : ∀ j, j ∈ searchable ↔
      j < b.elements.data.length ∧ (j = 0 ∨ ¬ IsZero b.elements b.config.eps j)) :
    ∃ r, search b'.graphs b'.elements q maxSearch k = some r ∧
      r.length = min k searchable.length ∧
      r.Pairwise (fun a b => a.2 < b.2 ∨ (a.2 = b.2 ∧ a.1 < b.1)) ∧
      (∀ p ∈ r, p.1 ∈ searchable ∧ ∃ x, b.elements.data[p.1]? = some x ∧ p.2 = b.elements.dist x q) ∧
      (∀ j ∈ searchable, j ∉ r.map Prod.fst →
        ∃ x, b.elements.data[j]? = some x ∧ ∀ p ∈ r, p.2 < b.elements.dist x q ∨
          (p.2 = b.elements.dist x q ∧ p.1 < j)) := by
  have hl := hf.linked hsrt hr h
  obtain ⟨b'', e, _, hel, hcf, hlast⟩ := (build_ok hsrt hf.good (hr.inv hsrt hf.good)).2 _ h
  cases e
  have hr' : Reachable srt b' := .build b b' _ hr h
  have hlen : 0 < b.elements.data.length := List.length_pos_iff.2 hpos
  have := linked_exact hsrt hr' (hcf ▸ hf.good) hl (by rw [hlast]; exact hlen) q maxSearch k (by rw [hlast]; exact hms)
    searchable hnodup (fun j => by rw [hall, Searchable, hlast, hel, hcf])
  rw [hel] at this ⊢
  exact this

/-- Four points in the plane with the squared Euclidean distance. -/
def exPlane : Elements (Int × Int) Nat :=
  ⟨[(5, 6), (7, 4), (6, 4), (2, 0)], fun a b => ((a.1 - b.1) ^ 2 + (a.2 - b.2) ^ 2).natAbs⟩
/-- One layer, two neighbors per node, with reinsertion. -/
def exPlaneConfig : BuildConfig Nat := ⟨fun total _ => total, none, 2, 20, true, 1⟩
def exPlaneBuilder : Builder (Int × Int) Nat := ⟨exPlane, [], exPlaneConfig⟩
/-- What the build on one thread gives: nobody lists element 3 as a neighbor. -/
def exPlaneBuilt : Builder (Int × Int) Nat :=
  { exPlaneBuilder with layers := [⟨2, [[2, 1], [2, 0], [1, 0], [2, UNUSED]]⟩] }

theorem exPlaneConfig_good : GoodConfig exPlaneConfig :=
  ⟨by decide, by decide, ⟨fun t i => by simp [exPlaneConfig], fun t i h => by simpa [exPlaneConfig] using h,
    fun t => ⟨0, fun i _ => by simp [exPlaneConfig]⟩⟩⟩

/-- Non-vacuity of the theorems on one build: the first three of these points, `num_neighbors + 1` of them. -/
example : ∃ b b' : Builder (Int × Int) Nat, Reachable exSort b ∧ FitsOneBuild b ∧ Build exSort b (some b') ∧
    b.elements.data.length = b.config.numNeighbors + 1 := by
  let b : Builder (Int × Int) Nat := ⟨⟨[(5, 6), (7, 4), (6, 4)], exPlane.dist⟩, [], exPlaneConfig⟩
  have hr : Reachable exSort b := .new exPlaneConfig b.elements _ rfl
  obtain ⟨⟨out, ho⟩, hall⟩ := build_ok exSort_sorts exPlaneConfig_good (hr.inv exSort_sorts exPlaneConfig_good)
  obtain ⟨b', rfl, _⟩ := hall out ho
  refine ⟨b, b', hr, ⟨exPlaneConfig_good, rfl, rfl, by decide, fun i hi => absurd hi (by simp [b, exPlaneConfig]), ?_⟩,
    ho, rfl⟩
  intro i j x y hij hx hy
  have key : ∀ a : Fin 3, ∀ c : Fin 3, a ≠ c →
      1 ≤ exPlane.dist (b.elements.data[a.1]'a.2) (b.elements.data[c.1]'c.2) := by decide
  obtain ⟨h1, rfl⟩ := List.getElem?_eq_some_iff.1 hx
  obtain ⟨h2, rfl⟩ := List.getElem?_eq_some_iff.1 hy
  exact key ⟨i, h1⟩ ⟨j, h2⟩ (by intro h; exact hij (by simpa using congrArg Fin.val h))

theorem exPlane_seq : BuildPartialSeq exSort exPlaneBuilder 4 (some exPlaneBuilt) := by
  refine .fresh _ (by decide) (by decide) (by decide) rfl
    (.round _ exPlaneBuilt _ (by decide) ?_ (.done _ (by decide)))
  obtain ⟨l1, h1, h2⟩ : ∃ l1 : Layer, indexElementsSeq ⟨2, 20, 1⟩ exPlane exSort 4 [] ⟨2, []⟩ false = some l1 ∧
      indexElementsSeq ⟨2, 10, 1⟩ exPlane exSort 4 [] l1 true =
        some ⟨2, [[2, 1], [2, 0], [1, 0], [2, UNUSED]]⟩ := by
    have e1 : (indexSeq ⟨2, 20, 1⟩ exPlane exSort 4 [] ⟨2, []⟩ false) =
        some [[2, 1], [2, 0], [1, 0], [2, UNUSED]] := by decide +kernel
    have e2 : (indexSeq ⟨2, 10, 1⟩ exPlane exSort 4 [] ⟨2, [[2, 1], [2, 0], [1, 0], [2, UNUSED]]⟩ true) =
        some [[2, 1], [2, 0], [1, 0], [2, UNUSED]] := by decide +kernel
    refine ⟨⟨2, [[2, 1], [2, 0], [1, 0], [2, UNUSED]]⟩, ?_, ?_⟩
    · rw [indexElementsSeq, if_pos (by decide), e1]; rfl
    · rw [indexElementsSeq, if_pos (by decide), e2]; rfl
  unfold indexLastSeq
  show (match indexElementsSeq ⟨2, 20, 1⟩ exPlane exSort 4 [] ⟨2, []⟩ false with
    | none => none
    | some layer' => if exPlaneBuilder.addLayer.config.reinsertElements = true then
        (indexElementsSeq ⟨2, 10, 1⟩ exPlane exSort 4 [] layer' true).map fun l =>
          { exPlaneBuilder.addLayer with layers := exPlaneBuilder.addLayer.layers.dropLast ++ [l] }
      else some { exPlaneBuilder.addLayer with layers := exPlaneBuilder.addLayer.layers.dropLast ++ [layer'] }) = _
  rw [h1]
  simp only
  rw [h2]
  rfl

/-- C50. The bound on the number of elements in `C50_one_build_exact` is sharp: there are `num_neighbors + 2` elements, all of them further
apart than the threshold and none of them zero, and a build of all of them (by one thread) after which no search, with
whatever query, `max_search` and number of results, ever returns one of them. -/
theorem C50_bound_is_sharp : ∃ (b b' : Builder (Int × Int) Nat) (lost : Nat), Reachable exSort b ∧
    GoodConfig b.config ∧ b.elements.data.length = b.config.numNeighbors + 2 ∧
    (∀ (i j : Nat) (x y : Int × Int), i ≠ j → b.elements.data[i]? = some x → b.elements.data[j]? = some y →
      b.config.eps ≤ b.elements.dist x y) ∧
    (∀ j, ¬ IsZero b.elements b.config.eps j) ∧
    Build exSort b (some b') ∧ BuildPartialSeq exSort b b.elements.data.length (some b') ∧
    lost < lastLen b'.layers ∧
    ∀ (q : Int × Int) (maxSearch k : Nat) (r : List (Nat × Nat)),
      search b'.graphs b'.elements q maxSearch k = some r → lost ∉ r.map Prod.fst := by
  refine ⟨exPlaneBuilder, exPlaneBuilt, 3, .new exPlaneConfig exPlane _ rfl, exPlaneConfig_good, rfl, ?_, ?_,
    exPlane_seq.outcome, exPlane_seq, by decide, ?_⟩
  · intro i j x y hij hx hy
    have key : ∀ a : Fin 4, ∀ b : Fin 4, a ≠ b → 1 ≤ exPlane.dist (exPlane.data[a.1]'a.2) (exPlane.data[b.1]'b.2) := by
      decide
    obtain ⟨h1, rfl⟩ := List.getElem?_eq_some_iff.1 hx
    obtain ⟨h2, rfl⟩ := List.getElem?_eq_some_iff.1 hy
    exact key ⟨i, h1⟩ ⟨j, h2⟩ (by intro h; exact hij (by simpa using congrArg Fin.val h))
  · rintro j ⟨d, h1, h2⟩
    unfold Elements.dist? Elements.distTo at h1
    rcases Option.eq_none_or_eq_some exPlaneBuilder.elements.data[j]? with hx | ⟨x, hx⟩
    · simp [hx] at h1
    · simp only [hx, Option.map_some, Option.some.injEq] at h1
      have : exPlaneBuilder.elements.dist x x = 0 := by simp [exPlaneBuilder, exPlane]
      rw [this] at h1
      have h3 : (1 : Nat) < d := h2
      omega
  · intro q ms k r hr hm
    have hlast : exPlaneBuilt.graphs.getLast? = some [[2, 1], [2, 0], [1, 0], [2]] := by decide
    obtain ⟨e, l, he, hp, rfl, _⟩ := searchInternal_some hlast hr
    have he0 : e = 0 := by
      have : exPlaneBuilt.graphs.dropLast = [] := by decide
      rw [this] at he
      simpa [findEntrypoint, findEntrypointFrom] using he.symm
    subst he0
    obtain ⟨p, hpm, hp3⟩ := List.mem_map.1 hm
    obtain ⟨c, hc, rfl⟩ := List.mem_map.1 (List.mem_of_mem_take hpm)
    have hreach := (hp.mem c hc).2.2
    have hclosed : ∀ j, Reach [[2, 1], [2, 0], [1, 0], [2]] 0 j → j < 3 := by
      intro j hj
      induction hj with
      | refl => decide
      | step _ hedge ih =>
        obtain ⟨ns, hns, hin⟩ := hedge
        have key : ∀ a < 3, ∀ x ∈ (([[2, 1], [2, 0], [1, 0], [2]] : List (List Nat))[a]?).getD [], x < 3 := by decide
        exact key _ ih _ (by rw [hns]; exact hin)
    have := hclosed _ hreach
    have hp3' : c.id = 3 := hp3
    omega

end Granne
