import Verif.Proofs.LinkCount
import Verif.Spec.Links
import Verif.Props.Build

/-!
C79: how many links a build makes.

`numLinks g` is the number of all (node, neighbor) pairs of the layer `g`, and `g.length` the number of its nodes, so
`numLinks g ≤ k * g.length` says that a node of `g` has at most `k` neighbors on average.
-/
namespace Granne
open Spec

variable {E D : Type} [LinearOrder D] {srt : List (Nat × D) → List (Nat × D)}

theorem numLinks_le (rows : Rows) : numLinks (graphOf rows) ≤ usedSlots rows := by
  unfold numLinks graphOf usedSlots
  induction rows with
  | nil => simp
  | cons r l ih =>
    simp only [List.map_cons, List.sum_cons]
    exact Nat.add_le_add (visible_le_slots r) ih

theorem ReachableBy.slotBound (hsrt : IsSortByDist srt) {m : Nat} {b : Builder E D}
    (h : ReachableBy srt (fun c => c.maxSearch ≤ m ∧ c.reinsertElements = false) b) :
    (b.config.maxSearch ≤ m ∧ b.config.reinsertElements = false) ∧ (GoodConfig b.config → SlotBound m 0 b.layers) := by
  induction h with
  | new c es b hp h =>
    unfold Builder.new at h
    split at h
    · cases h; exact ⟨hp, fun _ i l hl => by simp at hl⟩
    · cases h
  | push b b' e _ hp ih =>
    unfold Builder.push at hp
    split at hp
    · cases hp; exact ih
    · cases hp
  | build b b' num _ hb ih =>
    have hcfg := hb.config
    refine ⟨by rw [hcfg]; exact ih.1, fun hc => ?_⟩
    exact (ih.2 (hcfg ▸ hc)).build hsrt ih.1.1 (by simp [reinsertWidth, ih.1.2]) hb
  | reload b b' f f' start config es hP hr hg hs hlen heps hsame hb ih =>
    refine ⟨by rw [(fromBytes_config hb).1]; exact hP, fun _ => ?_⟩
    have hi := hr.reachable.inv hsrt hg
    rw [fromBytes_saved hi.padded hs hlen] at hb
    split at hb
    · cases hb; exact (ih.2 hg).reloaded config es
    · cases hb
  | reorder b b' f f' g g' start start' vs es ix order config elements hP hr hg hro hs hlen heps hsame hb ih =>
    refine ⟨by rw [(fromBytes_config hb).1]; exact hP, fun _ => ?_⟩
    have hi := hr.reachable.inv hsrt hg
    obtain ⟨h1, h2, h3, h4, rfl, h6⟩ := hi.reordered hg hro hs hlen hb
    exact (((ih.2 hg).reloaded b.config es).renamed h1 h2 h3).reloaded config elements

/-- C79. Without reinsertion, a node has on average at most `2 * max_search` neighbors, in every layer, whatever
`num_neighbors` is: in all states of a builder, if no configuration used so far had a larger `max_search` or reinsertion. -/
theorem C79_average_degree (hsrt : IsSortByDist srt) (m : Nat) (b : Builder E D)
    (hb : ReachableBy srt (fun c => c.maxSearch ≤ m ∧ c.reinsertElements = false) b) (hc : GoodConfig b.config) :
    ∀ g ∈ b.graphs, numLinks g ≤ 2 * m * g.length := by
  intro g hg
  obtain ⟨l, hl, rfl⟩ := List.mem_map.1 hg
  obtain ⟨i, hi, he⟩ := List.getElem_of_mem hl
  have := (hb.slotBound hsrt).2 hc i l (by rw [List.getElem?_eq_getElem hi, he])
  simp only [Nat.mul_zero, Nat.add_zero] at this
  have h2 := numLinks_le l.rows
  rw [graphOf_length]
  calc numLinks (graphOf l.rows) ≤ 2 * l.rows.length * m := h2.trans this
    _ = 2 * m * l.rows.length := by rw [Nat.mul_right_comm]

/-- C79. With reinsertion every element looks for neighbors once more in each layer it is in, and then at only half of `max_search`
(but at least one) of them: after the first call of `build` or `build_partial`, a node of layer `i` (counted from 0, the
smallest) has on average at most `2 * (max_search + (i + 1) * max(1, max_search / 2))` neighbors. -/
theorem C79_average_degree_reinserted (hsrt : IsSortByDist srt) (b b' : Builder E D) (hb : b.layers = []) (num : Nat)
    (h : BuildPartial srt b num (some b')) (i : Nat) (g : Graph) (hg : b'.graphs[i]? = some g) :
    numLinks g ≤ 2 * (b.config.maxSearch +
      (i + 1) * (if b.config.reinsertElements then max 1 (b.config.maxSearch / 2) else 0)) * g.length := by
  have hs : SlotBound b.config.maxSearch (reinsertWidth b.config) b'.layers := by
    generalize ho : some b' = out at h
    have h0 : SlotBound b.config.maxSearch (reinsertWidth b.config) b.layers := by
      intro i l hl; rw [hb] at hl; simp at hl
    cases h with
    | zero _ => cases ho; exact h0
    | fewer _ _ => cases ho
    | more _ _ _ => cases ho
    | fresh _ _ _ _ _ hl => exact SlotBound.loop hsrt hl b' ho.symm le_rfl le_rfl h0
    | lastPanics _ _ _ _ _ => cases ho
    | «continue» _ _ _ _ _ hne _ _ => exact absurd hb hne
  unfold Builder.graphs at hg
  rw [List.getElem?_map] at hg
  obtain ⟨l, hl, rfl⟩ := Option.map_eq_some_iff.1 hg
  have h1 := (numLinks_le l.rows).trans (hs i l hl)
  rw [graphOf_length]
  unfold reinsertWidth at h1
  rw [Nat.mul_right_comm]
  exact h1

/-- Non-vacuity: a build of six elements with `max_search` 1 and without reinsertion, and a build with reinsertion. A layer of six
nodes that are all linked to each other is within the bound of `num_neighbors` (5), but not of `max_search`. -/
example : (∃ b : Builder Int Nat, ReachableBy exSort (fun c => c.maxSearch ≤ 1 ∧ c.reinsertElements = false) b ∧
      GoodConfig b.config ∧ lastLen b.layers = 6) ∧
    (exBuilder.layers = [] ∧ exBuilder.config.reinsertElements = true ∧
      ∃ b', BuildPartial exSort exBuilder 6 (some b') ∧ lastLen b'.layers = 6) ∧
    numLinks (List.replicate 6 (List.range 5)) = 30 := by
  refine ⟨?_, ⟨rfl, rfl, ?_⟩, by decide⟩
  · have hg : GoodConfig (⟨fun total i => min total (2 * i + 2), none, 5, 1, false, 0⟩ : BuildConfig Nat) :=
      ⟨by decide, by decide, exConfig_good.schedule⟩
    have hr : ReachableBy exSort (fun c => c.maxSearch ≤ 1 ∧ c.reinsertElements = false)
        (⟨exData, [], ⟨fun total i => min total (2 * i + 2), none, 5, 1, false, 0⟩⟩ : Builder Int Nat) :=
      .new _ exData _ ⟨le_rfl, rfl⟩ rfl
    obtain ⟨⟨out, hout⟩, hall⟩ := buildPartial_ok exSort_sorts hg (hr.reachable.inv exSort_sorts hg) (num := 6)
      (by decide) (by decide) (by decide)
    obtain ⟨b, rfl, _, h1, h2, h3, _⟩ := hall out hout
    exact ⟨b, .build _ _ 6 hr hout, h2 ▸ hg, h3⟩
  · obtain ⟨⟨out, hout⟩, hall⟩ := buildPartial_ok exSort_sorts exConfig_good
      (exBuilder_reachable.inv exSort_sorts exConfig_good) (num := 6) (by decide) (by decide) (by decide)
    obtain ⟨b, rfl, _, h1, h2, h3, _⟩ := hall out hout
    exact ⟨b, hout, h3⟩

end Granne
