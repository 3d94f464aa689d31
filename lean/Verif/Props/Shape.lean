import Verif.Props.Schedule
import Verif.Props.Sequential
import Verif.Spec.Shape
import Verif.Proofs.Histories

/-!
C85: the sizes of the layers do not depend on how a build was split up.

`ReachableWhile srt (Planned schedule total) b`: `b` is the result of a history (new, push, build_partial, save and reload, reorder)
in which the plan of layer sizes and the expected number of elements were the same throughout, and there never were more elements.
-/
namespace Granne
open Spec

variable {E D : Type} [LinearOrder D] {srt : List (Nat × D) → List (Nat × D)}
variable {schedule : Nat → Nat → Nat} {total : Nat}

theorem Spec.ReachableWhile.reachable {Q : Builder E D → Prop} {b : Builder E D} (h : ReachableWhile srt Q b) :
    Reachable srt b ∧ Q b := by
  induction h with
  | new c es b h hq => exact ⟨.new c es b h, hq⟩
  | push b b' e _ hp hq ih => exact ⟨.push b b' e ih.1 hp, hq⟩
  | build b b' num _ hb hq ih => exact ⟨.build b b' num ih.1 hb, hq⟩
  | reload b b' f f' start config es _ hg h1 h2 h3 h4 h5 hq ih =>
    exact ⟨.reload b b' f f' start config es ih.1 hg h1 h2 h3 h4 h5, hq⟩
  | reorder b b' f f' g g' start start' vs es ix order config elements _ hg h1 h2 h3 h4 h5 h6 hq ih =>
    exact ⟨.reorder b b' f f' g g' start start' vs es ix order config elements ih.1 hg h1 h2 h3 h4 h5 h6, hq⟩

/-- The sizes of layers, for so many indexed elements. -/
def SizesOk (plan : Nat → Nat) (sizes : List Nat) : Prop :=
  (∀ i s, sizes[i]? = some s → s = min (sizes.getLast?.getD 0) (plan i)) ∧
  ∀ i, i + 1 < sizes.length → plan i < sizes.getLast?.getD 0

def sizesOf (layers : List Layer) : List Nat := layers.map fun l => l.rows.length

theorem sizesOf_last (layers : List Layer) : (sizesOf layers).getLast?.getD 0 = lastLen layers := by
  unfold sizesOf lastLen
  rw [List.getLast?_map]
  cases layers.getLast? <;> rfl

theorem sizesOk_unique {plan : Nat → Nat} {s s' : List Nat} (h : SizesOk plan s) (h' : SizesOk plan s')
    (he : s.getLast?.getD 0 = s'.getLast?.getD 0) (h0 : s = [] ↔ s' = []) : s = s' := by
  by_cases hs : s = []
  · rw [hs, h0.1 hs]
  · have hs' : s' ≠ [] := fun h => hs (h0.2 h)
    have key : ∀ {s : List Nat}, SizesOk plan s → s ≠ [] → s.getLast?.getD 0 ≤ plan (s.length - 1) := by
      intro s h hs
      have hl : s[s.length - 1]? = some (s.getLast?.getD 0) := by
        rw [← List.getLast?_eq_getElem?, List.getLast?_eq_some_getLast hs]
        rfl
      have := h.1 _ _ hl
      omega
    have hp : 0 < s.length := List.length_pos_iff.2 hs
    have hp' : 0 < s'.length := List.length_pos_iff.2 hs'
    have hlen : s.length = s'.length := by
      rcases Nat.lt_trichotomy s.length s'.length with hlt | heq | hgt
      · have h1 := key h hs
        have h2 := h'.2 (s.length - 1) (by omega)
        omega
      · exact heq
      · have h1 := key h' hs'
        have h2 := h.2 (s'.length - 1) (by omega)
        omega
    apply List.ext_getElem hlen
    intro i h1 h2
    rw [h.1 i _ (List.getElem?_eq_getElem h1), h'.1 i _ (List.getElem?_eq_getElem h2), he]

theorem sizes_reload (b : Builder E D) (config : BuildConfig D) (es : Elements E D) :
    sizesOf (b.reloadWith config es).layers = sizesOf b.layers := by
  unfold sizesOf Builder.reloadWith reloadLayer
  rw [List.map_map]
  apply List.map_congr_left
  intro l _
  simp

theorem sizes_renamed {b : Builder E D} (h : BuilderInv b) {order : List Nat} {es : Elements E D}
    (ho : InOrder order b.elements es) (hpre : LayerPreserving order (b.layers.map fun l => l.rows.length)) :
    sizesOf (b.renamed order es).layers = sizesOf b.layers := by
  unfold sizesOf Builder.renamed
  rw [List.map_map]
  apply List.map_congr_left
  intro l hm
  exact renRows_length ho.perm (h.stack.layer l.rows (List.mem_map_of_mem hm)).2.2
    (hpre _ (List.mem_map.2 ⟨l, hm, rfl⟩)) rfl

theorem planned_sizes (hmono : ∀ t i j, i ≤ j → schedule t i ≤ schedule t j) (hsrt : IsSortByDist srt)
    {b : Builder E D} (h : ReachableWhile srt (Planned schedule total) b) : SizesOk (schedule total) (sizesOf b.layers) := by
  induction h with
  | new c es b h _ =>
    unfold Builder.new at h
    split at h
    · cases h; exact ⟨by simp [sizesOf], by simp [sizesOf]⟩
    · cases h
  | push b b' e _ hp _ ih =>
    unfold Builder.push at hp
    split at hp
    · cases hp; exact ih
    · cases hp
  | reload b b' f f' start config es hb hg h1 h2 h3 h4 h5 hq ih =>
    have hi := hb.reachable.1.inv hsrt hg
    rw [fromBytes_saved hi.padded h1 h2] at h5
    split at h5
    · cases h5
      have := sizes_reload b config es
      unfold Builder.reloadWith at this
      simp only at this ⊢
      rw [this]
      exact ih
    · cases h5
  | reorder b b' f f' g g' start start' vs es ix order config elements hb hg h1 h2 h3 h4 h5 h6 hq ih =>
    obtain ⟨r1, r2, r3, r4, rfl, _⟩ := (hb.reachable.1.inv hsrt hg).reordered hg h1 h2 h3 h6
    rw [sizes_reload, sizes_renamed r1 r2 r3, sizes_reload]
    exact ih
  | build b b' num hb hbp hq ih =>
    have hpl := hb.reachable.2
    have hi := hb.reachable.1.inv hsrt hpl.good
    have hid : ∀ i, b.ideal (i + 1) = schedule total i := by
      intro i
      unfold Builder.ideal Builder.total
      rw [hpl.schedule, hpl.expected, Option.getD_some, max_eq_left hpl.enough, Nat.add_sub_cancel]
    have hm : ∀ t i j, i ≤ j → b.config.schedule t i ≤ b.config.schedule t j := by rw [hpl.schedule]; exact hmono
    have hih : ∀ (i : Nat) l, b.layers[i]? = some l → l.rows.length = min (lastLen b.layers) (schedule total i) := by
      intro i l hl
      have := ih.1 i l.rows.length (by simp [sizesOf, hl])
      rwa [sizesOf_last] at this
    have hih2 : ∀ i : Nat, i + 1 < b.layers.length → schedule total i < lastLen b.layers := by
      intro i hl
      have := ih.2 i (by simpa [sizesOf] using hl)
      rwa [sizesOf_last] at this
    have fin : ∀ (b0 : Builder E D), BuilderInv b0 → b0.config = b.config → b0.elements = b.elements →
        lastLen b0.layers ≤ num → num ≤ b.elements.data.length →
        (∀ (i : Nat) l, b0.layers[i]? = some l → l.rows.length = min num (schedule total i)) →
        (∀ i : Nat, i + 1 < b0.layers.length → schedule total i < num) →
        ∀ b1, BuildLoop srt num b0 (some b1) → SizesOk (schedule total) (sizesOf b1.layers) := by
      intro b0 hi0 hc0 he0 hle hn hs0 hs1 b1 hloop
      have hid0 : ∀ i, b0.ideal (i + 1) = schedule total i := by
        intro i
        rw [← hid i]
        unfold Builder.ideal Builder.total
        rw [hc0, he0]
      obtain ⟨g1, g2⟩ := loop_sizes hsrt hloop (hc0 ▸ hpl.good) (hc0 ▸ hm) hi0 (he0 ▸ hn)
        (fun i l hl => by rw [hid0]; exact hs0 i l hl) b1 rfl
      obtain ⟨new, e, _, hlast, _⟩ := buildLoop_ok hsrt hloop (hc0 ▸ hpl.good) hi0 (he0 ▸ hn) hle
      simp only [Option.some.injEq] at e
      have hl1 : lastLen b1.layers = num := by rw [e]; exact hlast
      refine ⟨fun i x hx => ?_, fun i hlt => ?_⟩
      · rw [sizesOf_last, hl1]
        simp only [sizesOf, List.getElem?_map] at hx
        obtain ⟨l, hl, rfl⟩ := Option.map_eq_some_iff.1 hx
        rw [g1 i l hl, hid0]
      · rw [sizesOf_last, hl1]
        by_cases hlt' : i + 1 < b0.layers.length
        · exact hs1 i hlt'
        · have := g2 i (by omega) (by simpa [sizesOf] using hlt)
          rwa [hid0] at this
    cases hbp with
    | zero => exact ih
    | fresh _ h1 h2 h3 h4 h5 =>
      exact fin b hi rfl rfl h2 h3 (by rw [h4]; simp) (by rw [h4]; simp) b' h5
    | «continue» b1 _ h1 h2 h3 h4 h5 h6 =>
      rcases List.eq_nil_or_concat b.layers with hl | ⟨upper, layer, hl⟩
      · exact absurd hl h4
      · rw [List.concat_eq_append] at hl
        obtain ⟨layer', e1, e2, e3, e4, _⟩ := (continue_ok hsrt hpl.good hi h3 (by omega) h2 hl).2 _ h5
        simp only [Option.some.injEq] at e1
        subst e1
        have hlen : b.layers.length = upper.length + 1 := by rw [hl]; simp
        have hlast := hih upper.length layer (by rw [hl]; simp)
        have hll : lastLen b.layers = layer.rows.length := by rw [hl, lastLen_append]
        have e5 : layer'.rows.length = min num (schedule total upper.length) := by
          rw [e4, hlen, hid]
          omega
        refine fin _ e2 rfl rfl (by rw [lastLen_append]; omega) h3 ?_ ?_ b' h6
        · intro i l hil
          by_cases hi' : i < upper.length
          · have h7 : b.layers[i]? = some l := by
              rw [hl, List.getElem?_append_left hi']
              rwa [List.getElem?_append_left hi'] at hil
            have h8 := hih i l h7
            have h9 := hih2 i (by omega)
            omega
          · have h7 : i = upper.length := by
              have := (List.getElem?_eq_some_iff.1 hil).1
              simp at this
              omega
            subst h7
            simp at hil
            subst hil
            exact e5
        · intro i hlt
          have := hih2 i (by simp at hlt; omega)
          omega

/-- C85. In any history with the same plan throughout, layer `i` has as many nodes as planned, at most as many as are indexed, and
there is a further layer only where fewer than that are planned: as if all had been indexed at once. -/
theorem C85_sizes (hmono : ∀ t i j, i ≤ j → schedule t i ≤ schedule t j) (hsrt : IsSortByDist srt)
    (b : Builder E D) (h : ReachableWhile srt (Planned schedule total) b) :
    (∀ (i : Nat) layer, b.layers[i]? = some layer → layer.rows.length = min (lastLen b.layers) (schedule total i)) ∧
    ∀ i : Nat, i + 1 < b.layers.length → schedule total i < lastLen b.layers := by
  have := planned_sizes hmono hsrt h
  unfold SizesOk at this
  rw [sizesOf_last] at this
  refine ⟨fun i l hl => this.1 i _ ?_, fun i hi => this.2 i (by simpa [sizesOf] using hi)⟩
  simp [sizesOf, hl]

/-- C85. So the sizes of all layers are determined by the plan, the expected number of elements and the number of elements indexed:
they are the same for any two such histories, of whatever elements, in whatever steps. -/
theorem C85_same_shape {E' D' : Type} [LinearOrder D'] {srt' : List (Nat × D') → List (Nat × D')}
    (hmono : ∀ t i j, i ≤ j → schedule t i ≤ schedule t j) (hsrt : IsSortByDist srt) (hsrt' : IsSortByDist srt')
    (b : Builder E D) (h : ReachableWhile srt (Planned schedule total) b)
    (b' : Builder E' D') (h' : ReachableWhile srt' (Planned schedule total) b') (hn : lastLen b.layers = lastLen b'.layers) :
    (b.layers.map fun l => l.rows.length) = b'.layers.map fun l => l.rows.length := by
  have hempty : ∀ {E D : Type} [LinearOrder D] {srt : List (Nat × D) → List (Nat × D)} (_ : IsSortByDist srt) (b : Builder E D)
      (_ : ReachableWhile srt (Planned schedule total) b), sizesOf b.layers = [] ↔ lastLen b.layers = 0 := by
    intro E D _ srt hs b h
    have hi := h.reachable.1.inv hs h.reachable.2.good
    unfold sizesOf
    rw [List.map_eq_nil_iff]
    constructor
    · intro h; rw [h]; rfl
    · intro hl
      by_contra hne
      obtain ⟨l, hlast⟩ := Option.isSome_iff_exists.1 (List.getLast?_isSome.2 hne)
      have := (hi.stack.layer l.rows (List.mem_map_of_mem (List.mem_of_getLast? hlast))).2.1
      unfold lastLen at hl
      rw [hlast] at hl
      simp only at hl
      omega
  show sizesOf b.layers = sizesOf b'.layers
  refine sizesOk_unique (planned_sizes hmono hsrt h) (planned_sizes hmono hsrt' h') ?_ ?_
  · rw [sizesOf_last, sizesOf_last, hn]
  · rw [hempty hsrt b h, hempty hsrt' b' h', hn]

/-- C85. In particular with the formula of the library, for any multiplier above one. -/
theorem C85_same_shape_formula {E' D' : Type} [LinearOrder D'] {srt' : List (Nat × D') → List (Nat × D')} (m : ℝ) (hm : 1 < m)
    (hsrt : IsSortByDist srt) (hsrt' : IsSortByDist srt')
    (b : Builder E D) (h : ReachableWhile srt (Planned (numElementsInLayer m) total) b)
    (b' : Builder E' D') (h' : ReachableWhile srt' (Planned (numElementsInLayer m) total) b')
    (hn : lastLen b.layers = lastLen b'.layers) :
    (b.layers.map fun l => l.rows.length) = b'.layers.map fun l => l.rows.length :=
  C85_same_shape (schedule := numElementsInLayer m) (fun _ _ _ hij => sched_mono hm hij) hsrt hsrt' b h b' h' hn

/-! ### Without an expected number of elements -/

/-- Half of the elements in the first layer, all of them in the others. -/
def exHalves (total i : Nat) : Nat := if i = 0 then (total + 1) / 2 else total

def exHalvesConfig (expected : Option Nat) : BuildConfig Nat := ⟨exHalves, expected, 2, 5, false, 0⟩

/-- A builder of the given integers. -/
def exHalvesBuilder (expected : Option Nat) (l : List Int) : Builder Int Nat :=
  ⟨⟨l, fun a b => (a - b).natAbs⟩, [], exHalvesConfig expected⟩

theorem exHalves_mono (t i j : Nat) (h : i ≤ j) : exHalves t i ≤ exHalves t j := by
  unfold exHalves
  split <;> split <;> omega

theorem exHalves_good (expected : Option Nat) : GoodConfig (exHalvesConfig expected) where
  neighbors := by simp [exHalvesConfig]
  search := by simp [exHalvesConfig]
  schedule := {
    le := fun t i => by simp only [exHalvesConfig, exHalves]; split <;> omega
    pos := fun t i h => by simp only [exHalvesConfig, exHalves]; split <;> omega
    all := fun t => ⟨1, fun i hi => by simp only [exHalvesConfig, exHalves]; rw [if_neg (by omega)]⟩ }

theorem exHalves_new (expected : Option Nat) (l : List Int) (hl : l.length < 100) :
    Builder.new (exHalvesConfig expected) (⟨l, fun a b => (a - b).natAbs⟩ : Elements Int Nat) =
      some (exHalvesBuilder expected l) := by
  unfold Builder.new
  rw [if_pos (by unfold UNUSED; simp only; omega)]
  rfl

/-- A call of `build_partial` that is possible and what it leads to. -/
theorem exHalves_step (b : Builder Int Nat) (hb : Reachable exSort b) (hc : GoodConfig b.config) (num : Nat) (h0 : 1 ≤ num)
    (hlo : lastLen b.layers ≤ num) (hhi : num ≤ b.elements.data.length) :
    ∃ b', BuildPartial exSort b num (some b') ∧ lastLen b'.layers = num ∧ b'.elements = b.elements ∧ b'.config = b.config := by
  obtain ⟨⟨out, hout⟩, hall⟩ := buildPartial_ok exSort_sorts hc (hb.inv exSort_sorts hc) hhi (by omega) hlo
  obtain ⟨b', rfl, _, h1, h2, h3, _⟩ := hall out hout
  exact ⟨b', hout, h3, h1, h2⟩

/-- The hypotheses are met by a builder that is filled in two steps and one filled in a single step, with 4 elements. -/
example : ∃ b b' : Builder Int Nat, ReachableWhile exSort (Planned exHalves 4) b ∧ ReachableWhile exSort (Planned exHalves 4) b' ∧
    lastLen b.layers = 4 ∧ lastLen b'.layers = 4 := by
  have hp : ∀ b : Builder Int Nat, b.config = exHalvesConfig (some 4) → b.elements.data.length = 4 → Planned exHalves 4 b :=
    fun b h1 h2 => ⟨h1 ▸ exHalves_good _, by rw [h1]; rfl, by rw [h1]; rfl, by omega⟩
  let b0 := exHalvesBuilder (some 4) [0, 10, 11, 20]
  have hr0 : ReachableWhile exSort (Planned exHalves 4) b0 := .new _ _ _ (exHalves_new (some 4) _ (by decide)) (hp _ rfl rfl)
  obtain ⟨b1, h1, h2, h3, h4⟩ := exHalves_step b0 hr0.reachable.1 (exHalves_good _) 2 (by decide) (by decide) (by decide)
  have hr1 := ReachableWhile.build _ b1 2 hr0 h1 (hp b1 h4 (by rw [h3]; rfl))
  obtain ⟨b2, g1, g2, g3, g4⟩ := exHalves_step b1 hr1.reachable.1 (h4 ▸ exHalves_good _) 4 (by decide) (by omega)
    (by rw [h3]; decide)
  have hr2 := ReachableWhile.build _ b2 4 hr1 g1 (hp b2 (g4.trans h4) (by rw [g3, h3]; rfl))
  obtain ⟨b3, k1, k2, k3, k4⟩ := exHalves_step b0 hr0.reachable.1 (exHalves_good _) 4 (by decide) (by decide) (by decide)
  have hr3 := ReachableWhile.build _ b3 4 hr0 k1 (hp b3 k4 (by rw [k3]; rfl))
  exact ⟨b2, b3, hr2, hr3, g2, k2⟩

/-- C85, the other side: without an expected number of elements, building when half of the elements are there and again when all are
there gives another graph than building once: the upper layers stay as small as they were planned for half of the elements. -/
theorem C85_expected_number_needed : ∃ (b b' : Builder Int Nat) (calls calls' : List (BuilderCall Int)),
    RunCalls (fun b c b' => c.Runs exSort b b') (exHalvesBuilder none []) calls b ∧
    RunCalls (fun b c b' => c.Runs exSort b b') (exHalvesBuilder none []) calls' b' ∧
    b.elements = b'.elements ∧ lastLen b.layers = 4 ∧ lastLen b'.layers = 4 ∧
    (b.layers.map fun l => l.rows.length)[0]? = some 1 ∧ (b'.layers.map fun l => l.rows.length)[0]? = some 2 := by
  have hpush : ∀ (b : Builder Int Nat) (e : Int), b.elements.data.length < 100 →
      b.push e = some { b with elements := { b.elements with data := b.elements.data ++ [e] } } := by
    intro b e h
    unfold Builder.push
    rw [if_pos (by unfold UNUSED; omega)]
  -- the builder that has two elements, and the one with four
  have hr2 : Reachable exSort (exHalvesBuilder none [0, 10]) := .new _ _ _ (exHalves_new none _ (by decide))
  have hr4 : Reachable exSort (exHalvesBuilder none [0, 10, 11, 20]) := .new _ _ _ (exHalves_new none _ (by decide))
  obtain ⟨b1, h1, h2, h3, h4⟩ := exHalves_step _ hr2 (exHalves_good _) 2 (by decide) (by decide) (by decide)
  have hs1 := C22_built_layer_sizes exSort_sorts _ b1 hr2 (exHalves_good _) rfl exHalves_mono 2 (by decide) h1
  have hr1 := Reachable.build _ b1 2 hr2 h1
  -- two more elements
  obtain ⟨es, layers, config⟩ := b1
  simp only at h2 h3 h4
  subst h3 h4
  have p1 := hpush ⟨(exHalvesBuilder none [0, 10]).elements, layers, exHalvesConfig none⟩ 11 (by show 2 < 100; omega)
  have p2 := hpush ⟨(exHalvesBuilder none [0, 10, 11]).elements, layers, exHalvesConfig none⟩ 20 (by show 3 < 100; omega)
  have hr3 := Reachable.push _ _ 20 (Reachable.push _ _ 11 hr1 p1) p2
  obtain ⟨b2, g1, g2, g3, _⟩ := exHalves_step _ hr3 (exHalves_good _) 4 (by decide) (by simp only; omega)
    (by show 4 ≤ 4; omega)
  have hkept := C15_earlier_layers_kept exSort_sorts _ b2 hr3 (exHalves_good _) 4 g1
  obtain ⟨b3, k1, k2, k3, _⟩ := exHalves_step _ hr4 (exHalves_good _) 4 (by decide) (by decide) (by decide)
  have hs3 := C22_built_layer_sizes exSort_sorts _ b3 hr4 (exHalves_good _) rfl exHalves_mono 4 (by decide) k1
  refine ⟨b2, b3, [.push 0, .push 10, .build, .push 11, .push 20, .build],
    [.push 0, .push 10, .push 11, .push 20, .build], ?_, ?_, ?_, g2, k2, ?_, ?_⟩
  · exact .cons _ _ _ _ _ (.push 0 _ (hpush _ _ (by decide))) (.cons _ _ _ _ _ (.push 10 _ (hpush _ _ (by decide)))
      (.cons _ _ _ _ _ (.build _ h1) (.cons _ _ _ _ _ (.push 11 _ p1) (.cons _ _ _ _ _ (.push 20 _ p2)
        (.cons _ _ _ _ _ (.build _ g1) (.nil _))))))
  · exact .cons _ _ _ _ _ (.push 0 _ (hpush _ _ (by decide))) (.cons _ _ _ _ _ (.push 10 _ (hpush _ _ (by decide)))
      (.cons _ _ _ _ _ (.push 11 _ (hpush _ _ (by decide))) (.cons _ _ _ _ _ (.push 20 _ (hpush _ _ (by decide)))
        (.cons _ _ _ _ _ (.build _ k1) (.nil _)))))
  · rw [g3, k3]; rfl
  · -- the first layer was planned for two elements
    have hl2 : 2 ≤ layers.length := by
      by_contra hcon
      unfold lastLen at h2
      rcases Option.eq_none_or_eq_some layers.getLast? with h | ⟨l, h⟩
      · rw [h] at h2; cases h2
      · rw [h] at h2
        rw [List.getLast?_eq_getElem?, show layers.length - 1 = 0 by omega] at h
        have := hs1.1 0 l h
        simp only at h2
        rw [h2] at this
        exact absurd this (by decide)
    obtain ⟨l, hl⟩ : ∃ l, layers[0]? = some l := ⟨_, List.getElem?_eq_getElem (by omega)⟩
    have e1 := hs1.1 0 l hl
    have e2 := hkept.2 0 (by simp only; omega)
    rw [List.getElem?_map, e2]
    simp only [hl, Option.map_some, Option.some_inj]
    rw [e1]
    decide
  · have hl3 : 1 ≤ b3.layers.length := by
      by_contra hcon
      have : b3.layers = [] := List.length_eq_zero_iff.1 (by omega)
      rw [this] at k2
      cases k2
    obtain ⟨l, hl⟩ : ∃ l, b3.layers[0]? = some l := ⟨_, List.getElem?_eq_getElem (by omega)⟩
    have e1 := hs3.1 0 l hl
    rw [List.getElem?_map, hl, Option.map_some, e1]
    decide

end Granne
