import Verif.Proofs.Layer
import Verif.Spec.Builder

/-! Invariant of the builder, preserved by `push` and `build_partial`. -/
namespace Granne
open List Spec

variable {E D : Type} [LinearOrder D]

theorem LayerInv.mono {n w : Nat} {Z Z' : Nat → Prop} {R : Rows} (h : LayerInv n w Z R)
    (hZ : ∀ j < n, Z' j → Z j) : LayerInv n w Z' R := by
  refine ⟨h.len, fun i row hi => ?_, h.pub⟩
  have := h.rows i row hi
  exact ⟨this.shape, this.len, this.nodup, fun j hj =>
    ⟨(this.ids j hj).1, (this.ids j hj).2.1, fun h0 hz => (this.ids j hj).2.2 h0 (hZ j (this.ids j hj).1 hz)⟩,
    fun hne h0 => ⟨(this.own hne h0).1, fun hz => (this.own hne h0).2 (hZ i (this.own hne h0).1 hz)⟩⟩

structure BuilderInv (b : Builder E D) : Prop where
  size : b.elements.data.length < UNUSED
  stack : StackInv b.config.numNeighbors b.elements.data.length (IsZero b.elements b.config.eps)
    (b.layers.map Layer.rows)
  width : ∀ l ∈ b.layers, l.width = b.config.numNeighbors

theorem BuilderInv.new {c : BuildConfig D} {es : Elements E D} {b : Builder E D}
    (h : Builder.new c es = some b) : BuilderInv b := by
  unfold Builder.new at h
  split at h
  · cases h
    exact ⟨by assumption, ⟨by simp, by simp⟩, by simp⟩
  · cases h

theorem BuilderInv.push {b b' : Builder E D} {e : E} (hi : BuilderInv b) (h : b.push e = some b') :
    BuilderInv b' := by
  unfold Builder.push at h
  split at h
  · next hlt =>
    cases h
    refine ⟨by simp; omega, ⟨?_, hi.stack.nested⟩, hi.width⟩
    intro R hR
    obtain ⟨h1, h2, h3⟩ := hi.stack.layer R hR
    refine ⟨h1.mono ?_, h2, by simp; omega⟩
    rintro j hj ⟨d, hd, hlt⟩
    refine ⟨d, ?_, hlt⟩
    have hj' : j < b.elements.data.length := by omega
    simpa [Elements.dist?, Elements.distTo, List.getElem?_append_left hj'] using hd
  · cases h

/-- `GoodConfig` without the promise that the plan ever reaches all the elements. -/
structure BasicConfig (c : BuildConfig D) : Prop where
  neighbors : 1 ≤ c.numNeighbors
  search : 1 ≤ c.maxSearch
  le : ∀ total i, c.schedule total i ≤ total
  pos : ∀ total i, 1 ≤ total → 1 ≤ c.schedule total i

omit [LinearOrder D] in
theorem _root_.Granne.Spec.GoodConfig.basic {c : BuildConfig D} (h : GoodConfig c) : BasicConfig c :=
  ⟨h.neighbors, h.search, h.schedule.le, h.schedule.pos⟩

/-- What one call of `index_elements_in_last_layer` does. -/
theorem IndexLast_ok {srt : List (Nat × D) → List (Nat × D)} (hsrt : IsSortByDist srt) {b : Builder E D}
    (hc : BasicConfig b.config) (hn : b.elements.data.length < UNUSED)
    {Z : Nat → Prop} (hZdef : Z = IsZero b.elements b.config.eps) {w : Nat} (hwdef : w = b.config.numNeighbors)
    {upper : List Layer} {layer : Layer} (hl : b.layers = upper ++ [layer])
    (hup : StackInv w b.elements.data.length Z (upper.map Layer.rows))
    (hw : layer.width = w) (hlayer : LayerInv layer.rows.length w Z layer.rows)
    (hpl : ∀ R ∈ upper.map Layer.rows, R.length ≤ layer.rows.length ∧ ∀ j, NE R j → NE layer.rows j)
    {maxNum : Nat} (hmax : layer.rows.length ≤ maxNum) (hmax0 : 0 < maxNum)
    (hmaxn : maxNum ≤ b.elements.data.length) :
    (∃ out, IndexLast srt b maxNum out) ∧
    ∀ out, IndexLast srt b maxNum out → ∃ layer', out = some { b with layers := upper ++ [layer'] } ∧
      layer'.width = w ∧ LayerInv layer'.rows.length w Z layer'.rows ∧
      (∀ j, NE layer.rows j → NE layer'.rows j) ∧
      layer'.rows.length = max layer.rows.length (min maxNum (b.ideal b.layers.length)) ∧
      (layer' = layer ∨ ∀ row ∈ layer'.rows, (visible row).length ≤
        (b.layerConfig (b.ideal b.layers.length)).numNeighbors) := by
  subst hZdef hwdef
  have hne : b.layers ≠ [] := by rw [hl]; simp
  have hlast : lastLen b.layers = layer.rows.length := by simp [lastLen, hl]
  have hmap : (upper.map fun l => graphOf l.rows) = (upper.map Layer.rows).map graphOf := by simp
  generalize hI : b.ideal b.layers.length = ideal
  have hnum : min maxNum ideal ≤ b.elements.data.length := (min_le_left _ _).trans hmaxn
  by_cases hid : ideal ≤ layer.rows.length
  · constructor
    · exact ⟨_, .nothing hne (by rw [hlast, hI]; exact hid)⟩
    · intro out hout
      have key : ∀ {up' la'}, b.layers = up' ++ [la'] → ¬ la'.rows.length < ideal := by
        intro up' la' h'
        have : la' = layer := by
          have := congrArg List.getLast? (hl.symm.trans h')
          simpa using this.symm
        subst this; omega
      cases hout with
      | noLayer h => exact absurd h hne
      | nothing _ _ =>
        refine ⟨layer, ?_, hw, hlayer, fun _ h => h, by omega, Or.inl rfl⟩
        rw [← hl]
      | firstPanics up' la' h1 h2 _ => exact absurd (hI ▸ h2) (key h1)
      | once up' la' la'' h1 h2 _ _ => exact absurd (hI ▸ h2) (key h1)
      | twice up' la' la'' o h1 h2 _ _ _ => exact absurd (hI ▸ h2) (key h1)
  · have hlt : layer.rows.length < ideal := by omega
    have hcn : 1 ≤ (b.layerConfig ideal).numNeighbors ∧
        (b.layerConfig ideal).numNeighbors ≤ b.config.numNeighbors := by
      have := hc.neighbors
      simp only [Builder.layerConfig]
      split <;> omega
    have hfirst := IndexElements_ok (cfg := b.layerConfig ideal) (num := min maxNum ideal)
      (hnum.trans hn.le) hnum hsrt hcn.1 hcn.2 hc.search
      (Z := IsZero b.elements b.config.eps)
      (fun i d hd hle hz => by
        obtain ⟨d', hd', hlt'⟩ := hz
        rw [hd] at hd'; cases hd'
        exact hle hlt')
      hup hw hlayer (by omega) (by omega) hpl (reinsert := false) (by simp)
    have hsecond : ∀ layer' : Layer, layer'.width = b.config.numNeighbors →
        LayerInv (min maxNum ideal) b.config.numNeighbors (IsZero b.elements b.config.eps) layer'.rows →
        (∀ j, NE layer.rows j → NE layer'.rows j) → _ := fun layer' h1 h2 h3 =>
      IndexElements_ok (cfg := (b.layerConfig ideal).forReinsert) (num := min maxNum ideal)
        (hnum.trans hn.le) hnum hsrt hcn.1 hcn.2 (by simp [LayerConfig.forReinsert])
        (Z := IsZero b.elements b.config.eps)
        (fun i d hd hle hz => by
          obtain ⟨d', hd', hlt'⟩ := hz
          rw [hd] at hd'; cases hd'
          exact hle hlt')
        hup h1 (h2.len ▸ h2) (le_of_eq h2.len) (by omega)
        (fun R hR => ⟨by have := (hpl R hR).1; have := h2.len; omega, fun j hj => h3 j ((hpl R hR).2 j hj)⟩)
        (reinsert := true) (fun _ => h2.len)
    rw [← hmap] at hfirst hsecond
    have huniq : ∀ {up' la'}, b.layers = up' ++ [la'] → up' = upper ∧ la' = layer := by
      intro up' la' h'
      have := (hl.symm.trans h')
      rw [List.append_eq_append_iff_of_size_eq_right (by rfl)] at this
      exact ⟨this.1.symm, by simpa using this.2.symm⟩
    have hI' := hI
    constructor
    · obtain ⟨out, hout⟩ := hfirst.1
      obtain ⟨layer', rfl, h1, h2, h3, h4⟩ := hfirst.2 out hout
      by_cases hre : b.config.reinsertElements = true
      · obtain ⟨out', hout'⟩ := (hsecond layer' h1 h2 h3).1
        exact ⟨_, .twice upper layer layer' out' hl (by rw [hI]; exact hlt) (by rw [hI]; exact hout) hre
          (by rw [hI]; exact hout')⟩
      · exact ⟨_, .once upper layer layer' hl (by rw [hI]; exact hlt) (by rw [hI]; exact hout) (by simpa using hre)⟩
    · intro out hout
      cases hout with
      | noLayer h => exact absurd h hne
      | nothing _ h => rw [hlast, hI] at h; exact absurd h hid
      | firstPanics up' la' e1 e2 e3 =>
        obtain ⟨rfl, rfl⟩ := huniq e1
        rw [hI] at e3
        obtain ⟨_, h, _⟩ := hfirst.2 _ e3
        cases h
      | once up' la' la'' e1 e2 e3 _ =>
        obtain ⟨rfl, rfl⟩ := huniq e1
        rw [hI] at e3
        obtain ⟨layer', h, h1, h2, h3, h4⟩ := hfirst.2 _ e3
        cases h
        exact ⟨_, rfl, h1, h2.len.symm ▸ h2, h3, by rw [h2.len]; omega, Or.inr h4⟩
      | twice up' la' la'' o e1 e2 e3 _ e5 =>
        obtain ⟨rfl, rfl⟩ := huniq e1
        rw [hI] at e3 e5
        obtain ⟨layer', h, h1, h2, h3, h4⟩ := hfirst.2 _ e3
        cases h
        obtain ⟨l2, rfl, g1, g2, g3, g4⟩ := (hsecond _ h1 h2 h3).2 _ e5
        exact ⟨_, rfl, g1, g2.len.symm ▸ g2, fun j hj => g3 j (h3 j hj), by rw [g2.len]; omega, Or.inr g4⟩

theorem StackInv.snoc {w total : Nat} {Z : Nat → Prop} {upper : List Rows} {R : Rows}
    (h : StackInv w total Z upper) (hR : LayerInv R.length w Z R) (h0 : 0 < R.length) (ht : R.length ≤ total)
    (hpl : ∀ R' ∈ upper, R'.length ≤ R.length ∧ ∀ j, NE R' j → NE R j) :
    StackInv w total Z (upper ++ [R]) := by
  refine ⟨?_, ?_⟩
  · intro R' hR'
    rcases List.mem_append.1 hR' with h1 | h1
    · exact h.layer R' h1
    · rw [List.mem_singleton] at h1; subst h1; exact ⟨hR, h0, ht⟩
  · rw [List.pairwise_append]
    refine ⟨h.nested, by simp, ?_⟩
    intro a ha b hb
    rw [List.mem_singleton] at hb; subst hb
    exact hpl a ha

/-- One iteration of the loop of `build_partial`. -/
def Round (srt : List (Nat × D) → List (Nat × D)) (num : Nat) (b b' : Builder E D) : Prop :=
  lastLen b.layers < num ∧ IndexLast srt b.addLayer num (some b')

/-- The neighbor limit for layer `i` of the result `b'`, if it was built as an upper layer. -/
def UpperLimited (b' : Builder E D) (i : Nat) : Prop :=
  ∀ layer, b'.layers[i]? = some layer → b'.ideal (i + 1) < b'.total →
    (1 ≤ i ∧ b'.layers[i - 1]? = some layer) ∨
    ∀ row ∈ layer.rows, (visible row).length ≤ max 1 (b'.config.numNeighbors / 2)

theorem lastLen_append (l : List Layer) (a : Layer) : lastLen (l ++ [a]) = a.rows.length := by
  simp [lastLen]

theorem round_ok' {srt : List (Nat × D) → List (Nat × D)} (hsrt : IsSortByDist srt) {b : Builder E D}
    (hc : BasicConfig b.config) (hb : BuilderInv b) {num : Nat} (hnum : num ≤ b.elements.data.length)
    (hlt : lastLen b.layers < num) :
    (∃ out, IndexLast srt b.addLayer num out) ∧
    ∀ out, IndexLast srt b.addLayer num out → ∃ layer', out = some { b with layers := b.layers ++ [layer'] } ∧
      BuilderInv { b with layers := b.layers ++ [layer'] } ∧
      layer'.rows.length = max (lastLen b.layers) (min num (b.ideal (b.layers.length + 1))) ∧
      UpperLimited { b with layers := b.layers ++ [layer'] } b.layers.length := by
  have hideal : 1 ≤ b.ideal (b.layers.length + 1) := by
    apply hc.pos
    omega
  have hsplit : ∃ copy : Layer, b.addLayer.layers = b.layers ++ [copy] ∧ copy.width = b.config.numNeighbors ∧
      LayerInv copy.rows.length b.config.numNeighbors (IsZero b.elements b.config.eps) copy.rows ∧
      (∀ R ∈ b.layers.map Layer.rows, R.length ≤ copy.rows.length ∧ ∀ j, NE R j → NE copy.rows j) ∧
      copy.rows.length = lastLen b.layers ∧
      (copy.rows.length = 0 ∨ 1 ≤ b.layers.length ∧ b.layers[b.layers.length - 1]? = some copy) := by
    rcases Option.eq_none_or_eq_some b.layers.getLast? with h | ⟨l, h⟩
    · have hnil := List.getLast?_eq_none_iff.1 h
      refine ⟨⟨b.config.numNeighbors, []⟩, by simp [Builder.addLayer, h], rfl, ⟨rfl, by simp, by simp⟩,
        by simp [hnil], by simp [lastLen, hnil], Or.inl rfl⟩
    · refine ⟨l, by simp [Builder.addLayer, h], hb.width l (List.mem_of_getLast? h),
        (hb.stack.layer _ (List.mem_map.2 ⟨l, List.mem_of_getLast? h, rfl⟩)).1, ?_, by simp [lastLen, h], ?_⟩
      · rcases List.eq_nil_or_concat b.layers with h' | ⟨up, la, h'⟩
        · simp [h'] at h
        · rw [List.concat_eq_append] at h'
          rw [h'] at h
          simp only [List.getLast?_append, List.getLast?_singleton, Option.some_or, Option.some.injEq] at h
          subst h
          have := hb.stack.nested
          rw [h', List.map_append, List.pairwise_append] at this
          intro R hR
          rw [h', List.map_append] at hR
          rcases List.mem_append.1 hR with h1 | h1
          · exact this.2.2 R h1 _ (by simp)
          · simp at h1; subst h1; exact ⟨le_rfl, fun _ h => h⟩
      · right
        refine ⟨?_, by rw [← List.getLast?_eq_getElem?]; exact h⟩
        cases hbl : b.layers with
        | nil => simp [hbl] at h
        | cons _ _ => simp
  obtain ⟨copy, h1, h2, h3, h4, h5, h6⟩ := hsplit
  have hlen : b.addLayer.layers.length = b.layers.length + 1 := by rw [h1]; simp
  obtain ⟨hex, hall⟩ := IndexLast_ok (b := b.addLayer) hsrt hc hb.size rfl rfl h1 hb.stack h2 h3 h4
    (maxNum := num) (by omega) (by omega) hnum
  refine ⟨hex, fun out hout => ?_⟩
  obtain ⟨layer', e1, e2, e3, e4, e5, e6⟩ := hall out hout
  rw [hlen] at e5 e6
  have hid : b.addLayer.ideal (b.layers.length + 1) = b.ideal (b.layers.length + 1) := rfl
  rw [hid] at e5 e6
  have hpos : 0 < layer'.rows.length := by rw [e5]; omega
  have hle : b.ideal (b.layers.length + 1) ≤ max b.total b.elements.data.length := hc.le _ _
  refine ⟨layer', e1, ⟨hb.size, ?_, ?_⟩, by rw [e5, h5], ?_⟩
  · rw [List.map_append]
    refine hb.stack.snoc e3 hpos ?_ ?_
    · rw [e5]
      omega
    · intro R hR
      exact ⟨by have := (h4 R hR).1; omega, fun j hj => e4 j ((h4 R hR).2 j hj)⟩
  · intro l hl
    rcases List.mem_append.1 hl with h | h
    · exact hb.width l h
    · rw [List.mem_singleton] at h; subst h; exact e2
  · intro layer hget hlt'
    simp only [List.getElem?_append_right (le_refl b.layers.length), Nat.sub_self, List.getElem?_cons_zero,
      Option.some.injEq] at hget
    subst hget
    rcases e6 with rfl | h
    · left
      rcases h6 with h6 | ⟨h6, h7⟩
      · omega
      · refine ⟨h6, ?_⟩
        rw [← h7]
        exact List.getElem?_append_left (by omega)
    · right
      have h8 : b.ideal (b.layers.length + 1) < b.total := hlt'
      have h9 : (b.addLayer.layerConfig (b.ideal (b.layers.length + 1))).numNeighbors =
          max 1 (b.config.numNeighbors / 2) := by
        show (if b.ideal (b.layers.length + 1) < b.total then _ else _) = _
        rw [if_pos h8]; rfl
      rw [h9] at h
      exact h

theorem round_ok {srt : List (Nat × D) → List (Nat × D)} (hsrt : IsSortByDist srt) {b : Builder E D}
    (hc : GoodConfig b.config) (hb : BuilderInv b) {num : Nat} (hnum : num ≤ b.elements.data.length)
    (hlt : lastLen b.layers < num) :
    (∃ out, IndexLast srt b.addLayer num out) ∧
    ∀ out, IndexLast srt b.addLayer num out → ∃ layer', out = some { b with layers := b.layers ++ [layer'] } ∧
      BuilderInv { b with layers := b.layers ++ [layer'] } ∧
      layer'.rows.length = max (lastLen b.layers) (min num (b.ideal (b.layers.length + 1))) ∧
      UpperLimited { b with layers := b.layers ++ [layer'] } b.layers.length :=
  round_ok' hsrt hc.basic hb hnum hlt

/-- No infinite sequence of rounds. -/
theorem round_acc {srt : List (Nat × D) → List (Nat × D)} (hsrt : IsSortByDist srt) {num : Nat}
    {b : Builder E D} (hc : GoodConfig b.config) (hb : BuilderInv b) (hnum : num ≤ b.elements.data.length) :
    Acc (fun b' b => Round srt num b b') b := by
  obtain ⟨i₀, hi₀⟩ := hc.schedule.all (max b.total b.elements.data.length)
  generalize hm : i₀ + 2 - b.layers.length = m
  induction m generalizing b with
  | zero =>
    constructor
    rintro b' ⟨hlt, hstep⟩
    obtain ⟨layer', h1, h2, h3, _⟩ := (round_ok hsrt hc hb hnum hlt).2 _ hstep
    simp only [Option.some.injEq] at h1
    subst h1
    constructor
    rintro b'' ⟨hlt', _⟩
    rw [lastLen_append] at hlt'
    have : b.ideal (b.layers.length + 1) = max b.total b.elements.data.length := hi₀ _ (by simp; omega)
    rw [h3, this] at hlt'
    omega
  | succ m ih =>
    constructor
    rintro b' ⟨hlt, hstep⟩
    obtain ⟨layer', h1, h2, h3, _⟩ := (round_ok hsrt hc hb hnum hlt).2 _ hstep
    simp only [Option.some.injEq] at h1
    subst h1
    exact ih hc h2 hnum hi₀ (by simp; omega)

theorem buildLoop_exists {srt : List (Nat × D) → List (Nat × D)} (hsrt : IsSortByDist srt) {num : Nat}
    {b : Builder E D} (hc : GoodConfig b.config) (hb : BuilderInv b) (hnum : num ≤ b.elements.data.length) :
    ∃ out, BuildLoop srt num b out := by
  have hacc := round_acc hsrt hc hb hnum
  induction hacc with
  | intro b _ ih =>
    by_cases hlt : lastLen b.layers < num
    · obtain ⟨⟨out, hout⟩, hall⟩ := round_ok hsrt hc hb hnum hlt
      obtain ⟨layer', h1, h2, _⟩ := hall out hout
      subst h1
      obtain ⟨out', hout'⟩ := ih _ ⟨hlt, hout⟩ hc h2 hnum
      exact ⟨out', .round b _ out' hlt hout hout'⟩
    · exact ⟨_, .done b hlt⟩

theorem buildLoop_ok {srt : List (Nat × D) → List (Nat × D)} (hsrt : IsSortByDist srt) {num : Nat}
    {b : Builder E D} {out : Option (Builder E D)} (h : BuildLoop srt num b out)
    (hc : GoodConfig b.config) (hb : BuilderInv b) (hnum : num ≤ b.elements.data.length)
    (hle : lastLen b.layers ≤ num) :
    ∃ new, out = some { b with layers := b.layers ++ new } ∧ BuilderInv { b with layers := b.layers ++ new } ∧
      lastLen (b.layers ++ new) = num ∧
      (∀ i, b.layers.length ≤ i → UpperLimited { b with layers := b.layers ++ new } i) := by
  induction h with
  | done b hd =>
    refine ⟨[], by simp, by simpa using hb, by rw [List.append_nil]; omega, ?_⟩
    intro i hi layer hget
    simp only [List.append_nil] at hget
    rw [List.getElem?_eq_none hi] at hget
    cases hget
  | panic b hlt hp =>
    obtain ⟨_, h1, _⟩ := (round_ok hsrt hc hb hnum hlt).2 _ hp
    cases h1
  | round b b' out hlt hstep _ ih =>
    obtain ⟨layer', h1, h2, h3, h4⟩ := (round_ok hsrt hc hb hnum hlt).2 _ hstep
    simp only [Option.some.injEq] at h1
    subst h1
    obtain ⟨new, e1, e2, e3, e4⟩ := ih hc h2 hnum (by rw [lastLen_append, h3]; omega)
    simp only [List.append_assoc, List.singleton_append] at e1 e2 e3 e4
    refine ⟨layer' :: new, e1, e2, e3, ?_⟩
    intro i hi
    rcases Nat.eq_or_lt_of_le hi with rfl | hi
    · intro layer hget hid
      have hget' : (b.layers ++ [layer'])[b.layers.length]? = some layer := by
        simp at hget ⊢; exact hget
      rcases h4 layer hget' hid with ⟨h5, h6⟩ | h5
      · left
        refine ⟨h5, ?_⟩
        rw [← h6]
        simp only
        rw [List.getElem?_append_left (by omega), List.getElem?_append_left (by omega)]
      · exact Or.inr h5
    · exact e4 i (by simp; omega)

/-- `index_elements_in_last_layer` on an existing last layer. -/
theorem continue_ok {srt : List (Nat × D) → List (Nat × D)} (hsrt : IsSortByDist srt) {b : Builder E D}
    (hc : GoodConfig b.config) (hb : BuilderInv b) {num : Nat} (hnum : num ≤ b.elements.data.length)
    (h0 : 0 < num) (hle : lastLen b.layers ≤ num) {upper : List Layer} {layer : Layer}
    (hl : b.layers = upper ++ [layer]) :
    (∃ out, IndexLast srt b num out) ∧
    ∀ out, IndexLast srt b num out → ∃ layer', out = some { b with layers := upper ++ [layer'] } ∧
      BuilderInv { b with layers := upper ++ [layer'] } ∧ lastLen b.layers ≤ layer'.rows.length ∧
      layer'.rows.length = max (lastLen b.layers) (min num (b.ideal b.layers.length)) ∧
      (layer' = layer ∨ ∀ row ∈ layer'.rows, (visible row).length ≤
        (b.layerConfig (b.ideal b.layers.length)).numNeighbors) := by
  have hst := hb.stack
  rw [hl, List.map_append, List.map_cons, List.map_nil] at hst
  have hnest := (List.pairwise_append.1 hst.nested)
  have hup : StackInv b.config.numNeighbors b.elements.data.length (IsZero b.elements b.config.eps)
      (upper.map Layer.rows) := ⟨fun R hR => hst.layer R (List.mem_append_left _ hR), hnest.1⟩
  have hlast : lastLen b.layers = layer.rows.length := by simp [lastLen, hl]
  have hla := hst.layer layer.rows (by simp)
  obtain ⟨hex, hall⟩ := IndexLast_ok hsrt hc.basic hb.size rfl rfl hl hup (hb.width layer (by simp [hl]))
    hla.1 (fun R hR => hnest.2.2 R hR _ (by simp)) (maxNum := num) (by omega) h0 hnum
  refine ⟨hex, fun out hout => ?_⟩
  obtain ⟨layer', e1, e2, e3, e4, e5, e6⟩ := hall out hout
  have hid : b.ideal b.layers.length ≤ max b.total b.elements.data.length := hc.schedule.le _ _
  refine ⟨layer', e1, ⟨hb.size, ?_, ?_⟩, by omega, by omega, e6⟩
  · simp only [List.map_append, List.map_cons, List.map_nil]
    refine hup.snoc e3 (by have := hla.2.1; omega) (by omega) ?_
    intro R hR
    have := hnest.2.2 R hR layer.rows (by simp)
    exact ⟨by omega, fun j hj => e4 j (this.2 j hj)⟩
  · intro l hl'
    rcases List.mem_append.1 hl' with h | h
    · exact hb.width l (by simp [hl, h])
    · rw [List.mem_singleton] at h; subst h; exact e2

/-- Everything about one legal call of `build_partial`. -/
theorem buildPartial_ok {srt : List (Nat × D) → List (Nat × D)} (hsrt : IsSortByDist srt) {b : Builder E D}
    (hc : GoodConfig b.config) (hb : BuilderInv b) {num : Nat} (hnum : num ≤ b.elements.data.length)
    (h0 : 0 < num) (hle : lastLen b.layers ≤ num) :
    (∃ out, BuildPartial srt b num out) ∧
    ∀ out, BuildPartial srt b num out → ∃ b', out = some b' ∧ BuilderInv b' ∧ b'.elements = b.elements ∧
      b'.config = b.config ∧ lastLen b'.layers = num ∧
      (∃ new, b'.layers = b.layers.dropLast ++ new ∧ (b.layers ≠ [] → new ≠ [])) ∧
      (∀ i, b.layers.length ≤ i → UpperLimited b' i) ∧
      (∀ i layer', i + 1 = b.layers.length → b'.layers[i]? = some layer' → b.layers[i]? = some layer' ∨
        ∀ row ∈ layer'.rows, (visible row).length ≤ (b.layerConfig (b.ideal b.layers.length)).numNeighbors) := by
  rcases List.eq_nil_or_concat b.layers with hl | ⟨upper, layer, hl⟩
  · constructor
    · obtain ⟨out, hout⟩ := buildLoop_exists hsrt hc hb hnum
      exact ⟨out, .fresh out (by omega) hle hnum hl hout⟩
    · intro out hout
      cases hout with
      | zero h => omega
      | fewer _ h => omega
      | more _ _ h => omega
      | lastPanics _ _ _ h => exact absurd hl h
      | «continue» _ _ _ _ _ h => exact absurd hl h
      | fresh _ _ _ _ _ hloop =>
        obtain ⟨new, h1, h2, h3, h4⟩ := buildLoop_ok hsrt hloop hc hb hnum hle
        refine ⟨_, h1, h2, rfl, rfl, h3, ⟨new, by simp [hl], fun h => absurd hl h⟩, h4, ?_⟩
        intro i _ hi
        rw [hl] at hi; simp at hi
  · rw [List.concat_eq_append] at hl
    have hne : b.layers ≠ [] := by rw [hl]; simp
    obtain ⟨hex, hall⟩ := continue_ok hsrt hc hb hnum h0 hle hl
    constructor
    · obtain ⟨o, ho⟩ := hex
      obtain ⟨layer', rfl, h2, h3, h4, _⟩ := hall o ho
      obtain ⟨out, hout⟩ := buildLoop_exists (b := { b with layers := upper ++ [layer'] }) hsrt hc h2 hnum
      exact ⟨out, .continue _ out (by omega) hle hnum hne ho hout⟩
    · intro out hout
      cases hout with
      | zero h => omega
      | fewer _ h => omega
      | more _ _ h => omega
      | fresh _ _ _ _ h => exact absurd h hne
      | lastPanics _ _ _ _ h =>
        obtain ⟨_, h1, _⟩ := hall _ h
        cases h1
      | «continue» b1 _ _ _ _ _ hstep hloop =>
        obtain ⟨layer', h1, h2, h3, h4, h5⟩ := hall _ hstep
        simp only [Option.some.injEq] at h1
        subst h1
        obtain ⟨new, e1, e2, e3, e4⟩ := buildLoop_ok (b := { b with layers := upper ++ [layer'] }) hsrt hloop
          hc h2 hnum (by rw [lastLen_append]; exact (by omega))
        simp only [List.append_assoc, List.singleton_append] at e1 e2 e3 e4
        refine ⟨_, e1, e2, rfl, rfl, e3, ⟨layer' :: new, by simp [hl], by simp⟩, ?_, ?_⟩
        · intro i hi
          refine e4 i ?_
          rw [hl] at hi; simpa using hi
        · intro i la hi hget
          have hi' : i = upper.length := by rw [hl] at hi; simpa using hi
          subst hi'
          simp only [List.getElem?_append_right (le_refl upper.length), Nat.sub_self,
            List.getElem?_cons_zero, Option.some.injEq] at hget
          subst hget
          rcases h5 with rfl | h5
          · left; simp [hl]
          · exact Or.inr h5

omit [LinearOrder D] in
theorem option_map_some_iff {α β : Type} {f : α → β} {o : Option α} {b : β} (h : o.map f = some b) :
    ∃ a, o = some a ∧ f a = b := by
  cases o with
  | none => cases h
  | some a => exact ⟨a, rfl, by simpa using h⟩

theorem IndexLast.config {srt : List (Nat × D) → List (Nat × D)} {b b' : Builder E D} {num : Nat}
    (h : IndexLast srt b num (some b')) : b'.config = b.config := by
  generalize ho : some b' = o at h
  cases h with
  | noLayer => cases ho
  | nothing => cases ho; rfl
  | firstPanics => cases ho
  | once => cases ho; rfl
  | twice =>
    obtain ⟨l, _, rfl⟩ := option_map_some_iff ho.symm
    rfl

theorem BuildLoop.config {srt : List (Nat × D) → List (Nat × D)} {b : Builder E D} {o : Option (Builder E D)}
    {num : Nat} (h : BuildLoop srt num b o) : ∀ b', o = some b' → b'.config = b.config := by
  induction h with
  | done b _ => intro b' h; cases h; rfl
  | panic => intro b' h; cases h
  | round b b1 o _ hs _ ih => intro b' h; rw [ih b' h, hs.config]; rfl

theorem BuildPartial.config {srt : List (Nat × D) → List (Nat × D)} {b b' : Builder E D} {num : Nat}
    (h : BuildPartial srt b num (some b')) : b'.config = b.config := by
  cases h with
  | zero => rfl
  | fresh _ _ _ _ _ hl => exact hl.config _ rfl
  | «continue» b1 _ _ _ _ _ hs hl => rw [hl.config _ rfl, hs.config]

end Granne
