import Verif.Props.Storage
import Verif.Props.Reorder
import Verif.Props.EndToEnd
import Verif.Proofs.Py
import Verif.Props.Schedule

/-! C77: building on after reordering. -/
namespace Granne
open List Spec

variable {E D : Type} [LinearOrder D] {srt : List (Nat × D) → List (Nat × D)}

theorem Reordered.layers {b : Builder E D} (h : BuilderInv b) (hg : GoodConfig b.config) {f f' : Bytes} {start : Nat}
    {vs : List SetVec} {es : Elements E D} {ix : GIndex E D} {order : List Nat} (hr : Reordered b f f' start vs es ix order) :
    ∃ us, ix.layers = .compressed us ∧ List.Forall₂ HoldsLists us ((reopenedGraphs b).map (newLists order)) ∧
      order.Perm (List.range es.data.length) := by
  obtain ⟨hb1, hfull⟩ := h.fullIndex hg hr
  obtain ⟨hw, P, hi⟩ := hr.call.with hfull
  obtain ⟨hperm, hpre⟩ := hi.full
  rw [hfull.last] at hperm
  obtain ⟨us, f1, _, _, f4⟩ := reorderLayers_ok hperm hfull.wf hfull.small hpre
  refine ⟨us, ?_, f4, hperm⟩
  unfold reorderWith at hw
  rw [f1] at hw
  simp only at hw
  split at hw
  · cases hw
  · cases hw; rfl

theorem keptIds_perm {w : Nat} {row : Row} (h1 : (visible row).length ≤ 255) (h2 : (visible row).length ≤ w) :
    (keptIds w row).Perm (visible row) := by
  unfold keptIds
  have := (sortIds_perm (visible row)).length_eq
  rw [List.take_of_length_le (l := List.take 255 _) (by rw [List.length_take]; omega), List.take_of_length_le (by omega)]
  exact sortIds_perm _

theorem reload_renamed {b : Builder E D} (h : BuilderInv b) (h255 : b.config.numNeighbors ≤ 255) {es es' elements : Elements E D}
    {order : List Nat} {config : BuildConfig D} (hw : b.config.numNeighbors ≤ config.numNeighbors)
    (h1 : BuilderInv (b.reloadWith b.config es)) (ho : InOrder order es es')
    (hpre : LayerPreserving order ((b.reloadWith b.config es).layers.map fun l => l.rows.length)) (h0 : order.getD 0 0 = 0)
    (h2 : BuilderInv ((b.reloadWith b.config es).renamed order es')) :
    List.Forall₂ (Renamed order) b.graphs ((((b.reloadWith b.config es).renamed order es').reloadWith config elements).graphs) := by
  unfold Builder.graphs
  have e : (((b.reloadWith b.config es).renamed order es').reloadWith config elements).layers = b.layers.map fun l =>
      (⟨config.numNeighbors, reloadLayer config.numNeighbors (renRows order b.config.numNeighbors
        (reloadLayer b.config.numNeighbors l.rows))⟩ : Layer) := by
    simp [Builder.reloadWith, Builder.renamed, Function.comp_def]
  rw [e, List.map_map, List.forall₂_map_left_iff, List.forall₂_map_right_iff]
  refine List.forall₂_same.2 fun l hl => ?_
  have i0 := h.stack.layer l.rows (List.mem_map_of_mem hl)
  have hm1 : (⟨b.config.numNeighbors, reloadLayer b.config.numNeighbors l.rows⟩ : Layer) ∈ (b.reloadWith b.config es).layers :=
    List.mem_map.2 ⟨l, hl, rfl⟩
  have hp := hpre _ (List.mem_map_of_mem (f := fun l : Layer => l.rows.length) hm1)
  have i1 := h1.stack.layer _ (List.mem_map_of_mem (f := Layer.rows) hm1)
  have hm2 : (⟨b.config.numNeighbors, renRows order b.config.numNeighbors (reloadLayer b.config.numNeighbors l.rows)⟩ : Layer) ∈
      ((b.reloadWith b.config es).renamed order es').layers := List.mem_map.2 ⟨_, hm1, rfl⟩
  have i2 := h2.stack.layer _ (List.mem_map_of_mem (f := Layer.rows) hm2)
  simp only at i1 i2 hp
  have l1 : (reloadLayer b.config.numNeighbors l.rows).length = l.rows.length := by simp [reloadLayer]
  have l2 : (renRows order b.config.numNeighbors (reloadLayer b.config.numNeighbors l.rows)).length = l.rows.length := by
    rw [renRows_length ho.perm i1.2.2 hp rfl, l1]
  rw [l1] at hp
  have hle : l.rows.length ≤ es.data.length := by rw [← l1]; exact i1.2.2
  have hnU : l.rows.length ≤ UNUSED := by have := h.size; omega
  simp only [Function.comp_apply]
  have e3 : (graphOf (reloadLayer config.numNeighbors (renRows order b.config.numNeighbors
      (reloadLayer b.config.numNeighbors l.rows)))).length = l.rows.length := by
    rw [graphOf, List.length_map, reloadLayer, List.length_map, l2]
  refine ⟨e3.trans (by simp [graphOf]), fun i hi => ?_⟩
  have hin : i < l.rows.length := by rwa [e3] at hi
  obtain ⟨j, hj, hjn, hpos⟩ := order_get ho.perm hle hp hin
  have hrow : l.rows[j]? = some l.rows[j] := List.getElem?_eq_getElem hjn
  have ok0 := i0.1.rows j _ hrow
  set row := l.rows[j] with hrowdef
  have hrow1 : (reloadLayer b.config.numNeighbors l.rows)[j]? =
      some (reloadRow b.config.numNeighbors ((sortIds (visible row)).take 255)) := by
    rw [reloadLayer, List.getElem?_map, hrow]; rfl
  have v1 := (visible_reloadRow hnU (w' := b.config.numNeighbors) ok0).2
  have hrow2 := renRows_get ho.perm hle hp (w := b.config.numNeighbors) l1 hin hj hrow1
  have v2 := (renRow_ok (w := b.config.numNeighbors) ho.perm hle hp hnU h0 (l1 ▸ i1.1) (Z' := fun _ => False) (fun _ _ hf => hf.elim) hin hj hjn hrow1).2
  have ok2 := i2.1.rows i _ hrow2
  have v3 := (visible_reloadRow (by rw [l2]; exact hnU) (w' := config.numNeighbors) ok2).2
  have hl0 := ok0.len
  have p1 : (visible (reloadRow b.config.numNeighbors ((sortIds (visible row)).take 255))).Perm (visible row) := by
    rw [v1]; exact keptIds_perm (by omega) hl0
  have hnew : (graphOf (reloadLayer config.numNeighbors (renRows order b.config.numNeighbors
      (reloadLayer b.config.numNeighbors l.rows))))[i]? = some (keptIds config.numNeighbors ((visible (reloadRow
      b.config.numNeighbors ((sortIds (visible row)).take 255))).map (posIn order) ++ List.replicate (b.config.numNeighbors -
      ((visible (reloadRow b.config.numNeighbors ((sortIds (visible row)).take 255))).map (posIn order)).length) UNUSED)) := by
    rw [graphOf, List.getElem?_map, reloadLayer, List.getElem?_map, hrow2, Option.map_some, Option.map_some, v3]
  refine ⟨visible row, _, ?_, hnew, ?_⟩
  · rw [graphOf, List.getElem?_map, List.getD_eq_getElem?_getD, hj, Option.getD_some, hrow]; rfl
  · have hlen2 := p1.length_eq
    have p2 := keptIds_perm (w := config.numNeighbors) (row := (visible (reloadRow b.config.numNeighbors ((sortIds
      (visible row)).take 255))).map (posIn order) ++ List.replicate (b.config.numNeighbors - ((visible (reloadRow
      b.config.numNeighbors ((sortIds (visible row)).take 255))).map (posIn order)).length) UNUSED)
      (by rw [v2, List.length_map]; omega) (by rw [v2, List.length_map]; omega)
    refine (p2.map _).trans ?_
    rw [v2, List.map_map]
    refine List.Perm.trans (List.Perm.of_eq ?_) p1
    conv_rhs => rw [← List.map_id (visible (reloadRow b.config.numNeighbors ((sortIds (visible row)).take 255)))]
    apply List.map_congr_left
    intro m hm
    have hml := (ok0.ids m (p1.mem_iff.1 hm)).1
    have := posIn_get ho.perm (lt_of_lt_of_le hml hle)
    simp [List.getD_eq_getElem?_getD, this]

/-- Compressed layers can be saved as long as there are at most 19. -/
theorem save_returns {us : List SetVec} {lists : List (List (List Nat))} (h1 : List.Forall₂ HoldsLists us lists)
    (h19 : lists.length ≤ 19) (hrows : ∀ g ∈ lists, 0 < g.length ∧ g.length < 2 ^ 32) (f : Bytes) (start : Nat) :
    (saveIndex (.compressed us) f start).2 = true := by
  have h := HasLists.comp us lists h1
  obtain ⟨vs, h1', _, h3⟩ := h.emits
  have h3 := h3 (start + METADATA_LEN)
  have hl2 := h1'.length_eq
  have hlens : ∀ n ∈ ((vs.map SetVec.toBytes).map List.length), n ≤ (vs.map SetVec.toBytes).flatten.length := by
    intro n hn
    obtain ⟨b, hb, rfl⟩ := List.mem_map.1 hn
    exact length_le_flatten hb
  obtain ⟨nn, hnn, hnn64⟩ : ∃ nn, (Layers.compressed us).numNeighbors = some nn ∧ nn < 2 ^ 64 := by
    unfold Layers.numNeighbors
    rcases Option.eq_none_or_eq_some us.getLast? with hn | ⟨v, hv⟩
    · exact ⟨0, by simp [hn], by decide⟩
    · have hv' := hv
      rw [List.getLast?_eq_getElem?] at hv'
      rcases forall₂_get? h1 (us.length - 1) with ⟨x1, _⟩ | ⟨a, g, x1, x2, x3⟩
      · rw [hv'] at x1; cases x1
      · rw [hv'] at x1; cases x1
        have hg := hrows g (List.mem_of_getElem? x2)
        have := x3.get (i := 0) (List.getElem?_eq_getElem hg.1)
        refine ⟨_, by simp only [hv]; rw [this]; rfl, ?_⟩
        rw [List.length_take]
        omega
  have he := saveIndex_eq hnn h.counts h3 f
  by_cases hfit : (metadataText nn (lists.map List.length) ((vs.map SetVec.toBytes).map List.length)).length ≤ METADATA_LEN
  · rw [he.1 hfit]
  · exfalso
    have hb64 : (vs.map SetVec.toBytes).flatten.length < 2 ^ 64 := by
      have := flatten_size_le h1' fun g hg => (hrows g hg).2
      omega
    apply hfit
    refine le_trans (metadataText_length_le hnn64 ?_ (fun n hn => lt_of_le_of_lt (hlens n hn) hb64) ?_) ?_
    · intro n hn
      obtain ⟨g, hg, rfl⟩ := List.mem_map.1 hn
      have := (hrows g hg).2
      omega
    · simp only [List.length_map]; omega
    · simp only [List.length_map] at hl2 ⊢
      unfold METADATA_LEN
      omega

/-- C77. A builder all of whose elements are indexed is saved, opened as an index, reordered (with element 0 staying first) and
saved; the file is opened as a builder over the reordered elements, followed by any number of others, with at least as many
neighbors per node. Nothing panics. Element `i` of the new builder is element `order[i]` of the old one, its layers are the old
ones with the nodes renamed, and everything that holds of builders holds of it (C14-C20, C23, C49, C50); building indexes the
remaining elements. -/
theorem C77_reorder_then_build (hsrt : IsSortByDist srt) (b : Builder E D) (hb : Reachable srt b) (hc : GoodConfig b.config)
    (h255 : b.config.numNeighbors ≤ 255) (f f' g g' : Bytes) (start start' : Nat) (vs : List SetVec) (es : Elements E D)
    (ix : GIndex E D) (order : List Nat) (hr : Reordered b f f' start vs es ix order)
    (hs : saveIndex ix.layers g start' = (g', true)) (hlen : g'.length < 2 ^ 64) (config : BuildConfig D)
    (hc' : GoodConfig config) (heps : config.eps = b.config.eps) (hw : b.config.numNeighbors ≤ config.numNeighbors)
    (elements : Elements E D) (hdist : elements.dist = ix.elements.dist)
    (hsame : ∀ i < lastLen b.layers, elements.data[i]? = ix.elements.data[i]?) (hsz : elements.data.length < 4294967295) :
    ∃ b', Builder.fromBytes config (g'.drop start') elements = some b' ∧ Reachable srt b' ∧ b'.config = config ∧
      b'.elements = elements ∧ order.Perm (List.range (lastLen b.layers)) ∧
      (∀ i < lastLen b.layers, elements.data[i]? = b.elements.data[order.getD i 0]?) ∧
      List.Forall₂ (Renamed order) b.graphs b'.graphs ∧
      ∀ out, Build srt b' out → ∃ b'', out = some b'' ∧ lastLen b''.layers = elements.data.length ∧ b''.elements = elements := by
  have hinv := hb.inv hsrt hc
  obtain ⟨us, hus, hl, hperm⟩ := hr.layers hinv hc
  have hs' := hs
  rw [hus] at hs'
  have hfb := fromBytes_lists (.comp us _ hl) hs' hlen config elements
  rw [if_pos (by unfold UNUSED; exact hsz)] at hfb
  obtain ⟨e1, e2, e3, e4, e5, _⟩ := hinv.reordered hc hr hs hlen hfb
  have hreach : Reachable srt _ :=
    .reorder b _ f f' g g' start start' vs es ix order config elements hb hc hr hs hlen heps ⟨hdist, hsame⟩ hfb
  rw [hr.full] at hperm
  refine ⟨_, hfb, hreach, rfl, rfl, hperm, fun i hi => ?_, ?_, fun out hout => C14_build_all hsrt _ hreach hc' out hout⟩
  · rw [hsame i hi]
    have hlo := order_length hperm
    have hoi : order[i]? = some (order.getD i 0) := by
      rw [List.getD_eq_getElem?_getD, List.getElem?_eq_getElem (by omega)]; rfl
    rw [e2.get i _ hoi]
    refine hr.same.2 _ ?_
    have := List.mem_of_getElem? hoi
    rwa [hperm.mem_iff, List.mem_range] at this
  · rw [e5]
    exact reload_renamed hinv h255 hw e1 e2 e3 hr.first e4

/-- C77. Any builder with 2 to 19 layers all of whose elements are indexed can be taken through these steps, with `reorder`: it
can be saved at any position of a file, opened with its elements, reordered and saved. -/
theorem C77_reorder_possible (hsrt : IsSortByDist srt) (b : Builder E D) (hb : Reachable srt b) (hc : GoodConfig b.config)
    (hall : lastLen b.layers = b.elements.data.length) (h2 : 2 ≤ b.layers.length) (h19 : b.layers.length ≤ 19)
    (f : Bytes) (start : Nat) (hpos : f.length < 2 ^ 63 ∧ start < 2 ^ 63) :
    ∃ f' vs ix order, Reordered b f f' start vs b.elements ix order ∧
      ∃ g', saveIndex ix.layers [] 0 = (g', true) ∧ g'.length < 2 ^ 64 := by
  have hinv := hb.inv hsrt hc
  have hs : saveIndex (.fixWidth b.layers) f start = ((saveIndex (.fixWidth b.layers) f start).1, true) :=
    Prod.ext rfl (C06_builder_save_returns hsrt b hb hc h19 f start)
  have hsize := C06_builder_size hsrt b hb hc f _ start hs
  have hlt : (saveIndex (.fixWidth b.layers) f start).1.length < 2 ^ 64 := by
    have e1 : (2 : Nat) ^ 54 < 2 ^ 63 := by norm_num
    have e2 : (2 : Nat) ^ 64 = 2 ^ 63 + 2 ^ 63 := by norm_num
    rcases le_max_iff.1 hsize with h | h <;> omega
  have hl := HasLists.fix b.layers (fun l hl row hr => (hinv.padded l hl row hr).1)
    fun l hl row hr => (hinv.padded l hl row hr).2
  obtain ⟨vs, nn, h1, _, _, _, _, h6⟩ := save_load hl hs
  have hfull : FullIndex ⟨.compressed vs, b.elements⟩ (reopenedGraphs b) := by
    have hb1 := hinv.reloaded (config := b.config) (es := b.elements) rfl hc.neighbors ⟨rfl, fun _ _ => rfl⟩ hinv.size
    refine ⟨hinv.opened_graph hs hlt (h6 hlt), ?_, ?_, ?_, ?_, ?_⟩
    · rw [hinv.reopened_graphs b.elements]; exact hb1.stack.wf
    · intro g hgl
      unfold reopenedGraphs at hgl
      rw [List.getLast?_map] at hgl
      simp only
      rw [← hall]
      unfold lastLen
      cases hl : b.layers.getLast? with
      | none => rw [hl] at hgl; cases hgl
      | some l => rw [hl] at hgl; cases hgl; simp
    · intro hn
      have : b.layers = [] := List.map_eq_nil_iff.1 hn
      rw [this] at h2; simp at h2
    · have := hinv.size; unfold UNUSED at this; simp only; omega
    · intro g hgm l hl
      obtain ⟨l0, _, rfl⟩ := List.mem_map.1 hgm
      obtain ⟨r, _, rfl⟩ := List.mem_map.1 hl
      rw [List.length_take]; omega
  obtain ⟨ix, order, first, e1, _, _, _, _⟩ := hfull.reorder (by simpa [reopenedGraphs] using h2)
  have h0 := (C24_reorder_order _ _ hfull _ _ e1).2.2.2
  have hr : Reordered b f _ start vs b.elements ix order :=
    ⟨hs, hlt, h6 hlt, ⟨rfl, fun _ _ => rfl⟩, hall.symm, .search _ _ e1, by rw [List.getD_eq_getElem?_getD, h0]; rfl⟩
  refine ⟨_, vs, ix, order, hr, ?_⟩
  obtain ⟨us, hus, hlu, hperm⟩ := hr.layers hinv hc
  have hrows : ∀ g ∈ (reopenedGraphs b).map (newLists order), 0 < g.length ∧ g.length < 2 ^ 32 := by
    intro g hg
    obtain ⟨g0, hg0, rfl⟩ := List.mem_map.1 hg
    obtain ⟨l, hl, rfl⟩ := List.mem_map.1 hg0
    have hi := hinv.stack.layer l.rows (List.mem_map_of_mem hl)
    have hlo := order_length hperm
    have hsz := hinv.size
    unfold UNUSED at hsz
    simp only [newLists, List.length_map, List.length_take]
    omega
  have hsv := save_returns hlu (by simpa [reopenedGraphs] using h19) hrows [] 0
  rw [← hus] at hsv
  have hsv' : saveIndex ix.layers [] 0 = ((saveIndex ix.layers [] 0).1, true) := Prod.ext rfl hsv
  refine ⟨_, hsv', ?_⟩
  have := saved_size (hus ▸ HasLists.comp us _ hlu) (fun g hg => (hrows g hg).2) hsv'
  have e1 : max ([] : Bytes).length (0 + 2 ^ 54) = 2 ^ 54 := by simp
  rw [e1] at this
  exact lt_of_le_of_lt this (by norm_num)

/-- Four numbers. -/
noncomputable def exFourNumbers : Elements ℝ ℝ := { data := [0, 10, 20, 35], dist := fun x y => |x - y| }

/-- Non-vacuity: four elements, built into two layers, meet the hypotheses of both theorems; so there is a history with a
reordering in the middle, after which a fifth element is added and indexed. -/
example : ∃ (b b' b'' : Builder ℝ ℝ), Reachable exSortReal b ∧ lastLen b.layers = 4 ∧ b.layers.length = 2 ∧
    Reachable exSortReal b' ∧ Build exSortReal b' (some b'') ∧ lastLen b''.layers = 5 := by
  have h0 : Builder.new exConfigReal exFourNumbers = some ⟨exFourNumbers, [], exConfigReal⟩ := if_pos (by simp [exFourNumbers, UNUSED])
  have hr : Reachable exSortReal (⟨exFourNumbers, [], exConfigReal⟩ : Builder ℝ ℝ) := .new _ _ _ h0
  obtain ⟨⟨out, hout⟩, hall⟩ := buildPartial_ok exSortReal_sorts exConfigReal_good (hr.inv exSortReal_sorts exConfigReal_good)
    (num := 4) (by simp [exFourNumbers]) (by omega) (by simp [lastLen])
  obtain ⟨b, rfl, _, h1, h2, h3, _⟩ := hall out hout
  have hb : Reachable exSortReal b := .build _ _ _ hr hout
  obtain ⟨s1, s2⟩ := C22_built_layer_sizes exSortReal_sorts _ b hr exConfigReal_good rfl (by
    intro t i j h; simp only [exConfigReal]; omega) 4 (by omega) hout
  have hlen2 : b.layers.length = 2 := by
    rcases Nat.lt_trichotomy b.layers.length 2 with h | h | h
    · exfalso
      unfold lastLen at h3
      rw [List.getLast?_eq_getElem?] at h3
      cases hx : b.layers[b.layers.length - 1]? with
      | none => rw [hx] at h3; simp at h3
      | some l =>
        rw [hx] at h3
        have := s1 _ l hx
        simp only at h3
        simp [exConfigReal] at this
        omega
    · exact h
    · have := s2 1 (by omega)
      simp [exConfigReal, exFourNumbers, Builder.total] at this
  have hc : GoodConfig b.config := by rw [h2]; exact exConfigReal_good
  obtain ⟨f', vs, ix, order, hre, g', hs, hg⟩ := C77_reorder_possible exSortReal_sorts b hb hc (by rw [h3, h1]; rfl)
    (by omega) (by omega) [] 0 (by simp)
  obtain ⟨us, _, _, hperm⟩ := hre.layers (hb.inv exSortReal_sorts hc) hc
  have hixl : ix.elements.data.length = 4 := by
    obtain ⟨_, hfull⟩ := (hb.inv exSortReal_sorts hc).fullIndex hc hre
    obtain ⟨hw, P, hi⟩ := hre.call.with hfull
    obtain ⟨ix2, e1, _, _, _, e5, _⟩ := hfull.reorderWith hi
    rw [hw] at e1; cases e1
    rw [e5, h1]; rfl
  obtain ⟨b', e1, e2, e3, e4, _, _, _, e5⟩ := C77_reorder_then_build exSortReal_sorts b hb hc (by rw [h2]; decide) [] f' [] g' 0 0
    vs b.elements ix order hre hs hg exConfigReal exConfigReal_good (by rw [h2]) (by rw [h2])
    { ix.elements with data := ix.elements.data ++ [50] } rfl (fun i hi => by
      simp only
      rw [List.getElem?_append_left (by omega)]) (by simp [hixl])
  have hb' : GoodConfig b'.config := by rw [e3]; exact exConfigReal_good
  have hl' := (e2.inv exSortReal_sorts hb').lastLen_le
  obtain ⟨⟨o, ho⟩, _⟩ := buildPartial_ok exSortReal_sorts hb' (e2.inv exSortReal_sorts hb') (num := b'.elements.data.length)
    le_rfl (by rw [e4]; simp) hl'
  obtain ⟨b'', rfl, e6, _⟩ := e5 o ho
  exact ⟨b, b', b'', hb, h3, hlen2, e2, ho, by rw [e6]; simp [hixl]⟩

end Granne
