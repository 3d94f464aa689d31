import Verif.Proofs.Renaming

/-! All states of builder histories satisfy the invariant. -/
namespace Granne
open List Spec

variable {E D : Type} [LinearOrder D]

/-- What the reordered index is opened as. -/
def reopenedGraphs (b : Builder E D) : List Graph :=
  b.layers.map fun l => l.rows.map fun row => (sortIds (visible row)).take 255

theorem BuilderInv.opened_graph {b : Builder E D} (h : BuilderInv b) {f f' : Bytes} {start : Nat} {vs : List SetVec}
    (hs : saveIndex (.fixWidth b.layers) f start = (f', true)) (hlen : f'.length < 2 ^ 64)
    (ho : loadLayers (f'.drop start) = some vs) : (Layers.compressed vs).graphs = some (reopenedGraphs b) := by
  have hl := HasLists.fix b.layers (fun l hl row hr => (h.padded l hl row hr).1) fun l hl row hr => (h.padded l hl row hr).2
  obtain ⟨vs', nn, h1, _, _, _, _, h6⟩ := save_load hl hs
  have := h6 hlen
  rw [ho] at this
  cases this
  rw [(HasLists.comp vs _ h1).graphs.1 vs rfl, List.map_map]
  unfold reopenedGraphs
  congr 1
  apply List.map_congr_left
  intro l hlm
  simp only [Function.comp_apply, List.map_map]
  apply List.map_congr_left
  intro row hrow
  simp only [Function.comp_apply]
  rw [(h.padded l hlm row hrow).2.visible]

theorem BuilderInv.visible_kept {b : Builder E D} (h : BuilderInv b) {l : Layer} (hl : l ∈ b.layers) {row : Row}
    (hrow : row ∈ l.rows) : visible (reloadRow b.config.numNeighbors ((sortIds (visible row)).take 255)) =
      (sortIds (visible row)).take 255 := by
  obtain ⟨i, hlt, he⟩ := List.getElem_of_mem hrow
  have hi := (h.stack.layer l.rows (List.mem_map_of_mem hl))
  have hr := hi.1.rows i row (by rw [List.getElem?_eq_getElem hlt, he])
  rw [(visible_reloadRow (by have := h.size; omega) hr).2]
  unfold keptIds
  apply List.take_of_length_le
  rw [List.length_take, (sortIds_perm _).length_eq]
  have := hr.len
  omega

theorem BuilderInv.reopened_graphs {b : Builder E D} (h : BuilderInv b) (es : Elements E D) :
    reopenedGraphs b = ((b.reloadWith b.config es).layers.map Layer.rows).map graphOf := by
  unfold reopenedGraphs Builder.reloadWith
  simp only [List.map_map]
  apply List.map_congr_left
  intro l hl
  simp only [Function.comp_apply, graphOf, reloadLayer, List.map_map]
  apply List.map_congr_left
  intro row hrow
  exact (h.visible_kept hl hrow).symm

theorem lastLen_reload (b : Builder E D) (config : BuildConfig D) (es : Elements E D) :
    lastLen (b.reloadWith config es).layers = lastLen b.layers := by
  unfold lastLen Builder.reloadWith
  rw [List.getLast?_map]
  cases b.layers.getLast? with
  | none => rfl
  | some l => simp [reloadLayer]

theorem BuilderInv.lastLen_le {b : Builder E D} (h : BuilderInv b) : lastLen b.layers ≤ b.elements.data.length := by
  unfold lastLen
  split
  · next l hl => exact (h.stack.layer _ (List.mem_map.2 ⟨l, List.mem_of_getLast? hl, rfl⟩)).2.2
  · omega

/-- The index that is reordered. -/
theorem BuilderInv.fullIndex {b : Builder E D} (h : BuilderInv b) (hg : GoodConfig b.config) {f f' : Bytes} {start : Nat}
    {vs : List SetVec} {es : Elements E D} {ix : GIndex E D} {order : List Nat} (hr : Reordered b f f' start vs es ix order) :
    BuilderInv (b.reloadWith b.config es) ∧ FullIndex ⟨.compressed vs, es⟩ (reopenedGraphs b) := by
  have hsz : es.data.length < UNUSED := by
    rw [hr.full]; exact lt_of_le_of_lt h.lastLen_le h.size
  have hb := h.reloaded rfl hg.neighbors hr.same hsz
  refine ⟨hb, ⟨h.opened_graph hr.saved hr.size hr.opened, ?_, ?_, ?_, ?_, ?_⟩⟩
  · rw [h.reopened_graphs es]; exact hb.stack.wf
  · intro g hgl
    unfold reopenedGraphs at hgl
    rw [List.getLast?_map] at hgl
    have : es.data.length = lastLen b.layers := hr.full
    simp only
    rw [this]
    unfold lastLen
    cases hl : b.layers.getLast? with
    | none => rw [hl] at hgl; cases hgl
    | some l => rw [hl] at hgl; cases hgl; simp
  · intro hn
    have : b.layers = [] := List.map_eq_nil_iff.1 hn
    have h2 := hr.full
    rw [this] at h2
    exact List.length_eq_zero_iff.1 h2
  · show es.data.length ≤ 2 ^ 32
    unfold UNUSED at hsz; omega
  · intro g hgm l hl
    obtain ⟨l0, _, rfl⟩ := List.mem_map.1 hgm
    obtain ⟨r, _, rfl⟩ := List.mem_map.1 hl
    rw [List.length_take]; omega

/-- The builder that is opened from the reordered index. -/
theorem BuilderInv.reordered {b b' : Builder E D} (h : BuilderInv b) (hg : GoodConfig b.config) {f f' g g' : Bytes}
    {start start' : Nat} {vs : List SetVec} {es : Elements E D} {ix : GIndex E D} {order : List Nat}
    (hr : Reordered b f f' start vs es ix order) (hs : saveIndex ix.layers g start' = (g', true)) (hlen : g'.length < 2 ^ 64)
    {config : BuildConfig D} {elements : Elements E D} (hb : Builder.fromBytes config (g'.drop start') elements = some b') :
    BuilderInv (b.reloadWith b.config es) ∧ InOrder order es ix.elements ∧
      LayerPreserving order ((b.reloadWith b.config es).layers.map fun l => l.rows.length) ∧
      BuilderInv ((b.reloadWith b.config es).renamed order ix.elements) ∧
      b' = ((b.reloadWith b.config es).renamed order ix.elements).reloadWith config elements ∧
      elements.data.length < UNUSED := by
  obtain ⟨hb1, hfull⟩ := h.fullIndex hg hr
  obtain ⟨hw, P, hi⟩ := hr.call.with hfull
  obtain ⟨hperm, hpre⟩ := hi.full
  rw [hfull.last] at hperm
  have hgs := h.reopened_graphs es
  have hpre' : LayerPreserving order ((b.reloadWith b.config es).layers.map fun l => l.rows.length) := by
    have e : (b.reloadWith b.config es).layers.map (fun l => l.rows.length) = (reopenedGraphs b).map List.length := by
      rw [hgs, List.map_map, List.map_map]
      apply List.map_congr_left
      intro l _
      simp [graphOf]
    rw [e]; exact hpre
  obtain ⟨ix', e1, _, _, e4, e5, e6⟩ := hfull.reorderWith hi
  rw [hw] at e1
  cases e1
  have ho : InOrder order es ix.elements := ⟨hperm, e4, e5, e6⟩
  have hb2 := hb1.renamed (order := order) (es := ix.elements) ho hpre' hr.first
  have hun := (fromBytes_config hb).2.2
  refine ⟨hb1, ho, hpre', hb2, ?_, hun⟩
  obtain ⟨us, f1, _, _, f4⟩ := reorderLayers_ok hperm hfull.wf hfull.small hpre
  have hix : ix.layers = .compressed us := by
    unfold reorderWith at hw
    rw [f1] at hw
    simp only at hw
    split at hw
    · cases hw
    · cases hw; rfl
  rw [hix] at hs
  rw [fromBytes_lists (.comp us _ f4) hs hlen, if_pos hun] at hb
  cases hb
  unfold Builder.reloadWith
  congr 1
  unfold Builder.renamed
  rw [List.map_map, List.map_map, hgs, List.map_map, List.map_map]
  apply List.map_congr_left
  intro l hlm
  have hli := hb1.stack.layer l.rows (List.mem_map_of_mem hlm)
  simp only [Function.comp_apply, Layer.mk.injEq, true_and]
  unfold reloadLayer newLists renRows
  rw [List.map_map, List.map_map]
  have hgl : (graphOf l.rows).length = l.rows.length := by simp [graphOf]
  rw [hgl]
  apply List.map_congr_left
  intro j hj
  simp only [Function.comp_apply]
  congr 3
  have hp := hpre' l.rows.length (List.mem_map.2 ⟨l, hlm, rfl⟩)
  have hjn : j < l.rows.length := by rwa [hp.mem_iff, List.mem_range] at hj
  have hle : l.rows.length ≤ es.data.length := hli.2.2
  have hrow : l.rows[j]? = some l.rows[j] := List.getElem?_eq_getElem hjn
  have hi := posIn_lt_layer hperm hle hp hjn
  have hgj := posIn_get hperm (lt_of_lt_of_le hjn hle)
  have hv := (renRow_ok hperm hle hp (by have := hb1.size; simp only [Builder.reloadWith] at this; omega) hr.first hli.1
    (Z' := fun _ => False) (fun _ _ hf => hf.elim) hi hgj hjn hrow).2
  have e : l.rows.getD j [] = l.rows[j] := by simp [hjn]
  have e' : (graphOf l.rows).getD j [] = visible l.rows[j] := by simp [graphOf, hjn]
  rw [e, e', hb1.width l hlm]
  exact hv.symm

theorem BuilderInv.lastLen_renamed {b : Builder E D} (h : BuilderInv b) {order : List Nat} {es : Elements E D}
    (ho : InOrder order b.elements es) (hpre : LayerPreserving order (b.layers.map fun l => l.rows.length)) :
    lastLen (b.renamed order es).layers = lastLen b.layers := by
  unfold lastLen Builder.renamed
  rw [List.getLast?_map]
  cases hl : b.layers.getLast? with
  | none => rfl
  | some l =>
    have hm := List.mem_of_getLast? hl
    exact renRows_length ho.perm (h.stack.layer l.rows (List.mem_map_of_mem hm)).2.2
      (hpre _ (List.mem_map.2 ⟨l, hm, rfl⟩)) rfl

theorem Reordered.inv {b b' : Builder E D} (h : BuilderInv b) (hg : GoodConfig b.config) {f f' g g' : Bytes}
    {start start' : Nat} {vs : List SetVec} {es : Elements E D} {ix : GIndex E D} {order : List Nat}
    (hr : Reordered b f f' start vs es ix order) (hs : saveIndex ix.layers g start' = (g', true)) (hlen : g'.length < 2 ^ 64)
    {config : BuildConfig D} {elements : Elements E D} (heps : config.eps = b.config.eps) (hw : 1 ≤ config.numNeighbors)
    (hsame : SamePrefix (lastLen b.layers) ix.elements elements)
    (hb : Builder.fromBytes config (g'.drop start') elements = some b') : BuilderInv b' := by
  obtain ⟨h1, h2, h3, h4, rfl, h6⟩ := h.reordered hg hr hs hlen hb
  refine h4.reloaded heps hw ?_ h6
  rw [h1.lastLen_renamed h2 h3, lastLen_reload]
  exact hsame

theorem Reachable.inv {srt : List (Nat × D) → List (Nat × D)} (hsrt : IsSortByDist srt) {b : Builder E D}
    (h : Reachable srt b) : GoodConfig b.config → BuilderInv b := by
  induction h with
  | new c es b h => intro _; exact BuilderInv.new h
  | push b b' e _ hp ih =>
    intro hc
    have : b'.config = b.config := by
      unfold Builder.push at hp
      split at hp <;> cases hp
      rfl
    exact (ih (this ▸ hc)).push hp
  | build b b' num _ hb ih =>
    intro hc
    have hc' : GoodConfig b.config := hb.config ▸ hc
    have hi := ih hc'
    by_cases h0 : num = 0
    · cases hb with
      | zero => exact hi
      | fresh _ h => exact absurd h0 h
      | «continue» _ _ h => exact absurd h0 h
    · by_cases hle : lastLen b.layers ≤ num
      · by_cases hn : num ≤ b.elements.data.length
        · obtain ⟨b1, h1, h2, _⟩ := (buildPartial_ok hsrt hc' hi hn (by omega) hle).2 _ hb
          cases h1; exact h2
        · cases hb with
          | zero h => exact absurd h h0
          | fresh _ _ _ h => exact absurd h hn
          | «continue» _ _ _ _ h => exact absurd h hn
      · cases hb with
        | zero h => exact absurd h h0
        | fresh _ _ h => exact absurd h hle
        | «continue» _ _ _ h => exact absurd h hle
  | reload b b' f f' start config es _ hgood hs hlen heps hsame hb ih =>
    intro hc
    have hcfg := (fromBytes_config hb).1
    exact (ih hgood).reload hs hlen heps (hcfg ▸ hc.neighbors) hsame hb
  | reorder b b' f f' g g' start start' vs es ix order config elements _ hgood hr hs hlen heps hsame hb ih =>
    intro hc
    have hcfg := (fromBytes_config hb).1
    exact hr.inv (ih hgood) hgood hs hlen heps (hcfg ▸ hc.neighbors) hsame hb

theorem ReachableBy.reachable {srt : List (Nat × D) → List (Nat × D)} {P : BuildConfig D → Prop} {b : Builder E D}
    (h : ReachableBy srt P b) : Reachable srt b := by
  induction h with
  | new c es b _ h => exact .new c es b h
  | push b b' e _ hp ih => exact .push b b' e ih hp
  | build b b' num _ hb ih => exact .build b b' num ih hb
  | reload b b' f f' start config es _ _ hg h1 h2 h3 h4 h5 ih => exact .reload b b' f f' start config es ih hg h1 h2 h3 h4 h5
  | reorder b b' f f' g g' start start' vs es ix order config elements _ _ hg h1 h2 h3 h4 h5 h6 ih =>
    exact .reorder b b' f f' g g' start start' vs es ix order config elements ih hg h1 h2 h3 h4 h5 h6

end Granne
