import Verif.Proofs.Builder
import Verif.Proofs.IndexIO
import Verif.Model.History

/-! Saving and reloading a builder. -/
namespace Granne
open List Spec

variable {E D : Type} [LinearOrder D]

/-- The neighbors kept when a builder is reloaded with `w` neighbors per node. -/
def keptIds (w : Nat) (row : Row) : List Nat := ((sortIds (visible row)).take 255).take w

theorem reloadRow_eq (w : Nat) (row : Row) :
    reloadRow w ((sortIds (visible row)).take 255) =
      keptIds w row ++ List.replicate (w - (keptIds w row).length) UNUSED := by
  unfold reloadRow keptIds
  congr 2
  simp only [List.length_take]
  omega

theorem keptIds_sublist (w : Nat) (row : Row) : (keptIds w row).Sublist (sortIds (visible row)) :=
  (List.take_sublist _ _).trans (List.take_sublist _ _)

theorem mem_keptIds {w : Nat} {row : Row} {j : Nat} (h : j ∈ keptIds w row) : j ∈ visible row :=
  (sortIds_perm _).mem_iff.1 ((keptIds_sublist w row).mem h)

theorem keptIds_length (w : Nat) (row : Row) : (keptIds w row).length = min w (min 255 (visible row).length) := by
  unfold keptIds
  rw [List.length_take, List.length_take, (sortIds_perm _).length_eq]

def reloadLayer (w : Nat) (R : Rows) : Rows := R.map fun row => reloadRow w ((sortIds (visible row)).take 255)

theorem BuilderInv.padded {b : Builder E D} (h : BuilderInv b) :
    ∀ l ∈ b.layers, ∀ row ∈ l.rows, (∀ n ∈ row, n < 2 ^ 32) ∧ Padded row := by
  intro l hl row hrow
  have hinv := h.stack.layer l.rows (List.mem_map.2 ⟨l, hl, rfl⟩)
  obtain ⟨i, hlt, he⟩ := List.getElem_of_mem hrow
  have hr := hinv.1.rows i row (by rw [List.getElem?_eq_getElem hlt, he])
  have hsz := h.size
  have hid : ∀ j ∈ visible row, j < UNUSED := by
    intro j hj
    have := (hr.ids j hj).1
    omega
  constructor
  · intro n hn
    rw [hr.shape] at hn
    rcases List.mem_append.1 hn with h1 | h1
    · have := hid n h1
      unfold UNUSED at this; omega
    · rw [List.eq_of_mem_replicate h1]; decide
  · exact ⟨visible row, _, hr.shape, fun hc => absurd (hid _ hc) (by simp)⟩

theorem BuilderInv.indexState {b : Builder E D} (h : BuilderInv b) : IndexState (.fixWidth b.layers) :=
  .built _ h.padded

omit [LinearOrder D] in
/-- What `from_bytes` makes of a saved index. -/
theorem fromBytes_lists {L : Layers} {lists : List (List (List Nat))} (hl : HasLists L lists)
    {f f' : Bytes} {start : Nat} (hs : saveIndex L f start = (f', true)) (hlen : f'.length < 2 ^ 64)
    (config : BuildConfig D) (es : Elements E D) :
    Builder.fromBytes config (f'.drop start) es =
      if es.data.length < UNUSED then
        some ⟨es, lists.map fun g => ⟨config.numNeighbors, g.map fun l => reloadRow config.numNeighbors ((sortIds l).take 255)⟩,
          config⟩
      else none := by
  obtain ⟨vs, nn, h1, _, _, _, _, h6⟩ := save_load hl hs
  unfold Builder.fromBytes Builder.new
  by_cases hn : es.data.length < UNUSED
  · rw [if_pos hn, if_pos hn]
    simp only
    rw [h6 hlen]
    simp only
    rw [show vs.mapM SetVec.graph = (Layers.compressed vs).graphs from rfl,
      (HasLists.comp vs _ h1).graphs.1 vs rfl]
    simp only [List.map_map, Option.some.injEq, Builder.mk.injEq, true_and, and_true]
    apply List.map_congr_left
    intro l hlm
    simp only [Function.comp_apply, List.map_map]
    rfl
  · rw [if_neg hn, if_neg hn]

omit [LinearOrder D] in
/-- What `from_bytes` makes of a saved builder. -/
theorem fromBytes_saved {ls : List Layer} (h : ∀ l ∈ ls, ∀ row ∈ l.rows, (∀ n ∈ row, n < 2 ^ 32) ∧ Padded row)
    {f f' : Bytes} {start : Nat} (hs : saveIndex (.fixWidth ls) f start = (f', true)) (hlen : f'.length < 2 ^ 64)
    (config : BuildConfig D) (es : Elements E D) :
    Builder.fromBytes config (f'.drop start) es =
      if es.data.length < UNUSED then
        some ⟨es, ls.map fun l => ⟨config.numNeighbors, reloadLayer config.numNeighbors l.rows⟩, config⟩
      else none := by
  have hl := HasLists.fix ls (fun l hl row hr => (h l hl row hr).1) fun l hl row hr => (h l hl row hr).2
  obtain ⟨vs, nn, h1, _, _, _, _, h6⟩ := save_load hl hs
  unfold Builder.fromBytes Builder.new
  by_cases hn : es.data.length < UNUSED
  · rw [if_pos hn, if_pos hn]
    simp only
    rw [h6 hlen]
    simp only
    rw [show vs.mapM SetVec.graph = (Layers.compressed vs).graphs from rfl,
      (HasLists.comp vs _ h1).graphs.1 vs rfl]
    simp only [List.map_map, Option.some.injEq, Builder.mk.injEq, true_and, and_true]
    apply List.map_congr_left
    intro l hlm
    simp only [Function.comp_apply, Layer.mk.injEq, true_and, List.map_map]
    unfold reloadLayer
    apply List.map_congr_left
    intro row hrow
    simp only [Function.comp_apply]
    rw [(h l hlm row hrow).2.visible]
  · rw [if_neg hn, if_neg hn]

theorem visible_reloadRow {n w : Nat} {Z : Nat → Prop} (hn : n ≤ UNUSED) {w' : Nat} {i : Nat} {row : Row}
    (h : RowOk n w Z i row) :
    RowOk n w' Z i (reloadRow w' ((sortIds (visible row)).take 255)) ∧
      visible (reloadRow w' ((sortIds (visible row)).take 255)) = keptIds w' row := by
  rw [reloadRow_eq]
  refine RowOk.of_ids hn ?_ ?_ ?_ ?_
  · rw [keptIds_length]; omega
  · exact (keptIds_sublist w' row).nodup ((sortIds_perm _).nodup_iff.2 h.nodup)
  · exact fun j hj => h.ids j (mem_keptIds hj)
  · intro hne
    obtain ⟨j, hj⟩ := List.exists_mem_of_ne_nil _ hne
    exact h.own (List.ne_nil_of_mem (mem_keptIds hj))

theorem reload_NE {n w : Nat} {Z : Nat → Prop} (hn : n ≤ UNUSED) {w' : Nat} (hw : 1 ≤ w') {R : Rows}
    (h : LayerInv n w Z R) (j : Nat) : NE (reloadLayer w' R) j ↔ NE R j := by
  unfold NE reloadLayer
  rw [List.getElem?_map]
  constructor
  · rintro ⟨row', h1, h2⟩
    obtain ⟨row, hr, rfl⟩ := Option.map_eq_some_iff.1 h1
    refine ⟨row, hr, fun hc => h2 ?_⟩
    rw [(visible_reloadRow hn (h.rows j row hr)).2, ← List.length_eq_zero_iff, keptIds_length, hc]
    simp
  · rintro ⟨row, h1, h2⟩
    refine ⟨_, by rw [h1]; rfl, ?_⟩
    rw [(visible_reloadRow hn (h.rows j row h1)).2, ← List.length_pos_iff, keptIds_length]
    have := List.length_pos_iff.2 h2
    omega

theorem LayerInv.reload {n w : Nat} {Z : Nat → Prop} (hn : n ≤ UNUSED) {w' : Nat} (hw : 1 ≤ w') {R : Rows}
    (h : LayerInv n w Z R) : LayerInv n w' Z (reloadLayer w' R) := by
  refine ⟨by rw [reloadLayer, List.length_map, h.len], ?_, ?_⟩
  · intro i row' hi
    rw [reloadLayer, List.getElem?_map] at hi
    obtain ⟨row, hr, rfl⟩ := Option.map_eq_some_iff.1 hi
    exact (visible_reloadRow hn (h.rows i row hr)).1
  · intro i row' hi j hj h0
    rw [reloadLayer, List.getElem?_map] at hi
    obtain ⟨row, hr, rfl⟩ := Option.map_eq_some_iff.1 hi
    rw [(visible_reloadRow hn (h.rows i row hr)).2] at hj
    exact (reload_NE hn hw h j).2 (h.pub i row hr j (mem_keptIds hj) h0)

theorem lastLen_ge {w total : Nat} {Z : Nat → Prop} {layers : List Layer}
    (h : StackInv w total Z (layers.map Layer.rows)) {l : Layer} (hl : l ∈ layers) :
    l.rows.length ≤ lastLen layers := by
  rcases List.eq_nil_or_concat layers with rfl | ⟨init, last, rfl⟩
  · simp at hl
  · rw [List.concat_eq_append, lastLen_append]
    rw [List.concat_eq_append] at hl h
    rcases List.mem_append.1 hl with h1 | h1
    · have := h.nested
      rw [List.map_append, List.pairwise_append] at this
      exact (this.2.2 l.rows (List.mem_map_of_mem h1) last.rows (by simp)).1
    · rw [List.mem_singleton] at h1; subst h1; exact Nat.le_refl _

/-- The builder that is loaded from a file `b` was saved to. -/
def Builder.reloadWith (b : Builder E D) (config : BuildConfig D) (es : Elements E D) : Builder E D :=
  ⟨es, b.layers.map fun l => ⟨config.numNeighbors, reloadLayer config.numNeighbors l.rows⟩, config⟩

theorem BuilderInv.reloaded {b : Builder E D} (h : BuilderInv b) {config : BuildConfig D} {es : Elements E D}
    (heps : config.eps = b.config.eps) (hw : 1 ≤ config.numNeighbors) (hsame : SamePrefix (lastLen b.layers) b.elements es)
    (hsz : es.data.length < UNUSED) : BuilderInv (b.reloadWith config es) := by
  unfold Builder.reloadWith
  have hle : ∀ l ∈ b.layers, l.rows.length ≤ lastLen b.layers := fun l hl => lastLen_ge h.stack hl
  have hn : ∀ l ∈ b.layers, l.rows.length ≤ UNUSED := by
    intro l hl
    have := (h.stack.layer l.rows (List.mem_map_of_mem hl)).2.2
    have := h.size
    omega
  refine ⟨hsz, ⟨?_, ?_⟩, ?_⟩
  · intro R hR
    simp only [List.map_map, List.mem_map, Function.comp_apply] at hR
    obtain ⟨l, hl, rfl⟩ := hR
    obtain ⟨h1, h2, h3⟩ := h.stack.layer l.rows (List.mem_map_of_mem hl)
    have hl' := hle l hl
    have hlen' : (reloadLayer config.numNeighbors l.rows).length = l.rows.length := by simp [reloadLayer]
    rw [hlen']
    refine ⟨?_, h2, ?_⟩
    · refine (h1.reload (hn l hl) hw).mono ?_
      rintro j hj ⟨d, hd, hlt⟩
      refine ⟨d, ?_, heps ▸ hlt⟩
      have hj' : es.data[j]? = b.elements.data[j]? := hsame.2 j (by omega)
      simpa [Elements.dist?, Elements.distTo, hsame.1, hj'] using hd
    · have hlast := hsame.2 (l.rows.length - 1) (by omega)
      have h4 : l.rows.length - 1 < b.elements.data.length := by omega
      rw [List.getElem?_eq_getElem h4] at hlast
      have := (List.getElem?_eq_some_iff.1 hlast).1
      simp only
      omega
  · rw [List.map_map, List.pairwise_map]
    have := h.stack.nested
    rw [List.pairwise_map] at this
    refine this.imp_of_mem ?_
    intro l1 l2 hl1 hl2 ⟨h1, h2⟩
    simp only [Function.comp_apply]
    refine ⟨by simpa [reloadLayer] using h1, fun j hj => ?_⟩
    have i1 := (h.stack.layer l1.rows (List.mem_map_of_mem hl1)).1
    have i2 := (h.stack.layer l2.rows (List.mem_map_of_mem hl2)).1
    exact (reload_NE (hn l2 hl2) hw i2 j).2 (h2 j ((reload_NE (hn l1 hl1) hw i1 j).1 hj))
  · intro l hl
    obtain ⟨l0, _, rfl⟩ := List.mem_map.1 hl
    rfl

theorem BuilderInv.reload {b b' : Builder E D} (h : BuilderInv b) {f f' : Bytes} {start : Nat}
    {config : BuildConfig D} {es : Elements E D} (hs : saveIndex (.fixWidth b.layers) f start = (f', true))
    (hlen : f'.length < 2 ^ 64) (heps : config.eps = b.config.eps) (hw : 1 ≤ config.numNeighbors)
    (hsame : SamePrefix (lastLen b.layers) b.elements es)
    (hb : Builder.fromBytes config (f'.drop start) es = some b') : BuilderInv b' := by
  rw [fromBytes_saved h.padded hs hlen] at hb
  split at hb
  · next hsz => cases hb; exact h.reloaded heps hw hsame hsz
  · cases hb

omit [LinearOrder D] in
theorem fromBytes_config {config : BuildConfig D} {buffer : Bytes} {es : Elements E D} {b : Builder E D}
    (h : Builder.fromBytes config buffer es = some b) : b.config = config ∧ b.elements = es ∧ es.data.length < UNUSED := by
  unfold Builder.fromBytes Builder.new at h
  by_cases hn : es.data.length < UNUSED
  · rw [if_pos hn] at h
    simp only at h
    split at h
    · cases h
    · split at h
      · cases h
      · cases h; exact ⟨rfl, rfl, hn⟩
  · rw [if_neg hn] at h; cases h

end Granne
