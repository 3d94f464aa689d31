import Verif.Proofs.Size
import Verif.Spec.Json
import Verif.Props.Build
import Verif.Props.Search
import Verif.Proofs.Crash

/-!
Properties of saving and loading: C06 - C10, C13, C21.

`saveIndex L f start` models `write_index` on a writer at position `start` of a file with content `f`: the content
afterwards, and whether the call returned (`false`: it panicked). `loadLayers buffer` models `Granne::from_bytes`
and `from_file` (`none`: a panic). `L.graphs` are the neighbor lists of all layers as a search sees them (`none`:
reading them panics).
-/
namespace Granne
open List Spec

variable {E D : Type} [LinearOrder D] {srt : List (Nat × D) → List (Nat × D)}

/-! ### A concrete index -/

/-- Two layers, built, over 5 nodes. -/
def exStored : Layers := .fixWidth [⟨2, [[1, UNUSED], [0, UNUSED]]⟩,
  ⟨3, [[2, 1, UNUSED], [0, 3, UNUSED], [4, 0, UNUSED], [1, UNUSED, UNUSED], [2, UNUSED, UNUSED]]⟩]

theorem exStored_state : IndexState exStored := by
  refine .built _ ?_
  have h : ∀ row ∈ [[1, UNUSED], [0, UNUSED], [2, 1, UNUSED], [0, 3, UNUSED], [4, 0, UNUSED], [1, UNUSED, UNUSED],
      [2, UNUSED, UNUSED]], (∀ n ∈ row, n < 2 ^ 32) ∧ Padded row := by
    intro row hrow
    refine ⟨(by decide : ∀ row ∈ [[1, UNUSED], [0, UNUSED], [2, 1, UNUSED], [0, 3, UNUSED], [4, 0, UNUSED],
      [1, UNUSED, UNUSED], [2, UNUSED, UNUSED]], ∀ n ∈ row, n < 2 ^ 32) row hrow, visible row,
      row.length - (visible row).length, ?_, ?_⟩
    · revert row; decide
    · revert row; decide
  intro l hl row hrow
  refine h row ?_
  simp only [List.mem_cons, List.not_mem_nil, or_false] at hl
  rcases hl with rfl | rfl <;> simp at hrow <;> rcases hrow with rfl | rfl | rfl | rfl | rfl <;> simp

/-- The concrete index is saved without panic, at position 3 of a file of 2 bytes. -/
theorem exStored_saves : (saveIndex exStored [7, 7] 3).2 = true ∧ (saveIndex exStored [7, 7] 3).1.length < 2 ^ 64 := by
  decide +kernel

/-! ### C06 -/

/-- C06. Saving an index (in a builder, freshly compressed, or itself loaded) at any position of any file, and
loading it from there, gives the same number of layers, the same layer sizes and for every node the same neighbors
in ascending order, provided no node has more than 255 neighbors. What the file contained before does not matter. -/
theorem C06_save_load_preserves_graph (L : Layers) (hL : IndexState L) (gs : List (List (List Nat)))
    (hg : L.graphs = some gs) (h255 : ∀ g ∈ gs, ∀ l ∈ g, l.length ≤ 255)
    (f f' : Bytes) (start : Nat) (hs : saveIndex L f start = (f', true)) (hlen : f'.length < 2 ^ 64) :
    ∃ vs gs', loadLayers (f'.drop start) = some vs ∧ (Layers.compressed vs).graphs = some gs' ∧
      List.Forall₂ (List.Forall₂ fun l l' : List Nat => l'.Perm l ∧ l'.Pairwise (· ≤ ·)) gs gs' := by
  obtain ⟨lists, h⟩ := hL.hasLists
  obtain ⟨vs, nn, h1, _, _, _, _, h6⟩ := save_load h hs
  refine ⟨vs, _, h6 hlen, loaded_graphs h h1 hg h255, ?_⟩
  rw [List.forall₂_map_right_iff]
  refine List.forall₂_same.2 fun g _ => ?_
  rw [List.forall₂_map_right_iff]
  exact List.forall₂_same.2 fun l _ => ⟨sortIds_perm l, sortIds_sorted l⟩

/-- C06. Nodes with more than 255 neighbors keep the 255 with the smallest ids; nothing else changes. -/
theorem C06_long_lists_cut (L : Layers) (hL : IndexState L) (gs : List (List (List Nat)))
    (hg : L.graphs = some gs) (f f' : Bytes) (start : Nat) (hs : saveIndex L f start = (f', true))
    (hlen : f'.length < 2 ^ 64) :
    ∃ vs gs', loadLayers (f'.drop start) = some vs ∧ (Layers.compressed vs).graphs = some gs' ∧
      List.Forall₂ (List.Forall₂ fun l l' : List Nat => ∃ s : List Nat, s.Perm l ∧ s.Pairwise (· ≤ ·) ∧ l' = s.take 255)
        gs gs' := by
  obtain ⟨lists, h⟩ := hL.hasLists
  obtain ⟨vs, nn, h1, _, _, _, _, h6⟩ := save_load h hs
  have e := (HasLists.comp vs lists h1).graphs.1 vs rfl
  refine ⟨vs, _, h6 hlen, e, ?_⟩
  cases L with
  | fixWidth ls =>
    have := h.graphs.2 ls rfl
    rw [hg] at this
    cases this
    rw [List.forall₂_map_right_iff]
    refine List.forall₂_same.2 fun g _ => ?_
    rw [List.forall₂_map_right_iff]
    exact List.forall₂_same.2 fun l _ => ⟨sortIds l, sortIds_perm l, sortIds_sorted l, rfl⟩
  | compressed us =>
    have := h.graphs.1 us rfl
    rw [hg] at this
    cases this
    refine List.forall₂_same.2 fun g hgm => ?_
    refine List.forall₂_same.2 fun l hl => ?_
    obtain ⟨g0, _, rfl⟩ := List.mem_map.1 hgm
    obtain ⟨l0, _, rfl⟩ := List.mem_map.1 hl
    exact ⟨_, List.Perm.refl _, (sortIds_sorted l0).sublist (List.take_sublist _ _),
      (List.take_of_length_le (by simp)).symm⟩

theorem BuilderInv.rows_lt {b : Builder E D} (h : BuilderInv b) :
    ∀ g ∈ b.layers.map fun l => l.rows.map fun row => row.filter (· != UNUSED), g.length < 2 ^ 32 := by
  intro g hg
  obtain ⟨la, hla, rfl⟩ := List.mem_map.1 hg
  have := (h.stack.layer la.rows (List.mem_map_of_mem hla)).2.2
  have hsz := h.size
  unfold UNUSED at hsz
  rw [List.length_map]; omega

/-- C06 for builders: every state a builder can get into is an index as above, its lists have at most
`num_neighbors` entries, so that with `num_neighbors ≤ 255` nothing is lost. -/
theorem C06_builder (hsrt : IsSortByDist srt) (b : Builder E D) (hb : Reachable srt b) (hc : GoodConfig b.config)
    (h255 : b.config.numNeighbors ≤ 255) (f f' : Bytes) (start : Nat)
    (hs : saveIndex (.fixWidth b.layers) f start = (f', true)) (hlen : f'.length < 2 ^ 64) :
    ∃ vs gs', loadLayers (f'.drop start) = some vs ∧ (Layers.compressed vs).graphs = some gs' ∧
      List.Forall₂ (List.Forall₂ fun l l' : List Nat => l'.Perm l ∧ l'.Pairwise (· ≤ ·)) b.graphs gs' := by
  have hinv := hb.inv hsrt hc
  refine C06_save_load_preserves_graph _ hinv.indexState b.graphs rfl ?_ f f' start hs hlen
  intro g hg l hl
  obtain ⟨la, hla, rfl⟩ := List.mem_map.1 hg
  obtain ⟨row, hrow, rfl⟩ := List.mem_map.1 hl
  have hi := hinv.stack.layer la.rows (List.mem_map_of_mem hla)
  obtain ⟨i, hlt, he⟩ := List.getElem_of_mem hrow
  exact le_trans (hi.1.rows i row (by rw [List.getElem?_eq_getElem hlt, he])).len h255

/-- C06. The file a builder saves is small compared to what 64 bits can address: the hypothesis of `C06_builder` on its
size holds whenever the file was not larger before and the position is below `2^63`. -/
theorem C06_builder_size (hsrt : IsSortByDist srt) (b : Builder E D) (hb : Reachable srt b) (hc : GoodConfig b.config)
    (f f' : Bytes) (start : Nat) (hs : saveIndex (.fixWidth b.layers) f start = (f', true)) :
    f'.length ≤ max f.length (start + 2 ^ 54) := by
  have hinv := hb.inv hsrt hc
  refine saved_size (HasLists.fix b.layers (fun l hl row hr => (hinv.padded l hl row hr).1)
    fun l hl row hr => (hinv.padded l hl row hr).2) (hinv.rows_lt) hs

/-- C06. For a builder the save itself does not panic as long as there are at most 19 layers. -/
theorem C06_builder_save_returns (hsrt : IsSortByDist srt) (b : Builder E D) (hb : Reachable srt b)
    (hc : GoodConfig b.config) (h19 : b.layers.length ≤ 19) (f : Bytes) (start : Nat) :
    (saveIndex (.fixWidth b.layers) f start).2 = true := by
  have hinv := hb.inv hsrt hc
  have h := HasLists.fix b.layers (fun l hl row hr => (hinv.padded l hl row hr).1)
    fun l hl row hr => (hinv.padded l hl row hr).2
  obtain ⟨vs, h1, _, h3⟩ := h.emits
  have h3 := h3 (start + METADATA_LEN)
  have hl2 := h1.length_eq
  have hlens : ∀ n ∈ ((vs.map SetVec.toBytes).map List.length), n ≤ (vs.map SetVec.toBytes).flatten.length := by
    intro n hn
    obtain ⟨b, hb, rfl⟩ := List.mem_map.1 hn
    exact length_le_flatten hb
  -- the number of neighbors of the first node of the last layer
  obtain ⟨nn, hnn, hnn64⟩ : ∃ nn, (Layers.fixWidth b.layers).numNeighbors = some nn ∧ nn < 2 ^ 64 := by
    unfold Layers.numNeighbors
    rcases Option.eq_none_or_eq_some b.layers.getLast? with hn | ⟨la, hla⟩
    · exact ⟨0, by simp [hn], by decide⟩
    · have hi := hinv.stack.layer la.rows (List.mem_map_of_mem (List.mem_of_getLast? hla))
      have hr : la.rows[0]? = some la.rows[0] := List.getElem?_eq_getElem hi.2.1
      refine ⟨(visible la.rows[0]).length, by simp [hla, hr], ?_⟩
      have hrow := hi.1.rows 0 _ hr
      have hsz := hinv.size
      have : (visible la.rows[0]).length ≤ la.rows.length := by
        have h2 : (visible la.rows[0]).Subperm (List.range la.rows.length) :=
          List.subperm_of_subset hrow.nodup fun j hj => List.mem_range.2 (hrow.ids j hj).1
        simpa using h2.length_le
      unfold UNUSED at hsz
      have := hi.2.2
      omega
  have he := saveIndex_eq hnn h.counts h3 f
  by_cases hfit : (metadataText nn ((b.layers.map fun l => l.rows.map fun row => row.filter (· != UNUSED)).map
      List.length) ((vs.map SetVec.toBytes).map List.length)).length ≤ METADATA_LEN
  · rw [he.1 hfit]
  · exfalso
    have hb64 : (vs.map SetVec.toBytes).flatten.length < 2 ^ 64 := by
      have := flatten_size_le h1 hinv.rows_lt
      rw [List.length_map] at this
      omega
    apply hfit
    refine le_trans (metadataText_length_le hnn64 ?_ (fun n hn => lt_of_le_of_lt (hlens n hn) hb64) ?_) ?_
    · intro n hn
      obtain ⟨g, hg, rfl⟩ := List.mem_map.1 hn
      obtain ⟨la, hla, rfl⟩ := List.mem_map.1 hg
      have := (hinv.stack.layer la.rows (List.mem_map_of_mem hla)).2.2
      have hsz := hinv.size
      unfold UNUSED at hsz
      rw [List.length_map]; omega
    · simp only [List.length_map]; omega
    · simp only [List.length_map] at hl2 ⊢
      unfold METADATA_LEN
      omega

/-- Non-vacuity: the concrete index satisfies the hypotheses. -/
example : ∃ gs, exStored.graphs = some gs ∧ (∀ g ∈ gs, ∀ l ∈ g, l.length ≤ 255) ∧ gs.length = 2 ∧
    IndexState exStored ∧ (saveIndex exStored [7, 7] 3).2 = true ∧ (saveIndex exStored [7, 7] 3).1.length < 2 ^ 64 :=
  ⟨_, rfl, by decide, rfl, exStored_state, exStored_saves⟩

/-! ### C07 -/

/-- C07. Every search in the loaded index returns exactly what it returns in the original (including panics). -/
theorem C07_save_load_preserves_search (L : Layers) (hL : IndexState L) (gs : List (List (List Nat)))
    (hg : L.graphs = some gs) (h255 : ∀ g ∈ gs, ∀ l ∈ g, l.length ≤ 255)
    (f f' : Bytes) (start : Nat) (hs : saveIndex L f start = (f', true)) (hlen : f'.length < 2 ^ 64) :
    ∃ vs gs', loadLayers (f'.drop start) = some vs ∧ (Layers.compressed vs).graphs = some gs' ∧
      ∀ (es : Elements E D) (q : E) (maxSearch k : Nat), search gs' es q maxSearch k = search gs es q maxSearch k := by
  obtain ⟨vs, gs', h1, h2, h3⟩ := C06_save_load_preserves_graph L hL gs hg h255 f f' start hs hlen
  refine ⟨vs, gs', h1, h2, fun es q maxSearch k => (C05_neighbor_sets_only gs gs' es (h3.imp ?_) q maxSearch k).symm⟩
  intro g g' h
  refine ⟨h.length_eq, fun i j => ?_⟩
  have hrow : ∀ i : Nat, (g[i]? = none ∧ g'[i]? = none) ∨ ∃ l l' : List Nat, g[i]? = some l ∧ g'[i]? = some l' ∧ l'.Perm l := by
    induction h with
    | nil => intro i; left; simp
    | cons hab _ ih =>
      intro i
      cases i with
      | zero => right; exact ⟨_, _, rfl, rfl, hab.1⟩
      | succ i => simpa using ih i
  unfold Edge
  rcases hrow i with ⟨e1, e2⟩ | ⟨l, l', e1, e2, hp⟩
  · simp [e1, e2]
  · simp [e1, e2, hp.mem_iff]

/-! ### C08 -/

/-- C08. An index is written as a block of bytes that depends neither on the file nor on the position; only that
block of the file changes. Saving the index loaded from it, anywhere, writes the same block. -/
theorem C08_resave_identical (L : Layers) (hL : IndexState L) (gs : List (List (List Nat)))
    (hg : L.graphs = some gs) (h255 : ∀ g ∈ gs, ∀ l ∈ g, l.length ≤ 255)
    (f f' : Bytes) (start : Nat) (hs : saveIndex L f start = (f', true)) (hlen : f'.length < 2 ^ 64)
    (vs : List SetVec) (hv : loadLayers (f'.drop start) = some vs) :
    ∃ image : Bytes, 1024 ≤ image.length ∧ f' = overwrite f start image ∧
      ∀ (g : Bytes) (p : Nat), saveIndex L g p = (overwrite g p image, true) ∧
        saveIndex (.compressed vs) g p = (overwrite g p image, true) := by
  obtain ⟨lists, h⟩ := hL.hasLists
  obtain ⟨vs', nn, h1, h2, hnn, hfit, e, h6⟩ := save_load h hs
  have := h6 hlen
  rw [hv] at this
  cases this
  have hne := imageOf_ne_nil nn vs lists
  have how : ∀ (g : Bytes) (p : Nat), overwrite g p (imageOf nn vs lists) = writeAt g p (imageOf nn vs lists) := by
    intro g p; unfold overwrite writeAt; rw [if_neg hne]
  refine ⟨imageOf nn vs lists, ?_, by rw [how, e], fun g p => ⟨?_, ?_⟩⟩
  · rw [imageOf, List.length_append, padMetadata_length hfit, METADATA_LEN]; omega
  · rw [how]
    exact (saveIndex_eq hnn h.counts (h2 (p + METADATA_LEN)) g).1 hfit
  · rw [how]
    have hc := HasLists.comp vs lists h1
    have hnn' := numNeighbors_same h h1 hg h255
    rw [hnn] at hnn'
    exact (saveIndex_eq hnn' hc.counts (writeCompressed_emits vs (p + METADATA_LEN)) g).1 hfit

/-- C08. What was in the file before the start position is not touched. -/
theorem C08_earlier_bytes_untouched (L : Layers) (hL : IndexState L) (f : Bytes) (start : Nat)
    (hstart : start ≤ f.length) : ((saveIndex L f start).1).take start = f.take start := by
  obtain ⟨lists, h⟩ := hL.hasLists
  rcases Option.eq_none_or_eq_some L.numNeighbors with hnn | ⟨nn, hnn⟩
  · rw [writeIndex_no_neighbors hnn]
  · obtain ⟨vs, h1, _, h3⟩ := h.emits
    obtain ⟨s1, s2⟩ := saveIndex_eq hnn h.counts (h3 _) f
    by_cases hfit : (metadataText nn (lists.map List.length) ((vs.map SetVec.toBytes).map List.length)).length ≤
        METADATA_LEN
    · rw [s1 hfit]
      simp only
      exact take_writeAt f _ start hstart
    · rw [s2 hfit]
      apply List.ext_getElem?
      intro i
      by_cases hi : i < start
      · rw [List.getElem?_take_of_lt hi, List.getElem?_take_of_lt hi]
        by_cases hne : (vs.map SetVec.toBytes).flatten = []
        · rw [hne, writeAt_nil]
        · rw [writeAt_getElem? hne, if_pos (by omega), if_pos (by omega)]
      · rw [List.getElem?_eq_none (by simp; omega), List.getElem?_eq_none (by simp; omega)]

/-! ### C09 -/

/-- C09. The byte effects of a save are what it does to the file: all of them together give the saved file. -/
theorem C09_effects_complete (L : Layers) (f : Bytes) (start : Nat) :
    applyBytes f (saveEffects L start) = (saveIndex L f start).1 := applyBytes_saveEffects L f start

/-- C09. Whenever saving into a fresh file stops after only some of its byte effects, in order, the file does not
load. Sole exception: an index without layers, of which the blanks behind the metadata may be missing; it loads as
what it is, an index without layers. -/
theorem C09_crash_detected (L : Layers) (hL : IndexState L) (n : Nat) (hn : n < (saveEffects L 0).length) :
    loadLayers (applyBytes [] ((saveEffects L 0).take n)) = none ∨
      (L.graphs = some [] ∧ loadLayers (applyBytes [] ((saveEffects L 0).take n)) = some []) := by
  obtain ⟨lists, h⟩ := hL.hasLists
  rcases crash_rejected h (Or.inl hn) with h1 | ⟨rfl, h2⟩
  · exact Or.inl h1
  · refine Or.inr ⟨?_, h2⟩
    cases L with
    | fixWidth ls => exact h.graphs.2 ls rfl
    | compressed us => exact h.graphs.1 us rfl

/-- C09. With at least one layer there is no exception. -/
theorem C09_crash_detected_nonempty (L : Layers) (hL : IndexState L) (hne : L.graphs ≠ some []) (n : Nat)
    (hn : n < (saveEffects L 0).length) : loadLayers (applyBytes [] ((saveEffects L 0).take n)) = none := by
  rcases C09_crash_detected L hL n hn with h | h
  · exact h
  · exact absurd h.1 hne

/-- Non-vacuity: the concrete index has at least 1024 byte effects. -/
example : 1024 < (saveEffects exStored 0).length ∧ exStored.graphs ≠ some [] := by
  constructor
  · decide +kernel
  · simp [exStored, Layers.graphs]

/-! ### C10 -/

/-- C10 (positive part). If `write_index` returns `Ok`, every file operation before the final `Drop` of the
`BufWriter` succeeded: a failure of any earlier operation is reported. Missing from the full property: the
operation performed by `Drop`, see `C10_last_failure_swallowed`. -/
theorem C10_earlier_failures_reported_partial (L : Layers) (fail : Nat → Bool) (f : Bytes) (start k : Nat)
    (hk : k < (saveFailing L (fun _ => false) f start).2.2) (hfail : fail k = true) :
    (saveFailing L fail f start).2.1 = .error := by
  unfold saveFailing at hk ⊢
  simp only at hk ⊢
  generalize (writeIndex L ⟨start, []⟩).1.ops = ops at *
  rcases hr : bufRun fail ops ⟨f, start, [], 0⟩ with ⟨s, ok⟩
  cases ok with
  | false => rfl
  | true =>
    obtain ⟨h1, _, h3⟩ := bufRun_ok hr
    change k < (bufRun never ops ⟨f, start, [], 0⟩).1.calls at hk
    rw [h1] at hk
    have := h3 k (Nat.zero_le _) hk
    rw [hfail] at this; cases this

/-- C10 (violated). For every index that can be saved at all there is a pattern of failures, with a single failing
file operation, for which `write_index` returns `Ok` although the metadata never reaches the file: saved to a
fresh file, the index cannot be loaded. -/
theorem C10_last_failure_swallowed (L : Layers) (hL : IndexState L) (hs : (saveIndex L [] 0).2 = true) :
    ∃ (fail : Nat → Bool) (k : Nat), (∀ i, fail i = true ↔ i = k) ∧ (saveFailing L fail [] 0).2.1 = .ok ∧
      loadLayers (saveFailing L fail [] 0).1 = none := by
  obtain ⟨lists, h⟩ := hL.hasLists
  rcases Option.eq_none_or_eq_some L.numNeighbors with hnn | ⟨nn, hnn⟩
  · rw [writeIndex_no_neighbors hnn] at hs; cases hs
  obtain ⟨vs, h1, _, h3⟩ := h.emits
  obtain ⟨pre, ⟨pre', hpre⟩, p1, p2, p3, p4⟩ := writeIndex_runs hnn h.counts (h3 (0 + METADATA_LEN))
  by_cases hfit : (metaOf nn vs lists).length ≤ METADATA_LEN
  · obtain ⟨p', hr⟩ := p3 hfit
    have hpl := padMetadata_length hfit
    have hops := hr []
    rcases hb : bufRun never pre ⟨[], 0, [], 0⟩ with ⟨s, ok⟩
    have hok : ok = true := by have := bufRun_never pre ⟨[], 0, [], 0⟩; rw [hb] at this; exact this
    subst hok
    have hbuf : s.buf = [] := by rw [hpre] at hb; exact bufRun_seek_empty hb
    refine ⟨fun i => i == s.calls, s.calls, by simp, ?_⟩
    have hb2 : bufRun (fun i => i == s.calls) pre ⟨[], 0, [], 0⟩ = (s, true) :=
      bufRun_congr hb fun k _ hk => by simp; omega
    have hb3 : bufRun (fun i => i == s.calls) (pre ++ [.write (padMetadata (metaOf nn vs lists))]) ⟨[], 0, [], 0⟩ =
        ({ s with buf := padMetadata (metaOf nn vs lists) }, true) := by
      rw [bufRun_append hb2]
      simp only [bufRun, bufOp, bufWrite]
      rw [if_pos (by rw [hbuf, hpl]; decide), hbuf]
      rfl
    have hne : padMetadata (metaOf nn vs lists) ≠ [] := by
      intro hc; rw [hc] at hpl; simp [METADATA_LEN] at hpl
    have hres : saveFailing L (fun i => i == s.calls) [] 0 = (s.file, .ok, s.calls) := by
      unfold saveFailing
      rw [hops]
      simp only [List.nil_append]
      rw [show metadataText nn (lists.map List.length) ((vs.map SetVec.toBytes).map List.length) = metaOf nn vs lists
        from rfl, hb3]
      simp [flushBuf, innerWrite, hne]
    rw [hres]
    refine ⟨rfl, ?_⟩
    obtain ⟨E', rest, e1, e2, e3⟩ := bufRun_moves (f := []) (E := []) rfl hb
    rw [e3 rfl, hbuf] at e2
    simp only [eff_nil, List.append_nil, List.nil_append, BufState.cursor, List.length_nil, Nat.add_zero] at e2
    rw [e1, e2]
    apply loadLayers_none
    apply readLayerSizes_low
    intro i hi
    rw [Nat.zero_add] at p2
    exact applyBytes_low (q := METADATA_LEN) p2 (low_nil _) i (by unfold METADATA_LEN; omega)
  · rw [(saveIndex_eq hnn h.counts (h3 _) []).2 hfit] at hs; cases hs

/-- C10 with C09: whatever operations fail while saving to a fresh file, and whatever is returned, the file does
not load as a wrong index: it is rejected, it holds the complete index, or the index had no layers. -/
theorem C10_failures_never_corrupt (L : Layers) (hL : IndexState L) (fail : Nat → Bool) :
    loadLayers (saveFailing L fail [] 0).1 = none ∨
      (saveIndex L [] 0).2 = true ∧ (saveFailing L fail [] 0).1 = (saveIndex L [] 0).1 ∨
      (L.graphs = some [] ∧ loadLayers (saveFailing L fail [] 0).1 = some []) := by
  obtain ⟨n, hn⟩ := saveFailing_prefix L fail [] 0
  change _ = applyBytes [] ((saveEffects L 0).take n) at hn
  obtain ⟨lists, h⟩ := hL.hasLists
  by_cases hlt : n < (saveEffects L 0).length
  · rw [hn]
    rcases C09_crash_detected L hL n hlt with h1 | h2
    · exact Or.inl h1
    · exact Or.inr (Or.inr h2)
  · by_cases hs : (saveIndex L [] 0).2 = true
    · right; left
      refine ⟨hs, ?_⟩
      rw [hn, List.take_of_length_le (by omega), applyBytes_saveEffects]
    · rw [hn]
      rcases crash_rejected (n := n) h (Or.inr (by simpa using hs)) with h1 | ⟨rfl, h2⟩
      · exact Or.inl h1
      · refine Or.inr (Or.inr ⟨?_, h2⟩)
        cases L with
        | fixWidth ls => exact h.graphs.2 ls rfl
        | compressed us => exact h.graphs.1 us rfl

/-- C10. Without failures the buffering is transparent: the same file and the same result as `saveIndex`. -/
theorem C10_no_failures (L : Layers) (f : Bytes) (start : Nat) :
    (saveFailing L (fun _ => false) f start).1 = (saveIndex L f start).1 ∧
    (saveFailing L (fun _ => false) f start).2.1 = if (saveIndex L f start).2 then .ok else .panic :=
  saveFailing_never L f start

/-- Non-vacuity: the concrete index can be saved, with several file operations before the `Drop`. -/
example : (saveIndex exStored [] 0).2 = true ∧ 10 < (saveFailing exStored (fun _ => false) [] 0).2.2 := by
  decide +kernel

/-! ### C13 -/

/-- C13. A metadata text of at most 1024 bytes becomes a block of exactly 1024 bytes, from which, whatever follows
it, the layer sizes are read back. -/
theorem C13_metadata_roundtrip (numNeighbors : Nat) (counts sizes : List Nat) (rest : Bytes)
    (hfit : (metadataText numNeighbors counts sizes).length ≤ 1024)
    (hc : ∀ n ∈ counts, n < 2 ^ 64) (hs : ∀ n ∈ sizes, n < 2 ^ 64) :
    (padMetadata (metadataText numNeighbors counts sizes)).length = 1024 ∧
    readLayerSizes (padMetadata (metadataText numNeighbors counts sizes) ++ rest) = some sizes := by
  refine ⟨padMetadata_length hfit, readLayerSizes_metadata hfit ?_ hc hs rest⟩
  have h1 := printNums_length counts
  have h2 : (printNums counts).length ≤ (metadataText numNeighbors counts sizes).length := by
    simp only [metadataText, List.length_append]; omega
  omega

/-- C13. Up to 19 layers (of up to `2^64` nodes and bytes) the metadata always fits. -/
theorem C13_nineteen_layers_fit (numNeighbors : Nat) (counts sizes : List Nat) (hnn : numNeighbors < 2 ^ 64)
    (hc : ∀ n ∈ counts, n < 2 ^ 64) (hs : ∀ n ∈ sizes, n < 2 ^ 64) (hl : counts.length = sizes.length)
    (h19 : counts.length ≤ 19) : (metadataText numNeighbors counts sizes).length ≤ 1024 := by
  have := metadataText_length_le hnn hc hs (by omega)
  omega

theorem field_lastMember {v : Json} {key : Bytes} {x : Json} (h : v.field key = x) (hx : x ≠ .null) :
    ∃ members, v = .obj members ∧ LastMember members key x := by
  unfold Json.field at h
  split at h
  · next l =>
    refine ⟨l, rfl, ?_⟩
    split at h
    · next p hp =>
      subst h
      obtain ⟨h1, as, bs, h2, h3⟩ := List.find?_eq_some_iff_append.1 hp
      have h2' := congrArg List.reverse h2
      rw [List.reverse_reverse, List.reverse_append, List.reverse_cons, List.append_assoc, List.singleton_append] at h2'
      obtain ⟨k, y⟩ := p
      simp only [beq_iff_eq] at h1
      subst h1
      refine ⟨bs.reverse, as.reverse, h2', fun q hq hc => ?_⟩
      have := h3 q (List.mem_reverse.1 hq)
      simp [hc] at this
    · exact absurd h.symm hx
  · exact absurd h.symm hx

theorem toUsizes_some {x : Json} {l : List Nat} (h : x.toUsizes = some l) : x = .arr (l.map .num) ∧ ∀ n ∈ l, n < 2 ^ 64 := by
  cases x with
  | arr js =>
    rw [Json.toUsizes] at h
    induction js generalizing l with
    | nil =>
      obtain rfl : l = [] := by simpa using h.symm
      exact ⟨rfl, by simp⟩
    | cons j js ih =>
      rw [List.mapM_cons] at h
      cases j with
      | num n =>
        rw [Json.toUsize] at h
        split at h
        · next hn =>
          rcases Option.eq_none_or_eq_some (js.mapM Json.toUsize) with h1 | ⟨l', h1⟩
          · rw [h1] at h; cases h
          · rw [h1] at h
            obtain rfl : n :: l' = l := by simpa using h
            obtain ⟨e1, e2⟩ := ih h1
            rw [Json.arr.injEq] at e1
            exact ⟨by rw [e1]; rfl, by simpa using ⟨hn, e2⟩⟩
        · cases h
      | _ => cases h
  | _ => cases h

/-- C13. A file is only accepted if it begins with the magic text and its metadata is a JSON object whose
`num_layers` is the number of its `layer_counts`; the sizes used are its `layer_sizes`. Of members with the same name
the last one counts. -/
theorem C13_inconsistent_rejected (buffer : Bytes) (vs : List SetVec) (h : loadLayers buffer = some vs) :
    (buffer.take 1024).take 6 = asc "granne" ∧
    ∃ (members : List (Bytes × Json)) (counts sizes : List Nat), JsonText 127 (.obj members) ((buffer.take 1024).drop 6) ∧
      LastMember members (asc "layer_counts") (.arr (counts.map .num)) ∧
      LastMember members (asc "num_layers") (.num counts.length) ∧
      LastMember members (asc "layer_sizes") (.arr (sizes.map .num)) ∧ (∀ n ∈ sizes, n < 2 ^ 64) ∧
      loadFrom buffer 1024 sizes = some vs := by
  unfold loadLayers at h
  rcases Option.eq_none_or_eq_some (readLayerSizes buffer) with h1 | ⟨sizes, h1⟩
  · rw [h1] at h; cases h
  · rw [h1] at h
    unfold readLayerSizes at h1
    simp only at h1
    split at h1
    · next hm =>
      refine ⟨hm, ?_⟩
      split at h1
      · cases h1
      · next metadata hj =>
        split at h1
        · next k counts hk hc =>
          split at h1
          · next he =>
            subst he
            obtain ⟨c1, _⟩ := toUsizes_some hc
            obtain ⟨s1, s2⟩ := toUsizes_some h1
            have hk' : metadata.field (asc "num_layers") = .num counts.length := by
              generalize metadata.field (asc "num_layers") = x at hk
              cases x with
              | num n =>
                rw [Json.toUsize] at hk
                split at hk
                · rw [Option.some.inj hk]
                · cases hk
              | _ => cases hk
            obtain ⟨m, rfl, l1⟩ := field_lastMember c1 (by simp)
            obtain ⟨m', e, l2⟩ := field_lastMember s1 (by simp)
            obtain rfl := Json.obj.inj e
            obtain ⟨m'', e, l3⟩ := field_lastMember hk' (by simp)
            obtain rfl := Json.obj.inj e
            exact ⟨m, counts, sizes, (parseJson_iff _ _).1 hj, l1, l3, l2, s2, h⟩
          · cases h1
        · cases h1
    · cases h1

/-- C13. A save that panics (in particular because the metadata does not fit) leaves a fresh file that does not
load. -/
theorem C13_panic_leaves_no_index (L : Layers) (hL : IndexState L) (hp : (saveIndex L [] 0).2 = false)
    (hne : L.graphs ≠ some []) : loadLayers (saveIndex L [] 0).1 = none := by
  obtain ⟨lists, h⟩ := hL.hasLists
  rcases crash_rejected (n := (saveEffects L 0).length) h (Or.inr hp) with h1 | ⟨rfl, _⟩
  · rwa [List.take_of_length_le (Nat.le_refl _), applyBytes_saveEffects] at h1
  · refine absurd ?_ hne
    cases L with
    | fixWidth ls => exact h.graphs.2 ls rfl
    | compressed us => exact h.graphs.1 us rfl

/-- C13. With very many layers the metadata does not fit: an index of more than 500 one-node layers cannot be
saved. -/
theorem C13_too_many_layers_panics (n : Nat) (hn : 500 < n) (f : Bytes) (start : Nat) :
    (saveIndex (.fixWidth (List.replicate n ⟨1, [[UNUSED]]⟩)) f start).2 = false := by
  have hst : IndexState (.fixWidth (List.replicate n ⟨1, [[UNUSED]]⟩)) := by
    refine .built _ ?_
    intro l hl row hrow
    obtain rfl := List.eq_of_mem_replicate hl
    simp only [List.mem_singleton] at hrow
    subst hrow
    exact ⟨by decide, [], 1, by decide, by simp⟩
  by_contra hc
  simp only [Bool.not_eq_false] at hc
  obtain ⟨lists, h⟩ := hst.hasLists
  rcases hsv : saveIndex (.fixWidth (List.replicate n ⟨1, [[UNUSED]]⟩)) f start with ⟨f', ok⟩
  rw [hsv] at hc
  simp only at hc
  subst hc
  obtain ⟨vs, nn, h1, _, _, h5, _, _⟩ := save_load h hsv
  have hgr := h.graphs.2 _ rfl
  simp only [Layers.graphs, Option.some.injEq] at hgr
  have hll : lists.length = n := by rw [← hgr]; simp
  have hvl : vs.length = n := by rw [h1.length_eq, hll]
  have p1 := printNums_length (lists.map List.length)
  have p2 := printNums_length ((vs.map SetVec.toBytes).map List.length)
  simp only [metaOf, metadataText, List.length_append, List.length_map] at h5 p1 p2
  have e2 : (asc "{\"compressed\":true,\"granne_version\":\"0.5.2\",\"layer_counts\":").length = 59 := by decide +kernel
  unfold METADATA_LEN at h5
  omega

/-- Non-vacuity: metadata of a real index. -/
example : (metadataText 20 [1000, 15000, 225000] [20000, 300000, 4500000]).length ≤ 1024 := by decide +kernel

/-! ### C21 -/

/-- C21. Loading a saved builder with any configuration and enough elements resumes its state: as many layers, as
many nodes in each, and each node keeps those of its neighbors (in ascending order) that fit into `num_neighbors`
slots; if they all fit (and there are at most 255), it keeps all. -/
theorem C21_reload_resumes (hsrt : IsSortByDist srt) (b : Builder E D) (hb : Reachable srt b) (hc : GoodConfig b.config)
    (f f' : Bytes) (start : Nat) (hs : saveIndex (.fixWidth b.layers) f start = (f', true)) (hlen : f'.length < 2 ^ 64)
    (config : BuildConfig D) (es : Elements E D) (hes : es.data.length < 4294967295) :
    ∃ b', Builder.fromBytes config (f'.drop start) es = some b' ∧ b'.elements = es ∧ b'.config = config ∧
      List.Forall₂ (fun old new : Layer => new.width = config.numNeighbors ∧
        List.Forall₂ (fun r r' : Row => ∃ s : List Nat, s.Perm (visible r) ∧ s.Pairwise (· ≤ ·) ∧
          visible r' = (s.take 255).take config.numNeighbors ∧
          (b.config.numNeighbors ≤ 255 → b.config.numNeighbors ≤ config.numNeighbors → visible r' = s))
          old.rows new.rows) b.layers b'.layers := by
  have hinv := hb.inv hsrt hc
  have hfb := fromBytes_saved (E := E) (D := D) hinv.padded hs hlen config es
  rw [if_pos (by unfold UNUSED; exact hes)] at hfb
  refine ⟨_, hfb, rfl, rfl, ?_⟩
  simp only
  rw [List.forall₂_map_right_iff]
  refine List.forall₂_same.2 fun l hl => ⟨rfl, ?_⟩
  unfold reloadLayer
  simp only
  rw [List.forall₂_map_right_iff]
  refine List.forall₂_same.2 fun row hrow => ?_
  have hi := hinv.stack.layer l.rows (List.mem_map_of_mem hl)
  obtain ⟨i, hlt, he⟩ := List.getElem_of_mem hrow
  have hrow' := hi.1.rows i row (by rw [List.getElem?_eq_getElem hlt, he])
  have hn : l.rows.length ≤ UNUSED := by have := hinv.size; have := hi.2.2; omega
  have hv := (visible_reloadRow hn (w' := config.numNeighbors) hrow').2
  refine ⟨sortIds (visible row), sortIds_perm _, sortIds_sorted _, hv, fun h1 h2 => ?_⟩
  rw [hv]
  unfold keptIds
  have hl2 := hrow'.len
  have hl3 := (sortIds_perm (visible row)).length_eq
  rw [List.take_take, List.take_of_length_le (by omega)]

/-- C21. A reloaded builder can do everything a builder can: it is again one of the states for which C14 - C20 and
C23 hold, if the new elements agree with the old ones as far as those were indexed. -/
theorem C21_reload_reachable (hsrt : IsSortByDist srt) (b b' : Builder E D) (hb : Reachable srt b) (hc : GoodConfig b.config)
    (f f' : Bytes) (start : Nat) (hs : saveIndex (.fixWidth b.layers) f start = (f', true)) (hlen : f'.length < 2 ^ 64)
    (config : BuildConfig D) (es : Elements E D) (heps : config.eps = b.config.eps)
    (hdist : es.dist = b.elements.dist) (hsame : ∀ i < lastLen b.layers, es.data[i]? = b.elements.data[i]?)
    (hfb : Builder.fromBytes config (f'.drop start) es = some b') :
    Reachable srt b' ∧ lastLen b'.layers = lastLen b.layers := by
  refine ⟨.reload b b' f f' start config es hb hc hs hlen heps ⟨hdist, hsame⟩ hfb, ?_⟩
  rw [fromBytes_saved (hb.inv hsrt hc).padded hs hlen] at hfb
  split at hfb
  · cases hfb
    unfold lastLen
    rw [List.getLast?_map]
    rcases Option.eq_none_or_eq_some b.layers.getLast? with hn | ⟨l, hl⟩
    · rw [hn]; rfl
    · rw [hl]; simp [reloadLayer]
  · cases hfb

/-- A configuration with a single layer. -/
def exConfigOne : BuildConfig Nat := ⟨fun total _ => total, none, 4, 3, false, 0⟩
/-- The same with two neighbors per node. -/
def exConfigTwo : BuildConfig Nat := ⟨fun total _ => total, none, 2, 3, false, 0⟩
/-- The six elements of `exData` indexed in one layer. -/
def exBuiltOne : Builder Int Nat := ⟨exData, [⟨4, [[5, 4, 1, 2], [5, 0, 2, 4], [1, 0, 4, UNUSED],
  [UNUSED, UNUSED, UNUSED, UNUSED], [0, 5, 1, 2], [0, 1, 4, UNUSED]]⟩], exConfigOne⟩

theorem exConfigOne_good : GoodConfig exConfigOne := by
  refine ⟨by decide, by decide, ⟨fun t i => by simp [exConfigOne], fun t i h => by simpa [exConfigOne] using h,
    fun t => ⟨0, fun i _ => by simp [exConfigOne]⟩⟩⟩

theorem exBuiltOne_reachable : Reachable exSort exBuiltOne := by
  refine .build ⟨exData, [], exConfigOne⟩ exBuiltOne 6 (.new exConfigOne exData _ rfl) ?_
  refine .fresh _ (by decide) (by decide) (by decide) rfl ?_
  refine .round _ exBuiltOne _ (by decide) ?_ (.done _ (by decide))
  exact .once [] ⟨4, []⟩ _ rfl (by decide) (indexSeq_outcome (by decide) (by decide +kernel)) rfl

/-- Non-vacuity: this builder is saved at position 2 of a file and reloaded with two neighbors per node. -/
example : ∃ f' b', saveIndex (.fixWidth exBuiltOne.layers) [1, 2, 3] 2 = (f', true) ∧ f'.length < 2 ^ 64 ∧
    Builder.fromBytes exConfigTwo (f'.drop 2) exData = some b' ∧
    b'.layers.map Layer.rows = [[[1, 2], [0, 2], [0, 1], [UNUSED, UNUSED], [0, 1], [0, 1]]] ∧ Reachable exSort b' := by
  have hs : (saveIndex (.fixWidth exBuiltOne.layers) [1, 2, 3] 2).2 = true ∧
    (saveIndex (.fixWidth exBuiltOne.layers) [1, 2, 3] 2).1.length < 2 ^ 64 := by decide +kernel
  rcases hsv : saveIndex (.fixWidth exBuiltOne.layers) [1, 2, 3] 2 with ⟨f', ok⟩
  rw [hsv] at hs
  obtain ⟨hok, hlen⟩ := hs
  simp only at hok hlen
  subst hok
  have hfb := fromBytes_saved (exBuiltOne_reachable.inv exSort_sorts exConfigOne_good).padded hsv hlen
    exConfigTwo exData
  rw [if_pos (by decide)] at hfb
  refine ⟨f', _, rfl, hlen, hfb, by decide +kernel, ?_⟩
  exact (C21_reload_reachable exSort_sorts exBuiltOne _ exBuiltOne_reachable exConfigOne_good _ _ _ hsv hlen exConfigTwo exData
    rfl rfl (fun _ _ => rfl) hfb).1

end Granne
