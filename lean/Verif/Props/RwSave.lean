import Verif.Proofs.RwSave
import Verif.Proofs.Truncated
import Verif.Props.Elements
import Verif.Props.OpenFile
import Verif.Props.Rw
import Verif.Props.SumIndex

/-!
C73: whenever the process dies while a concurrent builder saves to disk, and whatever operation on the files fails, the files that are
left behind do not open, or a search with them panics, or it gives the answer of the complete save.

`rwSaveOps` are the effects of `save_index_and_elements_to_disk` on the two files, byte by byte; `d.after ops` is the disk after some of
them; `searchVectors` and `searchTexts` open the files and search (`none`: opening or searching panics).
-/
namespace Granne
open List Spec

variable {D : Type} [LinearOrder D] {T : Type} [Scalar T]

/-! ### Lemmas -/

theorem map_length_zero {α : Type} {o : Option (List α)} (h : o.map List.length = some 0) : o = some [] := by
  cases o with
  | none => cases h
  | some l => rw [List.length_eq_zero_iff.1 (Option.some.inj h)]

theorem load_empty {L : Layers} (h : L.graphs = some []) : loadLayers (saveIndex L [] 0).1 = some [] := by
  apply map_length_zero
  cases L with
  | fixWidth ls =>
    have : ls = [] := by simpa [Layers.graphs] using h
    subst this
    decide +kernel
  | compressed us =>
    have : us = [] := by
      cases us with
      | nil => rfl
      | cons u t =>
        exfalso
        simp only [Layers.graphs] at h
        revert h
        simp only [List.mapM_cons, Option.bind_eq_bind, Option.pure_def]
        cases SetVec.graph u with
        | none => simp
        | some g => cases List.mapM SetVec.graph t <;> simp
    subst this
    decide +kernel

/-- The index file of an interrupted save. -/
theorem index_prefix (L : Layers) (hL : IndexState L) (j : Nat) :
    loadLayers (applyBytes [] ((saveEffects L 0).take j)) = none ∨
    loadLayers (applyBytes [] ((saveEffects L 0).take j)) = loadLayers (saveIndex L [] 0).1 := by
  by_cases hj : j < (saveEffects L 0).length
  · rcases C09_crash_detected L hL j hj with h | ⟨h1, h2⟩
    · exact Or.inl h
    · exact Or.inr (by rw [h2, load_empty h1])
  · right
    rw [List.take_of_length_le (by omega), applyBytes_saveEffects]

/-- Fewer vectors, no other index: the same answer or none. -/
theorem searchVectors_prefix (v : FixVec T) (dim : Nat) (rows : List (List T)) (hv : ShowsVectors v dim rows) (hd : 0 < dim)
    (hd' : dim < 2 ^ 64) (dist : List T → List T → D) (m : Nat) (ib ib' : Bytes)
    (hi : loadLayers ib = none ∨ loadLayers ib = loadLayers ib') (q : List T) (maxSearch k : Nat) (r : List (Nat × D))
    (h : (⟨some (v.bytes.take m), some ib⟩ : Disk).searchVectors dist q maxSearch k = some r) :
    (⟨some v.bytes, some ib'⟩ : Disk).searchVectors dist q maxSearch k = some r := by
  unfold Disk.searchVectors at h ⊢
  simp only at h ⊢
  rcases C30_truncated v dim rows hv hd hd' m with hn | ⟨c, v', hv1, hv2⟩
  · rw [hn] at h; cases h
  · rw [hv1] at h
    rw [C30_write_load_partial v dim rows hv hd hd']
    rcases hi with hi | hi
    · rw [hi] at h; cases h
    · rw [hi] at h
      cases hl : loadLayers ib' with
      | none => rw [hl] at h; cases h
      | some vs =>
        rw [hl] at h
        simp only at h ⊢
        refine searchWith_mono_dist ?_ ?_ _ h
        · intro i x hx
          obtain ⟨e, he, rfl⟩ := Option.map_eq_some_iff.1 hx
          have hlt : i < (rows.take c).length := by
            by_contra hc
            rw [hv2.outside i (by omega) hd] at he
            cases he
          have h1 := hv2.get i _ (List.getElem?_eq_getElem hlt)
          rw [h1] at he
          rw [List.length_take] at hlt
          rw [hv.get i e (by
            rw [← Option.some.inj he, List.getElem_take]
            exact List.getElem?_eq_getElem (by omega))]
          rfl
        · rw [hv2.len, hv.len, List.length_take]; omega

theorem getEmbedding_bind (s : SumEmb F32) (i : Nat) : s.getEmbedding i = (s.getTerms i).bind s.createEmbedding := by
  unfold SumEmb.getEmbedding SumEmb.getTerms
  cases s.elements.get i <;> rfl

/-- The same for texts. -/
theorem searchTexts_prefix (s : SumEmb F32) (hs : EmbState s) (hlen : s.len < 2 ^ 64) (m : Nat) (ib ib' : Bytes)
    (hi : loadLayers ib = none ∨ loadLayers ib = loadLayers ib') (q : List F32) (maxSearch k : Nat) (r : List (Nat × ℝ))
    (h : (⟨some (s.elements.bytes.take m), some ib⟩ : Disk).searchTexts s.embeddings q maxSearch k = some r) :
    (⟨some s.elements.bytes, some ib'⟩ : Disk).searchTexts s.embeddings q maxSearch k = some r := by
  unfold Disk.searchTexts at h ⊢
  simp only at h ⊢
  obtain ⟨a, ra, _⟩ := hs.repr
  have ht : ShowsTerms s a := ⟨ra.len_eq, ra.get_eq⟩
  have hfull : VarVec.fromBytes s.elements.bytes = some s.elements :=
    ra.rows.fromBytes_bytes (by rw [SumEmb.len, ra.len_eq] at hlen; simpa using hlen)
  obtain ⟨t1, t2⟩ := C32_truncated s hs hlen a ht m
  by_cases hm : 8 + 5 * (a.length + 1) ≤ m
  · obtain ⟨e, he, hel, hget, _⟩ := t2 hm
    rw [he] at h
    rw [hfull]
    rcases hi with hi | hi
    · rw [hi] at h; cases h
    · rw [hi] at h
      cases hl : loadLayers ib' with
      | none => rw [hl] at h; cases h
      | some vs =>
        rw [hl] at h
        simp only at h ⊢
        refine searchWith_mono_dist ?_ (by rw [hel]; exact le_rfl) _ h
        intro i x hx
        obtain ⟨y, hy, rfl⟩ := Option.map_eq_some_iff.1 hx
        have : sumElement s i = some y := by
          unfold sumElement at hy ⊢
          rw [getEmbedding_bind] at hy ⊢
          cases hg : (⟨s.embeddings, e⟩ : SumEmb F32).getTerms i with
          | none => rw [hg] at hy; cases hy
          | some l =>
            rw [hg] at hy
            rw [ht.get, hget i l hg]
            exact hy
        change Option.map _ (sumElement s i) = _
        rw [this]
        rfl
  · rw [t1 (by omega)] at h
    cases h

omit [LinearOrder D] in
theorem flatten_writes (v : FixVec T) : v.writes.flatten = v.bytes := by simp [FixVec.writes, FixVec.bytes]

theorem flatten_writes' (e : Elems) : e.writes.flatten = e.bytes := by simp [VarVec.writes, VarVec.bytes]

theorem flushed_file {ws : List Bytes} {s : BufState} (h : bufRun (fun _ => false) (ws.map .write) ⟨[], 0, [], 0⟩ = (s, true)) :
    (flushBuf (fun _ => false) s).1.file = ws.flatten := by
  obtain ⟨E', rest, h1, h2, h3⟩ := bufRun_moves (f := []) (E := []) rfl h
  simp only [eff_nil, List.append_nil, List.nil_append, BufState.cursor, List.length_nil, Nat.add_zero, byteEffects_writes] at h2
  rw [h3 rfl, List.append_nil] at h2
  rcases hfl : flushBuf (fun _ => false) s with ⟨s', ok'⟩
  obtain ⟨a, b⟩ := flushBuf_moves h1 hfl
  have hok : ok' = true := by
    have : (flushBuf (fun _ => false) s).2 = true := by unfold flushBuf innerWrite; split <;> simp
    rw [hfl] at this; exact this
  simp only
  rw [(b hok).1, h2, applyBytes_eff, writeAt_nil_zero]

/-! ### C73 -/

/-- C73. Vectors: the process dies after `n` effects (at least one) of the save. Whatever was on the disk before, a search with what is
left panics or gives the answer of the complete save. -/
theorem C73_crash_vectors (v : FixVec T) (dim : Nat) (rows : List (List T)) (hv : ShowsVectors v dim rows) (hd : 0 < dim)
    (hd' : dim < 2 ^ 64) (L : Layers) (hL : IndexState L) (dist : List T → List T → D) (disk : Disk) (n : Nat) (hn : 1 ≤ n)
    (q : List T) (maxSearch k : Nat) (r : List (Nat × D))
    (h : (disk.after ((rwSaveOps v.writes L).take n)).searchVectors dist q maxSearch k = some r) :
    (disk.after (rwSaveOps v.writes L)).searchVectors dist q maxSearch k = some r := by
  rw [saved_state, flatten_writes]
  rcases crash_state v.writes L disk n hn with ⟨i, hi⟩ | ⟨m, j, hi⟩
  · rw [hi] at h
    unfold Disk.searchVectors at h
    have : (FixVec.fromBytes ([] : Bytes) : Option (FixVec T)) = none := rfl
    cases i <;> simp [this] at h
  · rw [hi, flatten_writes] at h
    exact searchVectors_prefix v dim rows hv hd hd' dist m _ _ (index_prefix L hL j) q maxSearch k r h

/-- C73. Texts, with embeddings that are not saved here. -/
theorem C73_crash_texts (s : SumEmb F32) (hs : EmbState s) (hlen : s.len < 2 ^ 64) (L : Layers) (hL : IndexState L) (disk : Disk)
    (n : Nat) (hn : 1 ≤ n) (q : List F32) (maxSearch k : Nat) (r : List (Nat × ℝ))
    (h : (disk.after ((rwSaveOps s.elements.writes L).take n)).searchTexts s.embeddings q maxSearch k = some r) :
    (disk.after (rwSaveOps s.elements.writes L)).searchTexts s.embeddings q maxSearch k = some r := by
  rw [saved_state, flatten_writes']
  rcases crash_state s.elements.writes L disk n hn with ⟨i, hi⟩ | ⟨m, j, hi⟩
  · rw [hi] at h
    unfold Disk.searchTexts at h
    have : (VarVec.fromBytes ([] : Bytes) : Option Elems) = none := rfl
    cases i <;> simp [this] at h
  · rw [hi, flatten_writes'] at h
    exact searchTexts_prefix s hs hlen m _ _ (index_prefix L hL j) q maxSearch k r h

/-- C73. The complete save holds the elements and the index, and is searched like the graph it was made from. -/
theorem C73_complete (v : FixVec T) (dim : Nat) (rows : List (List T)) (hv : ShowsVectors v dim rows) (hd : 0 < dim)
    (hd' : dim < 2 ^ 64) (L : Layers) (hL : IndexState L) (gs : List (List (List Nat))) (hg : L.graphs = some gs)
    (h255 : ∀ g ∈ gs, ∀ l ∈ g, l.length ≤ 255) (hs : (saveIndex L [] 0).2 = true) (hlen : (saveIndex L [] 0).1.length < 2 ^ 64)
    (hwf : WellFormedIndex gs rows.length) (dist : List T → List T → D) (disk : Disk) (q : List T) (maxSearch k : Nat)
    (hms : 1 ≤ maxSearch) :
    (disk.after (rwSaveOps v.writes L)).elements = some v.bytes ∧
    (disk.after (rwSaveOps v.writes L)).index = some (saveIndex L [] 0).1 ∧
    ∃ r, search gs ⟨rows, dist⟩ q maxSearch k = some r ∧
      (disk.after (rwSaveOps v.writes L)).searchVectors dist q maxSearch k = some r := by
  rw [saved_state, flatten_writes]
  refine ⟨rfl, rfl, ?_⟩
  obtain ⟨r, h1, h2⟩ := C71_saved_search L hL gs hg h255 [] (saveIndex L [] 0).1 0 (Prod.ext rfl hs) hlen ⟨rows, dist⟩ hwf q
    maxSearch k hms
  refine ⟨r, h1, ?_⟩
  rw [List.drop_zero] at h2
  unfold searchFile at h2
  unfold Disk.searchVectors
  simp only
  rw [C30_write_load_partial v dim rows hv hd hd']
  cases hl : loadLayers (saveIndex L [] 0).1 with
  | none => rw [hl] at h2; cases h2
  | some vs =>
    rw [hl] at h2
    simp only at h2 ⊢
    have he : (fun i => (v.get i).map fun e => dist e q) = (⟨rows, dist⟩ : Elements (List T) D).distTo q := by
      funext i
      unfold Elements.distTo
      simp only
      rcases Option.eq_none_or_eq_some rows[i]? with hi | ⟨x, hi⟩
      · rw [hi, hv.outside i (List.getElem?_eq_none_iff.1 hi) hd]
      · rw [hi, hv.get i x hi]
    rw [he, hv.len]
    exact h2

/-- C73 for a concurrent builder: `els` and `layers` are what a save in some run of it writes (under any interleaving with inserts,
searches and other saves). If the process dies in this save, a search with what is left panics or is a search of the saved graph with the
saved elements. -/
theorem C73_concurrent {srt : List (Nat × D) → List (Nat × D)} (hsrt : IsSortByDist srt) (b : Builder (List T) D) (mx : Nat)
    (calls : List (RwCall (List T))) (s : Rw (List T) D) (hrun : RwRun srt b mx calls s) (h255 : b.config.numNeighbors ≤ 255)
    (t : Nat) (els : List (List T)) (layers : List Rows) (hr : result s t = some (.saved els layers))
    (v : FixVec T) (dim : Nat) (hv : ShowsVectors v dim els) (hd : 0 < dim) (hd' : dim < 2 ^ 64) (L : Layers)
    (hL : L = .fixWidth (layers.map fun R => ⟨b.config.numNeighbors, R⟩))
    (hs : (saveIndex L [] 0).2 = true) (hlen : (saveIndex L [] 0).1.length < 2 ^ 64)
    (disk : Disk) (n : Nat) (hn : 1 ≤ n) (q : List T) (maxSearch k : Nat) (hms : 1 ≤ maxSearch) (r : List (Nat × D))
    (h : (disk.after ((rwSaveOps v.writes L).take n)).searchVectors b.elements.dist q maxSearch k = some r) :
    search (layers.map graphOf) ⟨els, b.elements.dist⟩ q maxSearch k = some r := by
  have hst := saved_indexState hsrt b mx calls s hrun t els layers hr
  rw [← hL] at hst
  obtain ⟨_, hwf, _, _, hrows⟩ := C42_snapshot_consistent hsrt b mx calls s hrun t els layers hr
  obtain ⟨_, _, r', h1, h2⟩ := C73_complete v dim els hv hd hd' L hst (layers.map graphOf)
    (by rw [hL]; simp [Layers.graphs, Function.comp_def])
    (by
      intro g hg l hl
      obtain ⟨R, hR, rfl⟩ := List.mem_map.1 hg
      obtain ⟨i, hi⟩ := List.getElem?_of_mem hl
      exact le_trans (hrows R hR i l hi).1 h255) hs hlen hwf b.elements.dist disk q maxSearch k hms
  have h3 := C73_crash_vectors v dim els hv hd hd' L hst b.elements.dist disk n hn q maxSearch k r h
  rw [h2] at h3
  rw [h1, h3]

/-- C73. If operations on the files fail (and are reported or not), the same holds for what is in the files afterwards. -/
theorem C73_failures (v : FixVec T) (dim : Nat) (rows : List (List T)) (hv : ShowsVectors v dim rows) (hd : 0 < dim)
    (hd' : dim < 2 ^ 64) (L : Layers) (hL : IndexState L) (dist : List T → List T → D) (failE failI : Nat → Bool)
    (disk : Disk) (q : List T) (maxSearch k : Nat) (r : List (Nat × D))
    (h : (rwSaveFailing v.writes L failE failI).1.searchVectors dist q maxSearch k = some r) :
    (disk.after (rwSaveOps v.writes L)).searchVectors dist q maxSearch k = some r := by
  rw [saved_state, flatten_writes]
  unfold rwSaveFailing at h
  split at h
  · next s hs =>
    obtain ⟨_, _, _, m, hm⟩ := bufRun_prefix hs
    simp only at h
    rw [hm, flatten_writes] at h
    exact searchVectors_prefix v dim rows hv hd hd' dist m _ _ (Or.inl (by rfl)) q maxSearch k r h
  · next s hs =>
    obtain ⟨_, _, _, m, hm⟩ := bufRun_prefix hs
    simp only at h
    rw [hm, flatten_writes] at h
    refine searchVectors_prefix v dim rows hv hd hd' dist m _ _ ?_ q maxSearch k r h
    obtain ⟨j, hj⟩ := saveFailing_prefix L failI [] 0
    rw [hj]
    exact index_prefix L hL j

/-- C73. If no operation on the files fails, the save returns what writing the index returns, and leaves the files of the complete
save. -/
theorem C73_no_failure (v : FixVec T) (L : Layers) (disk : Disk) :
    (rwSaveFailing v.writes L (fun _ => false) (fun _ => false)).1 = disk.after (rwSaveOps v.writes L) ∧
    (rwSaveFailing v.writes L (fun _ => false) (fun _ => false)).2 = if (saveIndex L [] 0).2 then .ok else .panic := by
  rw [saved_state]
  obtain ⟨h1, h2⟩ := saveFailing_never L [] 0
  unfold never at h1 h2
  unfold rwSaveFailing
  rcases hr : bufRun (fun _ => false) (v.writes.map .write) ⟨[], 0, [], 0⟩ with ⟨s, ok⟩
  have hok : ok = true := by
    have := bufRun_never (v.writes.map .write) ⟨[], 0, [], 0⟩
    unfold never at this
    rw [hr] at this; exact this
  subst hok
  simp only
  refine ⟨?_, h2⟩
  rw [h1, flushed_file hr]

/-- C73. Texts: the complete save holds the elements and the index, and is searched like the graph it was made from. -/
theorem C73_complete_texts (s : SumEmb F32) (hs : EmbState s) (hlen : s.len < 2 ^ 64) (L : Layers) (hL : IndexState L)
    (gs : List (List (List Nat))) (hg : L.graphs = some gs) (h255 : ∀ g ∈ gs, ∀ l ∈ g, l.length ≤ 255)
    (hsv : (saveIndex L [] 0).2 = true) (hil : (saveIndex L [] 0).1.length < 2 ^ 64) (es : Elements (List F32) ℝ)
    (hes : sumElements s = some es)
    (hwf : WellFormedIndex gs s.len) (disk : Disk) (q : List F32) (maxSearch k : Nat) (hms : 1 ≤ maxSearch) :
    (disk.after (rwSaveOps s.elements.writes L)).elements = some s.elements.bytes ∧
    (disk.after (rwSaveOps s.elements.writes L)).index = some (saveIndex L [] 0).1 ∧
    ∃ r, search gs es q maxSearch k = some r ∧
      (disk.after (rwSaveOps s.elements.writes L)).searchTexts s.embeddings q maxSearch k = some r := by
  rw [saved_state, flatten_writes']
  refine ⟨rfl, rfl, ?_⟩
  obtain ⟨hdist, hes', hin⟩ := sumElements_some hes
  obtain ⟨a, ra, _⟩ := hs.repr
  have ht : ShowsTerms s a := ⟨ra.len_eq, ra.get_eq⟩
  have hel : ∀ i : Nat, sumElement s i = es.data[i]? := by
    intro i
    by_cases hi : i < s.len
    · exact hin i hi
    · rw [List.getElem?_eq_none (by omega)]
      unfold sumElement
      rw [getEmbedding_bind, ht.get, List.getElem?_eq_none (by rw [← ht.len]; omega)]
      rfl
  obtain ⟨r, h1, h2⟩ := C71_saved_search L hL gs hg h255 [] (saveIndex L [] 0).1 0 (Prod.ext rfl hsv) hil es (by rw [hes']; exact hwf) q
    maxSearch k hms
  refine ⟨r, h1, ?_⟩
  rw [List.drop_zero] at h2
  unfold searchFile at h2
  unfold Disk.searchTexts
  simp only
  have hfull : VarVec.fromBytes s.elements.bytes = some s.elements :=
    ra.rows.fromBytes_bytes (by rw [SumEmb.len, ra.len_eq] at hlen; simpa using hlen)
  rw [hfull]
  cases hl : loadLayers (saveIndex L [] 0).1 with
  | none => rw [hl] at h2; cases h2
  | some vs =>
    rw [hl] at h2
    simp only at h2 ⊢
    have he : (fun i => (sumElement s i).map fun x => (angularElements []).dist x q) = es.distTo q := by
      funext i
      unfold Elements.distTo
      rw [hel i, hdist]
      rfl
    have hn : es.data.length = s.elements.len := hes'
    rw [hn, ← he] at h2
    exact h2

/-! ### What the save does not do -/

/-- A small collection stays in the buffer; one that is a little larger leaves its dimension in the file. -/
theorem buffered_small (fail : Nat → Bool) (v : FixVec T) (h : 8 + (encodeAll v.data).length < 8192) :
    bufRun fail (v.writes.map .write) ⟨[], 0, [], 0⟩ = (⟨[], 0, v.bytes, 0⟩, true) := by
  simp [FixVec.writes, bufRun, bufOp, bufWrite, BUF_CAP, FixVec.bytes, h]

theorem buffered_header (v : FixVec T) (h : 8192 < 8 + (encodeAll v.data).length) (h' : (encodeAll v.data).length < 8192) :
    bufferedElements v.writes = (leBytes 8 v.width, encodeAll v.data) := by
  have h1 : ¬ (8 + (encodeAll v.data).length < 8192) := by omega
  have h2 : ¬ (8192 ≤ (encodeAll v.data).length) := by omega
  have h3 : leBytes 8 v.width ≠ [] := by
    intro hc
    have := congrArg List.length hc
    simp at this
  simp [bufferedElements, FixVec.writes, bufRun, bufOp, bufWrite, BUF_CAP, flushBuf, innerWrite, h, h1, h2, h3, writeAt_nil_zero]

theorem crash_before_drop (ws : List Bytes) (L : Layers) (disk : Disk) :
    disk.after ((rwSaveOps ws L).take (2 + (bufferedElements ws).1.length + (saveEffects L 0).length)) =
      ⟨some (bufferedElements ws).1, some (saveIndex L [] 0).1⟩ := by
  have : (rwSaveOps ws L).take (2 + (bufferedElements ws).1.length + (saveEffects L 0).length) =
      .createElements :: .createIndex :: ((bufferedElements ws).1.map .elements ++
        (saveEffects L 0).map (fun e => .index e.1 e.2)) := by
    have hs : rwSaveOps ws L = ([.createElements, .createIndex] ++ (bufferedElements ws).1.map .elements ++
        (saveEffects L 0).map (fun e => .index e.1 e.2)) ++ (bufferedElements ws).2.map .elements := rfl
    rw [hs, List.take_left' (by simp; omega)]
    simp
  rw [this]
  have e0 : disk.after (DiskOp.createElements :: .createIndex :: ((bufferedElements ws).1.map .elements ++
        (saveEffects L 0).map (fun e => .index e.1 e.2))) =
      Disk.after ⟨some [], some []⟩ ((bufferedElements ws).1.map .elements ++
        (saveEffects L 0).map (fun e => .index e.1 e.2)) := rfl
  rw [e0, after_ops]
  · have e1 : ∀ l : Bytes, (l.map DiskOp.elements).filterMap elemByte = l := by
      intro l; rw [List.filterMap_map]; exact List.filterMap_some
    have e2 : ∀ l : Bytes, (l.map DiskOp.elements).filterMap indexByte = [] := by
      intro l; rw [List.filterMap_map]; exact List.filterMap_eq_nil_iff.2 fun _ _ => rfl
    have e3 : ∀ l : List (Nat × UInt8), (l.map fun e => DiskOp.index e.1 e.2).filterMap elemByte = [] := by
      intro l; rw [List.filterMap_map]; exact List.filterMap_eq_nil_iff.2 fun _ _ => rfl
    have e4 : ∀ l : List (Nat × UInt8), (l.map fun e => DiskOp.index e.1 e.2).filterMap indexByte = l := by
      intro l; rw [List.filterMap_map]; exact List.filterMap_some
    rw [List.filterMap_append, List.filterMap_append, e1, e2, e3, e4, List.append_nil, List.nil_append, List.nil_append,
      applyBytes_saveEffects]
  · intro o ho
    simp only [List.mem_append, List.mem_map] at ho
    rcases ho with ⟨b, _, rfl⟩ | ⟨b, _, rfl⟩
    · exact Or.inl rfl
    · exact Or.inr rfl

/-- C73: the elements are not written before the index. For a small collection the process can die when the index is complete while the
file of elements is still empty and does not open; the files that were there before are gone. -/
theorem C73_elements_missing (v : FixVec T) (h : 8 + (encodeAll v.data).length < 8192) (L : Layers) (disk : Disk) :
    ∃ n, (disk.after ((rwSaveOps v.writes L).take n)).index = some (saveIndex L [] 0).1 ∧
      (disk.after ((rwSaveOps v.writes L).take n)).elements = some [] ∧
      (FixVec.fromBytes [] : Option (FixVec T)) = none := by
  have hb : (bufferedElements v.writes).1 = [] := by
    unfold bufferedElements; rw [buffered_small _ v h]
  have hc := crash_before_drop v.writes L disk
  generalize 2 + (bufferedElements v.writes).1.length + (saveEffects L 0).length = n at hc
  rw [hb] at hc
  exact ⟨n, by rw [hc], by rw [hc], rfl⟩

/-- C73: for another size of the collection, the process can die when the index is complete while the file of elements opens as a
collection of no vectors: both files open, and a search of an index that is not empty panics. -/
theorem C73_opens_without_elements (v : FixVec T) (dim : Nat) (rows : List (List T)) (hv : ShowsVectors v dim rows) (hd : 0 < dim)
    (hd' : dim < 2 ^ 64) (h : 8192 < 8 + (encodeAll v.data).length) (h' : (encodeAll v.data).length < 8192) (L : Layers)
    (disk : Disk) :
    ∃ n, (disk.after ((rwSaveOps v.writes L).take n)).index = some (saveIndex L [] 0).1 ∧
      ∃ eb v', (disk.after ((rwSaveOps v.writes L).take n)).elements = some eb ∧
        FixVec.fromBytes eb = some v' ∧ ShowsVectors (v' : FixVec T) dim [] := by
  have hb := buffered_header v h h'
  have hc := crash_before_drop v.writes L disk
  generalize 2 + (bufferedElements v.writes).1.length + (saveEffects L 0).length = n at hc
  rw [hb] at hc
  have hsh : ShowsVectors (⟨[], dim⟩ : FixVec T) dim [] := by
    refine ⟨by simp, rfl, by simp [FixVec.len], by simp, ?_, rfl⟩
    intro i _ _
    rw [FixVec.get, if_neg]
    have : 0 < (i + 1) * dim := Nat.mul_pos (by omega) hd
    simpa using this.ne'
  have hl := C30_write_load_partial (⟨[], dim⟩ : FixVec T) dim [] hsh hd hd'
  have hby : (⟨[], dim⟩ : FixVec T).bytes = leBytes 8 dim := List.append_nil _
  rw [hby, ← hv.dimEq] at hl
  rw [← hv.dimEq]
  exact ⟨n, by rw [hc], leBytes 8 v.width, ⟨[], v.width⟩, by rw [hc], hl, by rw [hv.dimEq]; exact hsh⟩

/-- C73: a failure to write the elements can go unnoticed. If the only operation on the elements file fails and the index is written, the
save of a small collection reports success although the file of elements is empty and does not open. -/
theorem C73_failure_unnoticed (v : FixVec T) (h : 8 + (encodeAll v.data).length < 8192) (L : Layers)
    (hs : (saveIndex L [] 0).2 = true) (failE : Nat → Bool) (hf : failE 0 = true) :
    (rwSaveFailing v.writes L failE (fun _ => false)).2 = .ok ∧
    (rwSaveFailing v.writes L failE (fun _ => false)).1 = ⟨some [], some (saveIndex L [] 0).1⟩ ∧
    (FixVec.fromBytes [] : Option (FixVec T)) = none := by
  have hne : v.bytes ≠ [] := by
    intro hc
    have := congrArg List.length hc
    simp [FixVec.bytes] at this
  obtain ⟨h1, h2⟩ := saveFailing_never L [] 0
  rw [hs] at h2
  unfold never at h1 h2
  unfold rwSaveFailing
  rw [buffered_small _ v h]
  simp only
  refine ⟨h2, ?_, rfl⟩
  rw [h1]
  simp [flushBuf, innerWrite, hf, hne]

/-- C73: for a larger collection a failure of the first operation on the elements file is reported, and the index is not written. -/
theorem C73_failure_reported (v : FixVec T) (h : 8192 < 8 + (encodeAll v.data).length) (L : Layers) (failE failI : Nat → Bool)
    (hf : failE 0 = true) :
    (rwSaveFailing v.writes L failE failI).2 = .error ∧ (rwSaveFailing v.writes L failE failI).1.index = some [] := by
  have h1 : ¬ (8 + (encodeAll v.data).length < 8192) := by omega
  have h3 : leBytes 8 v.width ≠ [] := by
    intro hc
    have := congrArg List.length hc
    simp at this
  have : (bufRun failE (v.writes.map .write) ⟨[], 0, [], 0⟩).2 = false := by
    simp [FixVec.writes, bufRun, bufOp, bufWrite, BUF_CAP, flushBuf, innerWrite, h, h1, h3, hf]
  unfold rwSaveFailing
  rcases hr : bufRun failE (v.writes.map .write) ⟨[], 0, [], 0⟩ with ⟨s, ok⟩
  rw [hr] at this
  simp only at this
  subst this
  exact ⟨rfl, rfl⟩

/-! ### Examples -/

/-- Five vectors of dimension 1. -/
def exFive : FixVec UInt32 := ⟨[1, 3, 6, 10, 15], 1⟩

theorem exFive_shows : ShowsVectors exFive 1 [[1], [3], [6], [10], [15]] :=
  (FixRepr.mk (by decide) rfl (by decide) (by decide)).shows

/-- Non-vacuity of `C73_crash_vectors` and `C73_failures`: a save that is not empty, and its search. -/
example : ShowsVectors exFive 1 [[1], [3], [6], [10], [15]] ∧ IndexState exStored ∧ exStored.graphs ≠ some [] ∧
    1024 < (rwSaveOps exFive.writes exStored).length ∧ 8 + (encodeAll exFive.data).length < 8192 ∧
    (saveIndex exStored [] 0).2 = true := by
  refine ⟨exFive_shows, exStored_state, by simp [exStored, Layers.graphs], ?_, by decide +kernel, by decide +kernel⟩
  have h1 : 1024 < (saveEffects exStored 0).length := by decide +kernel
  have h2 : ∀ (ws : List Bytes) (L : Layers), (saveEffects L 0).length ≤ (rwSaveOps ws L).length := by
    intro ws L
    have hs : rwSaveOps ws L = ([.createElements, .createIndex] ++ (bufferedElements ws).1.map .elements ++
        (saveEffects L 0).map (fun e => .index e.1 e.2)) ++ (bufferedElements ws).2.map .elements := rfl
    rw [hs]
    simp only [List.length_append, List.length_map]
    omega
  exact lt_of_lt_of_le h1 (h2 _ _)

/-- Two layers over four nodes. -/
def exFour : Layers := .fixWidth [⟨2, [[1, UNUSED], [0, UNUSED]]⟩, ⟨2, [[1, 3], [0, UNUSED], [UNUSED, UNUSED], [0, UNUSED]]⟩]

/-- Non-vacuity of `C73_crash_texts` and `C73_complete_texts`: four texts. -/
example : ∃ (s : SumEmb F32) (es : Elements (List F32) ℝ), EmbState s ∧ s.len = 4 ∧ sumElements s = some es ∧ IndexState exFour ∧
    exFour.graphs = some [[[1], [0]], [[1, 3], [0], [], [0]]] ∧ WellFormedIndex [[[1], [0]], [[1, 3], [0], [], [0]]] s.len ∧
    (saveIndex exFour [] 0).2 = true ∧ (saveIndex exFour [] 0).1.length < 2 ^ 64 := by
  obtain ⟨s, hst, hs⟩ := exSumInput
  obtain ⟨es, he1, _, _⟩ := C57_skipped_iff_no_terms s _ _ _ hs
  have hlen : s.len = 4 := hs.elements.len
  refine ⟨s, es, hst, hlen, he1, .built _ ?_, by decide +kernel, ?_, by decide +kernel, by decide +kernel⟩
  · have h : ∀ row ∈ [[1, UNUSED], [0, UNUSED], [1, 3], [UNUSED, UNUSED]], (∀ n ∈ row, n < 2 ^ 32) ∧ Padded row := by
      intro row hrow
      refine ⟨(by decide : ∀ row ∈ [[1, UNUSED], [0, UNUSED], [1, 3], [UNUSED, UNUSED]], ∀ n ∈ row, n < 2 ^ 32) row hrow,
        visible row, row.length - (visible row).length, ?_, ?_⟩
      · revert row; decide
      · revert row; decide
    intro l hl row hrow
    refine h row ?_
    simp only [List.mem_cons, List.not_mem_nil, or_false] at hl
    rcases hl with rfl | rfl <;> simp at hrow <;> rcases hrow with rfl | rfl | rfl | rfl <;> simp
  · have edge : ∀ g ∈ ([[[1], [0]], [[1, 3], [0], [], [0]]] : List (List (List Nat))), ∀ l ∈ g, ∀ j ∈ l, j < g.length := by
      decide
    rw [hlen]
    refine ⟨by decide, ?_, by decide, by decide⟩
    rintro g hg i j ⟨l, hl, hj⟩
    exact edge g hg l (List.mem_of_getElem? hl) j hj

/-- Vectors of bytes, compared by their first entries. -/
def exByteDist (a b : List UInt8) : Nat := ((a.headD 0).toNat - (b.headD 0).toNat) + ((b.headD 0).toNat - (a.headD 0).toNat)

def exByteBuilder : Builder (List UInt8) Nat := ⟨⟨[], exByteDist⟩, [], rwConfig⟩

/-- Non-vacuity of `C73_concurrent`: a concurrent builder that inserts two vectors and then saves. -/
theorem exByteRun : ∃ s : Rw (List UInt8) Nat, RwRun exSort exByteBuilder 2 [.insert [[10], [7]], .write] s ∧
    result s 1 = some (.saved [[10], [7]] [[[UNUSED, UNUSED]], [[1, UNUSED], [0, UNUSED]]]) := by
  have hset : RwSetup exSort exByteBuilder 2 :=
    ⟨.new rwConfig exByteBuilder.elements _ rfl, rwConfig_good, fun i j hij => by simp only [exByteBuilder, rwConfig]; omega,
      by decide, fun _ => C41_fresh_fits _ _ rfl⟩
  have h0 : Rw.Steps exSort (Rw.start (.ofBuilder (withExpected exByteBuilder 2) 2) [.insert [[10], [7]], .write])
      ⟨⟨⟨[[10]], exByteDist⟩, [[UNUSED, UNUSED]], [], { rwConfig with expectedNumElements := some 2 }, 2⟩,
        [.insHoldL ⟨[[10], [7]], [[7]], [0], 1⟩, .wrWantW false]⟩ :=
    Rw.Steps.round (f := ⟨[[10], [7]], [[10], [7]], [], 0⟩) (by simp [RwCall.start, RwThread.eExcl, RwThread.eQueued,
      RwThread.eShared, RwThread.wExcl, RwThread.wQueued, RwThread.lExcl, RwThread.lShared]) (by decide) (by decide)
      (by decide +kernel) (.refl _)
  have h1 := h0.fst (.rest _ (by simp))
  have h2 := Rw.Steps.round (rows := [[1, UNUSED], [0, UNUSED]]) (by simp [RwThread.eExcl, RwThread.eQueued,
    RwThread.eShared, RwThread.wExcl, RwThread.wQueued, RwThread.lExcl, RwThread.lShared]) (by decide) (by decide)
    (by decide +kernel) h1
  have h3 := ((h2.fst (.noRest _ (by decide))).fst (.dropW _ 1 rfl)).fst (.dropW _ 0 rfl)
  have h4 := h3.fst (.done _ rfl)
  have h5 := h4.snd .wrQueue
  have h6 := h5.snd (.wrTakeW (noOther1 (by simp [RwThread.wExcl])) (noOther1 (by simp [RwThread.wShared])))
  have h7 := h6.snd (.wrTakeE (noOther1 (by simp [RwThread.eExcl])) (noOther1 (by simp [RwThread.eQueued])))
  have h8 := h7.snd (.wrTakeL (noOther1 (by simp [RwThread.lExcl])) (noOther1 (by simp [RwThread.lQueued])))
  have h9 := h8.snd .wrElements
  have h10 := h9.snd (.wrRow _ [] [1, UNUSED] (by decide) rfl)
  have h11 := h10.snd (.wrRow _ _ [0, UNUSED] (by decide) rfl)
  have h12 := h11.snd (.wrIndex _ _ rfl)
  have h13 := ((h12.snd (.wrDropL _ _)).snd (.wrDropE _ _)).snd (.wrDropW _ _)
  exact ⟨_, ⟨hset, by simp, _, .ok _ (.zero rfl), h13⟩, rfl⟩

example : ShowsVectors (⟨[10, 7], 1⟩ : FixVec UInt8) 1 [[10], [7]] ∧
    (saveIndex (.fixWidth ([[[UNUSED, UNUSED]], [[1, UNUSED], [0, UNUSED]]].map fun R =>
      ⟨exByteBuilder.config.numNeighbors, R⟩)) [] 0).2 = true ∧
    (saveIndex (.fixWidth ([[[UNUSED, UNUSED]], [[1, UNUSED], [0, UNUSED]]].map fun R =>
      ⟨exByteBuilder.config.numNeighbors, R⟩)) [] 0).1.length < 2 ^ 64 :=
  ⟨(FixRepr.mk (by decide) rfl (by decide) (by decide)).shows, by decide +kernel, by decide +kernel⟩

/-- Non-vacuity of `C73_opens_without_elements`: byte vectors of dimension 1; take `n = 8185`. -/
example (x : UInt8) (n : Nat) (h : n = 8185) : ShowsVectors (⟨List.replicate n x, 1⟩ : FixVec UInt8) 1 (List.replicate n [x]) ∧
    8192 < 8 + (encodeAll (List.replicate n x)).length ∧ (encodeAll (List.replicate n x)).length < 8192 := by
  have hl : (encodeAll (List.replicate n x)).length = n := by
    rw [encodeAll_length, List.length_replicate]; exact Nat.mul_one n
  refine ⟨(FixRepr.mk Nat.one_pos rfl ?_ ?_).shows, by omega, by omega⟩
  · clear hl h
    simp
  · intro r hr
    rw [List.eq_of_mem_replicate hr]
    rfl

end Granne
