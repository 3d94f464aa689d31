import Verif.Proofs.Select

/-! Row-local facts about the operations done under a write lock. -/
namespace Granne
open List

variable {E D : Type} [LinearOrder D]

theorem visible_append {l : List Nat} (hl : ∀ j ∈ l, j < UNUSED) (k : Nat) :
    visible (l ++ List.replicate k UNUSED) = l := by
  unfold visible
  rw [List.takeWhile_append_of_pos]
  · cases k <;> simp [List.replicate_succ]
  · intro a ha
    have := hl a ha
    simp; omega

/-- Row `i` of a layer with `n` nodes and `w` slots is well formed: ids first, then only `UNUSED`; ids are
distinct nodes of the layer other than `i`, and none of them (except possibly 0) satisfies `Z`. -/
structure RowOk (n w : Nat) (Z : Nat → Prop) (i : Nat) (row : Row) : Prop where
  shape : row = visible row ++ List.replicate (w - (visible row).length) UNUSED
  len : (visible row).length ≤ w
  nodup : (visible row).Nodup
  ids : ∀ j ∈ visible row, j < n ∧ j ≠ i ∧ (j ≠ 0 → ¬ Z j)
  own : visible row ≠ [] → i ≠ 0 → i < n ∧ ¬ Z i

theorem RowOk.length {n w : Nat} {Z : Nat → Prop} {i : Nat} {row : Row} (h : RowOk n w Z i row) :
    row.length = w := by
  have := h.len
  rw [h.shape]
  simp; omega

theorem RowOk.of_ids {n w : Nat} {Z : Nat → Prop} {i : Nat} (hn : n ≤ UNUSED) {l : List Nat}
    (hlen : l.length ≤ w) (hnd : l.Nodup) (hids : ∀ j ∈ l, j < n ∧ j ≠ i ∧ (j ≠ 0 → ¬ Z j))
    (hown : l ≠ [] → i ≠ 0 → i < n ∧ ¬ Z i) :
    RowOk n w Z i (l ++ List.replicate (w - l.length) UNUSED) ∧
      visible (l ++ List.replicate (w - l.length) UNUSED) = l := by
  have hv := visible_append (l := l) (fun j hj => lt_of_lt_of_le (hids j hj).1 hn) (w - l.length)
  refine ⟨⟨?_, ?_, ?_, ?_, ?_⟩, hv⟩ <;> rw [hv] <;> assumption

theorem toNeighborId_of_lt {i : Nat} (h : i < UNUSED) : toNeighborId i = some i := by
  unfold toNeighborId
  rw [if_pos]
  unfold UNUSED at h
  omega

theorem mapM_toNeighborId {l : List Nat} (h : ∀ i ∈ l, i < UNUSED) : l.mapM toNeighborId = some l := by
  induction l with
  | nil => rfl
  | cons a t ih =>
    rw [List.mapM_cons, toNeighborId_of_lt (h a (by simp)), ih fun i hi => h i (by simp [hi])]
    rfl

theorem mapM_isSome {α β : Type} {f : α → Option β} {l : List α} (h : ∀ a ∈ l, (f a).isSome) :
    ∃ r, l.mapM f = some r ∧ r.length = l.length := by
  induction l with
  | nil => exact ⟨[], rfl, rfl⟩
  | cons a t ih =>
    obtain ⟨r, hr, hlen⟩ := ih fun b hb => h b (by simp [hb])
    obtain ⟨b, hb⟩ := Option.isSome_iff_exists.1 (h a (by simp))
    refine ⟨b :: r, ?_, by simp [hlen]⟩
    rw [List.mapM_cons, hb, hr]
    rfl

omit [LinearOrder D] in
/-- `initialize_node` on an empty row. -/
theorem initializeNode_ok {n w : Nat} {Z : Nat → Prop} {i : Nat} (hn : n ≤ UNUSED) {row : Row}
    (hrow : RowOk n w Z i row) (hempty : visible row = []) {neighbors : List (Nat × D)}
    (hlen : neighbors.length ≤ w) (hnd : (neighbors.map Prod.fst).Nodup)
    (hids : ∀ j ∈ neighbors.map Prod.fst, j < n ∧ j ≠ i ∧ (j ≠ 0 → ¬ Z j)) (hi : i < n) (hown : i ≠ 0 → ¬ Z i) :
    ∃ row', initializeNode neighbors row = some row' ∧ RowOk n w Z i row' ∧
      visible row' = neighbors.map Prod.fst := by
  have hl := hrow.length
  have hshape := hrow.shape
  rw [hempty] at hshape
  simp only [List.length_nil, Nat.sub_zero, List.nil_append] at hshape
  obtain ⟨h1, h2⟩ := RowOk.of_ids (w := w) hn (by simpa using hlen) hnd hids fun _ h0 => ⟨hi, hown h0⟩
  refine ⟨_, ?_, h1, h2⟩
  unfold initializeNode
  rw [List.take_of_length_le (by omega), mapM_toNeighborId fun j hj => lt_of_lt_of_le (hids j hj).1 hn]
  simp only [Option.map_some]
  conv_lhs => rw [hshape]
  simp

omit [LinearOrder D] in
/-- `initialize_node` with nothing to write leaves the row alone. -/
theorem initializeNode_nil (row : Row) : initializeNode ([] : List (Nat × D)) row = some row := by
  simp [initializeNode]

/-- Distinct ids below `n` other than `i`: at most `n - 1`. -/
theorem length_le_of_ids {n i : Nat} {l : List Nat} (hi : i < n) (hnd : l.Nodup)
    (h : ∀ k ∈ l, k < n ∧ k ≠ i) : l.length + 1 ≤ n := by
  have h1 : (i :: l).Nodup := List.nodup_cons.2 ⟨fun hm => (h i hm).2 rfl, hnd⟩
  have h2 : (i :: l) ⊆ List.range n := by
    intro k hk
    rcases List.mem_cons.1 hk with rfl | hk
    · exact List.mem_range.2 hi
    · exact List.mem_range.2 (h k hk).1
  have := (List.subperm_of_subset h1 h2).length_le
  simpa using this

/-- `add_and_limit_neighbors`. -/
theorem addAndLimit_ok {n w : Nat} {Z : Nat → Prop} {i : Nat} (hn : n ≤ UNUSED) {es : Elements E D}
    (hes : n ≤ es.data.length) {srt : List (Nat × D) → List (Nat × D)} (hsrt : IsSortByDist srt)
    (hi : i < n) {row : Row} (hrow : RowOk n w Z i row) {extra : List (Nat × D)} {num : Nat}
    (hnum : num ≤ w) (hnum1 : 1 ≤ num)
    (hnd : (visible row ++ extra.map Prod.fst).Nodup)
    (hextra : ∀ j ∈ extra.map Prod.fst, j < n ∧ j ≠ i ∧ (j ≠ 0 → ¬ Z j)) (hown : extra ≠ [] → i ≠ 0 → ¬ Z i) :
    ∃ row', addAndLimit es srt i extra num row = some row' ∧ RowOk n w Z i row' ∧
      (visible row').length ≤ num ∧
      (∀ j ∈ visible row', j ∈ visible row ++ extra.map Prod.fst) ∧
      (visible row ++ extra.map Prod.fst ≠ [] → visible row' ≠ []) ∧
      (n ≤ num + 1 → ∀ j ∈ visible row ++ extra.map Prod.fst, j ∈ visible row') := by
  have hall : ∀ j ∈ visible row ++ extra.map Prod.fst, j < n ∧ j ≠ i ∧ (j ≠ 0 → ¬ Z j) := by
    intro j hj
    rcases List.mem_append.1 hj with hj | hj
    · exact hrow.ids j hj
    · exact hextra j hj
  obtain ⟨ds, hds, hdl⟩ : ∃ ds, es.dists i (visible row) = some ds ∧ ds.length = (visible row).length := by
    unfold Elements.dists
    rw [List.getElem?_eq_getElem (show i < es.data.length by omega)]
    simp only
    apply mapM_isSome
    intro j hj
    have := (hrow.ids j hj).1
    simp only [Elements.distTo, List.getElem?_eq_getElem (show j < es.data.length by omega), Option.map_some]
    split <;> rfl
  have hperm := (hsrt ((visible row).zip ds ++ extra)).1
  have hfst : ((visible row).zip ds ++ extra).map Prod.fst = visible row ++ extra.map Prod.fst := by
    rw [List.map_append, List.map_fst_zip (by omega)]
  set cands := srt ((visible row).zip ds ++ extra) with hc
  have hcf : (cands.map Prod.fst) ~ visible row ++ extra.map Prod.fst := by
    rw [← hfst]; exact hperm.map _
  obtain ⟨sel, hsel⟩ := selectNeighbors_isSome (es := es) (m := num) (cands := cands) (by
    intro p hp
    have : p.1 ∈ visible row ++ extra.map Prod.fst := hcf.mem_iff.1 (List.mem_map.2 ⟨p, hp, rfl⟩)
    have := (hall _ this).1
    omega) (hsrt _).2
  obtain ⟨hsub, hslen⟩ := selectNeighbors_sublist hsel
  have hsubf : (sel.map Prod.fst).Sublist (cands.map Prod.fst) := hsub.map _
  have hselids : ∀ j ∈ sel.map Prod.fst, j ∈ visible row ++ extra.map Prod.fst := fun j hj =>
    hcf.mem_iff.1 (hsubf.subset hj)
  have hselnd : (sel.map Prod.fst).Nodup := (hcf.nodup_iff.2 hnd).sublist hsubf
  obtain ⟨h1, h2⟩ := RowOk.of_ids (w := w) (i := i) (Z := Z) hn (l := sel.map Prod.fst)
    (by simp; omega) hselnd (fun j hj => hall j (hselids j hj)) (by
      intro hne
      obtain ⟨j, hj⟩ := List.exists_mem_of_ne_nil _ hne
      rcases List.mem_append.1 (hselids j hj) with hj | hj
      · exact hrow.own (List.ne_nil_of_mem hj)
      · exact fun h0 => ⟨hi, hown (by rintro rfl; simp at hj) h0⟩)
  refine ⟨_, ?_, h1, ?_, ?_, ?_, ?_⟩
  · unfold addAndLimit
    rw [if_pos (by rw [hrow.length]; exact hnum)]
    simp only [hds]
    rw [← hc, hsel]
    simp only [writePadded, hrow.length]
    rw [List.take_of_length_le (by simp; omega),
      mapM_toNeighborId fun j hj => lt_of_lt_of_le (hall j (hselids j hj)).1 hn]
    rfl
  · rw [h2]; simpa using hslen
  · rw [h2]; exact hselids
  · intro hne
    rw [h2]
    intro hnil
    refine selectNeighbors_ne_nil hnum1 hsel ?_ (List.map_eq_nil_iff.1 hnil)
    intro hcn
    rw [hcn] at hcf
    exact hne (List.Perm.eq_nil hcf.symm)
  · intro hsmall j hj
    have hcl : cands.length ≤ num := by
      have h3 := length_le_of_ids (l := cands.map Prod.fst) hi (hcf.nodup_iff.2 hnd) fun k hk =>
        ⟨(hall k (hcf.mem_iff.1 hk)).1, (hall k (hcf.mem_iff.1 hk)).2.1⟩
      rw [List.length_map] at h3
      omega
    have hse : sel = cands := by
      unfold selectNeighbors at hsel
      rw [if_pos hcl] at hsel
      cases hsel; rfl
    rw [h2, hse]
    exact hcf.mem_iff.2 hj

/-- The write-locked part of `connect_nodes`. -/
theorem connectRow_ok {n w : Nat} {Z : Nat → Prop} {i j : Nat} (hn : n ≤ UNUSED) {es : Elements E D}
    (hes : n ≤ es.data.length) {srt : List (Nat × D) → List (Nat × D)} (hsrt : IsSortByDist srt)
    (hw : 1 ≤ w) (hi : i < n) {row : Row} (hrow : RowOk n w Z i row)
    (hj : j < n) (hji : j ≠ i) (hz : j ≠ 0 → ¬ Z j) (hzi : i ≠ 0 → ¬ Z i) (d : D) :
    ∃ row', connectRow es srt i j d row = some row' ∧ RowOk n w Z i row' ∧ visible row' ≠ [] ∧
      (∀ k ∈ visible row', k = j ∨ k ∈ visible row) ∧
      (n ≤ w + 1 → j ∈ visible row' ∧ ∀ k ∈ visible row, k ∈ visible row') := by
  have hju : j < UNUSED := lt_of_lt_of_le hj hn
  unfold connectRow
  rw [toNeighborId_of_lt hju]
  simp only
  have hvu : ∀ k ∈ visible row, k < UNUSED := fun k hk => lt_of_lt_of_le (hrow.ids k hk).1 hn
  by_cases hmem : j ∈ visible row
  · -- already a neighbor: the row does not change
    have hjrow : j ∈ row := by rw [hrow.shape]; simp [hmem]
    have hex : ∃ pos, row.findIdx? (fun x => x == UNUSED || x == j) = some pos ∧ row.set pos j = row := by
      cases hf : row.findIdx? (fun x => x == UNUSED || x == j) with
      | none =>
        have := List.findIdx?_eq_none_iff.1 hf j hjrow
        simp at this
      | some pos =>
        obtain ⟨hlt, hp, hbefore⟩ := List.findIdx?_eq_some_iff_getElem.1 hf
        refine ⟨pos, rfl, ?_⟩
        have hpos : row[pos] = j := by
          simp only [Bool.or_eq_true, beq_iff_eq] at hp
          rcases hp with hp | hp
          · exfalso
            -- j occurs in the visible part, hence before the first UNUSED
            obtain ⟨m, hm, hme⟩ := List.getElem_of_mem hmem
            have hpm : ¬ m < pos := by
              intro hmp
              have := hbefore m hmp
              have hrm : row[m]'(by omega) = j := by
                have h2 : row[m]? = (visible row)[m]? := by
                  conv_lhs => rw [hrow.shape]
                  rw [List.getElem?_append_left hm]
                rw [List.getElem?_eq_getElem hm, List.getElem?_eq_getElem (by omega)] at h2
                simpa [hme] using h2
              simp [hrm] at this
            have hplt : pos < (visible row).length := by omega
            have h2 : row[pos]? = (visible row)[pos]? := by
              conv_lhs => rw [hrow.shape]
              rw [List.getElem?_append_left hplt]
            rw [List.getElem?_eq_getElem hlt, List.getElem?_eq_getElem hplt, hp] at h2
            have := hvu _ (List.getElem_mem hplt)
            simp only [Option.some.injEq] at h2
            omega
          · exact hp
        conv_rhs => rw [← List.set_getElem_self hlt]
        rw [hpos]
    obtain ⟨pos, hf, hset⟩ := hex
    rw [hf]
    refine ⟨row, by simp [hset], hrow, List.ne_nil_of_mem hmem, fun k hk => Or.inr hk, fun _ => ⟨hmem, fun _ h => h⟩⟩
  · by_cases hfull : (visible row).length < w
    · -- a free slot
      have hf : row.findIdx? (fun x => x == UNUSED || x == j) = some (visible row).length := by
        rw [List.findIdx?_eq_some_iff_getElem]
        have hlt : (visible row).length < row.length := by rw [hrow.length]; exact hfull
        refine ⟨hlt, ?_, ?_⟩
        · have h2 : row[(visible row).length]? = some UNUSED := by
            conv_lhs => rw [hrow.shape]
            rw [visible_append hvu, List.getElem?_append_right (le_refl _)]
            simp [List.getElem?_replicate]; exact Nat.sub_ne_zero_of_lt hfull
          rw [List.getElem?_eq_getElem hlt] at h2
          simp only [Option.some.injEq] at h2
          simp [h2]
        · intro m hm
          have h2 : row[m]? = (visible row)[m]? := by
            conv_lhs => rw [hrow.shape]
            rw [List.getElem?_append_left hm]
          rw [List.getElem?_eq_getElem hm, List.getElem?_eq_getElem (by omega)] at h2
          simp only [Option.some.injEq] at h2
          have h3 := List.getElem_mem hm
          have h4 := hvu _ h3
          rw [h2]
          simp only [Bool.not_eq_true, Bool.or_eq_false_iff, beq_eq_false_iff_ne, ne_eq]
          exact ⟨by omega, fun e => hmem (e ▸ h3)⟩
      rw [hf]
      have hset : row.set (visible row).length j =
          (visible row ++ [j]) ++ List.replicate (w - (visible row ++ [j]).length) UNUSED := by
        conv_lhs => rw [hrow.shape]
        rw [visible_append hvu, List.set_append_right _ _ (le_refl _)]
        obtain ⟨k, hk⟩ : ∃ k, w - (visible row).length = k + 1 := ⟨w - (visible row).length - 1, by omega⟩
        simp only [Nat.sub_self, hk, List.replicate_succ, List.set_cons_zero, List.length_append,
          List.length_singleton, List.append_assoc, List.singleton_append]
        congr 3
        omega
      have hnd : (visible row ++ [j]).Nodup := by
        rw [List.nodup_append]
        refine ⟨hrow.nodup, by simp, ?_⟩
        intro a ha b hb
        simp at hb
        subst hb
        exact fun e => hmem (e ▸ ha)
      have hids : ∀ k ∈ visible row ++ [j], k < n ∧ k ≠ i ∧ (k ≠ 0 → ¬ Z k) := by
        intro k hk
        rcases List.mem_append.1 hk with hk | hk
        · exact hrow.ids k hk
        · simp at hk; subst hk; exact ⟨hj, hji, hz⟩
      obtain ⟨h1, h2⟩ := RowOk.of_ids (w := w) hn (l := visible row ++ [j]) (by simp; omega) hnd hids fun _ h0 => ⟨hi, hzi h0⟩
      refine ⟨_, rfl, ?_, ?_, ?_, ?_⟩
      · rw [hset]; exact h1
      · rw [hset, h2]; simp
      · rw [hset, h2]
        intro k hk
        rcases List.mem_append.1 hk with hk | hk
        · exact Or.inr hk
        · simp at hk; exact Or.inl hk
      · rw [hset, h2]
        exact fun _ => ⟨by simp, fun k hk => by simp [hk]⟩
    · -- full: limit
      have hlw : (visible row).length = w := le_antisymm hrow.len (not_lt.1 hfull)
      have hrv : row = visible row := by
        conv_lhs => rw [hrow.shape]
        simp [hlw]
      have hf : row.findIdx? (fun x => x == UNUSED || x == j) = none := by
        rw [List.findIdx?_eq_none_iff]
        intro x hx
        rw [hrv] at hx
        have := hvu x hx
        simp only [Bool.or_eq_false_iff, beq_eq_false_iff_ne, ne_eq]
        exact ⟨by omega, fun e => hmem (e ▸ hx)⟩
      rw [hf]
      have hnd : (visible row ++ [(j, d)].map Prod.fst).Nodup := by
        simp only [List.map_cons, List.map_nil]
        rw [List.nodup_append]
        refine ⟨hrow.nodup, by simp, ?_⟩
        intro a ha b hb
        simp at hb
        subst hb
        exact fun e => hmem (e ▸ ha)
      obtain ⟨row', h1, h2, h3, h4, h5, h6⟩ := addAndLimit_ok (num := row.length) (extra := [(j, d)])
        hn hes hsrt hi hrow (le_of_eq hrow.length) (by rw [hrow.length]; exact hw) hnd
        (by simp; exact ⟨hj, hji, hz⟩) (fun _ => hzi)
      refine ⟨row', h1, h2, h5 (by simp), ?_, ?_⟩
      · intro k hk
        have := h4 k hk
        simp at this
        tauto
      · intro hsmall
        have := h6 (by rw [hrow.length]; exact hsmall)
        exact ⟨this j (by simp), fun k hk => this k (by simp [hk])⟩

end Granne
