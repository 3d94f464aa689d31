import Verif.Proofs.Reorder

/-! Runs of `reorder` and `reorder_by_keys` on an index that covers all its elements. -/
namespace Granne
open List Spec

variable {E D : Type} [LinearOrder D]

/-- An index all of whose elements are indexed: the layers `gs` are well formed, the last one contains all elements,
ids fit in 32 bits and no node has more than 255 neighbors. -/
structure FullIndex (ix : GIndex E D) (gs : List (List (List Nat))) : Prop where
  graphs : ix.layers.graphs = some gs
  wf : WellFormedIndex gs ix.elements.data.length
  full : ∀ g, gs.getLast? = some g → g.length = ix.elements.data.length
  empty : gs = [] → ix.elements.data = []
  small : ix.elements.data.length ≤ 2 ^ 32
  short : ∀ g ∈ gs, ∀ l ∈ g, l.length ≤ 255

omit [LinearOrder D] in
theorem FullIndex.last {ix : GIndex E D} {gs : List (List (List Nat))} (h : FullIndex ix gs) :
    (gs.map List.length).getLast?.getD 0 = ix.elements.data.length := by
  rw [List.getLast?_map]
  rcases Option.eq_none_or_eq_some gs.getLast? with hn | ⟨g, hg⟩
  · rw [hn, h.empty (List.getLast?_eq_none_iff.1 hn)]; rfl
  · rw [hg]; exact h.full g hg

omit [LinearOrder D] in
theorem FullIndex.indexLen {ix : GIndex E D} {gs : List (List (List Nat))} (h : FullIndex ix gs) :
    indexLen gs = ix.elements.data.length := by
  rw [← h.last, List.getLast?_map]
  unfold Granne.indexLen
  cases gs.getLast? <;> rfl

omit [LinearOrder D] in
theorem FullIndex.reorderWith {ix : GIndex E D} {gs : List (List (List Nat))} (h : FullIndex ix gs) {P : List Nat → Prop}
    {order : List Nat} (hi : Incr P 0 (gs.map List.length) order) :
    ∃ ix', reorderWith ix gs order = some (ix', order) ∧ IndexState ix'.layers ∧
      ix'.layers.graphs = some (gs.map (newGraph order)) ∧ ix'.elements.dist = ix.elements.dist ∧
      ix'.elements.data.length = ix.elements.data.length ∧
      ∀ i j : Nat, order[i]? = some j → ix'.elements.data[i]? = ix.elements.data[j]? := by
  obtain ⟨h1, h2⟩ := hi.full
  rw [h.last] at h1
  exact reorderWith_ok h1 h.wf h.small h2 rfl

/-- A run of `reorder` on a full index. -/
theorem FullIndex.reorder {ix : GIndex E D} {gs : List (List (List Nat))} (h : FullIndex ix gs) (h2 : 2 ≤ gs.length) :
    ∃ ix' order first, ix.reorder = some (ix', order) ∧ Granne.reorderWith ix gs order = some (ix', order) ∧
      gs[0]? = some first ∧ order.take first.length = List.range first.length ∧
      Incr (fun _ => True) 0 (gs.map List.length) order := by
  obtain ⟨order, first, e1, e2, e3, e4⟩ := computeOrder_ok h.wf h.small le_rfl h2
  obtain ⟨ix', e5, _⟩ := h.reorderWith e4
  refine ⟨ix', order, first, ?_, e5, e2, e3, e4⟩
  unfold GIndex.reorder
  rw [h.graphs]
  simp only
  rw [e1]
  exact e5

omit [LinearOrder D] in
theorem FullIndex.lens_sorted {ix : GIndex E D} {gs : List (List (List Nat))} (h : FullIndex ix gs) :
    (0 :: gs.map List.length).Pairwise (· ≤ ·) :=
  List.pairwise_cons.2 ⟨fun _ _ => Nat.zero_le _, List.pairwise_map.2 h.wf.nested⟩

omit [LinearOrder D] in
/-- A run of `reorder_by_keys` on a full index. -/
theorem FullIndex.byKeys {K : Type} [LinearOrder K] {ix : GIndex E D} {gs : List (List (List Nat))} (h : FullIndex ix gs)
    {keys : List K} (hk : keys.length = ix.elements.data.length) :
    ∃ ix' order, ix.reorderByKeys keys = some (ix', order) ∧ Granne.reorderWith ix gs order = some (ix', order) ∧
      Incr (ByKey keys) 0 (gs.map List.length) order := by
  obtain ⟨order, e1, e2⟩ := keyOrder_ok keys (gs.map List.length) 0 (by
    intro len hlen
    obtain ⟨g, hg, rfl⟩ := List.mem_map.1 hlen
    rw [hk]; exact h.wf.bounded g hg) h.lens_sorted
  obtain ⟨ix', e5, _⟩ := h.reorderWith e2
  refine ⟨ix', order, ?_, e5, e2⟩
  unfold GIndex.reorderByKeys
  rw [h.graphs]
  simp only
  rw [if_pos (by rw [h.indexLen, hk]), e1]
  exact e5

omit [LinearOrder D] in
/-- Reordering with a list of keys of the wrong length panics. -/
theorem FullIndex.byKeys_none {K : Type} [LinearOrder K] {ix : GIndex E D} {gs : List (List (List Nat))}
    (h : FullIndex ix gs) {keys : List K} (hk : keys.length ≠ ix.elements.data.length) : ix.reorderByKeys keys = none := by
  unfold GIndex.reorderByKeys
  rw [h.graphs]
  simp only
  rw [if_neg (by rw [h.indexLen]; exact fun e => hk e.symm)]

theorem reorder_few {ix : GIndex E D} {gs : List (List (List Nat))} (hg : ix.layers.graphs = some gs)
    (h : gs.length < 2) : ix.reorder = none := by
  unfold GIndex.reorder computeOrder
  rw [hg]
  simp only
  rw [if_pos h]

theorem Reorders.with {ix ix' : GIndex E D} {order : List Nat} {gs : List (List (List Nat))} (h : FullIndex ix gs)
    (hr : Reorders ix ix' order) : reorderWith ix gs order = some (ix', order) ∧ ∃ P, Incr P 0 (gs.map List.length) order := by
  cases hr with
  | search _ _ hr =>
    by_cases h2 : gs.length < 2
    · rw [reorder_few h.graphs h2] at hr; cases hr
    · obtain ⟨_, _, _, e1, e2, _, _, e5⟩ := h.reorder (by omega)
      rw [hr] at e1
      cases e1
      exact ⟨e2, _, e5⟩
  | byKeys keys _ _ hr =>
    by_cases hk : keys.length = ix.elements.data.length
    · obtain ⟨_, _, e1, e2, e3⟩ := h.byKeys hk
      rw [hr] at e1
      cases e1
      exact ⟨e2, _, e3⟩
    · rw [h.byKeys_none hk] at hr; cases hr


end Granne
