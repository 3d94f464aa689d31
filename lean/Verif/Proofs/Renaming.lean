import Verif.Proofs.Reload
import Verif.Proofs.ReorderRun

/-! A builder that is opened from a reordered index. -/
namespace Granne
open List Spec

variable {E D : Type} [LinearOrder D]

/-- The rows of a layer after renaming its nodes. -/
def renRows (order : List Nat) (w : Nat) (R : Rows) : Rows :=
  (order.take R.length).map fun j =>
    let ids := (visible (R.getD j [])).map (posIn order)
    ids ++ List.replicate (w - ids.length) UNUSED

section
variable {order : List Nat} {N n : Nat} (hperm : order.Perm (List.range N)) (hle : n ≤ N)
  (hpre : (order.take n).Perm (List.range n))
include hperm hle hpre

theorem renRows_length {w : Nat} {R : Rows} (hR : R.length = n) : (renRows order w R).length = n := by
  have := order_length hperm
  rw [renRows, List.length_map, List.length_take, hR]
  omega

theorem order_get {i : Nat} (hi : i < n) : ∃ j, order[i]? = some j ∧ j < n ∧ posIn order j = i := by
  have hlen := order_length hperm
  refine ⟨order[i], List.getElem?_eq_getElem (by omega), ?_, posIn_of_get hperm (List.getElem?_eq_getElem (by omega))⟩
  have : (order.take n)[i]? = some order[i] := by
    rw [List.getElem?_take_of_lt hi]; exact List.getElem?_eq_getElem (by omega)
  have := List.mem_of_getElem? this
  rwa [hpre.mem_iff, List.mem_range] at this

theorem renRows_get {w : Nat} {R : Rows} (hR : R.length = n) {i j : Nat} (hi : i < n) (hj : order[i]? = some j) {row : Row}
    (hrow : R[j]? = some row) :
    (renRows order w R)[i]? = some ((visible row).map (posIn order) ++
      List.replicate (w - ((visible row).map (posIn order)).length) UNUSED) := by
  have : (order.take R.length)[i]? = some j := by rw [List.getElem?_take_of_lt (by omega), hj]
  rw [renRows, List.getElem?_map, this, Option.map_some, List.getD_eq_getElem?_getD, hrow]
  rfl

variable {w : Nat} {Z Z' : Nat → Prop} {R : Rows} (hn : n ≤ UNUSED) (h0 : order.getD 0 0 = 0) (h : LayerInv n w Z R)
  (hZ : ∀ j < n, Z' (posIn order j) → Z j)
include hn h0 h hZ

theorem posIn_zero : posIn order 0 = 0 := by
  have hlen := order_length hperm
  by_cases hN : N = 0
  · exact posIn_ge hperm (by omega)
  · refine posIn_of_get hperm ?_
    rw [List.getD_eq_getElem?_getD] at h0
    rw [List.getElem?_eq_getElem (by omega)] at h0 ⊢
    simpa using h0

theorem renRow_ok {i j : Nat} (hi : i < n) (hj : order[i]? = some j) (hjn : j < n) {row : Row} (hrow : R[j]? = some row) :
    RowOk n w Z' i ((visible row).map (posIn order) ++
      List.replicate (w - ((visible row).map (posIn order)).length) UNUSED) ∧
    visible ((visible row).map (posIn order) ++
      List.replicate (w - ((visible row).map (posIn order)).length) UNUSED) = (visible row).map (posIn order) := by
  have hr := h.rows j row hrow
  have hp := posIn_of_get hperm hj
  have hz := posIn_zero hperm hle hpre hn h0 h hZ
  refine RowOk.of_ids hn ?_ ?_ ?_ ?_
  · rw [List.length_map]; exact hr.len
  · exact hr.nodup.map fun a b e => posIn_inj hperm e
  · intro m hm
    obtain ⟨k, hk, rfl⟩ := List.mem_map.1 hm
    obtain ⟨h1, h2, h3⟩ := hr.ids k hk
    refine ⟨posIn_lt_layer hperm hle hpre h1, ?_, ?_⟩
    · rw [← hp]; exact fun e => h2 (posIn_inj hperm e)
    · intro hne hzk
      exact h3 (fun e => hne (by rw [e, hz])) (hZ k h1 hzk)
  · intro hne hi0
    have hne' : visible row ≠ [] := fun e => hne (by rw [e]; rfl)
    have hj0 : j ≠ 0 := by rintro rfl; exact hi0 (by rw [← hp, hz])
    refine ⟨hi, fun hz' => (hr.own hne' hj0).2 (hZ j hjn ?_)⟩
    rw [hp]; exact hz'

theorem renRows_NE {j : Nat} (hj : j < n) : NE (renRows order w R) (posIn order j) ↔ NE R j := by
  have hi := posIn_lt_layer hperm hle hpre hj
  have hg := posIn_get hperm (lt_of_lt_of_le hj hle)
  have hjR : j < R.length := by rw [h.len]; exact hj
  have hrow : R[j]? = some R[j] := List.getElem?_eq_getElem hjR
  unfold NE
  rw [renRows_get hperm hle hpre h.len hi hg hrow, hrow]
  have hv := (renRow_ok hperm hle hpre hn h0 h hZ hi hg hj hrow).2
  constructor
  · rintro ⟨_, e, hne⟩
    cases e
    rw [hv] at hne
    exact ⟨_, rfl, fun e => hne (by rw [e]; rfl)⟩
  · rintro ⟨_, e, hne⟩
    cases e
    refine ⟨_, rfl, ?_⟩
    rw [hv]
    simpa using hne

theorem LayerInv.renamed : LayerInv n w Z' (renRows order w R) := by
  refine ⟨renRows_length hperm hle hpre h.len, ?_, ?_⟩
  · intro i row' hi
    have hin : i < n := by
      rw [← renRows_length hperm hle hpre (w := w) h.len]; exact (List.getElem?_eq_some_iff.1 hi).1
    obtain ⟨j, hj, hjn, _⟩ := order_get hperm hle hpre hin
    have hjR : j < R.length := by rw [h.len]; exact hjn
    have hrow : R[j]? = some R[j] := List.getElem?_eq_getElem hjR
    rw [renRows_get hperm hle hpre h.len hin hj hrow] at hi
    cases hi
    exact (renRow_ok hperm hle hpre hn h0 h hZ hin hj hjn hrow).1
  · intro i row' hi m hm hm0
    have hin : i < n := by
      rw [← renRows_length hperm hle hpre (w := w) h.len]; exact (List.getElem?_eq_some_iff.1 hi).1
    obtain ⟨j, hj, hjn, _⟩ := order_get hperm hle hpre hin
    have hjR : j < R.length := by rw [h.len]; exact hjn
    have hrow : R[j]? = some R[j] := List.getElem?_eq_getElem hjR
    rw [renRows_get hperm hle hpre h.len hin hj hrow] at hi
    cases hi
    rw [(renRow_ok hperm hle hpre hn h0 h hZ hin hj hjn hrow).2] at hm
    obtain ⟨k, hk, rfl⟩ := List.mem_map.1 hm
    have hz := posIn_zero hperm hle hpre hn h0 h hZ
    have hkn := ((h.rows j _ hrow).ids k hk).1
    exact (renRows_NE hperm hle hpre hn h0 h hZ hkn).2
      (h.pub j _ hrow k hk fun e => hm0 (by rw [e, hz]))

end

/-- The builder with its nodes renamed. -/
def Builder.renamed (b : Builder E D) (order : List Nat) (es : Elements E D) : Builder E D :=
  ⟨es, b.layers.map fun l => ⟨l.width, renRows order l.width l.rows⟩, b.config⟩

/-- `es'` is `es` in the order `order`. -/
structure InOrder (order : List Nat) (es es' : Elements E D) : Prop where
  perm : order.Perm (List.range es.data.length)
  dist : es'.dist = es.dist
  len : es'.data.length = es.data.length
  get : ∀ i j : Nat, order[i]? = some j → es'.data[i]? = es.data[j]?

omit [LinearOrder D] in
theorem InOrder.dist? {order : List Nat} {es es' : Elements E D} (h : InOrder order es es') {i j : Nat}
    (hi : i < es.data.length) (hj : j < es.data.length) : es'.dist? (posIn order i) (posIn order j) = es.dist? i j := by
  have e1 := h.get _ _ (posIn_get h.perm hi)
  have e2 := h.get _ _ (posIn_get h.perm hj)
  simp [Elements.dist?, Elements.distTo, e1, e2, h.dist]

theorem InOrder.isZero {order : List Nat} {es es' : Elements E D} (h : InOrder order es es') {eps : D} {j : Nat}
    (hj : j < es.data.length) : IsZero es' eps (posIn order j) ↔ IsZero es eps j := by
  unfold IsZero
  rw [h.dist? hj hj]

theorem BuilderInv.renamed {b : Builder E D} (h : BuilderInv b) {order : List Nat} {es : Elements E D}
    (ho : InOrder order b.elements es) (hpre : LayerPreserving order (b.layers.map fun l => l.rows.length))
    (h0 : order.getD 0 0 = 0) : BuilderInv (b.renamed order es) := by
  unfold Builder.renamed
  have hl : ∀ l ∈ b.layers, LayerInv l.rows.length b.config.numNeighbors (IsZero b.elements b.config.eps) l.rows ∧
      0 < l.rows.length ∧ l.rows.length ≤ b.elements.data.length := fun l hl => h.stack.layer l.rows (List.mem_map_of_mem hl)
  have hn : ∀ l ∈ b.layers, l.rows.length ≤ UNUSED := fun l hm => by have := (hl l hm).2.2; have := h.size; omega
  have hZ : ∀ l ∈ b.layers, ∀ j < l.rows.length, IsZero es b.config.eps (posIn order j) → IsZero b.elements b.config.eps j :=
    fun l hm j hj => (ho.isZero (by have := (hl l hm).2.2; omega)).1
  have hp : ∀ l ∈ b.layers, (order.take l.rows.length).Perm (List.range l.rows.length) :=
    fun l hm => hpre _ (List.mem_map_of_mem hm)
  have hlen : ∀ l ∈ b.layers, (renRows order b.config.numNeighbors l.rows).length = l.rows.length :=
    fun l hm => renRows_length ho.perm (hl l hm).2.2 (hp l hm) rfl
  have hNE : ∀ l ∈ b.layers, ∀ j < l.rows.length,
      (NE (renRows order b.config.numNeighbors l.rows) (posIn order j) ↔ NE l.rows j) :=
    fun l hm j hj => renRows_NE ho.perm (hl l hm).2.2 (hp l hm) (hn l hm) h0 (hl l hm).1 (hZ l hm) hj
  refine ⟨by rw [ho.len]; exact h.size, ⟨?_, ?_⟩, ?_⟩
  · intro R hR
    simp only [List.map_map, List.mem_map, Function.comp_apply] at hR
    obtain ⟨l, hm, rfl⟩ := hR
    rw [h.width l hm, hlen l hm]
    refine ⟨(hl l hm).1.renamed ho.perm (hl l hm).2.2 (hp l hm) (hn l hm) h0 (hZ l hm), (hl l hm).2.1, ?_⟩
    rw [ho.len]; exact (hl l hm).2.2
  · rw [List.map_map, List.pairwise_map]
    have := h.stack.nested
    rw [List.pairwise_map] at this
    refine this.imp_of_mem ?_
    intro l1 l2 m1 m2 ⟨e1, e2⟩
    simp only [Function.comp_apply]
    rw [h.width l1 m1, h.width l2 m2, hlen l1 m1, hlen l2 m2]
    refine ⟨e1, fun i hi => ?_⟩
    have hin : i < l1.rows.length := by
      obtain ⟨_, hr, _⟩ := hi
      rw [← hlen l1 m1]; exact (List.getElem?_eq_some_iff.1 hr).1
    obtain ⟨j, _, hjn, rfl⟩ := order_get ho.perm (hl l1 m1).2.2 (hp l1 m1) hin
    exact (hNE l2 m2 j (by omega)).2 (e2 j ((hNE l1 m1 j hjn).1 hi))
  · intro l hm
    obtain ⟨l0, h1, rfl⟩ := List.mem_map.1 hm
    exact h.width l0 h1

end Granne
