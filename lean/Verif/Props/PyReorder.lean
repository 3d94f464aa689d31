import Verif.Props.PyIsolation
import Verif.Props.Reorder

/-!
C63: `reorder` of an index opened in a Python session.
-/
namespace Granne
open Spec

variable {checked : Bool} {srt : List (Nat × ℝ) → List (Nat × ℝ)} {t : ElementType} {c : PyConfig}

/-- The graphs of the layers are what one sees. -/
theorem graphs_answer {L : Layers} {gs : List Graph} (hg : L.graphs = some gs) :
    L.num = gs.length ∧ (∀ l, L.layerLen l = (gs[l]?).map List.length) ∧
    ∀ (l i : Nat) (g : Graph) (x : List Nat), gs[l]? = some g → g[i]? = some x → L.neighbors l i = some x := by
  cases L with
  | fixWidth ls =>
    simp only [Layers.graphs, Option.some.injEq] at hg
    subst hg
    refine ⟨by simp [Layers.num], fun l => ?_, fun l i g x h1 h2 => ?_⟩
    · simp only [Layers.layerLen, List.getElem?_map]
      cases ls[l]? <;> simp [graphOf]
    · simp only [Layers.neighbors]
      rw [List.getElem?_map] at h1
      cases e : ls[l]? with
      | none => simp [e] at h1
      | some la =>
        simp only [e, Option.map_some, Option.some.injEq] at h1
        subst h1
        simp only [graphOf, List.getElem?_map] at h2
        exact h2
  | compressed vs =>
    have h := mapM_some hg
    refine ⟨h.length_eq, fun l => ?_, fun l i g x h1 h2 => ?_⟩
    · simp only [Layers.layerLen]
      rcases forall₂_get? h l with ⟨e1, e2⟩ | ⟨v, g, e1, e2, hv⟩
      · simp [e1, e2]
      · simp only [e1, e2, Option.map_some]
        unfold SetVec.graph at hv
        rcases Option.eq_none_or_eq_some v.len with e | ⟨n, e⟩
        · simp [e] at hv
        · simp only [e] at hv
          rw [e, ← (mapM_some hv).length_eq, List.length_range]
    · simp only [Layers.neighbors]
      rcases forall₂_get? h l with ⟨e1, e2⟩ | ⟨v, g', e1, e2, hv⟩
      · rw [h1] at e2; cases e2
      · rw [h1] at e2; cases e2
        simp only [e1]
        unfold SetVec.graph at hv
        rcases Option.eq_none_or_eq_some v.len with e | ⟨n, e⟩
        · simp [e] at hv
        · simp only [e] at hv
          rcases forall₂_get? (mapM_some hv) i with ⟨f1, f2⟩ | ⟨j, y, f1, f2, hj⟩
          · rw [h2] at f2; cases f2
          · rw [h2] at f2; cases f2
            obtain ⟨_, hj'⟩ := List.getElem?_eq_some_iff.1 f1
            rw [List.getElem_range] at hj'
            rw [hj']; exact hj

/-- An index object, with what it reads. -/
structure IndexAt (checked : Bool) (w : World) (k : Nat) (t : ElementType) (L : Layers) (gs : List Graph)
    (v : FixVec (Scal t)) (d : Nat) (rows : List (List (Scal t))) : Prop where
  obj : ∃ ls vs, w.objects[k]? = some (.index t ls vs) ∧ ls.layers w.files = some L ∧ vs.vectors w.files = some v
  graphs : L.graphs = some gs
  shows : ShowsVectors v d rows
  dim : 0 < d

section
variable {w : World} {k d : Nat} {L : Layers} {gs : List Graph} {v : FixVec (Scal t)} {rows : List (List (Scal t))}

theorem IndexAt.answers (h : IndexAt checked w k t L gs v d rows) (q : PyQuery) (a : PyAnswer)
    (h1 : ∀ i, q ≠ .element i) (h2 : ∀ r m n, q ≠ .search r m n) :
    w.Answers checked k q a ↔ L.answer q = some a := by
  obtain ⟨ls, vs, h3, h4, h5⟩ := h.obj
  unfold World.Answers
  simp only [h3, Option.some.injEq, exists_eq_left', PyObj.Answers, PyObj.layers, h4]
  cases q with
  | element i => exact absurd rfl (h1 i)
  | search r m n => exact absurd rfl (h2 r m n)
  | _ => simp

theorem IndexAt.element (h : IndexAt checked w k t L gs v d rows) (i : Nat) (a : PyAnswer) :
    w.Answers checked k (.element i) a ↔ ∃ row, rows[i]? = some row ∧ a = .vector (encodeAll row) := by
  obtain ⟨ls, vs, h3, h4, h5⟩ := h.obj
  have hget := (h.shows.repr h.dim).get_eq i
  unfold World.Answers
  simp only [h3, Option.some.injEq, exists_eq_left', PyObj.Answers, PyObj.layers, h4, h5, Layers.answer]
  simp [hget]

theorem IndexAt.search (h : IndexAt checked w k t L gs v d rows) (raw : List UInt32) (m n : Nat) (a : PyAnswer) :
    w.Answers checked k (.search raw m n) a ↔ ∃ row r, Convert t raw row ∧
      search gs (⟨rows, rowDist checked t⟩ : Elements (List (Scal t)) ℝ) row m n = some r ∧ a = .found r := by
  obtain ⟨ls, vs, h3, h4, h5⟩ := h.obj
  unfold World.Answers
  simp only [h3, Option.some.injEq, exists_eq_left', PyObj.Answers, PyObj.layers, h4, h5, Layers.answer]
  constructor
  · rintro (hx | hx)
    · simp at hx
    · obtain ⟨L', gs', v', row, r, e1, e2, e3, h1, h2, h3⟩ := hx
      subst e1 e3
      rw [h.graphs] at e2; cases e2
      rw [vecElements_eq h.shows] at h2
      exact ⟨row, r, h1, h2, h3⟩
  · rintro ⟨row, r, h1, h2, h3⟩
    exact Or.inr ⟨_, gs, v, row, r, rfl, h.graphs, rfl, h1, by rw [vecElements_eq h.shows]; exact h2, h3⟩

theorem IndexAt.num (h : IndexAt checked w k t L gs v d rows) (a : PyAnswer) :
    w.Answers checked k .numLayers a ↔ a = .num gs.length := by
  rw [h.answers _ _ (by simp) (by simp)]
  simp [Layers.answer, (graphs_answer h.graphs).1, eq_comm]

theorem IndexAt.layerLen (h : IndexAt checked w k t L gs v d rows) (l : Nat) (a : PyAnswer) :
    w.Answers checked k (.layerLen l) a ↔ ∃ g, gs[l]? = some g ∧ a = .num g.length := by
  rw [h.answers _ _ (by simp) (by simp)]
  simp [Layers.answer, (graphs_answer h.graphs).2.1, eq_comm]

theorem IndexAt.len (h : IndexAt checked w k t L gs v d rows) (a : PyAnswer) :
    w.Answers checked k .len a ↔ a = .num (indexLen gs) := by
  rw [h.answers _ _ (by simp) (by simp)]
  simp only [Layers.answer, (graphs_answer h.graphs).1, (graphs_answer h.graphs).2.1, indexLen]
  by_cases h0 : gs = []
  · simp [h0, eq_comm]
  · have : gs.getLast? = gs[gs.length - 1]? := List.getLast?_eq_getElem?
    have hpos := List.length_pos_iff.2 h0
    rw [if_neg (by omega), this, List.getElem?_eq_getElem (by omega)]
    simp [eq_comm]

/-- `reorder` of the object is `reorder` of the index. -/
theorem IndexAt.reorder (h : IndexAt checked w k t L gs v d rows)
    (hfull : FullIndex (⟨L, ⟨rows, rowDist checked t⟩⟩ : GIndex (List (Scal t)) ℝ) gs) (h2 : 2 ≤ gs.length) :
    ∃ o L' v' rows' order, w.objects[k]? = some o ∧
      o.reorder checked w.files = some (.index t (.owned L') (.owned v'), order) ∧
      (⟨L, ⟨rows, rowDist checked t⟩⟩ : GIndex (List (Scal t)) ℝ).reorder = some (⟨L', ⟨rows', rowDist checked t⟩⟩, order) ∧
      ShowsVectors v' d rows' := by
  obtain ⟨ls, vs, h3, h4, h5⟩ := h.obj
  obtain ⟨ix', order, hr⟩ := C27_reorder_returns_partial _ gs hfull h2
  obtain ⟨hperm, _, _, _⟩ := C24_reorder_order _ gs hfull ix' order hr
  obtain ⟨gs', _, _, hlen, hdist, hdata⟩ := C25_reorder_preserves _ gs hfull ix' order (.search _ _ hr)
  obtain ⟨v', rows', hv1, hv2, hv3, hv4, _⟩ := C28_permute_vectors v d rows h.shows h.dim order hperm
  simp only at hlen hdist hdata
  have hrows : ix'.elements.data = rows' := by
    apply List.ext_getElem?
    intro i
    by_cases hi : i < rows.length
    · rw [hdata i hi]
      have ho : i < order.length := by rw [hperm.length_eq, List.length_range]; exact hi
      rw [hv4 i order[i] (List.getElem?_eq_getElem ho), List.getD_eq_getElem?_getD, List.getElem?_eq_getElem ho]
      rfl
    · rw [List.getElem?_eq_none (by omega), List.getElem?_eq_none (by omega)]
  have hbatch := GIndex.reorder_batch hr
  obtain ⟨L', es'⟩ := ix'
  obtain @⟨dat, dis, bat⟩ := es'
  simp only at hrows hdist hbatch
  subst hrows hdist hbatch
  refine ⟨_, L', v', dat, order, h3, ?_, hr, hv2⟩
  unfold GIndex.reorder at hr
  simp only [h.graphs] at hr
  unfold PyObj.reorder
  simp only [h4, h5, h.graphs, vecElements_eq h.shows]
  rcases Option.eq_none_or_eq_some (computeOrder gs (⟨rows, rowDist checked t⟩ : Elements (List (Scal t)) ℝ)) with e | ⟨o2, e⟩
  · rw [e] at hr; cases hr
  · rw [e] at hr ⊢
    simp only at hr ⊢
    unfold reorderWith at hr
    rcases Option.eq_none_or_eq_some (reorderLayers gs o2) with e2 | ⟨L2, e2⟩
    · rw [e2] at hr; cases hr
    · rw [e2] at hr ⊢
      simp only at hr ⊢
      split at hr
      · cases hr
      · cases hr
        rw [hv1]

end

section
variable {h : Nat} {ip ep : String} {wi w : World} {indexed vectors : List (List UInt32)}

/-- The opened index. -/
theorem opened_at (hsrt : IsSortByDist srt) (hgood : c.Good) (hs : Saved checked srt t c h ip ep wi w indexed vectors)
    (hok : Sensible vectors) {w' : World} (hw : PyStep checked srt w (.openIndex t ip ep) w') :
    ∃ (vs : List SetVec) (gs : List Graph) (v : FixVec (Scal t)) (d : Nat) (rows : List (List (Scal t))) (layers : List Layer),
      IndexAt checked w' w.objects.length t (.compressed vs) gs v d rows ∧ d < 2 ^ 64 ∧
      List.Forall₂ (Convert t) vectors rows ∧
      (∀ a, wi.Answers checked h .len a ↔ a = .num (lastLen layers)) ∧
      (∀ a, wi.Answers checked h .numLayers a ↔ a = .num layers.length) ∧
      gs.length = layers.length ∧ WellFormedIndex gs rows.length ∧ rows.length < 2 ^ 32 ∧
      indexLen gs = lastLen layers ∧
      (2 ≤ layers.length → lastLen layers = vectors.length →
        FullIndex (⟨.compressed vs, ⟨rows, rowDist checked t⟩⟩ : GIndex (List (Scal t)) ℝ) gs) := by
  obtain ⟨rowsi, vi, layers, rows, d, v, f, ⟨hoi, _⟩, hf⟩ := hs.facts fun raw hr => (hok.proper raw hr).1
  obtain ⟨hc, h255, _⟩ := hgood.config
  have hflen := hf.small hsrt hc
  have hopen := hf.openIndex hsrt hc h255 hflen hok.some_vector fun raw hr => (hok.proper raw hr).2
  have hb := hf.reach.reachable
  obtain ⟨vs, gs, hl, hgs, hperm⟩ := C06_builder hsrt _ hb hc h255 [] f 0 hf.saved hflen
  have hl0 := hl
  rw [List.drop_zero] at hl
  have hperm' : List.Forall₂ (List.Forall₂ fun l l' : List Nat => l'.Perm l)
      (Builder.graphs (⟨⟨rows, rowDist checked t⟩, layers, c.config⟩ : Builder (List (Scal t)) ℝ)) gs :=
    hperm.imp fun _ _ h => h.imp fun _ _ h => h.1
  have hvec := (hf.openVectors hok.some_vector fun raw hr => (hok.proper raw hr).2).2
  obtain ⟨hd0, hd1⟩ := hf.dim hok.some_vector
  have hglen : gs.length = layers.length := by rw [← hperm.length_eq]; simp [Builder.graphs]
  refine ⟨vs, gs, v, d, rows, layers, ⟨?_, hgs, hf.shows, hd0⟩, ?_, hf.conv, builder_len hoi, ?_, hglen,
    wellFormed_congr (C16_index_wellformed hsrt _ hb hc) hperm', ?_, ?_, ?_⟩
  · cases hw with
    | openIndex t ip ep o ho =>
      rw [hopen] at ho; cases ho
      exact ⟨.mapped ip f.length, .mapped ep v.bytes.length, by simp, hf.srcLayers hl, hvec⟩
  · obtain ⟨raw, hr⟩ := List.exists_mem_of_ne_nil _ hok.some_vector
    rw [← hd1 raw hr]; exact (hok.proper raw hr).2
  · intro a
    unfold World.Answers
    simp only [hoi, Option.some.injEq, exists_eq_left', PyObj.Answers, PyObj.layers, Layers.answer, Layers.num]
    simp [eq_comm]
  · have := (hb.inv hsrt hc).size
    unfold UNUSED at this
    simp only at this
    omega
  · unfold indexLen lastLen
    rw [List.getLast?_eq_getElem?, List.getLast?_eq_getElem?, hglen]
    rcases forall₂_get? hperm' (layers.length - 1) with ⟨e1, e2⟩ | ⟨a, b, e1, e2, hab⟩
    · have : layers[layers.length - 1]? = none := by simpa [Builder.graphs] using e1
      rw [e2, this]
    · rw [e2]
      simp only [Builder.graphs, List.getElem?_map, Option.map_eq_some_iff] at e1
      obtain ⟨la, hla, rfl⟩ := e1
      rw [hla]
      simp only
      rw [← hab.length_eq]
      simp [graphOf]
  · intro h2 hfull
    obtain ⟨vs', gs', _, _, e1, hF, _⟩ := C27_builder_partial hsrt _ hb hc h255
      (by simp only; rw [hfull, hf.conv.length_eq]) h2 [] f 0 hf.saved hflen
    rw [hl0] at e1
    cases e1
    have := hF.graphs
    rw [hgs] at this
    cases this
    exact hF

/-- `reorder` of object `k` returns `order`. -/
def ReorderReturns (checked : Bool) (w : World) (k : Nat) (order : List Nat) : Prop :=
  ∃ o o', w.objects[k]? = some o ∧ o.reorder checked w.files = some (o', order)

/-- No two of the vectors are equally far from the query. -/
def NoTies (checked : Bool) (t : ElementType) (vectors : List (List UInt32)) (raw : List UInt32) : Prop :=
  ∀ (rows : List (List (Scal t))) (row : List (Scal t)), List.Forall₂ (Convert t) vectors rows → Convert t raw row →
    ∀ (i j : Nat) (x y : List (Scal t)), rows[i]? = some x → rows[j]? = some y →
      rowDist checked t x row = rowDist checked t y row → i = j

/-- What `order` says about object `k` before (`w`) and after (`w'`) it was reordered: the sizes are the same, position `i`
has the vector that was at position `order[i]`, and the neighbors it had, under their new ids. -/
structure ReorderedAs (checked : Bool) (w w' : World) (k : Nat) (order : List Nat) : Prop where
  len : ∀ a, w'.Answers checked k .len a ↔ w.Answers checked k .len a
  numLayers : ∀ a, w'.Answers checked k .numLayers a ↔ w.Answers checked k .numLayers a
  layerLen : ∀ l a, w'.Answers checked k (.layerLen l) a ↔ w.Answers checked k (.layerLen l) a
  element : ∀ i a, i < order.length →
    (w'.Answers checked k (.element i) a ↔ w.Answers checked k (.element (order.getD i 0)) a)
  neighbors : ∀ i l n, w.Answers checked k (.layerLen l) (.num n) → i < n →
    ∃ ns ns', w.Answers checked k (.neighbors (order.getD i 0) (some l)) (.ids ns) ∧
      w'.Answers checked k (.neighbors i (some l)) (.ids ns') ∧ (ns'.map fun j => order.getD j 0).Perm ns

theorem IndexAt.reordered {w : World} {k d : Nat} {L : Layers} {gs : List Graph} {v : FixVec (Scal t)}
    {rows : List (List (Scal t))} (h : IndexAt checked w k t L gs v d rows)
    (hfull : FullIndex (⟨L, ⟨rows, rowDist checked t⟩⟩ : GIndex (List (Scal t)) ℝ) gs) (h2 : 2 ≤ gs.length)
    {w' : World} {order : List Nat} (hw : PyStep checked srt w (.reorder k) w') (ho : ReorderReturns checked w k order) :
    ∃ L' v' rows' gs', w'.objects[k]? = some (.index t (.owned L') (.owned v')) ∧ w'.files = w.files ∧
      IndexAt checked w' k t L' gs' v' d rows' ∧
      (⟨L, ⟨rows, rowDist checked t⟩⟩ : GIndex (List (Scal t)) ℝ).reorder = some (⟨L', ⟨rows', rowDist checked t⟩⟩, order) ∧
      FullIndex (⟨L', ⟨rows', rowDist checked t⟩⟩ : GIndex (List (Scal t)) ℝ) gs' ∧ ReorderedAs checked w w' k order := by
  obtain ⟨o, L', v', rows', order', h3, h4, h5, h6⟩ := h.reorder hfull h2
  have hlt := (List.getElem?_eq_some_iff.1 h3).1
  have hord : order' = order := by
    obtain ⟨o1, o2, e1, e2⟩ := ho
    rw [h3] at e1; cases e1
    rw [h4] at e2; cases e2; rfl
  subst hord
  obtain ⟨gs', hfull', hren, hlen, _, hdata⟩ := C25_reorder_preserves _ gs hfull _ _ (.search _ _ h5)
  obtain ⟨hperm, _, _, _⟩ := C24_reorder_order _ gs hfull _ _ h5
  have hol : order'.length = rows.length := by rw [hperm.length_eq, List.length_range]
  simp only at hlen hdata
  have hw' : w' = ⟨w.files, w.objects.set k (.index t (.owned L') (.owned v'))⟩ := by
    cases hw with
    | reorder h' o1 o' order2 e1 e2 =>
      rw [h3] at e1; cases e1
      rw [h4] at e2; cases e2
      rfl
  subst hw'
  have hobj : (w.objects.set k (.index t (.owned L') (.owned v')))[k]? = some (.index t (.owned L') (.owned v')) :=
    List.getElem?_set_self hlt
  have hat : IndexAt checked ⟨w.files, w.objects.set k (.index t (.owned L') (.owned v'))⟩ k t L' gs' v' d rows' :=
    ⟨⟨_, _, hobj, rfl, rfl⟩, hfull'.graphs, h6, h.dim⟩
  have hlens : ∀ l : Nat, (gs'[l]?).map List.length = (gs[l]?).map List.length := by
    intro l
    rcases forall₂_get? hren l with ⟨e1, e2⟩ | ⟨a, b, e1, e2, hab⟩
    · rw [e1, e2]
    · rw [e1, e2]; simp [hab.1]
  have hidx : indexLen gs' = indexLen gs := by
    have := hlens (gs.length - 1)
    unfold indexLen
    rw [List.getLast?_eq_getElem?, List.getLast?_eq_getElem?, ← hren.length_eq]
    rcases Option.eq_none_or_eq_some gs[gs.length - 1]? with e | ⟨x, e⟩ <;>
      rcases Option.eq_none_or_eq_some gs'[gs.length - 1]? with e' | ⟨y, e'⟩ <;> simp_all
  refine ⟨L', v', rows', gs', hobj, rfl, hat, h5, hfull', ⟨fun a => ?_, fun a => ?_, fun l a => ?_, fun i a hi => ?_,
    fun i l n hn hi => ?_⟩⟩
  · rw [hat.len, h.len, hidx]
  · rw [hat.num, h.num, hren.length_eq]
  · rw [hat.layerLen, h.layerLen]
    have := hlens l
    rcases Option.eq_none_or_eq_some gs[l]? with e | ⟨x, e⟩ <;>
      rcases Option.eq_none_or_eq_some gs'[l]? with e' | ⟨y, e'⟩ <;> simp_all
  · rw [hat.element, h.element, hdata i (by omega)]
  · obtain ⟨g, hg, he⟩ := (h.layerLen l _).1 hn
    cases he
    rcases forall₂_get? hren l with ⟨e1, _⟩ | ⟨a, b, e1, e2, hab1, hab2⟩
    · rw [hg] at e1; cases e1
    · rw [hg] at e1; cases e1
      obtain ⟨ns, ns', f1, f2, f3⟩ := hab2 i (by omega)
      refine ⟨ns, ns', ?_, ?_, f3⟩
      · rw [h.answers _ _ (by simp) (by simp)]
        simp only [Layers.answer]
        rw [(graphs_answer h.graphs).2.2 l _ g ns hg f1]
        rfl
      · rw [hat.answers _ _ (by simp) (by simp)]
        simp [Layers.answer, (graphs_answer hat.graphs).2.2 l i b ns' e2 f2]

/-- C63. An index opened from the files saved by a builder, with all vectors indexed in at least two layers, can be
reordered; the order returned is a permutation that leaves element 0 in place; the index afterwards is the same up to
this renaming, and so are the results of searches without ties. -/
theorem C63_reorder (hsrt : IsSortByDist srt) (hgood : c.Good) (hs : Saved checked srt t c h ip ep wi w indexed vectors)
    (hok : Sensible vectors) (w' : World) (hw : PyStep checked srt w (.openIndex t ip ep) w') (l : Nat)
    (hlen : wi.Answers checked h .len (.num vectors.length)) (hnum : wi.Answers checked h .numLayers (.num l)) (h2 : 2 ≤ l) :
    (∃ order, ReorderReturns checked w' w.objects.length order) ∧
    (∃ w'', PyStep checked srt w' (.reorder w.objects.length) w'') ∧
    ∀ order w'', ReorderReturns checked w' w.objects.length order → PyStep checked srt w' (.reorder w.objects.length) w'' →
      order.Perm (List.range vectors.length) ∧ order[0]? = some 0 ∧
      ReorderedAs checked w' w'' w.objects.length order ∧
      ∀ raw maxSearch k, NoTies checked t vectors raw → ∀ r,
        w'.Answers checked w.objects.length (.search raw maxSearch k) (.found r) ↔
          ∃ r', w''.Answers checked w.objects.length (.search raw maxSearch k) (.found r') ∧
            r = r'.map fun p => (order.getD p.1 0, p.2) := by
  obtain ⟨vs, gs, v, d, rows, layers, hat, _, hconv, hl1, hl2, hgl, _, _, _, hF⟩ := opened_at hsrt hgood hs hok hw
  have e1 : vectors.length = lastLen layers := by simpa using (hl1 _).1 hlen
  have e2 : l = layers.length := by simpa using (hl2 _).1 hnum
  have hfull := hF (by omega) e1.symm
  obtain ⟨o, L', v', rows', order, h3, h4, h5, h6⟩ := hat.reorder hfull (by omega)
  refine ⟨⟨order, o, _, h3, h4⟩, ⟨_, .reorder w' _ o _ order h3 h4⟩, fun order w'' ho hst => ?_⟩
  obtain ⟨L', v', rows', gs', _, _, hat', hre, hfull', has⟩ := hat.reordered hfull (by omega) hst ho
  obtain ⟨hperm, _, _, h0⟩ := C24_reorder_order _ gs hfull _ _ hre
  refine ⟨by rw [hconv.length_eq]; exact hperm, h0, has, fun raw maxSearch k hties r => ?_⟩
  have key : ∀ row, Convert t raw row →
      (search gs' (⟨rows', rowDist checked t⟩ : Elements (List (Scal t)) ℝ) row maxSearch k).map
        (List.map fun r => (order.getD r.1 0, r.2)) =
      search gs (⟨rows, rowDist checked t⟩ : Elements (List (Scal t)) ℝ) row maxSearch k := by
    intro row hrow
    exact C26_reorder_search_same _ gs hfull _ order hre row
      (fun a b ea eb ha hb he => hties rows row hconv hrow a b ea eb ha hb he) gs' hfull'.graphs maxSearch k
  rw [hat.search]
  constructor
  · rintro ⟨row, r1, h1, h2, h3⟩
    cases h3
    rw [← key row h1, Option.map_eq_some_iff] at h2
    obtain ⟨r', h4, h5⟩ := h2
    exact ⟨r', (hat'.search raw maxSearch k _).2 ⟨row, r', h1, h4, rfl⟩, h5.symm⟩
  · rintro ⟨r', h1, rfl⟩
    obtain ⟨row, r1, h1, h2, h3⟩ := (hat'.search raw maxSearch k _).1 h1
    cases h3
    exact ⟨row, _, h1, by rw [← key row h1, h2]; rfl, rfl⟩

/-- C63, C27. With fewer than two layers, or with vectors that are not indexed, `reorder` panics. -/
theorem C63_reorder_panics (hsrt : IsSortByDist srt) (hgood : c.Good)
    (hs : Saved checked srt t c h ip ep wi w indexed vectors)
    (hok : Sensible vectors) (w' : World) (hw : PyStep checked srt w (.openIndex t ip ep) w') (n l : Nat)
    (hlen : wi.Answers checked h .len (.num n)) (hnum : wi.Answers checked h .numLayers (.num l))
    (hbad : l < 2 ∨ n < vectors.length) : ¬ ∃ w'', PyStep checked srt w' (.reorder w.objects.length) w'' := by
  obtain ⟨vs, gs, v, d, rows, layers, hat, _, hconv, hl1, hl2, hgl, hwf, hsz, hidx, _⟩ := opened_at hsrt hgood hs hok hw
  have e1 : n = lastLen layers := by simpa using (hl1 _).1 hlen
  have e2 : l = layers.length := by simpa using (hl2 _).1 hnum
  have hnone : ∀ order, computeOrder gs (⟨rows, rowDist checked t⟩ : Elements (List (Scal t)) ℝ) = some order →
      order.length ≠ rows.length := by
    intro order hord
    by_cases hfew : gs.length < 2
    · unfold computeOrder at hord
      rw [if_pos hfew] at hord
      cases hord
    · rcases hbad with hbad | hbad
      · omega
      · obtain ⟨order2, first, f1, f2, f3, f4⟩ := computeOrder_ok (es := (⟨rows, rowDist checked t⟩ : Elements (List (Scal t)) ℝ))
          hwf (by omega) le_rfl (by omega)
        rw [hord] at f1
        cases f1
        obtain ⟨bottom, hb⟩ : ∃ g, gs.getLast? = some g := by
          rw [List.getLast?_eq_getElem?, List.getElem?_eq_getElem (by omega)]; exact ⟨_, rfl⟩
        have := f4.full.1.length_eq
        unfold indexLen at hidx
        rw [hb] at hidx
        rw [List.getLast?_map, hb] at this
        simp at this
        simp only at hidx
        have := hconv.length_eq
        omega
  rintro ⟨w'', hst⟩
  generalize hk : w.objects.length = k at hst hat
  cases hst with
  | reorder h' o o' order h1 h2 =>
    obtain ⟨ls, vsrc, e3, e4, e5⟩ := hat.obj
    rw [e3] at h1; cases h1
    unfold PyObj.reorder at h2
    simp only [e4, e5, hat.graphs, vecElements_eq hat.shows] at h2
    rcases Option.eq_none_or_eq_some (computeOrder gs (⟨rows, rowDist checked t⟩ : Elements (List (Scal t)) ℝ)) with e | ⟨o2, e⟩
    · rw [e] at h2; cases h2
    · rw [e] at h2
      simp only at h2
      rw [C28_permute_wrong_length v d rows hat.shows o2 (hnone o2 e)] at h2
      split at h2
      · next hx => cases hx
      · cases h2

theorem reorder_compressed {ix ix' : GIndex (List (Scal t)) ℝ} {order : List Nat} (hr : ix.reorder = some (ix', order)) :
    ∃ us, ix'.layers = .compressed us := by
  unfold GIndex.reorder at hr
  split at hr
  · cases hr
  · split at hr
    · cases hr
    · unfold reorderWith at hr
      split at hr
      · cases hr
      · next L hL =>
        split at hr <;> cases hr
        unfold reorderLayers at hL
        split at hL
        · cases hL
        · split at hL <;> cases hL
          exact ⟨_, rfl⟩

/-- Compressed layers are loaded as they were. -/
theorem save_load_same {us : List SetVec} {lists : List (List (List Nat))} (h : HasLists (.compressed us) lists) {f : Bytes}
    (hs : saveIndex (.compressed us) [] 0 = (f, true)) (hlen : f.length < 2 ^ 64) : loadLayers f = some us := by
  obtain ⟨vs, nn, h1, h2, hnn, hfit, hf, h6⟩ := save_load h hs
  obtain ⟨vs', g1, g2, g3⟩ := h.emits
  obtain rfl := g2 us rfl
  obtain ⟨s1, s2⟩ := saveIndex_eq hnn h.counts (g3 _) []
  by_cases hfit' : (metadataText nn (lists.map List.length) ((vs'.map SetVec.toBytes).map List.length)).length ≤ METADATA_LEN
  · have e := s1 hfit'
    rw [hs] at e
    simp only [Prod.mk.injEq, and_true] at e
    have hne := imageOf_ne_nil nn vs' lists
    have e' : f = writeAt [] 0 (imageOf nn vs' lists) := e
    rw [show f = f.drop 0 from rfl, e', drop_writeAt _ _ _ hne]
    refine loadLayers_written g1 hfit' ?_
    rw [e', writeAt_length hne] at hlen
    change (imageOf nn vs' lists).length < 2 ^ 64
    omega
  · rw [s2 hfit'] at hs; cases hs

/-- C63. The reordered index can be saved, also to the files it was opened from, and opened again: it then answers every
question as before. -/
theorem C63_resave (hsrt : IsSortByDist srt) (hgood : c.Good) (hs : Saved checked srt t c h ip ep wi w indexed vectors)
    (hok : Sensible vectors) (w1 : World) (hw : PyStep checked srt w (.openIndex t ip ep) w1) (l : Nat)
    (hlen : wi.Answers checked h .len (.num vectors.length)) (hnum : wi.Answers checked h .numLayers (.num l)) (h2 : 2 ≤ l)
    (w2 : World) (hre : PyStep checked srt w1 (.reorder w.objects.length) w2)
    (ip' ep' : String) (hpath : ip' ≠ ep') (w3 w4 : World) (between after : List PyCall)
    (hr3 : PyRun checked srt w2 (.saveIndex w.objects.length ip' :: between) w3)
    (hr4 : PyRun checked srt w3 (.saveElements w.objects.length ep' :: after) w4)
    (hb1 : ∀ call ∈ between, ¬ Changes w.objects.length call ∧ ¬ Writes ip' call)
    (hb2 : ∀ call ∈ after, ¬ Writes ip' call ∧ ¬ Writes ep' call) :
    (∃ w5, PyStep checked srt w4 (.openIndex t ip' ep') w5) ∧
    ∀ w5, PyStep checked srt w4 (.openIndex t ip' ep') w5 → ∀ q a,
      w5.Answers checked w4.objects.length q a ↔ w2.Answers checked w.objects.length q a := by
  obtain ⟨vs, gs, v, d, rows, layers, hat, hd, hconv, hl1, hl2, hgl, _, _, _, hF⟩ := opened_at hsrt hgood hs hok hw
  have e1 : vectors.length = lastLen layers := by simpa using (hl1 _).1 hlen
  have e2 : l = layers.length := by simpa using (hl2 _).1 hnum
  have hfull := hF (by omega) e1.symm
  obtain ⟨o, _, _, _, order, g3, g4, _, _⟩ := hat.reorder hfull (by omega)
  obtain ⟨L', v', rows', gs', hobj, hfiles, hat', hreo, hfull', has⟩ := hat.reordered hfull (by omega) hre ⟨o, _, g3, g4⟩
  obtain ⟨us, hus⟩ := reorder_compressed hreo
  simp only at hus
  subst hus
  have hst := C25_reorder_saveable _ gs hfull _ _ (.search _ _ hreo)
  obtain ⟨lists, hlists⟩ := hst.hasLists
  simp only at hlists
  have hgs' : gs' = lists.map fun g => g.map fun l => (sortIds l).take 255 := by
    have := hlists.graphs.1 us rfl
    rw [hat'.graphs] at this
    exact Option.some.inj this
  have hrows : ∀ g ∈ lists, g.length < 2 ^ 32 := by
    intro g hg
    have := hfull'.wf.bounded (g.map fun l => (sortIds l).take 255) (by rw [hgs']; exact List.mem_map_of_mem hg)
    rw [List.length_map] at this
    have hsz := hfull'.small
    have hlt : rows'.length < 2 ^ 32 := by
      have hrl := (C25_reorder_preserves _ gs hfull _ _ (.search _ _ hreo)).choose_spec.2.2.1
      simp only at hrl
      rw [hrl, ← hconv.length_eq, e1]
      have := (opened_at hsrt hgood hs hok hw).choose_spec
      obtain ⟨gs0, v0, d0, rows0, layers0, _, _, hc0, hl0, _, _, _, hlt0, hidx0, _⟩ := this
      have ee : lastLen layers = lastLen layers0 := by
        have := (hl0 _).1 ((hl1 _).2 rfl)
        simpa using this
      have := hc0.length_eq
      omega
    simp only at this
    omega
  -- the files
  have hk2 := hobj
  generalize hk : w.objects.length = k at *
  cases hr3 with
  | cons _ wa _ _ _ hsa hra =>
    cases hr4 with
    | cons _ wb _ _ _ hsb hrb =>
      obtain ⟨f, hwa1, hwa2, hwa3⟩ : ∃ f, wa.files ip' = some f ∧ saveIndex (.compressed us) [] 0 = (f, true) ∧
          wa.objects[k]? = some (.index t (.owned (.compressed us)) (.owned v')) := by
        cases hsa with
        | saveIndex h' path o files x1 x2 =>
          rw [hk2] at x1; cases x1
          simp only [PyObj.saveIndex, PyObj.layers, Src.layers] at x2
          obtain ⟨y1, y2⟩ := Prod.mk.inj x2
          refine ⟨(saveIndex (.compressed us) [] 0).1, by rw [← y1]; simp [Files.put], Prod.ext rfl y2, hk2⟩
      have hw3 : w3.objects[k]? = some (.index t (.owned (.compressed us)) (.owned v')) :=
        hra.other hwa3 fun call hc => (hb1 call hc).1
      have hi3 : w3.files ip' = some f := by rw [hra.file fun call hc => (hb1 call hc).2, hwa1]
      obtain ⟨hwb1, hwb2⟩ : wb.files ep' = some v'.bytes ∧ wb.files ip' = some f := by
        refine ⟨?_, by rw [hsb.file (p := ip') (fun e => hpath e.symm), hi3]⟩
        cases hsb with
        | saveElements h' path o files x1 x2 =>
          rw [hw3] at x1; cases x1
          simp only [PyObj.saveElements, PyObj.elementBytes, Src.vectors, Option.map_some] at x2
          rw [← (Prod.mk.inj x2).1]
          simp [Files.put]
      have hfi : w4.files ip' = some f := by rw [hrb.file fun call hc => (hb2 call hc).1, hwb2]
      have hfe : w4.files ep' = some v'.bytes := by rw [hrb.file fun call hc => (hb2 call hc).2, hwb1]
      have hsize : f.length < 2 ^ 64 := by
        have := saved_size hlists hrows hwa2
        simp only [List.length_nil] at this
        omega
      have hload := save_load_same hlists hwa2 hsize
      have hf0 : f ≠ [] := by
        rintro rfl
        simp [loadLayers, readLayerSizes, asc] at hload
      have hvl : FixVec.fromBytes v'.bytes = some v' := C30_write_load_partial v' d rows' hat'.shows hat'.dim hd
      have hsrc1 : (Src.mapped ip' f.length : Src Layers).layers w4.files = some (.compressed us) := by
        unfold Src.layers
        simp only [mappedBytes_full hfi, hload, Option.map_some]
      have hsrc2 : (Src.mapped ep' v'.bytes.length : Src (FixVec (Scal t))).vectors w4.files = some v' := by
        unfold Src.vectors
        simp only [mappedBytes_full hfe, loadMmap_of_fromBytes hvl]
      have hopen : openIndex w4.files t ip' ep' =
          some (.index t (.mapped ip' f.length) (.mapped ep' v'.bytes.length)) := by
        have hov : openVectors t w4.files ep' = some (.mapped ep' v'.bytes.length) := by
          unfold openVectors
          rw [mapFile_some hfe (encodeAll_ne v'), hfe]
          simp only
          rw [hvl]
        unfold openIndex
        rw [hov, mapFile_some hfi hf0, hfi]
        simp only
        rw [hload]
        simp only
        have hlen := mapM_some (show us.mapM SetVec.graph = some gs' from hat'.graphs)
        rcases Option.eq_none_or_eq_some us.getLast? with hn | ⟨u, hu⟩
        · rw [hn]; rfl
        · rw [hu, Option.map_some]
          rw [List.getLast?_eq_getElem?] at hu
          rcases forall₂_get? hlen (us.length - 1) with ⟨x1, _⟩ | ⟨a, g, x1, x2, x3⟩
          · rw [hu] at x1; cases x1
          · rw [hu] at x1; cases x1
            unfold SetVec.graph at x3
            rcases Option.eq_none_or_eq_some u.len with e | ⟨n, e⟩
            · simp [e] at x3
            · rw [e]
      refine ⟨⟨_, .openIndex w4 t ip' ep' _ hopen⟩, fun w5 hst q a => ?_⟩
      cases hst with
      | openIndex t ip ep o ho =>
        rw [hopen] at ho; cases ho
        unfold World.Answers
        rw [hk2]
        simp only [List.getElem?_concat_length, Option.some.injEq, exists_eq_left']
        have a1 : (Src.owned (.compressed us) : Src Layers).layers w2.files = some (.compressed us) := rfl
        have a2 : (Src.owned v' : Src (FixVec (Scal t))).vectors w2.files = some v' := rfl
        cases q <;> simp only [PyObj.Answers, PyObj.layers, hsrc1, hsrc2, a1, a2]

end

/-! ### Examples -/

/-- The bit patterns of `(1, 0, 0, 0)`, `(-1, 0, 0, 0)`, `(0, 1, 0, 0)` and `(1, 1, 1, 1)`. -/
def exBits4 : List (List UInt32) :=
  [[0x3f800000, 0, 0, 0], [0xbf800000, 0, 0, 0], [0, 0x3f800000, 0, 0], [0x3f800000, 0x3f800000, 0x3f800000, 0x3f800000]]

/-- Layers shrink by a factor of 4. -/
noncomputable def exPyConfig4 : PyConfig := { layerMultiplier := some 4 }

theorem exPyConfig4_good : exPyConfig4.Good := ⟨by intro m h; cases h; norm_num, by simp [exPyConfig4], by simp [exPyConfig4]⟩

theorem exBits4_convert (t : ElementType) : ∀ raw ∈ exBits4, ∃ row, Convert t raw row := by
  intro raw hraw
  cases t with
  | angular => exact (C61_convertible raw).1
  | angularInt =>
    refine (C61_convertible raw).2.2 fun u hu hn => ?_
    have hu' : u = 0x3f800000 ∨ u = 0xbf800000 ∨ u = 0 := by
      simp only [exBits4, List.mem_cons, List.not_mem_nil, or_false] at hraw
      rcases hraw with rfl | rfl | rfl | rfl <;> simp only [List.mem_cons, List.not_mem_nil, or_false] at hu <;> tauto
    rcases hu' with rfl | rfl | rfl <;> simp [ofBits_one, ofBits_minus_one, ofBits_zero] at hn

/-- From any state, four vectors are appended, indexed in two layers or more, and saved. -/
theorem exSession4 (checked : Bool) (t : ElementType) (w0 : World) : ∃ wi w l,
    Saved checked exSortReal t exPyConfig4 w0.objects.length "index" "elements" wi w exBits4 exBits4 ∧ Sensible exBits4 ∧
    wi.Answers checked w0.objects.length .len (.num 4) ∧ wi.Answers checked w0.objects.length .numLayers (.num l) ∧
    2 ≤ l := by
  obtain ⟨wi, w, _, _, h3, h4, l, h5, h6⟩ := C61_session (checked := checked) (t := t) exSortReal_sorts exPyConfig4_good
    (by intro m h; cases h; exact le_rfl) rfl exBits4 4 (by decide) (by decide) (by decide) (exBits4_convert t) (by decide)
    "index" "elements" (by decide) w0
  refine ⟨wi, w, l, h3, ⟨by decide, by decide⟩, h4, h5, h6.2 ?_⟩
  simp [exPyConfig4, exBits4]

theorem ofReal_halves (k : Int) (h : |(k : ℝ)| ≤ 2 ^ 24) : F32.ofReal (k / 2) = .fin (k / 2) := by
  have e : ((k : ℝ) / 2) = k * 2 ^ (-1 : Int) := by rw [zpow_neg_one]; ring
  have hr : rne32 ((k : ℝ) / 2) = k / 2 := by
    rw [e]; exact rne32_digits h (by norm_num)
  have := ofReal_fin (z := (k : ℝ) / 2) (by
    rw [hr]
    refine le_trans ?_ maxF32_ge
    rw [abs_div]
    have : |(2 : ℝ)| = 2 := by norm_num
    rw [this]
    linarith [show (2 : ℝ) ^ 24 ≤ 2 ^ 127 by norm_num])
  rw [hr] at this
  exact this

theorem dot4 {a1 a2 a3 a4 b1 b2 b3 b4 : ℝ} (k1 k2 k3 k4 : Int) (e1 : a1 * b1 = k1 / 2) (e2 : a2 * b2 = k2 / 2 - k1 / 2)
    (e3 : a3 * b3 = k3 / 2 - k2 / 2) (e4 : a4 * b4 = k4 / 2 - k3 / 2)
    (h1 : |(k1 : ℝ)| ≤ 2 ^ 24) (h2 : |(k2 : ℝ)| ≤ 2 ^ 24) (h3 : |(k3 : ℝ)| ≤ 2 ^ 24) (h4 : |(k4 : ℝ)| ≤ 2 ^ 24) :
    dotProduct [F32.fin a1, .fin a2, .fin a3, .fin a4] [F32.fin b1, .fin b2, .fin b3, .fin b4] = .fin (k4 / 2) := by
  have hz : MulAddOps.add (F32.fin 0) (F32.fin 0) = F32.fin 0 := by
    show F32.ofReal (0 + 0) = _
    have := ofReal_halves 0 (by norm_num)
    simpa using this
  have hz' : (MulAddOps.zero : F32) = F32.fin 0 := rfl
  have hf : ∀ n : Nat, (List.replicate n (F32.fin 0)).foldl MulAddOps.add (F32.fin 0) = F32.fin 0 := by
    intro n
    induction n with
    | zero => rfl
    | succ n ih => rw [List.replicate_succ, List.foldl_cons, hz, ih]
  unfold dotProduct chunksExact chunksRemainder
  simp only [List.length_cons, List.length_nil, Nat.reduceAdd, Nat.reduceDiv, List.range_zero, List.map_nil, List.zip_nil_left,
    List.foldl_nil, Nat.zero_mul, List.drop_zero, List.zip_cons_cons, List.foldl_cons, hz', hf]
  have step : ∀ (a b c : ℝ) (k : Int), a * b + c = k / 2 → |(k : ℝ)| ≤ 2 ^ 24 →
      MulAddOps.mulAdd (F32.fin a) (F32.fin b) (F32.fin c) = F32.fin (k / 2) := by
    intro a b c k h hk
    show F32.ofReal (a * b + c) = _
    rw [h, ofReal_halves k hk]
  rw [step a1 b1 0 k1 (by linarith) h1, step a2 b2 _ k2 (by linarith) h2, step a3 b3 _ k3 (by linarith) h3,
    step a4 b4 _ k4 (by linarith) h4]

theorem normalize_of_norm {x : List F32} {s : ℝ} {n : Int} (hd : dotProduct x x = .fin s) (hs : Real.sqrt s = n) (h0 : 0 ≤ s)
    (hn : 0 < n) (hn' : n ≤ 1000) : normalize x = x.map fun a => FloatOps.div a (.fin n) := by
  have hsq : (FloatOps.sqrt (F32.fin s) : F32) = F32.fin n := by
    show (if s < 0 then F32.nan else F32.ofReal (Real.sqrt s)) = _
    rw [if_neg (not_lt.2 h0), hs]
    have := ofReal_halves (2 * n) (by
      rw [abs_le]
      have h1 : (n : ℝ) ≤ 1000 := by exact_mod_cast hn'
      have h2 : (0 : ℝ) < n := by exact_mod_cast hn
      push_cast
      constructor <;> linarith)
    push_cast at this
    rw [mul_div_cancel_left₀ _ (by norm_num : (2 : ℝ) ≠ 0)] at this
    exact this
  unfold normalize
  rw [hd, hsq, ofInt_zero]
  have hg : FloatOps.gt (F32.fin n) (F32.fin 0) = true := by
    show decide ((0 : ℝ) < n) = true
    exact decide_eq_true (by exact_mod_cast hn)
  simp only [hg, if_true]

theorem div_halves {a : ℝ} {n k : Int} (hn : 0 < n) (h : a / n = k / 2) (hk : |(k : ℝ)| ≤ 2 ^ 24) :
    FloatOps.div (F32.fin a) (F32.fin n) = F32.fin (k / 2) := by
  show (if (n : ℝ) = 0 then _ else F32.ofReal (a / n)) = _
  have : (n : ℝ) ≠ 0 := by exact_mod_cast hn.ne'
  rw [if_neg this, h, ofReal_halves k hk]

theorem dist_halves {x y : List F32} (k : Int) (hk : 0 ≤ k) (hk' : k ≤ 1000) (h : dotProduct x y = .fin (1 - k / 2)) :
    ((angularDist x y).getD .nan).val = k / 2 := by
  have h0 : (0 : ℝ) ≤ k := by exact_mod_cast hk
  have h1 : (k : ℝ) ≤ 1000 := by exact_mod_cast hk'
  have e : FloatOps.sub (F32.fin 1) (F32.fin (1 - (k : ℝ) / 2)) = F32.fin (k / 2) := by
    show F32.ofReal (1 + -(1 - (k : ℝ) / 2)) = _
    rw [show (1 + -(1 - (k : ℝ) / 2)) = k / 2 by ring, ofReal_halves k (by rw [abs_le]; constructor <;> linarith)]
  unfold angularDist
  rw [h, ofInt_one, e]
  have hn : FloatOps.isNan (F32.fin ((k : ℝ) / 2)) = false := rfl
  simp only [hn, Bool.false_eq_true, if_false, Option.getD_some]
  unfold maxZero
  rw [ofInt_zero]
  have hg : FloatOps.gt (F32.fin 0) (F32.fin ((k : ℝ) / 2)) = false := by
    show decide ((k : ℝ) / 2 < 0) = false
    exact decide_eq_false (by linarith)
  simp only [hg, Bool.false_eq_true, if_false]
  rfl

/-- The vectors of `exBits4` have the distances 0, 2, 1 and 1/2 from the first of them. -/
theorem exBits4_no_ties (checked : Bool) : NoTies checked .angular exBits4 [0x3f800000, 0, 0, 0] := by
  have unit : ∀ a1 a2 a3 a4 : ℝ, dotProduct [F32.fin a1, .fin a2, .fin a3, .fin a4] [F32.fin a1, .fin a2, .fin a3, .fin a4] =
      .fin (((2 : Int) : ℝ) / 2) → (∃ k1 k2 k3 k4 : Int, a1 = k1 / 2 ∧ a2 = k2 / 2 ∧ a3 = k3 / 2 ∧ a4 = k4 / 2 ∧
        |(k1 : ℝ)| ≤ 2 ^ 24 ∧ |(k2 : ℝ)| ≤ 2 ^ 24 ∧ |(k3 : ℝ)| ≤ 2 ^ 24 ∧ |(k4 : ℝ)| ≤ 2 ^ 24) →
      normalize [F32.fin a1, .fin a2, .fin a3, .fin a4] = [F32.fin a1, .fin a2, .fin a3, .fin a4] := by
    rintro a1 a2 a3 a4 h ⟨k1, k2, k3, k4, e1, e2, e3, e4, b1, b2, b3, b4⟩
    rw [normalize_of_norm (n := 1) h (by norm_num) (by norm_num) (by norm_num) (by norm_num)]
    simp only [List.map_cons, List.map_nil]
    rw [div_halves (k := k1) one_pos (by rw [e1]; norm_num) b1, div_halves (k := k2) one_pos (by rw [e2]; norm_num) b2,
      div_halves (k := k3) one_pos (by rw [e3]; norm_num) b3, div_halves (k := k4) one_pos (by rw [e4]; norm_num) b4,
      ← e1, ← e2, ← e3, ← e4]
  have n1 : normalize [F32.fin 1, .fin 0, .fin 0, .fin 0] = [F32.fin 1, .fin 0, .fin 0, .fin 0] :=
    unit _ _ _ _ (dot4 2 2 2 2 (by norm_num) (by norm_num) (by norm_num) (by norm_num) (by norm_num) (by norm_num)
      (by norm_num) (by norm_num)) ⟨2, 0, 0, 0, by norm_num, by norm_num, by norm_num, by norm_num, by norm_num, by norm_num,
      by norm_num, by norm_num⟩
  have n2 : normalize [F32.fin (-1), .fin 0, .fin 0, .fin 0] = [F32.fin (-1), .fin 0, .fin 0, .fin 0] :=
    unit _ _ _ _ (dot4 2 2 2 2 (by norm_num) (by norm_num) (by norm_num) (by norm_num) (by norm_num) (by norm_num)
      (by norm_num) (by norm_num)) ⟨-2, 0, 0, 0, by norm_num, by norm_num, by norm_num, by norm_num, by norm_num, by norm_num,
      by norm_num, by norm_num⟩
  have n3 : normalize [F32.fin 0, .fin 1, .fin 0, .fin 0] = [F32.fin 0, .fin 1, .fin 0, .fin 0] :=
    unit _ _ _ _ (dot4 0 2 2 2 (by norm_num) (by norm_num) (by norm_num) (by norm_num) (by norm_num) (by norm_num)
      (by norm_num) (by norm_num)) ⟨0, 2, 0, 0, by norm_num, by norm_num, by norm_num, by norm_num, by norm_num, by norm_num,
      by norm_num, by norm_num⟩
  have n4 : normalize [F32.fin 1, .fin 1, .fin 1, .fin 1] = [F32.fin (((1 : Int) : ℝ) / 2), .fin (((1 : Int) : ℝ) / 2),
      .fin (((1 : Int) : ℝ) / 2), .fin (((1 : Int) : ℝ) / 2)] := by
    have := dot4 (a1 := 1) (a2 := 1) (a3 := 1) (a4 := 1) (b1 := 1) (b2 := 1) (b3 := 1) (b4 := 1) 2 4 6 8 (by norm_num)
      (by norm_num) (by norm_num) (by norm_num) (by norm_num) (by norm_num) (by norm_num) (by norm_num)
    rw [normalize_of_norm (n := 2) this (by
      rw [show (((8 : Int) : ℝ) / 2) = 2 ^ 2 by norm_num, Real.sqrt_sq (by norm_num)]; norm_num) (by norm_num) (by norm_num)
      (by norm_num)]
    simp only [List.map_cons, List.map_nil]
    rw [div_halves (k := 1) (by norm_num) (by norm_num) (by norm_num)]
  have d1 := dist_halves (x := [F32.fin 1, .fin 0, .fin 0, .fin 0]) (y := [F32.fin 1, .fin 0, .fin 0, .fin 0]) 0 (by norm_num)
    (by norm_num) (by
      rw [dot4 2 2 2 2 (by norm_num) (by norm_num) (by norm_num) (by norm_num) (by norm_num) (by norm_num) (by norm_num)
        (by norm_num)]; norm_num)
  have d2 := dist_halves (x := [F32.fin (-1), .fin 0, .fin 0, .fin 0]) (y := [F32.fin 1, .fin 0, .fin 0, .fin 0]) 4
    (by norm_num) (by norm_num) (by
      rw [dot4 (-2) (-2) (-2) (-2) (by norm_num) (by norm_num) (by norm_num) (by norm_num) (by norm_num) (by norm_num)
        (by norm_num) (by norm_num)]; norm_num)
  have d3 := dist_halves (x := [F32.fin 0, .fin 1, .fin 0, .fin 0]) (y := [F32.fin 1, .fin 0, .fin 0, .fin 0]) 2
    (by norm_num) (by norm_num) (by
      rw [dot4 0 0 0 0 (by norm_num) (by norm_num) (by norm_num) (by norm_num) (by norm_num) (by norm_num)
        (by norm_num) (by norm_num)]; norm_num)
  have d4 := dist_halves (x := [F32.fin (((1 : Int) : ℝ) / 2), .fin (((1 : Int) : ℝ) / 2), .fin (((1 : Int) : ℝ) / 2),
      .fin (((1 : Int) : ℝ) / 2)]) (y := [F32.fin 1, .fin 0, .fin 0, .fin 0]) 1
    (by norm_num) (by norm_num) (by
      rw [dot4 1 1 1 1 (by norm_num) (by norm_num) (by norm_num) (by norm_num) (by norm_num) (by norm_num)
        (by norm_num) (by norm_num)]; norm_num)
  intro rows row hrows hrow i j x y hx hy he
  have conv : ∀ (raw : List UInt32) (r : List (Scal .angular)), Convert .angular raw r →
      List.map F32.ofBits r = normalize (raw.map F32.ofBits) := fun _ _ h => h
  have hq := conv _ _ hrow
  simp only [List.map_cons, List.map_nil, ofBits_one, ofBits_zero, n1] at hq
  unfold exBits4 at hrows
  cases hrows with
  | cons c1 hrows => cases hrows with
    | cons c2 hrows => cases hrows with
      | cons c3 hrows => cases hrows with
        | cons c4 hrows =>
          cases hrows
          have c1 := conv _ _ c1
          have c2 := conv _ _ c2
          have c3 := conv _ _ c3
          have c4 := conv _ _ c4
          simp only [List.map_cons, List.map_nil, ofBits_one, ofBits_minus_one, ofBits_zero, n1, n2, n3, n4] at c1 c2 c3 c4
          have he : ((angularDist (List.map F32.ofBits x) (List.map F32.ofBits row)).getD .nan).val =
            ((angularDist (List.map F32.ofBits y) (List.map F32.ofBits row)).getD .nan).val := he
          rw [hq] at he
          have hi : i < 4 := by have := (List.getElem?_eq_some_iff.1 hx).1; simpa using this
          have hj : j < 4 := by have := (List.getElem?_eq_some_iff.1 hy).1; simpa using this
          interval_cases i <;> interval_cases j <;> simp at hx hy <;> subst hx hy <;> first
            | rfl
            | (exfalso; simp only [c1, c2, c3, c4, d1, d2, d3, d4] at he; norm_num at he)

/-- Non-vacuity of C63: the session of `exSession4`, opened and reordered; for angular vectors with a query without ties. -/
example (checked : Bool) (w0 : World) : ∃ wi w w' w'' l,
    Saved checked exSortReal .angular exPyConfig4 w0.objects.length "index" "elements" wi w exBits4 exBits4 ∧
    Sensible exBits4 ∧ PyStep checked exSortReal w (.openIndex .angular "index" "elements") w' ∧
    wi.Answers checked w0.objects.length .len (.num exBits4.length) ∧
    wi.Answers checked w0.objects.length .numLayers (.num l) ∧ 2 ≤ l ∧
    PyStep checked exSortReal w' (.reorder w.objects.length) w'' ∧ NoTies checked .angular exBits4 [0x3f800000, 0, 0, 0] := by
  obtain ⟨wi, w, l, h1, h2, h3, h4, h5⟩ := exSession4 checked .angular w0
  obtain ⟨⟨w', h6⟩, _⟩ := C61_open exSortReal_sorts exPyConfig4_good h1 h2
  obtain ⟨_, ⟨w'', h7⟩, _⟩ := C63_reorder exSortReal_sorts exPyConfig4_good h1 h2 w' h6 l h3 h4 h5
  exact ⟨wi, w, w', w'', l, h1, h2, h6, h3, h4, h5, h7, exBits4_no_ties checked⟩

/-- Non-vacuity of `C63_reorder_panics`: the same vectors with the default configuration have one layer. -/
example (checked : Bool) (w0 : World) : ∃ wi w w' l,
    Saved checked exSortReal .angular {} w0.objects.length "index" "elements" wi w exBits4 exBits4 ∧
    Sensible exBits4 ∧ PyStep checked exSortReal w (.openIndex .angular "index" "elements") w' ∧
    wi.Answers checked w0.objects.length .len (.num 4) ∧
    wi.Answers checked w0.objects.length .numLayers (.num l) ∧ l < 2 := by
  obtain ⟨wi, w, _, _, h3, h4, l, h5, h6⟩ := C61_session (checked := checked) (t := .angular) exSortReal_sorts exPyConfig_good
    (by simp) rfl exBits4 4 (by decide) (by decide) (by decide) (exBits4_convert _) (by decide)
    "index" "elements" (by decide) w0
  have hok : Sensible exBits4 := ⟨by decide, by decide⟩
  obtain ⟨⟨w', h7⟩, _⟩ := C61_open exSortReal_sorts exPyConfig_good h3 hok
  refine ⟨wi, w, w', l, h3, hok, h7, h4, h5, ?_⟩
  by_contra hl
  have := h6.1 (by omega)
  norm_num [exBits4] at this

/-- Non-vacuity of C62: an index is opened; then a new builder is created and saved to other files; then the index is
reordered and saved to the file it was opened from. -/
example (checked : Bool) (t : ElementType) (w0 : World) : ∃ (w w1 w2 w3 : World) (h : Nat),
    PyRun checked exSortReal w [.openIndex t "index" "elements"] w1 ∧ h = w1.objects.length ∧
    PyRun checked exSortReal w1 [.newBuilder t {} none none, .saveElements h "elements2"] w2 ∧
    PyRun checked exSortReal w1 [.reorder w.objects.length] w3 ∧
    (∀ call ∈ [PyCall.newBuilder t {} none none, .saveElements h "elements2"], ¬ Changes w.objects.length call ∧
      ¬ Writes "index" call ∧ ¬ Writes "elements" call) := by
  obtain ⟨wi, w, l, h1, h2, h3, h4, h5⟩ := exSession4 checked t w0
  obtain ⟨⟨w1, h6⟩, _⟩ := C61_open exSortReal_sorts exPyConfig4_good h1 h2
  obtain ⟨_, ⟨w3, h7⟩, _⟩ := C63_reorder exSortReal_sorts exPyConfig4_good h1 h2 w1 h6 l h3 h4 h5
  obtain ⟨wb, h8⟩ := appends_return (checked := checked) (srt := exSortReal) (t := t) (c := {}) [] 1 (by decide) (by simp)
    (by simp) (by simp) w1
  obtain ⟨⟨w2, h9⟩, _⟩ := C61_save_returns exSortReal_sorts exPyConfig_good h8 (by simp [appendedTo]) "elements2"
  refine ⟨w, w1, w2, w3, _, .cons _ _ _ _ _ h6 (.nil _), rfl, h8.snoc h9, .cons _ _ _ _ _ h7 (.nil _), ?_⟩
  simp [Changes, Writes]

end Granne
