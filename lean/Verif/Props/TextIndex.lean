import Verif.Props.Text

/-!
C55 (reordering a text index), C56 (text in and out), C57 (indexes over sums of embeddings).
-/
namespace Granne
open Spec F32

/-! ### Elements of a collection of sums -/

theorem getEmbedding_terms {S : Type} [Add S] [Zero S] (s : SumEmb S) (i : Nat) :
    s.getEmbedding i = match s.getTerms i with
      | some ids => s.createEmbedding ids
      | none => none := by
  rw [SumEmb.getEmbedding, SumEmb.getTerms]
  cases s.elements.get i <;> rfl

theorem createEmbedding_embeddings {S : Type} [Add S] [Zero S] {s s' : SumEmb S} (h : s.embeddings = s'.embeddings)
    (ids : List Nat) : s.createEmbedding ids = s'.createEmbedding ids := by
  cases s; cases s'
  simp only at h
  subst h
  rfl

theorem sumElements_some {s : SumEmb F32} {es : Elements (List F32) ℝ} (h : sumElements s = some es) :
    es = angularElements es.data ∧ es.data.length = s.len ∧ ∀ i : Nat, i < s.len → sumElement s i = es.data[i]? := by
  unfold sumElements at h
  rcases Option.eq_none_or_eq_some (seqOpt ((List.range s.len).map (sumElement s))) with hn | ⟨rows, hr⟩
  · rw [hn] at h; simp at h
  · rw [hr] at h
    obtain rfl := Option.some.inj h
    have hk := seqOpt_eq_some hr
    have hlen : rows.length = s.len := by
      have := congrArg List.length hk
      simpa using this.symm
    refine ⟨rfl, hlen, fun i hi => ?_⟩
    have hki := congrArg (fun l => l[i]?) hk
    simp only [List.getElem?_map] at hki
    rw [List.getElem?_range hi, Option.map_some, List.getElem?_eq_getElem (by omega), Option.map_some, Option.some.injEq] at hki
    rw [hki]
    show some rows[i] = rows[i]?
    rw [List.getElem?_eq_getElem (by omega)]

theorem sumElements_eq {s : SumEmb F32} {rows : List (List F32)} (hl : rows.length = s.len)
    (h : ∀ i : Nat, i < s.len → sumElement s i = rows[i]?) : sumElements s = some (angularElements rows) := by
  unfold sumElements
  have : seqOpt ((List.range s.len).map (sumElement s)) = some rows := by
    apply seqOpt_some
    apply List.ext_getElem?
    intro i
    rcases lt_or_ge i s.len with hi | hi
    · rw [List.getElem?_map, List.getElem?_range hi, List.getElem?_map, Option.map_some, h i hi,
        List.getElem?_eq_getElem (by omega)]
      rfl
    · rw [List.getElem?_eq_none (by simpa using hi), List.getElem?_eq_none (by simp; omega)]
  rw [this]

/-! ### C55: reordering -/

theorem TermRepr.total {e : Elems} {terms : List (List Nat)} (h : TermRepr e terms) : terms.flatten.length < 2 ^ 40 := by
  have hl := h.rows.olen
  rw [List.length_map] at hl
  have hlt : terms.length < e.offsets.length := by omega
  have h1 := h.rows.offs terms.length _ (List.getElem?_eq_getElem hlt)
  have h2 := OffsetInt.toNat_lt e.offsets[terms.length]
  rw [h1] at h2
  have h3 : upto (terms.map fun t => t.map encId) terms.length = (terms.map fun t => t.map encId).flatten.length := by
    exact upto_ge _ (by simp)
  rw [h3, flatten_enc_length] at h2
  exact h2

theorem text_reorder (ix : TextIndex) {terms : List (List Nat)} (hs : TermRepr ix.elements.elements terms)
    (es : Elements (List F32) ℝ)
    (hes : sumElements ix.elements = some es) (gs : List (List (List Nat))) (hf : FullIndex ⟨ix.layers, es⟩ gs)
    (keys : List (List Nat)) (hk : computeKeys ix.elements = some keys) (hkl : keys.length = ix.elements.len) :
    ∃ ix' order es', ix.reorder = some (ix', order) ∧ sumElements ix'.elements = some es' ∧
      (⟨ix.layers, es⟩ : GIndex (List F32) ℝ).reorderByKeys keys = some (⟨ix'.layers, es'⟩, order) ∧
      ix'.words = ix.words ∧ ix'.elements.embeddings = ix.elements.embeddings ∧ ix'.elements.len = ix.elements.len ∧
      order.Perm (List.range ix.elements.len) ∧
      (∀ i m : Nat, order[i]? = some m → ix'.elements.getTerms i = ix.elements.getTerms m) ∧
      TermRepr ix'.elements.elements (order.map fun i => terms.getD i []) := by
  obtain ⟨he1, he2, he3⟩ := sumElements_some hes
  have hkl' : keys.length = es.data.length := by rw [hkl, he2]
  obtain ⟨ix2, order, h1, h2, _, _⟩ := (C24_reorder_by_keys_order ⟨ix.layers, es⟩ gs hf keys).2 hkl'
  simp only [he2] at h2
  have h1' := h1
  unfold GIndex.reorderByKeys at h1
  rw [hf.graphs] at h1
  simp only at h1
  rw [if_pos (by rw [hf.indexLen, hkl'])] at h1
  rcases Option.eq_none_or_eq_some (keyOrder keys 0 (gs.map List.length)) with hn | ⟨o, ho⟩
  · rw [hn] at h1; simp at h1
  rw [ho] at h1
  simp only at h1
  unfold reorderWith at h1
  rcases Option.eq_none_or_eq_some (reorderLayers gs o) with hn | ⟨L, hL⟩
  · rw [hn] at h1; simp at h1
  rw [hL] at h1
  simp only at h1
  rcases Option.eq_none_or_eq_some (es.permute o) with hn | ⟨es2, hes2⟩
  · rw [hn] at h1; simp at h1
  rw [hes2] at h1
  simp only [Option.some.injEq, Prod.mk.injEq] at h1
  obtain ⟨rfl, rfl⟩ := h1
  have h2' : o.Perm (List.range terms.length) := by rw [SumEmb.len, hs.len_eq] at h2; exact h2
  obtain ⟨s', p1, p5, p3⟩ := SumEmb.permute_perm hs h2' hs.total
  have hlen' : o.length = terms.length := by simpa using h2'.length_eq
  have p2 : s'.len = ix.elements.len := by rw [SumEmb.len, SumEmb.len, p5.len_eq, hs.len_eq]; simp [hlen']
  have p4 : ∀ i m : Nat, o[i]? = some m → s'.getTerms i = ix.elements.getTerms m := by
    intro i m hm
    have hmb : m < terms.length := by simpa using h2'.mem_iff.1 (List.mem_of_getElem? hm)
    rw [SumEmb.getTerms, SumEmb.getTerms, p5.get_eq, hs.get_eq, List.getElem?_map, hm]
    simp [hmb]
  have hol : o.length = ix.elements.len := by simpa using h2.length_eq
  have hses : sumElements s' = some es2 := by
    unfold Elements.permute at hes2
    rw [if_pos (by rw [he2, hol])] at hes2
    rcases Option.eq_none_or_eq_some (seqOpt (o.map fun i => es.data[i]?)) with hn | ⟨rows, hr⟩
    · rw [hn] at hes2; simp at hes2
    · rw [hr] at hes2
      have hrk := seqOpt_eq_some hr
      have e2 : es2 = angularElements rows := by
        rw [← Option.some.inj hes2, he1]
        rfl
      rw [e2]
      have hrl : rows.length = ix.elements.len := by
        have := congrArg List.length hrk
        simp only [List.length_map] at this
        omega
      refine sumElements_eq (by rw [hrl, p2]) fun i hi => ?_
      rw [p2] at hi
      have hi' : i < o.length := by omega
      have hm : o[i] < ix.elements.len := by
        have := h2.mem_iff.1 (List.getElem_mem hi')
        simpa using this
      have hri := congrArg (fun l => l[i]?) hrk
      simp only [List.getElem?_map] at hri
      rw [List.getElem?_eq_getElem hi', List.getElem?_eq_getElem (show i < rows.length by omega), Option.map_some, Option.map_some,
        Option.some.injEq] at hri
      rw [List.getElem?_eq_getElem (show i < rows.length by omega), ← hri, ← he3 _ hm]
      unfold sumElement
      rw [getEmbedding_terms, getEmbedding_terms, p4 i o[i] (List.getElem?_eq_getElem hi')]
      cases ix.elements.getTerms o[i] with
      | none => rfl
      | some ids => simp only; rw [createEmbedding_embeddings p3]
  refine ⟨{ ix with layers := L, elements := s' }, o, es2, ?_, hses, h1', rfl, p3, p2, h2, p4, p5⟩
  have hgr : ix.layers.graphs = some gs := hf.graphs
  unfold TextIndex.reorder
  rw [hk, hgr]
  simp only
  rw [if_pos (by rw [hf.indexLen, hkl'])]
  simp only [ho, hL, p1]

/-- C55. Reordering a text index whose elements are all indexed does not panic if the keys can be computed. It does what
`reorder_by_keys` with these keys does (C24, C25, C26) to the layers and to the vectors, and every element keeps its terms:
position `i` of the new collection has the terms of position `order[i]` of the old one. -/
theorem C55_reorder (ix : TextIndex) (hs : EmbState ix.elements) (es : Elements (List F32) ℝ)
    (hes : sumElements ix.elements = some es) (gs : List (List (List Nat))) (hf : FullIndex ⟨ix.layers, es⟩ gs)
    (keys : List (List Nat)) (hk : computeKeys ix.elements = some keys) (hkl : keys.length = ix.elements.len) :
    ∃ ix' order es', ix.reorder = some (ix', order) ∧ sumElements ix'.elements = some es' ∧
      (⟨ix.layers, es⟩ : GIndex (List F32) ℝ).reorderByKeys keys = some (⟨ix'.layers, es'⟩, order) ∧
      ix'.words = ix.words ∧ ix'.elements.embeddings = ix.elements.embeddings ∧ ix'.elements.len = ix.elements.len ∧
      order.Perm (List.range ix.elements.len) ∧
      ∀ i m : Nat, order[i]? = some m → ix'.elements.getTerms i = ix.elements.getTerms m := by
  obtain ⟨terms, ht, _⟩ := hs.repr
  obtain ⟨ix', order, es', h1, h2, h3, h4, h5, h6, h7, h8, _⟩ := text_reorder ix ht es hes gs hf keys hk hkl
  exact ⟨ix', order, es', h1, h2, h3, h4, h5, h6, h7, h8⟩

/-- C55. Reordering panics if the index does not cover all elements (that is, if there are more or fewer keys than
nodes in the bottom layer): the elements would be left in the wrong order. -/
theorem C55_reorder_needs_all_indexed (ix : TextIndex) (keys : List (List Nat)) (hk : computeKeys ix.elements = some keys)
    (gs : List (List (List Nat))) (hg : ix.layers.graphs = some gs) (bottom : List (List Nat))
    (hb : gs.getLast? = some bottom) (hne : bottom.length ≠ keys.length) : ix.reorder = none := by
  unfold TextIndex.reorder
  rw [hk, hg]
  simp only
  rw [if_neg (by simp only [indexLen, hb]; exact hne)]

/-! ### C56 -/

/-- The words of a text that are in the list, in order. -/
def knownWords (words : List Text) (q : Text) : List Text := (splitWs q).filter fun w => decide (w ∈ words)

/-- Words joined by single spaces. -/
def joinWords : List Text → Text
  | [] => []
  | w :: t => w ++ t.flatMap fun v => ' ' :: v

theorem wordIds_eq {d : WordDict} {words : List Text} (h : HoldsWords d words) :
    ∀ l : List Text, (l.filterMap d.wordToId).map (fun i => words.getD i []) = l.filter fun w => decide (w ∈ words)
  | [] => rfl
  | w :: t => by
    have ih := wordIds_eq h t
    rw [List.filterMap_cons, List.filter_cons]
    rcases Option.eq_none_or_eq_some (d.wordToId w) with hn | ⟨i, hi⟩
    · have : w ∉ words := by
        intro hc
        obtain ⟨i, hi⟩ := List.mem_iff_getElem?.1 hc
        rw [(h.ids w i).2 hi] at hn
        cases hn
      rw [hn]
      simp only [this, decide_false, Bool.false_eq_true, if_false]
      exact ih
    · have hw := (h.ids w i).1 hi
      rw [hi]
      simp only [List.mem_of_getElem? hw, decide_true, if_true, List.map_cons, ih]
      congr 1
      simp [hw]

theorem wordIds_lt {d : WordDict} {words : List Text} (h : HoldsWords d words) (q : Text) :
    ∀ i ∈ d.getWordIds q, i < words.length := by
  intro i hi
  obtain ⟨w, _, hw⟩ := List.mem_filterMap.1 hi
  exact (List.getElem?_eq_some_iff.1 ((h.ids w i).1 hw)).1

theorem getWords_join {d : WordDict} {words : List Text} (h : HoldsWords d words) (ids : List Nat)
    (hi : ∀ i ∈ ids, i < words.length) : d.getWords ids = some (joinWords (ids.map fun i => words.getD i [])) := by
  cases ids with
  | nil => rfl
  | cons i t =>
    have hlt := hi i (by simp)
    rw [WordDict.getWords, h.list, List.getElem?_eq_getElem hlt]
    simp only
    rw [getWordsLoop_ok h.list t _ (fun j hj => hi j (by simp [hj]))]
    rw [List.map_cons, joinWords, List.flatMap_map]
    simp [hlt]

/-- C56. Pushing a text stores the known words of it: the new element is the last one, `get_internal_element` gives its
known words joined by single spaces, and all other elements are unchanged. -/
theorem C56_push (s s' : SumEmb F32) (hs : EmbState s) (terms : List (List Nat)) (ht : ShowsTerms s terms) (d : WordDict)
    (words : List Text) (hd : HoldsWords d words) (q : Text) (h : textPush s d q = some s') (layers : Layers) :
    s'.len = s.len + 1 ∧ s'.embeddings = s.embeddings ∧
    (⟨layers, s', d⟩ : TextIndex).getInternalElement s.len = some (joinWords (knownWords words q)) ∧
    ∀ i : Nat, i < s.len →
      (⟨layers, s', d⟩ : TextIndex).getInternalElement i = (⟨layers, s, d⟩ : TextIndex).getInternalElement i := by
  unfold textPush at h
  split at h
  · obtain ⟨h1, h2⟩ := (C31_push_panics_iff s hs terms ht (d.getWordIds q)).2 s' h
    refine ⟨by rw [h1.len, ht.len]; simp, h2, ?_, ?_⟩
    · unfold TextIndex.getInternalElement
      rw [h1.get, ht.len]
      simp only [List.getElem?_concat_length]
      rw [getWords_join hd _ (wordIds_lt hd q)]
      congr 2
      exact wordIds_eq hd (splitWs q)
    · intro i hi
      unfold TextIndex.getInternalElement
      rw [h1.get, ht.get, List.getElem?_append_left (by rw [← ht.len]; exact hi)]
  · cases h

/-- C56. Pushing a text panics exactly if there are already `2^32 - 2` elements, if a word in it has a number of more
than 24 bits, or if the number of terms of all elements reaches `2^40`. -/
theorem C56_push_panics_iff (s : SumEmb F32) (hs : EmbState s) (terms : List (List Nat)) (ht : ShowsTerms s terms)
    (d : WordDict) (words : List Text) (hd : HoldsWords d words) (q : Text) :
    textPush s d q = none ↔ 2 ^ 32 - 2 ≤ s.len ∨ (∃ (w : Text) (i : Nat), w ∈ splitWs q ∧ words[i]? = some w ∧ 2 ^ 24 ≤ i) ∨
      2 ^ 40 ≤ terms.flatten.length + (knownWords words q).length := by
  have hl : (knownWords words q).length = (d.getWordIds q).length := by
    have := congrArg List.length (wordIds_eq hd (splitWs q))
    rw [List.length_map] at this
    exact this.symm
  have hU : UNUSED - 1 = 2 ^ 32 - 2 := rfl
  unfold textPush
  rw [hU, hl]
  split
  · rename_i hlt
    rw [(C31_push_panics_iff s hs terms ht (d.getWordIds q)).1]
    have e1 : (∃ n ∈ d.getWordIds q, 2 ^ 24 ≤ n) ↔
        ∃ (w : Text) (i : Nat), w ∈ splitWs q ∧ words[i]? = some w ∧ 2 ^ 24 ≤ i := by
      constructor
      · rintro ⟨n, hn, hle⟩
        obtain ⟨w, hw, hwi⟩ := List.mem_filterMap.1 hn
        exact ⟨w, n, hw, (hd.ids w n).1 hwi, hle⟩
      · rintro ⟨w, i, hw, hwi, hle⟩
        exact ⟨i, List.mem_filterMap.2 ⟨w, hw, (hd.ids w i).2 hwi⟩, hle⟩
    have e2 : (terms ++ [d.getWordIds q]).flatten.length = terms.flatten.length + (d.getWordIds q).length := by simp
    rw [e1, e2]
    constructor
    · intro h; right; exact h
    · rintro (h | h)
      · omega
      · exact h
  · rename_i hlt
    exact ⟨fun _ => Or.inl (by omega), fun _ => rfl⟩

/-- C56. The text of an element (`get_internal_element`) stands for the element: pushing it stores the same terms, and
searching with it searches with the vector of the element (if it has terms). The words must not contain white space. -/
theorem C56_own_text (ix : TextIndex) (words : List Text) (hd : HoldsWords ix.words words) (hw : ∀ w ∈ words, IsWord w)
    (i : Nat) (ids : List Nat) (hi : ix.elements.getTerms i = some ids) :
    ((∀ w ∈ ids, w < words.length) → ∃ q, ix.getInternalElement i = some q ∧ ix.words.getWordIds q = ids ∧
      textPush ix.elements ix.words q = (if ix.elements.len < 2 ^ 32 - 2 then ix.elements.push ids else none) ∧
      (ids ≠ [] → ix.queryVector q = sumElement ix.elements i)) ∧
    ((∃ w ∈ ids, words.length ≤ w) → ix.getInternalElement i = none) := by
  obtain ⟨h1, h2⟩ := C45_lookup (S := F32) ix.words words hd hw ids
  constructor
  · intro hlt
    obtain ⟨q, q1, q2, _⟩ := h1 hlt
    refine ⟨q, by rw [TextIndex.getInternalElement, hi]; exact q1, q2, by rw [textPush, q2]; rfl, fun hne => ?_⟩
    have hq : q ≠ [] := by
      rintro rfl
      exact hne q2.symm
    rw [TextIndex.queryVector, if_neg hq, q2, sumElement, getEmbedding_terms, hi]
  · intro h
    rw [TextIndex.getInternalElement, hi]
    exact h2 h

/-- The dot product with a vector of zeros, or with an empty one, is exactly 0. -/
theorem acc_zero {l : List (F32 × F32)} {k : Nat} {v : F32} (h : Acc l k v)
    (hl : ∀ p ∈ l, ∃ a : ℝ, p = (fin a, fin 0)) : v = fin 0 := by
  have z : ofReal 0 = fin 0 := by rw [ofReal_fin (by rw [rne32_zero, abs_zero]; exact maxF32_pos.le), rne32_zero]
  induction h with
  | zero => rfl
  | @mulAdd l k c a b hc ih =>
    obtain ⟨a', ha⟩ := hl (a, b) (by simp)
    obtain ⟨rfl, rfl⟩ := Prod.mk.inj ha
    rw [ih fun p hp => hl p (by simp [hp])]
    show ofReal (a' * 0 + 0) = fin 0
    rw [mul_zero, add_zero, z]
  | @add l l' k v w _ _ ih1 ih2 =>
    rw [ih1 fun p hp => hl p (by simp [hp]), ih2 fun p hp => hl p (by simp [hp])]
    show ofReal (0 + 0) = fin 0
    rw [add_zero, z]
  | mono _ _ ih => exact ih hl
  | perm _ hp ih => exact ih fun p h => hl p (hp.subset h)

theorem dist_of_dot_zero {x y : List F32} (h : dotProduct x y = fin 0) : angularDist x y = some (fin 1) := by
  unfold angularDist
  have e : FloatOps.sub (FloatOps.ofInt 1) (dotProduct x y) = fin 1 := by
    rw [h]
    have h1 : (FloatOps.ofInt 1 : F32) = fin 1 := ofInt_one
    rw [h1]
    show F32.add (fin 1) (F32.neg (fin 0)) = fin 1
    have hr : rne32 (1 : ℝ) = 1 := by
      have := rne32_int (m := 1) (by norm_num)
      simpa using this
    rw [F32.neg, F32.add, neg_zero, add_zero, ofReal_fin (by
      rw [hr, abs_one]
      exact le_trans (by norm_num) maxF32_ge), hr]
  simp only [e]
  rw [if_neg (by simp [FloatOps.isNan]), maxZero, ofInt_zero]
  have : FloatOps.gt (fin 0) (fin 1) = false := by
    show F32.gt (fin 0) (fin 1) = false
    simp [F32.gt]
  rw [this]
  rfl

theorem dotProduct_empty (x : List F32) : dotProduct x [] = fin 0 := by
  have hc : chunksExact 32 ([] : List F32) = [] := rfl
  have hr : chunksRemainder 32 ([] : List F32) = [] := rfl
  unfold dotProduct
  simp only [hc, hr, List.zip_nil_right, List.foldl_nil]
  have : ∀ n : Nat, (List.replicate n (MulAddOps.zero : F32)).foldl MulAddOps.add MulAddOps.zero = fin 0 := by
    intro n
    induction n with
    | zero => rfl
    | succ n ih =>
      rw [List.replicate_succ, List.foldl_cons]
      have : MulAddOps.add (MulAddOps.zero : F32) MulAddOps.zero = MulAddOps.zero := by
        show ofReal (0 + 0) = fin 0
        rw [add_zero, ofReal_fin (by rw [rne32_zero, abs_zero]; exact maxF32_pos.le), rne32_zero]
      rw [this]
      exact ih
  exact this 32

theorem normalize_zeros (n : Nat) : normalize (List.replicate n (fin 0)) = List.replicate n (fin 0) := by
  unfold normalize
  have hd : dotProduct (List.replicate n (fin 0)) (List.replicate n (fin 0)) = fin 0 :=
    acc_zero (dotProduct_acc _ _ rfl) (by
      rintro ⟨a, b⟩ hp
      obtain ⟨h1, h2⟩ := List.of_mem_zip hp
      exact ⟨0, by rw [List.eq_of_mem_replicate h1, List.eq_of_mem_replicate h2]⟩)
  have hs : FloatOps.sqrt (fin 0) = fin 0 := by
    show F32.sqrt (fin 0) = fin 0
    rw [F32.sqrt, if_neg (lt_irrefl _), Real.sqrt_zero, ofReal_fin (by rw [rne32_zero, abs_zero]; exact maxF32_pos.le),
      rne32_zero]
  simp only [hd, hs]
  rw [if_neg]
  show ¬ F32.gt (fin 0) (FloatOps.ofInt 0) = true
  rw [ofInt_zero]
  simp [F32.gt]

/-- C56. A text without a known word (the empty one included) has the distance 1 to every element: whatever a search
with it returns, every reported distance is exactly 1. The embeddings of the elements must be finite. -/
theorem C56_unknown_text (ix : TextIndex) (dim : Nat) (embs : List (List F32))
    (he : ShowsVectors ix.elements.embeddings dim embs) (hd : 0 < dim) (hne : embs ≠ [])
    (hfin : ∀ (i : Nat) (v : List F32), i < ix.elements.len → ix.elements.getEmbedding i = some v → v.length = dim ∧ ∀ a ∈ v, a.Finite)
    (words : List Text) (hw : HoldsWords ix.words words) (q : Text) (hq : knownWords words q = [])
    (maxSearch k : Nat) (r : List (Nat × ℝ)) (h : ix.search q maxSearch k = some r) : ∀ p ∈ r, p.2 = 1 := by
  have hids : ix.words.getWordIds q = [] := by
    have := wordIds_eq hw (splitWs q)
    unfold knownWords at hq
    rw [hq] at this
    exact List.map_eq_nil_iff.1 this
  have hqv : ix.queryVector q = some (if q = [] then [] else List.replicate dim (fin 0)) := by
    unfold TextIndex.queryVector
    split
    · exact congrArg some (normalize_zeros 0)
    · rw [hids, (C36_embedding_is_sum ix.elements dim embs he hd).1 hne]
      show some (normalize (List.replicate dim (fin 0))) = _
      rw [normalize_zeros]
  unfold TextIndex.search at h
  rw [hqv] at h
  rcases Option.eq_none_or_eq_some (sumElements ix.elements) with hn | ⟨es, hes⟩
  · rw [hn] at h; simp at h
  rcases Option.eq_none_or_eq_some ix.layers.graphs with hn | ⟨gs, hgs⟩
  · rw [hn] at h
    cases hse : sumElements ix.elements <;> rw [hse] at h <;> simp at h
  rw [hes, hgs] at h
  simp only at h
  obtain ⟨_, _, s3, _⟩ := C01_search_sound gs es _ maxSearch k r h
  obtain ⟨e1, e2, e3⟩ := sumElements_some hes
  intro p hp
  obtain ⟨_, e, hee, hdist⟩ := s3 p hp
  rw [hdist]
  have hlt := (List.getElem?_eq_some_iff.1 hee).1
  have hse := e3 p.1 (by omega)
  rw [hee, sumElement, Option.map_eq_some_iff] at hse
  obtain ⟨v, hv, rfl⟩ := hse
  obtain ⟨hvl, hvf⟩ := hfin p.1 v (by omega) hv
  have hnf : ∀ a ∈ normalize v, ∃ b : ℝ, a = fin b := by
    intro a ha
    obtain ⟨b, hb, _⟩ := normalize_bounded hvf a ha
    exact ⟨b, hb⟩
  have hdz : dotProduct (normalize v) (if q = [] then [] else List.replicate dim (fin 0)) = fin 0 := by
    split
    · exact dotProduct_empty _
    · refine acc_zero (dotProduct_acc _ _ (by rw [normalize_length, hvl, List.length_replicate])) ?_
      rintro ⟨a, b⟩ hpz
      obtain ⟨h1, h2⟩ := List.of_mem_zip hpz
      obtain ⟨c, rfl⟩ := hnf a h1
      exact ⟨c, by rw [List.eq_of_mem_replicate h2]⟩
  rw [e1]
  show ((angularDist _ _).getD nan).val = 1
  rw [dist_of_dot_zero hdz]
  rfl

end Granne
