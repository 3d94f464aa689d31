import Verif.Model.Embeddings
import Verif.Proofs.FixedWidth
import Verif.Proofs.VarWidth
import Mathlib.Data.List.Perm.Basic
import Mathlib.Algebra.BigOperators.Group.List.Basic

namespace Granne

theorem chunksOf_flatten {α : Type} {k : Nat} (hk : 0 < k) (fuel : Nat) (l : List α) (h : l.length ≤ fuel) :
    (chunksOf k fuel l).flatten = l := by
  induction fuel generalizing l with
  | zero => obtain rfl : l = [] := by simpa using h
            rfl
  | succ n ih =>
    rw [chunksOf]
    split
    · simp_all
    · rename_i hne
      have : 0 < l.length := List.length_pos_iff.2 hne
      rw [List.flatten_cons, ih _ (by rw [List.length_drop]; omega), List.take_append_drop]

/-- The bytes of an id. -/
def encId (n : Nat) : ThreeByteInt := ⟨leBytes 3 n, by simp⟩

theorem idInto_encId {n : Nat} (h : n < 2 ^ 24) : idInto (encId n) = n := leNat_leBytes_of_lt (by simpa using h)

theorem encId_idInto (b : ThreeByteInt) : encId (idInto b) = b := by
  apply Subtype.ext
  have := leBytes_leNat b.1
  rw [b.2] at this
  exact this

theorem idInto_lt (b : ThreeByteInt) : idInto b < 2 ^ 24 := by
  have := leNat_lt b.1
  rw [b.2] at this
  simpa [idInto] using this

theorem map_idFrom {ids : List Nat} (h : ∀ n ∈ ids, n < 2 ^ 24) : seqOpt (ids.map idFrom) = some (ids.map encId) := by
  apply seqOpt_some
  rw [List.map_map]
  apply List.map_congr_left
  intro n hn
  have := h n hn
  rw [idFrom, if_pos (by simpa using this)]
  rfl

theorem map_idFrom_none {ids : List Nat} (h : ∃ n ∈ ids, 2 ^ 24 ≤ n) : seqOpt (ids.map idFrom) = none := by
  apply seqOpt_none
  obtain ⟨n, hn, hn'⟩ := h
  rw [List.mem_map]
  exact ⟨n, hn, by rw [idFrom, if_neg (by simpa using hn')]⟩

/-- `e` stores the term lists `terms`. -/
structure TermRepr (e : Elems) (terms : List (List Nat)) : Prop where
  rows : VarRepr e (terms.map fun t => t.map encId)
  ids : ∀ t ∈ terms, ∀ n ∈ t, n < 2 ^ 24

theorem flatten_enc_length (terms : List (List Nat)) :
    (terms.map fun t => t.map encId).flatten.length = terms.flatten.length := by
  rw [List.length_flatten, List.length_flatten, List.map_map]
  congr 1
  apply List.map_congr_left
  intro t _
  simp

namespace TermRepr
variable {e e' : Elems} {terms terms' : List (List Nat)}

theorem new : ∃ e : Elems, VarVec.new = some e ∧ TermRepr e [] := by
  obtain ⟨v, h1, h2⟩ := VarRepr.new (T := ThreeByteInt) (O := FiveByteInt)
  exact ⟨v, h1, by simpa using h2, by simp⟩

theorem get_eq (h : TermRepr e terms) (i : Nat) : (e.get i).map (fun l => l.map idInto) = terms[i]? := by
  rw [h.rows.get_eq, List.getElem?_map, Option.map_map]
  rcases Option.eq_none_or_eq_some (terms[i]?) with hn | ⟨t, ht⟩
  · rw [hn]; rfl
  · rw [ht]
    simp only [Option.map_some, Function.comp]
    congr 1
    rw [List.map_map]
    conv_rhs => rw [← List.map_id t]
    apply List.map_congr_left
    intro n hn
    exact idInto_encId (h.ids t (List.mem_of_getElem? ht) n hn)

theorem len_eq (h : TermRepr e terms) : e.len = terms.length := by rw [h.rows.len_eq]; simp

/-- Every stored collection is a list of term lists. -/
theorem ofRows {rows : List (List ThreeByteInt)} (h : VarRepr e rows) :
    TermRepr e (rows.map fun r => r.map idInto) := by
  constructor
  · rw [List.map_map]
    convert h using 1
    conv_rhs => rw [← List.map_id rows]
    apply List.map_congr_left
    intro r _
    simp only [Function.comp, List.map_map, id]
    conv_rhs => rw [← List.map_id r]
    apply List.map_congr_left
    intro b _
    exact encId_idInto b
  · intro t ht n hn
    obtain ⟨r, _, rfl⟩ := List.mem_map.1 ht
    obtain ⟨b, _, rfl⟩ := List.mem_map.1 hn
    exact idInto_lt b

theorem push (h : TermRepr e terms) {ids : List Nat} (hids : ∀ n ∈ ids, n < 2 ^ 24)
    (htot : terms.flatten.length + ids.length < 2 ^ 40) :
    ∃ e', e.push (ids.map encId) = some e' ∧ TermRepr e' (terms ++ [ids]) := by
  obtain ⟨e', h1, h2⟩ := h.rows.push (ids.map encId) (by
    rw [flatten_enc_length, List.length_map]
    exact htot.trans_eq (by decide))
  refine ⟨e', h1, by simpa using h2, ?_⟩
  intro t ht
  rcases List.mem_append.1 ht with ht | ht
  · exact h.ids t ht
  · rw [List.mem_singleton.1 ht]; exact hids

end TermRepr

namespace SumEmb
variable {S : Type}

theorem push_ok {s : SumEmb S} {terms : List (List Nat)} (h : TermRepr s.elements terms) {ids : List Nat}
    (hids : ∀ n ∈ ids, n < 2 ^ 24) (htot : terms.flatten.length + ids.length < 2 ^ 40) :
    ∃ s', s.push ids = some s' ∧ TermRepr s'.elements (terms ++ [ids]) ∧ s'.embeddings = s.embeddings := by
  obtain ⟨e', h1, h2⟩ := h.push hids htot
  exact ⟨{ s with elements := e' }, by rw [SumEmb.push, map_idFrom hids]; simp only [h1], h2, rfl⟩

theorem push_big_id {s : SumEmb S} {ids : List Nat} (h : ∃ n ∈ ids, 2 ^ 24 ≤ n) : s.push ids = none := by
  rw [SumEmb.push, map_idFrom_none h]

theorem push_too_many {s : SumEmb S} {terms : List (List Nat)} (h : TermRepr s.elements terms) {ids : List Nat}
    (htot : 2 ^ 40 ≤ terms.flatten.length + ids.length) : s.push ids = none := by
  by_cases hids : ∀ n ∈ ids, n < 2 ^ 24
  · rw [SumEmb.push, map_idFrom hids]
    have := h.rows.push_none (ids.map encId) (by
      rw [flatten_enc_length, List.length_map]
      exact Nat.le_trans (by decide) htot)
    simp only [this]
  · push Not at hids
    exact push_big_id hids

theorem pushAll_ok {s : SumEmb S} {terms : List (List Nat)} (h : TermRepr s.elements terms) (xs : List (List Nat))
    (hids : ∀ t ∈ xs, ∀ n ∈ t, n < 2 ^ 24) (htot : (terms ++ xs).flatten.length < 2 ^ 40) :
    ∃ s', s.pushAll xs = some s' ∧ TermRepr s'.elements (terms ++ xs) ∧ s'.embeddings = s.embeddings := by
  induction xs generalizing s terms with
  | nil => exact ⟨s, rfl, by simpa using h, rfl⟩
  | cons x t ih =>
    obtain ⟨s1, e1, r1, b1⟩ := push_ok h (hids x (by simp)) (by simp at htot ⊢; omega)
    obtain ⟨s2, e2, r2, b2⟩ := ih r1 (fun y hy => hids y (by simp [hy])) (by simpa using htot)
    exact ⟨s2, by rw [SumEmb.pushAll, e1]; exact e2, by simpa using r2, by rw [b2, b1]⟩

theorem gather_ok {e : Elems} {rows : List (List ThreeByteInt)} (h : VarRepr e rows) {c : List Nat}
    (hc : ∀ i ∈ c, i < rows.length)
    (htot : (c.map fun i => rows.getD i []).flatten.length < OffsetInt.limit FiveByteInt) :
    ∃ v, gather e c = some v ∧ VarRepr v (c.map fun i => rows.getD i []) := by
  obtain ⟨v0, e0, r0⟩ := VarRepr.new (T := ThreeByteInt) (O := FiveByteInt)
  have : seqOpt (c.map e.get) = some (c.map fun i => rows.getD i []) := by
    apply seqOpt_some
    rw [List.map_map]
    apply List.map_congr_left
    intro i hi
    rw [h.get_eq]
    simp [hc i hi]
  obtain ⟨v, e1, r1⟩ := r0.pushAll (c.map fun i => rows.getD i []) (by simpa using htot)
  exact ⟨v, by rw [gather, e0, this]; exact e1, by simpa using r1⟩

theorem concat_ok (chunks : List Elems) : ∀ (css : List (List (List ThreeByteInt))) (v : Elems)
    (rows : List (List ThreeByteInt)), VarRepr v rows → List.Forall₂ (fun v r => VarRepr v r) chunks css →
    (rows ++ css.flatten).flatten.length < OffsetInt.limit FiveByteInt →
    ∃ v', concatChunks v chunks = some v' ∧ VarRepr v' (rows ++ css.flatten) := by
  induction chunks with
  | nil =>
    intro css v rows h hf _
    cases hf
    exact ⟨v, rfl, by simpa using h⟩
  | cons c t ih =>
    intro css v rows h hf htot
    cases hf with
    | cons hc ht =>
      rename_i cs css
      obtain ⟨v1, e1, r1⟩ := h.extend hc (by simp at htot ⊢; omega)
      obtain ⟨v2, e2, r2⟩ := ih css v1 _ r1 ht (by simpa using htot)
      exact ⟨v2, by rw [concatChunks, e1]; exact e2, by simpa using r2⟩

theorem permute_ok {s : SumEmb S} {rows : List (List ThreeByteInt)} (h : VarRepr s.elements rows) {perm : List Nat}
    (hlen : perm.length = rows.length) (hb : ∀ i ∈ perm, i < rows.length)
    (htot : (perm.map fun i => rows.getD i []).flatten.length < OffsetInt.limit FiveByteInt) :
    ∃ s', s.permute perm = some s' ∧ VarRepr s'.elements (perm.map fun i => rows.getD i []) ∧
      s'.embeddings = s.embeddings := by
  obtain ⟨v0, e0, r0⟩ := VarRepr.new (T := ThreeByteInt) (O := FiveByteInt)
  set k := max 10000 (s.len / 400) with hk
  have hkp : 0 < k := by omega
  have hfl : (chunksOf k perm.length perm).flatten = perm := chunksOf_flatten hkp _ _ (Nat.le_refl _)
  set cs := chunksOf k perm.length perm with hcs
  have hmem : ∀ c ∈ cs, ∀ i ∈ c, i < rows.length := by
    intro c hc i hi
    apply hb
    rw [← hfl]
    exact List.mem_flatten.2 ⟨c, hc, hi⟩
  have hmapfl : (perm.map fun i => rows.getD i []) = (cs.map fun c => c.map fun i => rows.getD i []).flatten := by
    conv_lhs => rw [← hfl]
    rw [List.map_flatten]
  have hct : ∀ c ∈ cs, (c.map fun i => rows.getD i []).flatten.length < OffsetInt.limit FiveByteInt := by
    intro c hc
    refine Nat.lt_of_le_of_lt ?_ htot
    rw [hmapfl]
    obtain ⟨a, b, hab⟩ := List.append_of_mem hc
    rw [hab]
    simp only [List.map_append, List.map_cons, List.flatten_append, List.flatten_cons, List.length_append]
    omega
  have hex : ∀ c : List Nat, ∃ v : Elems, c ∈ cs →
      gather s.elements c = some v ∧ VarRepr v (c.map fun i => rows.getD i []) := by
    intro c
    by_cases hc : c ∈ cs
    · obtain ⟨v, h1, h2⟩ := gather_ok h (hmem c hc) (hct c hc)
      exact ⟨v, fun _ => ⟨h1, h2⟩⟩
    · exact ⟨v0, fun hc' => absurd hc' hc⟩
  choose f hf using hex
  have hseq : seqOpt (cs.map (gather s.elements)) = some (cs.map f) := by
    apply seqOpt_some
    rw [List.map_map]
    apply List.map_congr_left
    intro c hc
    exact (hf c hc).1
  have hall : List.Forall₂ (fun (v : Elems) r => VarRepr v r) (cs.map f)
      (cs.map fun c => c.map fun i => rows.getD i []) := by
    clear_value cs
    clear hfl hmem hmapfl hct hseq hcs
    induction cs with
    | nil => exact List.Forall₂.nil
    | cons c t ih => exact List.Forall₂.cons (hf c (by simp)).2 (ih fun c' hc' => hf c' (by simp [hc']))
  obtain ⟨v', e', r'⟩ := concat_ok _ _ v0 [] r0 hall (by rw [List.nil_append, ← hmapfl]; exact htot)
  rw [List.nil_append, ← hmapfl] at r'
  refine ⟨{ s with elements := v' }, ?_, r', rfl⟩
  rw [SumEmb.permute, if_pos (by rw [SumEmb.len, h.len_eq, hlen])]
  simp only [← hk, ← hcs, e0, hseq, e']

/-- The number of values does not change when the rows are permuted. -/
theorem flatten_perm_length {α : Type} {rows : List (List α)} {perm : List Nat} (hp : perm.Perm (List.range rows.length)) :
    (perm.map fun i => rows.getD i []).Perm rows := by
  refine (hp.map _).trans ?_
  apply List.Perm.of_eq
  apply List.ext_getElem?
  intro i
  by_cases hi : i < rows.length
  · rw [List.getElem?_map, List.getElem?_range hi]
    simp [hi]
  · rw [List.getElem?_eq_none (by simp; omega), List.getElem?_eq_none (by omega)]

theorem permute_perm {s : SumEmb S} {terms : List (List Nat)} (h : TermRepr s.elements terms) {perm : List Nat}
    (hp : perm.Perm (List.range terms.length)) (htot : terms.flatten.length < 2 ^ 40) :
    ∃ s', s.permute perm = some s' ∧ TermRepr s'.elements (perm.map fun i => terms.getD i []) ∧
      s'.embeddings = s.embeddings := by
  have hlen : perm.length = terms.length := by simpa using hp.length_eq
  have hb : ∀ i ∈ perm, i < terms.length := fun i hi => by simpa using hp.mem_iff.1 hi
  have hmap : (perm.map fun i => (terms.map fun t => t.map encId).getD i []) =
      (perm.map fun i => terms.getD i []).map fun t => t.map encId := by
    rw [List.map_map]
    apply List.map_congr_left
    intro i hi
    have := hb i hi
    simp [this]
  have hperm := flatten_perm_length hp
  obtain ⟨s', h1, h2, h3⟩ := permute_ok (s := s) h.rows (perm := perm) (by simpa using hlen) (by simpa using hb) (by
    rw [hmap, flatten_enc_length, hperm.flatten.length_eq]
    exact htot.trans_eq (by decide))
  refine ⟨s', h1, ⟨by rw [← hmap]; exact h2, ?_⟩, h3⟩
  intro t ht
  exact h.ids t (hperm.mem_iff.1 ht)

/-! ### sums -/

variable [Add S]

theorem sumLoop_ok {emb : FixVec S} {d : Nat} {rows : List (List S)} (h : FixRepr emb d rows) (ids : List Nat) :
    ∀ data : List S, data.length = d → (∀ i ∈ ids, i < rows.length) →
    sumLoop emb data ids = some ((ids.map fun i => rows.getD i []).foldl (fun a b => List.zipWith (· + ·) a b) data) := by
  induction ids with
  | nil => intro data _ _; rfl
  | cons i t ih =>
    intro data hd hi
    have hil : i < rows.length := hi i (by simp)
    have hr : (rows[i]).length = d := h.len _ (List.getElem_mem hil)
    rw [sumLoop, h.get_eq, List.getElem?_eq_getElem hil]
    simp only [sumInto]
    rw [if_pos (by rw [hd, hr])]
    simp only
    rw [ih _ (by rw [List.length_zipWith, hd, hr, Nat.min_self]) (fun j hj => hi j (by simp [hj]))]
    simp [hil]

theorem sumLoop_none {emb : FixVec S} {d : Nat} {rows : List (List S)} (h : FixRepr emb d rows) (ids : List Nat) :
    ∀ data : List S, data.length = d → (∃ i ∈ ids, rows.length ≤ i) → sumLoop emb data ids = none := by
  induction ids with
  | nil => intro data _ hc; simp at hc
  | cons i t ih =>
    intro data hd hi
    by_cases hil : i < rows.length
    · have hr : (rows[i]).length = d := h.len _ (List.getElem_mem hil)
      rw [sumLoop, h.get_eq, List.getElem?_eq_getElem hil]
      simp only [sumInto]
      rw [if_pos (by rw [hd, hr])]
      simp only
      refine ih _ (by rw [List.length_zipWith, hd, hr, Nat.min_self]) ?_
      obtain ⟨j, hj, hj'⟩ := hi
      rcases List.mem_cons.1 hj with rfl | hj
      · omega
      · exact ⟨j, hj, hj'⟩
    · rw [sumLoop, h.get_eq, List.getElem?_eq_none (by omega)]

end SumEmb
end Granne
