import Verif.Proofs.Truncated
import Verif.Spec.Elements
import Verif.Proofs.Permute
import Verif.Proofs.Embeddings

/-!
Properties of the element collections `Vectors` and `SumEmbeddings`: C28 - C32, C36.
-/
namespace Granne
open Spec

variable {T S : Type}

theorem FixRepr.shows {v : FixVec T} {d : Nat} {rows : List (List T)} (h : FixRepr v d rows) : ShowsVectors v d rows :=
  ⟨h.len, h.width, h.len_eq, fun i r hr => by rw [h.get_eq, hr],
    fun i hi _ => by rw [h.get_eq, List.getElem?_eq_none hi], h.data⟩

theorem Spec.ShowsVectors.repr {v : FixVec T} {d : Nat} {rows : List (List T)} (h : ShowsVectors v d rows) (hd : 0 < d) :
    FixRepr v d rows := ⟨hd, h.dimEq, h.asSlice, h.equalLength⟩

theorem shows_empty : ShowsVectors (FixVec.new : FixVec T) 0 [] :=
  ⟨by simp, rfl, rfl, by simp, by simp, rfl⟩

theorem runEmb_terms {s s' : SumEmb S} {terms : List (List Nat)} (h : TermRepr s.elements terms)
    (htot : terms.flatten.length < 2 ^ 40) (ops : List (EmbOp S)) (hr : runEmb s ops = some s') :
    TermRepr s'.elements (terms ++ pushedTerms ops) ∧ (terms ++ pushedTerms ops).flatten.length < 2 ^ 40 := by
  induction ops generalizing s terms with
  | nil =>
    rw [runEmb] at hr
    obtain rfl := Option.some.inj hr
    rw [pushedTerms, List.append_nil]
    exact ⟨h, htot⟩
  | cons op t ih =>
    cases op with
    | push ids =>
      by_cases hids : ∀ n ∈ ids, n < 2 ^ 24
      · by_cases ht : terms.flatten.length + ids.length < 2 ^ 40
        · obtain ⟨s1, e1, r1, _⟩ := SumEmb.push_ok h hids ht
          rw [runEmb, e1] at hr
          have := ih r1 (by simpa using ht) hr
          simpa [pushedTerms] using this
        · rw [runEmb, SumEmb.push_too_many h (by omega)] at hr
          simp at hr
      · push Not at hids
        rw [runEmb, SumEmb.push_big_id hids] at hr
        simp at hr
    | pushEmbedding v =>
      rw [runEmb] at hr
      rcases Option.eq_none_or_eq_some (s.pushEmbedding v) with hn | ⟨s1, h1⟩
      · rw [hn] at hr; simp at hr
      · rw [h1] at hr
        have he : s1.elements = s.elements := by
          unfold SumEmb.pushEmbedding at h1
          split at h1
          · rw [← Option.some.inj h1]
          · simp at h1
        exact ih (he ▸ h) htot hr

theorem Spec.EmbState.repr {s : SumEmb S} (h : EmbState s) :
    ∃ terms, TermRepr s.elements terms ∧ terms.flatten.length < 2 ^ 40 := by
  induction h with
  | pushed s0 s ops h0 hr =>
    obtain ⟨e, he, hr0⟩ := TermRepr.new
    rw [SumEmb.new, he] at h0
    obtain rfl := Option.some.inj h0
    have := runEmb_terms (s := ⟨FixVec.new, e⟩) hr0 (by simp) ops hr
    exact ⟨_, this.1, this.2⟩
  | push s s' ids _ hp ih =>
    obtain ⟨terms, ht, htot⟩ := ih
    have := runEmb_terms ht htot [.push ids] (by rw [runEmb, hp]; rfl)
    exact ⟨_, this.1, this.2⟩
  | permuted s s' perm _ hperm hp ih =>
    obtain ⟨terms, ht, htot⟩ := ih
    rw [SumEmb.len, ht.len_eq] at hperm
    obtain ⟨s1, h1, h2, _⟩ := SumEmb.permute_perm ht hperm htot
    rw [h1] at hp
    obtain rfl := Option.some.inj hp
    refine ⟨_, h2, ?_⟩
    rw [(SumEmb.flatten_perm_length hperm).flatten.length_eq]
    exact htot
  | loaded s emb e _ hlen hl ih =>
    obtain ⟨terms, ht, htot⟩ := ih
    rw [SumEmb.len, ht.len_eq] at hlen
    rw [ht.rows.fromBytes_bytes (by simpa using hlen)] at hl
    obtain rfl := Option.some.inj hl
    exact ⟨terms, ht, htot⟩

/-! ### C28 -/

/-- C28. Permuting a collection of vectors by a permutation `p` of its positions never panics and ends; afterwards
position `i` holds the vector that was at position `p[i]`, and dimension and length are unchanged. -/
theorem C28_permute_vectors (v : FixVec T) (dim : Nat) (rows : List (List T)) (h : ShowsVectors v dim rows)
    (hd : 0 < dim) (p : List Nat) (hp : p.Perm (List.range rows.length)) :
    ∃ v' rows', v.permute p = some v' ∧ ShowsVectors v' dim rows' ∧ rows'.length = rows.length ∧
      (∀ i m : Nat, p[i]? = some m → rows'[i]? = rows[m]?) ∧ rows'.Perm rows := by
  obtain ⟨v', e, r⟩ := (h.repr hd).permute_map hp
  have hlen : p.length = rows.length := by simpa using hp.length_eq
  refine ⟨v', _, e, r.shows, by simp [hlen], ?_, SumEmb.flatten_perm_length hp⟩
  intro i m hm
  have hmb : m < rows.length := by simpa using hp.mem_iff.1 (List.mem_of_getElem? hm)
  rw [List.getElem?_map, hm]
  simp [hmb]

/-- C28. A list of another length panics, before anything is changed. -/
theorem C28_permute_wrong_length (v : FixVec T) (dim : Nat) (rows : List (List T)) (h : ShowsVectors v dim rows)
    (p : List Nat) (hp : p.length ≠ rows.length) : v.permute p = none := by
  rw [FixVec.permute, h.len, if_neg (fun hc => hp hc.symm)]

theorem permuteCycle_avoids (perm : List Nat) (i : Nat) (start : List T) {i0 : Nat} (hi0 : i0 ∉ perm) :
    ∀ (fuel j : Nat) (v : FixVec T) (vis : List Bool), j ≠ i0 → ∀ v' vis', FixVec.permuteCycle perm i start fuel j v vis = some (v', vis') →
      vis'[i0]? = vis[i0]? := by
  intro fuel
  induction fuel with
  | zero => intro j v vis _ v' vis' h; simp [FixVec.permuteCycle] at h
  | succ fuel ih =>
    intro j v vis hj v' vis' h
    unfold FixVec.permuteCycle at h
    rcases Option.eq_none_or_eq_some perm[j]? with hp | ⟨pj, hp⟩
    · simp [hp] at h
    · have hne : pj ≠ i0 := fun e => hi0 (e ▸ List.mem_of_getElem? hp)
      simp only [hp, Option.bind_eq_bind, Option.bind_some] at h
      split at h
      · rcases Option.eq_none_or_eq_some (v.copyRow j pj) with hc | ⟨v1, hc⟩
        · simp [hc] at h
        · simp only [hc, Option.bind_some] at h
          split at h
          · rw [ih pj v1 _ hne v' vis' h, List.getElem?_set_ne hj]
          · cases h
      · rcases Option.eq_none_or_eq_some (v.setRow j start) with hc | ⟨v1, hc⟩
        · simp [hc] at h
        · simp only [hc, Option.bind_some] at h
          split at h
          · cases h; rw [List.getElem?_set_ne hj]
          · cases h

theorem permuteCycle_endless (perm : List Nat) {i0 : Nat} (hi0 : i0 ∉ perm) (start : List T) :
    ∀ (fuel j : Nat) (v : FixVec T) (vis : List Bool), FixVec.permuteCycle perm i0 start fuel j v vis = none := by
  intro fuel
  induction fuel with
  | zero => intro j v vis; rfl
  | succ fuel ih =>
    intro j v vis
    unfold FixVec.permuteCycle
    rcases Option.eq_none_or_eq_some perm[j]? with hp | ⟨pj, hp⟩
    · simp [hp]
    · have hne : pj ≠ i0 := fun e => hi0 (e ▸ List.mem_of_getElem? hp)
      simp only [hp, Option.bind_eq_bind, Option.bind_some, if_pos hne]
      rcases Option.eq_none_or_eq_some (v.copyRow j pj) with hc | ⟨v1, hc⟩
      · simp [hc]
      · simp only [hc, Option.bind_some, ih, ite_self]

theorem permuteLoop_never (perm : List Nat) {i0 : Nat} (hi0 : i0 ∉ perm) :
    ∀ (is : List Nat) (v : FixVec T) (vis : List Bool), i0 ∈ is → vis[i0]? = some false → FixVec.permuteLoop perm is v vis = none := by
  intro is
  induction is with
  | nil => intro v vis h; cases h
  | cons i is ih =>
    intro v vis hmem hvis
    unfold FixVec.permuteLoop
    rcases Option.eq_none_or_eq_some vis[i]? with hv | ⟨b, hv⟩
    · simp [hv]
    · simp only [hv, Option.bind_eq_bind, Option.bind_some]
      by_cases hi : i = i0
      · subst hi
        rw [hvis] at hv
        cases hv
        rcases Option.eq_none_or_eq_some (v.get i) with hg | ⟨st, hg⟩
        · simp [hg]
        · simp [hg, permuteCycle_endless perm hi0]
      · have hmem' : i0 ∈ is := by
          rcases List.mem_cons.1 hmem with h | h
          · exact absurd h.symm hi
          · exact h
        cases b with
        | true => simpa using ih v vis hmem' hvis
        | false =>
          simp only [Bool.false_eq_true, if_false]
          rcases Option.eq_none_or_eq_some (v.get i) with hg | ⟨st, hg⟩
          · simp [hg]
          · simp only [hg, Option.bind_some]
            rcases Option.eq_none_or_eq_some (FixVec.permuteCycle perm i st (perm.length + 1) i v vis) with hc | ⟨⟨v', vis'⟩, hc⟩
            · simp [hc]
            · simp only [hc, Option.bind_some]
              exact ih v' vis' hmem' (by rw [permuteCycle_avoids perm i st hi0 _ _ _ _ hi _ _ hc]; exact hvis)

/-- C28. A list that is not a permutation of the positions never leads to a result: the call panics or does not end. (It follows the
list from a position that does not occur in it, and stops only when it comes back there.) -/
theorem C28_permute_no_permutation (v : FixVec T) (dim : Nat) (rows : List (List T)) (h : ShowsVectors v dim rows)
    (p : List Nat) (hp : ¬ p.Perm (List.range rows.length)) : v.permute p = none := by
  by_cases hl : p.length = rows.length
  · obtain ⟨i0, h1, h2⟩ : ∃ i0 < rows.length, i0 ∉ p := by
      by_contra hc
      push Not at hc
      refine hp (List.Perm.symm ?_)
      exact (List.subperm_of_subset List.nodup_range fun i hi => hc i (List.mem_range.1 hi)).perm_of_length_le (by simp [hl])
    rw [FixVec.permute, h.len, if_pos hl.symm]
    refine permuteLoop_never p h2 _ _ _ (List.mem_range.2 (by omega)) ?_
    rw [List.getElem?_replicate, if_pos h1]
  · exact C28_permute_wrong_length v dim rows h p hl

/-- C28. A list of another length panics for term lists, too. -/
theorem C28_permute_terms_wrong_length (s : SumEmb S) (p : List Nat) (hp : p.length ≠ s.len) : s.permute p = none := by
  rw [SumEmb.permute, if_neg (fun hc => hp hc.symm)]

/-- Non-vacuity: a repeated position (the call does not end) and a fixed point met on the way (it panics). -/
example : ¬ [1, 2, 1].Perm (List.range 3) ∧ ¬ [1, 1].Perm (List.range 2) := by decide

/-- C28. The same for the term lists of a `SumEmbeddings`, for every number of elements (the work is done in chunks
of at least 10000); the embeddings are not touched. -/
theorem C28_permute_terms (s : SumEmb S) (hs : EmbState s) (p : List Nat) (hp : p.Perm (List.range s.len)) :
    ∃ s', s.permute p = some s' ∧ s'.len = s.len ∧ s'.embeddings = s.embeddings ∧
      ∀ i m : Nat, p[i]? = some m → s'.getTerms i = s.getTerms m := by
  have := hs.repr
  obtain ⟨terms, ht, htot⟩ := this
  have hp' : p.Perm (List.range terms.length) := by rw [SumEmb.len, ht.len_eq] at hp; exact hp
  obtain ⟨s', h1, h2, h3⟩ := SumEmb.permute_perm ht hp' htot
  have hlen : p.length = terms.length := by simpa using hp'.length_eq
  refine ⟨s', h1, by rw [SumEmb.len, SumEmb.len, h2.len_eq, ht.len_eq]; simp [hlen], h3, ?_⟩
  intro i m hm
  have hmb : m < terms.length := by simpa using hp'.mem_iff.1 (List.mem_of_getElem? hm)
  rw [SumEmb.getTerms, SumEmb.getTerms, h2.get_eq, ht.get_eq, List.getElem?_map, hm]
  simp [hmb]

/-- Non-vacuity: three cycles, two of them of length greater than one. -/
example : ((FixVec.new.pushAll [[1, 2], [3, 4], [5, 6], [7, 8], [9, 10], [11, 12]]).bind fun (v : FixVec Nat) =>
    v.permute [1, 2, 0, 3, 5, 4]) = some ⟨[3, 4, 5, 6, 1, 2, 7, 8, 11, 12, 9, 10], 2⟩ := by decide

example : [1, 2, 0, 3, 5, 4].Perm (List.range 6) := by decide

example : ∃ s0 s : SumEmb Nat, SumEmb.new = some s0 ∧ runEmb s0 [.push [7, 300], .push [], .push [65536]] = some s ∧
    (s.permute [2, 0, 1]).bind (fun s' => s'.getTerms 1) = some [7, 300] :=
  ⟨_, _, rfl, rfl, by decide +kernel⟩

/-! ### C29 -/

theorem rows_of_data (data : List T) (dim : Nat) (hd : 0 < dim) (hdvd : dim ∣ data.length) :
    rowsOf dim (data.length / dim) data =
      (List.range (data.length / dim)).map fun i => (data.drop (i * dim)).take dim := by
  have h := FixRepr.ofData data dim hd (Nat.mod_eq_zero_of_dvd hdvd)
  apply List.ext_getElem?
  intro i
  rw [← h.get_eq, FixVec.get]
  simp only
  have hl : data.length = data.length / dim * dim := (Nat.div_mul_cancel hdvd).symm
  by_cases hi : i < data.length / dim
  · have : (i + 1) * dim ≤ data.length := by
      have := Nat.mul_le_mul_right dim (Nat.succ_le_of_lt hi)
      rw [← hl] at this
      exact this
    rw [if_pos this, List.getElem?_map, List.getElem?_range hi]
    rfl
  · have : ¬ (i + 1) * dim ≤ data.length := by
      intro hc
      rw [hl] at hc
      have := Nat.le_of_mul_le_mul_right hc hd
      omega
    rw [if_neg this, List.getElem?_eq_none (by simp; omega)]

theorem vec_refines (e : VecExpr T) (hp : e.Proper) :
    match e.spec with
    | some (dim, rows) => ∃ v, e.run = some v ∧ ShowsVectors v dim rows ∧ (dim = 0 → v = FixVec.new ∧ rows = [])
    | none => e.run = none := by
  induction e with
  | new => exact ⟨_, rfl, shows_empty, fun _ => ⟨rfl, rfl⟩⟩
  | fromVec data dim =>
    simp only [VecExpr.spec, VecExpr.run, FixVec.withData]
    by_cases h : 0 < dim ∧ dim ∣ data.length
    · rw [if_pos h, if_pos ⟨h.1, Nat.mod_eq_zero_of_dvd h.2⟩]
      refine ⟨_, rfl, ?_, fun h0 => absurd h0 (by have := h.1; omega)⟩
      have := FixRepr.ofData data dim h.1 (Nat.mod_eq_zero_of_dvd h.2)
      rw [rows_of_data data dim h.1 h.2] at this
      exact this.shows
    · rw [if_neg h, if_neg (fun hc => h ⟨hc.1, Nat.dvd_of_mod_eq_zero hc.2⟩)]
  | push e x ih =>
    obtain ⟨hpe, hx⟩ := hp
    have ih := ih hpe
    have hxl : 0 < x.length := List.length_pos_iff.2 hx
    simp only [VecExpr.spec, VecExpr.run]
    rcases Option.eq_none_or_eq_some e.spec with hn | ⟨⟨dim, rows⟩, hs⟩
    · simp only [hn] at ih ⊢
      simp only [ih]
    · simp only [hs] at ih ⊢
      obtain ⟨v, hv, hsv, h0⟩ := ih
      simp only [hv]
      by_cases hd : dim = 0
      · rw [if_pos (Or.inl hd)]
        obtain ⟨rfl, rfl⟩ := h0 hd
        obtain ⟨v', e1, r1⟩ := FixRepr.push_new hxl
        exact ⟨v', e1, r1.shows, fun hc => absurd hc (by omega)⟩
      · have r := hsv.repr (by omega)
        by_cases hxd : dim = x.length
        · rw [if_pos (Or.inr hxd)]
          obtain ⟨v', e1, r1⟩ := r.push hxd.symm
          exact ⟨v', e1, hxd ▸ r1.shows, fun hc => absurd hc (by omega)⟩
        · rw [if_neg (by tauto)]
          exact r.push_none (fun hc => hxd hc.symm)
  | extend e o ih1 ih2 =>
    have ih1 := ih1 hp.1
    have ih2 := ih2 hp.2
    simp only [VecExpr.spec, VecExpr.run]
    rcases Option.eq_none_or_eq_some e.spec with hn | ⟨⟨dim, rows⟩, hs⟩
    · simp only [hn] at ih1 ⊢
      simp only [ih1]
    · rcases Option.eq_none_or_eq_some o.spec with hn' | ⟨⟨dim', rows'⟩, hs'⟩
      · simp only [hs, hn'] at ih1 ih2 ⊢
        obtain ⟨v, hv, _, _⟩ := ih1
        simp only [hv, ih2]
      · simp only [hs, hs'] at ih1 ih2 ⊢
        obtain ⟨v, hv, hsv, h0⟩ := ih1
        obtain ⟨w, hw, hsw, h0'⟩ := ih2
        simp only [hv, hw]
        by_cases hd : dim = 0
        · rw [if_pos (Or.inl hd)]
          obtain ⟨rfl, rfl⟩ := h0 hd
          by_cases hd' : dim' = 0
          · obtain ⟨rfl, rfl⟩ := h0' hd'
            subst hd'
            exact ⟨_, rfl, shows_empty, fun _ => ⟨rfl, rfl⟩⟩
          · obtain ⟨v', e1, r1⟩ := FixRepr.extend_new (hsw.repr (by omega))
            exact ⟨v', e1, r1.shows, fun hc => absurd hc hd'⟩
        · have r := hsv.repr (by omega)
          by_cases hdd : dim = dim'
          · rw [if_pos (Or.inr hdd)]
            subst hdd
            obtain ⟨v', e1, r1⟩ := r.extend (hsw.repr (by omega))
            exact ⟨v', e1, r1.shows, fun hc => absurd hc hd⟩
          · rw [if_neg (by tauto)]
            exact r.extend_none (by rw [hsw.dimEq]; exact fun hc => hdd hc.symm)

/-- C29. Every way of making a collection with `new`, `from_vec`, `push` and `extend` panics exactly when the
dimensions do not fit, and otherwise shows (through `dim`, `len`, `get_element` and `as_slice`) the list of vectors
that the same calls give on plain lists. -/
theorem C29_vectors_are_lists (e : VecExpr T) (hp : e.Proper) :
    match e.spec with
    | some (dim, rows) => ∃ v, e.run = some v ∧ ShowsVectors v dim rows
    | none => e.run = none := by
  have := vec_refines e hp
  rcases Option.eq_none_or_eq_some e.spec with hn | ⟨⟨dim, rows⟩, hs⟩
  · simp only [hn] at this ⊢; exact this
  · simp only [hs] at this ⊢
    obtain ⟨v, h1, h2, _⟩ := this
    exact ⟨v, h1, h2⟩

/-- C29. The excluded case: a vector of dimension 0 pushed onto a new collection is lost. -/
theorem C29_empty_vector_lost : (FixVec.new : FixVec T).push [] = some FixVec.new ∧ (FixVec.new : FixVec T).len = 0 :=
  ⟨rfl, rfl⟩

/-- C29. Extending a collection whose dimension is fixed with a new, empty collection panics: the dimension of the
latter counts as 0. -/
theorem C29_extend_with_new_panics (v : FixVec T) (dim : Nat) (rows : List (List T)) (h : ShowsVectors v dim rows)
    (hd : 0 < dim) : v.extend FixVec.new = none :=
  (h.repr hd).extend_none (by simp [FixVec.new]; omega)

/-- C29. `FixedWidthSliceVector::subslice` and `resize` on lists of rows. -/
theorem C29_subslice_resize (v : FixVec T) (dim : Nat) (rows : List (List T)) (h : ShowsVectors v dim rows)
    (hd : 0 < dim) :
    (∀ b e : Nat, b ≤ e → e ≤ rows.length →
      ∃ v', v.subslice b e = some v' ∧ ShowsVectors v' dim ((rows.drop b).take (e - b))) ∧
    ∀ (n : Nat) (x : T), ShowsVectors (v.resize n x) dim
      (rows.take n ++ List.replicate (n - rows.length) (List.replicate dim x)) := by
  refine ⟨fun b e hbe he => ?_, fun n x => ((h.repr hd).resize n x).shows⟩
  obtain ⟨v', e1, r1⟩ := (h.repr hd).subslice hbe he
  exact ⟨v', e1, r1.shows⟩

/-- Non-vacuity: one expression that succeeds and one whose dimensions do not fit. -/
example : (VecExpr.extend (.push (.push .new [1, 2]) [3, 4]) (.fromVec [5, 6, 7, 8] 2)).spec =
    some (2, [[1, 2], [3, 4], [5, 6], [7, 8]]) ∧
    (VecExpr.extend (.push (.push .new [1, 2]) [3, 4]) (.fromVec [5, 6, 7, 8] 2)).run = some ⟨[1, 2, 3, 4, 5, 6, 7, 8], 2⟩ ∧
    (VecExpr.push (.push .new [1, 2]) [3]).run = none := by decide

/-! ### C30 -/

theorem fix_load [Scalar T] (data : List T) (w : Nat) (hw : w < 2 ^ 64) (rest : Bytes) (hr : rest.length < Scalar.size T) :
    (FixVec.loadMmap (leBytes 8 w ++ encodeAll data ++ rest) : Option (FixVec T)) = some ⟨data, w⟩ := by
  have hb : leBytes 8 w ++ encodeAll data ++ rest = leBytes 8 w ++ (encodeAll data ++ rest) := by simp
  rw [hb, FixVec.loadMmap, if_pos (by simp)]
  rw [List.take_append_of_le_length (by simp), List.take_of_length_le (by simp), List.drop_append_of_le_length (by simp),
    List.drop_eq_nil_of_le (by simp), List.nil_append, loadBytesAs_encodeAll _ _ hr, leNat_leBytes_of_lt (by omega)]

/-- C30 (partial: see the two theorems below for what fails). A collection of dimension at least 1, written with
`write`, is loaded back unchanged by `from_bytes`, whatever the bit patterns of the scalars. -/
theorem C30_write_load_partial [Scalar T] (v : FixVec T) (dim : Nat) (rows : List (List T))
    (h : ShowsVectors v dim rows) (hd : 0 < dim) (hd' : dim < 2 ^ 64) : FixVec.fromBytes v.bytes = some v := by
  have r := h.repr hd
  have := fix_load v.data v.width (by rw [h.dimEq]; exact hd') [] (Scalar.size_pos (T := T))
  rw [List.append_nil] at this
  rw [FixVec.fromBytes, FixVec.bytes, this]
  simp only
  rw [if_pos ⟨by rw [h.dimEq]; exact hd, by rw [h.dimEq, r.length, Nat.mul_mod_left]⟩]

/-- C30. Loading and writing again gives the same bytes (if there is no incomplete scalar at the end). -/
theorem C30_load_write [Scalar T] (b : Bytes) (v : FixVec T) (h : FixVec.fromBytes b = some v)
    (hb : (b.length - 8) % Scalar.size T = 0) : v.bytes = b := by
  unfold FixVec.fromBytes FixVec.loadMmap at h
  by_cases h8 : 8 ≤ b.length
  · rw [if_pos h8] at h
    simp only at h
    split at h
    · obtain rfl := Option.some.inj h
      rw [FixVec.bytes]
      simp only
      rw [encodeAll_loadBytesAs _ (by rw [List.length_drop]; exact hb)]
      have : (b.take 8).length = 8 := by rw [List.length_take]; omega
      have h2 := leBytes_leNat (b.take 8)
      rw [this] at h2
      rw [h2, List.take_append_drop]
    · simp at h
  · rw [if_neg h8] at h; simp at h

/-- C30. A truncated file never yields a wrong vector: loading it panics, or gives a prefix of the vectors. -/
theorem C30_truncated [Scalar T] (v : FixVec T) (dim : Nat) (rows : List (List T))
    (h : ShowsVectors v dim rows) (hd : 0 < dim) (hd' : dim < 2 ^ 64) (n : Nat) :
    (FixVec.fromBytes (v.bytes.take n) : Option (FixVec T)) = none ∨
      ∃ k v', FixVec.fromBytes (v.bytes.take n) = some v' ∧ ShowsVectors v' dim (rows.take k) := by
  have r := h.repr hd
  have hs := Scalar.size_pos (T := T)
  by_cases hn : n < 8
  · left
    rw [FixVec.fromBytes, FixVec.loadMmap, if_neg]
    rw [List.length_take]; omega
  · -- the scalars that are complete
    obtain ⟨m, rfl⟩ : ∃ m, n = 8 + m := ⟨n - 8, by omega⟩
    have e1 : v.bytes.take (8 + m) = leBytes 8 v.width ++ (encodeAll v.data).take m := by
      rw [FixVec.bytes, List.take_append, List.take_of_length_le (by simp)]
      simp
    obtain ⟨c, rest, e2, hrest⟩ : ∃ (c : Nat) (rest : Bytes),
        (encodeAll v.data).take m = encodeAll (v.data.take c) ++ rest ∧ rest.length < Scalar.size T := by
      have key : ∀ (l : List T) (m : Nat), ∃ (c : Nat) (rest : Bytes),
          (encodeAll l).take m = encodeAll (l.take c) ++ rest ∧ rest.length < Scalar.size T := by
        intro l
        induction l with
        | nil => intro m; exact ⟨0, [], by simp [encodeAll], hs⟩
        | cons x t ih =>
          intro m
          by_cases hm : m < Scalar.size T
          · refine ⟨0, (Scalar.enc x).take m, ?_, ?_⟩
            · rw [encodeAll_cons, List.take_append_of_le_length (by rw [Scalar.enc_length]; omega)]
              simp [encodeAll]
            · rw [List.length_take]; omega
          · obtain ⟨c, rest, h1, h2⟩ := ih (m - Scalar.size T)
            refine ⟨c + 1, rest, ?_, h2⟩
            rw [encodeAll_cons, List.take_append, List.take_of_length_le (by rw [Scalar.enc_length]; omega),
              Scalar.enc_length, h1, List.take_succ_cons, encodeAll_cons, List.append_assoc]
      exact key v.data m
    have hl := fix_load (v.data.take c) v.width (by rw [h.dimEq]; exact hd') rest hrest
    rw [e1, e2, ← List.append_assoc, FixVec.fromBytes, hl, h.dimEq]
    simp only
    by_cases hmod : (v.data.take c).length % dim = 0
    · right
      rw [if_pos ⟨hd, hmod⟩]
      obtain ⟨k, hk⟩ : ∃ k, (v.data.take c).length = k * dim := ⟨_, (Nat.div_mul_cancel (Nat.dvd_of_mod_eq_zero hmod)).symm⟩
      refine ⟨k, _, rfl, ?_⟩
      have : v.data.take c = (rows.take k).flatten := by
        rw [← take_flatten r.len, ← r.data, ← hk, List.length_take, Nat.min_def]
        split
        · rfl
        · rw [List.take_of_length_le (by omega), List.take_of_length_le (by omega)]
      exact (FixRepr.mk hd rfl this (fun x hx => r.len x (List.mem_of_mem_take hx))).shows
    · left
      rw [if_neg (fun hc => hmod hc.2)]

/-- C30. The truncation is silent when the file is cut between two vectors. -/
theorem C30_truncation_is_silent [Scalar T] (v : FixVec T) (dim : Nat) (rows : List (List T))
    (h : ShowsVectors v dim rows) (hd : 0 < dim) (hd' : dim < 2 ^ 64) (k : Nat) :
    ∃ v' : FixVec T, FixVec.fromBytes (v.bytes.take (8 + k * dim * Scalar.size T)) = some v' ∧
      ShowsVectors v' dim (rows.take k) := by
  have r := h.repr hd
  have key : ∀ (l : List T) (m : Nat), (encodeAll l).take (m * Scalar.size T) = encodeAll (l.take m) := by
    intro l
    induction l with
    | nil => intro m; simp [encodeAll]
    | cons x t ih =>
      intro m
      cases m with
      | zero => simp [encodeAll]
      | succ m =>
        rw [encodeAll_cons, List.take_append, Scalar.enc_length, List.take_succ_cons, encodeAll_cons, ← ih,
          List.take_of_length_le (by rw [Scalar.enc_length, Nat.succ_mul]; omega)]
        congr 2
        rw [Nat.succ_mul]; omega
  have r' : FixRepr (⟨(rows.take k).flatten, dim⟩ : FixVec T) dim (rows.take k) :=
    ⟨hd, rfl, rfl, fun x hx => r.len x (List.mem_of_mem_take hx)⟩
  refine ⟨_, ?_, r'.shows⟩
  rw [FixVec.bytes, List.take_append, List.take_of_length_le (by simp)]
  simp only [leBytes_length, Nat.add_sub_cancel_left]
  rw [key, r.data, take_flatten r.len]
  have := C30_write_load_partial _ dim _ r'.shows hd hd'
  rw [FixVec.bytes] at this
  rw [r.width]
  exact this

/-- C30, negative. A new collection (dimension not yet fixed) can be written but not loaded. -/
theorem C30_empty_does_not_load [Scalar T] :
    (FixVec.fromBytes (FixVec.new : FixVec T).bytes : Option (FixVec T)) = none := by
  have := fix_load ([] : List T) 0 (by omega) [] (Scalar.size_pos (T := T))
  rw [List.append_nil] at this
  rw [FixVec.fromBytes, FixVec.bytes, FixVec.new, this]
  rfl

/-- C30, negative. `write` reports 8 bytes fewer than it writes. -/
theorem C30_reported_size_off_by_8 [Scalar T] (v : FixVec T) : v.writeResult + 8 = v.bytes.length := by
  rw [FixVec.writeResult, FixVec.bytes, List.length_append, encodeAll_length]
  simp; omega

/-- Non-vacuity. -/
example : ShowsVectors (⟨[1, 0x7fc00001, 3, 0xffffffff], 2⟩ : FixVec UInt32) 2 [[1, 0x7fc00001], [3, 0xffffffff]] :=
  (FixRepr.mk (by decide) rfl (by decide) (by decide)).shows

/-! ### C31 -/

/-- C31. Any sequence of `push` and `push_embedding` on a new `SumEmbeddings` that does not panic leaves the term
lists pushed, in order, to be read with `len` and `get_terms`. -/
theorem C31_terms_are_lists (s0 s : SumEmb S) (ops : List (EmbOp S)) (h0 : SumEmb.new = some s0)
    (h : runEmb s0 ops = some s) : ShowsTerms s (pushedTerms ops) := by
  obtain ⟨e, he, hr0⟩ := TermRepr.new
  rw [SumEmb.new, he] at h0
  obtain rfl := Option.some.inj h0
  have := (runEmb_terms (s := ⟨FixVec.new, e⟩) hr0 (by simp) ops h).1
  rw [List.nil_append] at this
  exact ⟨this.len_eq, this.get_eq⟩

/-- C31. Pushing term lists panics exactly when an id has more than 24 bits or the number of terms reaches
`2^40`. -/
theorem C31_push_panics_iff (s : SumEmb S) (hs : EmbState s) (terms : List (List Nat)) (ht : ShowsTerms s terms)
    (ids : List Nat) :
    (s.push ids = none ↔ (∃ n ∈ ids, 2 ^ 24 ≤ n) ∨ 2 ^ 40 ≤ (terms ++ [ids]).flatten.length) ∧
    ∀ s', s.push ids = some s' → ShowsTerms s' (terms ++ [ids]) ∧ s'.embeddings = s.embeddings := by
  obtain ⟨terms', hr, htot⟩ := hs.repr
  have heq : terms' = terms := by
    apply List.ext_getElem?
    intro i
    rw [← ht.get, ← hr.get_eq]; rfl
  subst heq
  by_cases hids : ∀ n ∈ ids, n < 2 ^ 24
  · by_cases hlt : terms'.flatten.length + ids.length < 2 ^ 40
    · obtain ⟨s1, e1, r1, b1⟩ := SumEmb.push_ok hr hids hlt
      constructor
      · rw [e1]
        constructor
        · simp
        · rintro (⟨n, hn, hn'⟩ | hc)
          · have := hids n hn; omega
          · simp only [List.flatten_append, List.length_append, List.flatten_cons, List.flatten_nil,
              List.append_nil] at hc
            omega
      · intro s' hs'
        rw [e1] at hs'
        obtain rfl := Option.some.inj hs'
        exact ⟨⟨r1.len_eq, r1.get_eq⟩, b1⟩
    · have := SumEmb.push_too_many hr (ids := ids) (by omega)
      constructor
      · rw [this]
        simp only [true_iff]
        right
        simp only [List.flatten_append, List.length_append, List.flatten_cons, List.flatten_nil, List.append_nil]
        omega
      · intro s' hs'; rw [this] at hs'; simp at hs'
  · push Not at hids
    have := SumEmb.push_big_id (s := s) hids
    constructor
    · rw [this]
      simp only [true_iff]
      exact Or.inl hids
    · intro s' hs'; rw [this] at hs'; simp at hs'

/-- C31. In particular, pushing any lists of 24-bit ids with fewer than `2^40` terms in total succeeds. -/
theorem C31_pushes_succeed (xs : List (List Nat)) (hids : ∀ t ∈ xs, ∀ n ∈ t, n < 2 ^ 24)
    (htot : xs.flatten.length < 2 ^ 40) :
    ∃ s0 s : SumEmb S, SumEmb.new = some s0 ∧ s0.pushAll xs = some s ∧ ShowsTerms s xs := by
  obtain ⟨e, he, hr0⟩ := TermRepr.new
  obtain ⟨s, h1, h2, _⟩ := SumEmb.pushAll_ok (s := (⟨FixVec.new, e⟩ : SumEmb S)) hr0 xs hids (by simpa using htot)
  rw [List.nil_append] at h2
  exact ⟨_, s, by rw [SumEmb.new, he], h1, h2.len_eq, h2.get_eq⟩

/-- Non-vacuity: the largest id, a repeated term, an empty element. -/
example : ∃ s0 s : SumEmb Nat, SumEmb.new = some s0 ∧
    s0.pushAll [[16777215, 0, 0], [], [5]] = some s ∧ s.getTerms 0 = some [16777215, 0, 0] ∧ s.getTerms 1 = some [] ∧
    s.getTerms 2 = some [5] ∧ s.getTerms 3 = none ∧ s.push [16777216] = none :=
  ⟨_, _, rfl, rfl, by decide +kernel, by decide +kernel, by decide +kernel, by decide +kernel, rfl⟩

/-! ### C32 -/

/-- C32. The elements of a `SumEmbeddings`, written with `write`, load back unchanged, together with any embeddings;
the number of bytes reported is the number written. -/
theorem C32_write_load (s : SumEmb S) (hs : EmbState s) (hlen : s.len < 2 ^ 64) :
    ∃ e : Elems, VarVec.fromBytes s.elements.bytes = some e ∧ e.len = s.len ∧
      (∀ i : Nat, e.get i = s.elements.get i) ∧ e.bytes = s.elements.bytes ∧
      s.elements.writeResult = s.elements.bytes.length := by
  obtain ⟨terms, hr, _⟩ := hs.repr
  refine ⟨s.elements, hr.rows.fromBytes_bytes (by rw [SumEmb.len, hr.len_eq] at hlen; simpa using hlen), rfl,
    fun _ => rfl, rfl, ?_⟩
  rw [VarVec.writeResult, VarVec.bytes, List.length_append, List.length_append, encodeAll_length, encodeAll_length]
  simp

/-- C32. Writing the elements `begin..end` and loading the result gives exactly those elements, for every valid
range; other ranges panic. -/
theorem C32_write_range (s : SumEmb S) (hs : EmbState s) (hlen : s.len < 2 ^ 64) (b e : Nat) :
    (b ≤ e → e ≤ s.len → ∃ (bytes : Bytes) (n : Nat) (r : Elems), s.elements.writeRange b e = some (bytes, n) ∧
      VarVec.fromBytes bytes = some r ∧ r.len = e - b ∧ ∀ i : Nat, i < e - b → r.get i = s.elements.get (b + i)) ∧
    (¬ (b ≤ e ∧ e ≤ s.len) → s.elements.writeRange b e = none) := by
  obtain ⟨terms, hr, _⟩ := hs.repr
  have hl : s.len = terms.length := hr.len_eq
  constructor
  · intro hbe he
    obtain ⟨w, hw, e1⟩ := hr.rows.writeRange_eq hbe (by rw [List.length_map, ← hl]; exact he)
    refine ⟨_, _, w, e1, hw.fromBytes_bytes ?_, ?_, ?_⟩
    · rw [List.length_take]; omega
    · rw [hw.len_eq, List.length_take, List.length_drop, List.length_map]; omega
    · intro i hi
      rw [hw.get_eq, hr.rows.get_eq, List.getElem?_take, if_pos hi, List.getElem?_drop]
  · intro h
    rw [VarVec.writeRange, if_neg]
    intro hc
    exact h ⟨hc.1, hc.2.2⟩

/-- C32. `write_range` reports only the size of the terms. -/
theorem C32_write_range_reported_size (s : SumEmb S) (hs : EmbState s) (b e : Nat) (hbe : b ≤ e) (he : e ≤ s.len)
    (bytes : Bytes) (n : Nat) (h : s.elements.writeRange b e = some (bytes, n)) :
    bytes.length = 8 + 5 * (e - b + 1) + n := by
  obtain ⟨terms, hr, _⟩ := hs.repr
  have hl : s.len = terms.length := hr.len_eq
  obtain ⟨w, hw, e1⟩ := hr.rows.writeRange_eq hbe (by rw [List.length_map, ← hl]; exact he)
  rw [e1] at h
  obtain ⟨rfl, rfl⟩ := Prod.mk.inj (Option.some.inj h)
  rw [VarVec.bytes, List.length_append, List.length_append, encodeAll_length, encodeAll_length, hw.olen,
    List.length_take, List.length_drop, List.length_map]
  have : min (e - b) (terms.length - b) = e - b := by omega
  rw [this, leBytes_length]
  have : Scalar.size FiveByteInt = 5 := rfl
  rw [this]; omega

/-- C32. Concatenating collections keeps all elements (`extend_from_slice_vector`). -/
theorem C32_extend (s t : SumEmb S) (hs : EmbState s) (ht : EmbState t) (terms terms' : List (List Nat))
    (h1 : ShowsTerms s terms) (h2 : ShowsTerms t terms') (htot : (terms ++ terms').flatten.length < 2 ^ 40) :
    ∃ e : Elems, s.elements.extend t.elements = some e ∧ ShowsTerms (⟨s.embeddings, e⟩ : SumEmb S) (terms ++ terms') := by
  obtain ⟨a, ra, _⟩ := hs.repr
  obtain ⟨b, rb, _⟩ := ht.repr
  have ha : a = terms := List.ext_getElem? fun i => by rw [← h1.get, ← ra.get_eq]; rfl
  have hb : b = terms' := List.ext_getElem? fun i => by rw [← h2.get, ← rb.get_eq]; rfl
  subst ha hb
  obtain ⟨e, h3, h4⟩ := ra.rows.extend rb.rows (by
    rw [← List.map_append, flatten_enc_length]
    exact htot.trans_eq (by decide))
  have h5 : TermRepr e (a ++ b) := ⟨by rw [List.map_append]; exact h4, fun t ht => by
    rcases List.mem_append.1 ht with h | h
    · exact ra.ids t h
    · exact rb.ids t h⟩
  exact ⟨e, h3, h5.len_eq, h5.get_eq⟩

/-- C32. A file of elements that was cut off after `n` bytes (a crash while writing it): it can be opened exactly if the cut is behind
the table of offsets; then it has as many elements as before, every element that can be read is unchanged, and those whose terms lie
before the cut can be read. -/
theorem C32_truncated (s : SumEmb S) (hs : EmbState s) (hlen : s.len < 2 ^ 64) (terms : List (List Nat)) (ht : ShowsTerms s terms)
    (n : Nat) :
    (n < 8 + 5 * (terms.length + 1) → (VarVec.fromBytes (s.elements.bytes.take n) : Option Elems) = none) ∧
    (8 + 5 * (terms.length + 1) ≤ n → ∃ e : Elems, VarVec.fromBytes (s.elements.bytes.take n) = some e ∧ e.len = s.len ∧
      (∀ i l, (⟨s.embeddings, e⟩ : SumEmb S).getTerms i = some l → terms[i]? = some l) ∧
      ∀ i : Nat, 8 + 5 * (terms.length + 1) + 3 * (terms.take (i + 1)).flatten.length ≤ n →
        (⟨s.embeddings, e⟩ : SumEmb S).getTerms i = terms[i]?) := by
  obtain ⟨a, ra, _⟩ := hs.repr
  have ha : a = terms := List.ext_getElem? fun i => by rw [← ht.get, ← ra.get_eq]; rfl
  subst ha
  have hl : s.elements.len = a.length := ra.len_eq
  have ho : s.elements.offsets.length = s.elements.len + 1 := by rw [ra.rows.olen, hl]; simp
  have hf := VarVec.fromBytes_take s.elements hlen ho n
  have h5 : Scalar.size FiveByteInt = 5 := rfl
  have h3 : Scalar.size ThreeByteInt = 3 := rfl
  rw [hl, h5, h3] at hf
  constructor
  · intro hn
    rw [hf, if_neg (by omega)]
  · intro hn
    rw [if_pos hn] at hf
    refine ⟨_, hf, rfl, ?_, ?_⟩
    · intro i l hil
      rw [← ht.get]
      unfold SumEmb.getTerms at hil ⊢
      obtain ⟨x, hx, rfl⟩ := Option.map_eq_some_iff.1 hil
      rw [VarVec.get_take.1 x hx, Option.map_some]
    · intro i hi
      rw [← ht.get]
      unfold SumEmb.getTerms
      rw [VarVec.get_take.2]
      intro o hoo
      rw [ra.rows.offs _ o hoo]
      unfold upto
      rw [← List.map_take, flatten_enc_length]
      rw [Nat.le_div_iff_mul_le (by decide)]
      omega

/-- Non-vacuity. -/
example : ∃ s0 s : SumEmb Nat, SumEmb.new = some s0 ∧ s0.pushAll [[1, 2], [], [3], [4, 5, 6]] = some s ∧
    s.elements.writeRange 1 3 = some ([2,0,0,0,0,0,0,0, 0,0,0,0,0, 0,0,0,0,0, 1,0,0,0,0, 3,0,0], 3) ∧
    s.elements.writeRange 3 5 = none :=
  ⟨_, _, rfl, rfl, by decide +kernel, by decide +kernel⟩

/-! ### C36 -/

/-- C36. The embedding of a list of terms is the sum of their embeddings from left to right, the zero vector for no
terms; a term without embedding panics. This holds for every scalar type (no law of addition is used). -/
theorem C36_embedding_is_sum [Add S] [Zero S] (s : SumEmb S) (dim : Nat) (embs : List (List S))
    (h : ShowsVectors s.embeddings dim embs) (hd : 0 < dim) :
    (embs ≠ [] → s.createEmbedding [] = some (List.replicate dim 0)) ∧
    (∀ (w : Nat) (t : List Nat) (x : List S) (xs : List (List S)), embs[w]? = some x →
      List.Forall₂ (fun i r => embs[i]? = some r) t xs →
      s.createEmbedding (w :: t) = some (xs.foldl (fun a b => List.zipWith (· + ·) a b) x)) ∧
    ∀ ids : List Nat, (∃ i ∈ ids, embs.length ≤ i) → s.createEmbedding ids = none := by
  have r := h.repr hd
  refine ⟨?_, ?_, ?_⟩
  · intro hne
    rw [SumEmb.createEmbedding, h.len, if_pos (List.length_pos_iff.2 hne), h.dimEq]
  · intro w t x xs hx hxs
    rw [SumEmb.createEmbedding, h.get w x hx]
    have hxs' : xs = t.map fun i => embs.getD i [] := by
      induction hxs with
      | nil => rfl
      | cons hab _ ih =>
        rw [List.map_cons, ← ih]
        congr 1
        simp [hab]
    simp only
    rw [SumEmb.sumLoop_ok r t x (h.equalLength x (List.mem_of_getElem? hx)), hxs']
    intro i hi
    clear hxs'
    induction hxs with
    | nil => simp at hi
    | cons hab _ ih =>
      rcases List.mem_cons.1 hi with rfl | hi
      · exact (List.getElem?_eq_some_iff.1 hab).1
      · exact ih hi
  · rintro ids ⟨i, hi, hle⟩
    cases ids with
    | nil => simp at hi
    | cons w t =>
      rw [SumEmb.createEmbedding]
      rcases Option.eq_none_or_eq_some (s.embeddings.get w) with hn | ⟨x, hx⟩
      · rw [hn]
      · rw [hx]
        simp only
        have hw : w < embs.length := by
          by_contra hc
          rw [h.outside w (by omega) hd] at hx
          simp at hx
        have hxe : embs[w]? = some x := by rw [← r.get_eq]; exact hx
        refine SumEmb.sumLoop_none r t x (h.equalLength x (List.mem_of_getElem? hxe)) ?_
        rcases List.mem_cons.1 hi with rfl | hi
        · omega
        · exact ⟨i, hi, hle⟩

theorem foldl_zip_getElem [AddCommMonoid S] (xs : List (List S)) (dim : Nat) :
    ∀ x : List S, x.length = dim → (∀ r ∈ xs, r.length = dim) →
    (xs.foldl (fun a b => List.zipWith (· + ·) a b) x).length = dim ∧
    ∀ k : Nat, k < dim → (xs.foldl (fun a b => List.zipWith (· + ·) a b) x)[k]? =
      some (((x :: xs).map fun r => r.getD k 0).sum) := by
  induction xs with
  | nil =>
    intro x hx _
    refine ⟨hx, fun k hk => ?_⟩
    simp [hx, hk]
  | cons y t ih =>
    intro x hx hr
    have hy := hr y (by simp)
    obtain ⟨h1, h2⟩ := ih (List.zipWith (· + ·) x y) (by rw [List.length_zipWith, hx, hy, Nat.min_self])
      (fun r hr' => hr r (by simp [hr']))
    refine ⟨h1, fun k hk => ?_⟩
    rw [List.foldl_cons, h2 k hk]
    simp [hx, hy, hk, add_assoc]

/-- C36. With exact arithmetic (a commutative addition with zero), component `k` of the embedding of element `i` is
the sum of the components `k` of the embeddings of its terms; in particular it does not depend on the order of the
terms. -/
theorem C36_components [AddCommMonoid S] (s : SumEmb S) (dim : Nat) (embs : List (List S))
    (h : ShowsVectors s.embeddings dim embs) (hd : 0 < dim) (hne : embs ≠ []) (i : Nat) (ids : List Nat)
    (hi : s.getTerms i = some ids) (hids : ∀ n ∈ ids, n < embs.length) :
    ∃ v, s.getEmbedding i = some v ∧ s.createEmbedding ids = some v ∧ v.length = dim ∧
      (∀ k : Nat, k < dim → v[k]? = some ((ids.map fun n => (embs.getD n []).getD k 0).sum)) ∧
      ∀ ids', ids'.Perm ids → s.createEmbedding ids' = some v := by
  obtain ⟨hz, hsum, _⟩ := C36_embedding_is_sum s dim embs h hd
  have main : ∀ ids : List Nat, (∀ n ∈ ids, n < embs.length) →
      ∃ v, s.createEmbedding ids = some v ∧ v.length = dim ∧
        ∀ k : Nat, k < dim → v[k]? = some ((ids.map fun n => (embs.getD n []).getD k 0).sum) := by
    intro ids hids
    cases ids with
    | nil =>
      refine ⟨_, hz hne, by simp, fun k hk => ?_⟩
      simp [hk]
    | cons w t =>
      have hw := hids w (by simp)
      have hall : List.Forall₂ (fun i r => embs[i]? = some r) t (t.map fun n => embs.getD n []) := by
        have ht : ∀ n ∈ t, n < embs.length := fun n hn => hids n (by simp [hn])
        clear hids
        induction t with
        | nil => exact List.Forall₂.nil
        | cons a t ih =>
          refine List.Forall₂.cons ?_ (ih fun n hn => ht n (by simp [hn]))
          have := ht a (by simp)
          simp [this]
      have := hsum w t embs[w] _ (List.getElem?_eq_getElem hw) hall
      have hl : ∀ r ∈ t.map fun n => embs.getD n [], r.length = dim := by
        intro r hr
        obtain ⟨n, hn, rfl⟩ := List.mem_map.1 hr
        have hn' := hids n (by simp [hn])
        have : embs.getD n [] = embs[n] := by simp [hn']
        rw [this]
        exact h.equalLength _ (List.getElem_mem hn')
      obtain ⟨h1, h2⟩ := foldl_zip_getElem _ dim embs[w] (h.equalLength _ (List.getElem_mem hw)) hl
      refine ⟨_, this, h1, fun k hk => ?_⟩
      rw [h2 k hk, List.map_cons, List.map_cons, List.map_map]
      simp [hw, Function.comp_def]
  obtain ⟨v, h1, h2, h3⟩ := main ids hids
  refine ⟨v, ?_, h1, h2, h3, ?_⟩
  · rw [SumEmb.getTerms] at hi
    obtain ⟨l, hl, rfl⟩ := Option.map_eq_some_iff.1 hi
    rw [SumEmb.getEmbedding, hl]
    exact h1
  · intro ids' hp
    obtain ⟨v', h1', h2', h3'⟩ := main ids' (fun n hn => hids n (hp.mem_iff.1 hn))
    rw [h1']
    congr 1
    apply List.ext_getElem?
    intro k
    by_cases hk : k < dim
    · rw [h3 k hk, h3' k hk, (hp.map _).sum_eq]
    · rw [List.getElem?_eq_none (by omega), List.getElem?_eq_none (by omega)]

/-- Non-vacuity. -/
example : ∃ s0 s : SumEmb Nat, SumEmb.new = some s0 ∧
    runEmb s0 [.pushEmbedding [1, 2], .pushEmbedding [10, 20], .push [1, 0, 1], .push []] = some s ∧
    s.getEmbedding 0 = some [21, 42] ∧ s.getEmbedding 1 = some [0, 0] ∧ s.createEmbedding [2] = none :=
  ⟨_, _, rfl, rfl, by decide +kernel, by decide +kernel, by decide +kernel⟩

/-- A collection of embeddings after a sequence of pushes. -/
def HoldsEmb (v : FixVec S) (rows : List (List S)) : Prop := (v = FixVec.new ∧ rows = []) ∨ (rows ≠ [] ∧ ∃ d, FixRepr v d rows)

theorem runEmb_embeddings {s s' : SumEmb S} {rows : List (List S)} (h : HoldsEmb s.embeddings rows) (ops : List (EmbOp S))
    (hr : runEmb s ops = some s') (hne : ∀ v ∈ pushedEmbeddings ops, v ≠ []) : HoldsEmb s'.embeddings (rows ++ pushedEmbeddings ops) := by
  induction ops generalizing s rows with
  | nil =>
    rw [runEmb] at hr
    obtain rfl := Option.some.inj hr
    rw [pushedEmbeddings, List.append_nil]; exact h
  | cons op t ih =>
    cases op with
    | push ids =>
      rw [runEmb] at hr
      rcases Option.eq_none_or_eq_some (s.push ids) with hn | ⟨s1, h1⟩
      · rw [hn] at hr; simp at hr
      · rw [h1] at hr
        have he : s1.embeddings = s.embeddings := by
          unfold SumEmb.push at h1
          split at h1
          · cases h1
          · split at h1
            · rw [← Option.some.inj h1]
            · cases h1
        exact ih (he ▸ h) hr hne
    | pushEmbedding v =>
      have hv : v ≠ [] := hne v (by simp [pushedEmbeddings])
      have hpos : 0 < v.length := List.length_pos_iff.2 hv
      rw [runEmb] at hr
      rcases Option.eq_none_or_eq_some (s.pushEmbedding v) with hn | ⟨s1, h1⟩
      · rw [hn] at hr; simp at hr
      · rw [h1] at hr
        have hs1 : HoldsEmb s1.embeddings (rows ++ [v]) := by
          unfold SumEmb.pushEmbedding at h1
          rcases h with ⟨h2, rfl⟩ | ⟨_, d, h2⟩
          · obtain ⟨v', e1, e2⟩ := FixRepr.push_new hpos
            rw [h2, e1] at h1
            cases h1
            exact Or.inr ⟨by simp, _, e2⟩
          · by_cases hl : v.length = d
            · obtain ⟨v', e1, e2⟩ := h2.push hl
              rw [e1] at h1
              cases h1
              exact Or.inr ⟨by simp, _, e2⟩
            · rw [h2.push_none hl] at h1; cases h1
        have := ih hs1 hr (fun x hx => hne x (by simp [pushedEmbeddings, hx]))
        simpa [pushedEmbeddings] using this

/-- C36. The embeddings of a collection are the vectors that were pushed, in order, whatever was pushed in between. -/
theorem C36_embeddings_are_pushed (s0 s : SumEmb S) (ops : List (EmbOp S)) (h0 : SumEmb.new = some s0) (h : runEmb s0 ops = some s)
    (hne : ∀ v ∈ pushedEmbeddings ops, v ≠ []) :
    s.numEmbeddings = (pushedEmbeddings ops).length ∧
      ∃ dim, ShowsVectors s.embeddings dim (pushedEmbeddings ops) ∧ (pushedEmbeddings ops ≠ [] → 0 < dim) := by
  obtain ⟨e, he, _⟩ := TermRepr.new
  rw [SumEmb.new, he] at h0
  obtain rfl := Option.some.inj h0
  have := runEmb_embeddings (s := ⟨FixVec.new, e⟩) (rows := []) (Or.inl ⟨rfl, rfl⟩) ops h hne
  rw [List.nil_append] at this
  rcases this with ⟨h1, h2⟩ | ⟨hrows, d, h1⟩
  · rw [h2]
    refine ⟨?_, 0, h1 ▸ shows_empty, fun hc => absurd rfl hc⟩
    show s.embeddings.len = 0
    rw [h1]; rfl
  · exact ⟨h1.len_eq, d, h1.shows, fun _ => h1.pos⟩

/-- C36. From the pushed term lists and the pushed vectors: with exact arithmetic, component `k` of the embedding of the `i`-th element
is the sum of the components `k` of the vectors of its terms. -/
theorem C36_pushed_sum [AddCommMonoid S] (s0 s : SumEmb S) (ops : List (EmbOp S)) (h0 : SumEmb.new = some s0)
    (h : runEmb s0 ops = some s) (hne : ∀ v ∈ pushedEmbeddings ops, v ≠ []) (hsome : pushedEmbeddings ops ≠ []) (i : Nat) (ids : List Nat)
    (hi : (pushedTerms ops)[i]? = some ids) (hids : ∀ n ∈ ids, n < (pushedEmbeddings ops).length) :
    ∃ (dim : Nat) (v : List S), s.getEmbedding i = some v ∧ v.length = dim ∧ (∀ x ∈ pushedEmbeddings ops, x.length = dim) ∧
      ∀ k : Nat, k < dim → v[k]? = some ((ids.map fun n => ((pushedEmbeddings ops).getD n []).getD k 0).sum) := by
  obtain ⟨_, dim, h1, h2⟩ := C36_embeddings_are_pushed s0 s ops h0 h hne
  have ht := C31_terms_are_lists s0 s ops h0 h
  obtain ⟨v, e1, _, e3, e4, _⟩ := C36_components s dim _ h1 (h2 hsome) hsome i ids (by rw [ht.get]; exact hi) hids
  exact ⟨dim, v, e1, e3, h1.equalLength, e4⟩

/-- C36. A vector of another dimension than those pushed before panics; any vector of the same dimension, and any first one, is
accepted. -/
theorem C36_push_embedding_panics_iff (s0 s : SumEmb S) (ops : List (EmbOp S)) (h0 : SumEmb.new = some s0) (h : runEmb s0 ops = some s)
    (hne : ∀ v ∈ pushedEmbeddings ops, v ≠ []) (v : List S) :
    s.pushEmbedding v = none ↔ ∃ x ∈ pushedEmbeddings ops, x.length ≠ v.length := by
  obtain ⟨e, he, _⟩ := TermRepr.new
  rw [SumEmb.new, he] at h0
  obtain rfl := Option.some.inj h0
  have := runEmb_embeddings (s := ⟨FixVec.new, e⟩) (rows := []) (Or.inl ⟨rfl, rfl⟩) ops h hne
  rw [List.nil_append] at this
  rcases this with ⟨h1, h2⟩ | ⟨hrows, d, h1⟩
  · rw [h2]
    refine iff_of_false ?_ (by simp)
    unfold SumEmb.pushEmbedding
    rw [h1]
    simp [FixVec.push, FixVec.new]
  · unfold SumEmb.pushEmbedding
    by_cases hl : v.length = d
    · obtain ⟨v', e1, _⟩ := h1.push hl
      rw [e1]
      refine iff_of_false (by simp) ?_
      rintro ⟨x, hx, hc⟩
      exact hc ((h1.len x hx).trans hl.symm)
    · rw [h1.push_none hl]
      refine iff_of_true rfl ?_
      obtain ⟨x, hx⟩ := List.exists_mem_of_ne_nil _ hrows
      exact ⟨x, hx, fun hc => hl (hc.symm.trans (h1.len x hx))⟩

/-- Non-vacuity of the three. -/
example : ∃ s0 s : SumEmb Nat, SumEmb.new = some s0 ∧
    runEmb s0 [.pushEmbedding [1, 2], .push [1, 0, 1], .pushEmbedding [10, 20]] = some s ∧ s.numEmbeddings = 2 ∧
    s.getEmbedding 0 = some [21, 42] ∧ (s.pushEmbedding [1, 2, 3]).isNone = true :=
  ⟨_, _, rfl, rfl, by decide +kernel, by decide +kernel, by decide +kernel⟩

/-- C29. A new collection with a given dimension takes vectors of that dimension only (with dimension 0 it is the same as a new one
without). -/
theorem C29_with_width (w : Nat) :
    ShowsVectors (FixVec.withWidth w : FixVec T) w [] ∧ (FixVec.withWidth 0 : FixVec T) = FixVec.new ∧
      (0 < w → ∀ xs : List (List T), ((∀ x ∈ xs, x.length = w) → ∃ v, (FixVec.withWidth w).pushAll xs = some v ∧ ShowsVectors v w xs) ∧
        ((∃ x ∈ xs, x.length ≠ w) → (FixVec.withWidth w).pushAll xs = none)) := by
  refine ⟨⟨by simp, rfl, ?_, by simp, ?_, rfl⟩, rfl, fun hw xs => ?_⟩
  · simp [FixVec.len, FixVec.withWidth]
  · intro i _ hw
    have : 0 < (i + 1) * w := Nat.mul_pos (by omega) hw
    show (if (i + 1) * w ≤ ([] : List T).length then _ else none) = none
    exact if_neg (by rw [List.length_nil]; omega)
  · have r : FixRepr (FixVec.withWidth w : FixVec T) w [] := ⟨hw, rfl, rfl, by simp⟩
    refine ⟨fun hx => ?_, fun hx => r.pushAll_none hx⟩
    obtain ⟨v, h1, h2⟩ := r.pushAll hx
    exact ⟨v, h1, by simpa using h2.shows⟩

/-- C31. Iterating over the term lists gives all of them in order. -/
theorem C31_iter (s : SumEmb S) (hs : EmbState s) (terms : List (List Nat)) (ht : ShowsTerms s terms) :
    (s.elements.iter).map (List.map (List.map idInto)) = some terms := by
  obtain ⟨terms', hr, _⟩ := hs.repr
  have heq : terms' = terms := by
    apply List.ext_getElem?
    intro i
    rw [← ht.get, ← hr.get_eq]; rfl
  subst heq
  rw [hr.rows.iter_eq, Option.map_some, List.map_map]
  congr 1
  conv_rhs => rw [← List.map_id terms']
  apply List.map_congr_left
  intro t htm
  rw [Function.comp_apply, List.map_map, id_eq]
  conv_rhs => rw [← List.map_id t]
  apply List.map_congr_left
  intro n hn
  exact idInto_encId (hr.ids t htm n hn)

/-- Non-vacuity of `C29_with_width` and `C31_iter`. -/
example : (FixVec.withWidth 2).pushAll [[1, 2], [3, 4]] = some (⟨[1, 2, 3, 4], 2⟩ : FixVec Nat) ∧
    (FixVec.withWidth 2 : FixVec Nat).pushAll [[1, 2], [3]] = none ∧
    ∃ s0 s : SumEmb Nat, SumEmb.new = some s0 ∧ s0.pushAll [[7, 300], [], [5]] = some s ∧
      (s.elements.iter).map (List.map (List.map idInto)) = some [[7, 300], [], [5]] :=
  ⟨by decide, by decide, _, _, rfl, rfl, by decide +kernel⟩

end Granne
