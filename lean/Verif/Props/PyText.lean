import Verif.Proofs.PyText

/-!
C64: `Embeddings` objects in Python sessions.

`HoldsPairs srt w h pairs` (Spec/PyText): in state `w`, object `h` is an `Embeddings` to which these pairs of an embedding
and a word were appended (the first pair for each word counts). `w.Answers h q a`: asked `q`, object `h` answers `a` in
state `w`; no answer: the process panics.
-/
namespace Granne
open Spec

variable {srt : List (Nat × ℝ) → List (Nat × ℝ)} {w : TWorld} {h : Nat} {pairs : List (List UInt32 × Text)}

/-- No embedding of dimension 0 (or too large for a header). -/
def ProperPairs (pairs : List (List UInt32 × Text)) : Prop := ∀ p ∈ pairs, p.1 ≠ [] ∧ p.1.length < 2 ^ 64

/-- C64. `len` is the number of different words. -/
theorem C64_len (hp : HoldsPairs srt w h pairs) (hne : ProperPairs pairs) (a : TAnswer) :
    w.Answers h .numEmbeddings a ↔ a = .num pairs.length := by
  obtain ⟨ep, src, e, d, ho, he, _, hl⟩ := hp.embAt hne
  obtain ⟨dim, hs, _⟩ := hl.shows
  have hlen : e.len = pairs.length := by have := hs.len; simpa using this
  unfold TWorld.Answers
  simp [ho, TObj.Answers, he, hlen]

/-- C64. The words are different. -/
theorem C64_words_distinct (hp : HoldsPairs srt w h pairs) (hne : ProperPairs pairs) : (pairs.map Prod.snd).Nodup := by
  obtain ⟨ep, src, e, d, ho, he, _, hl⟩ := hp.embAt hne
  exact hl.words.nodup

/-- C64. `append` returns exactly if the word is known, or the embedding has the dimension of those before; it returns
`true` exactly for new words. -/
theorem C64_append (hp : HoldsPairs srt w h pairs) (hne : ProperPairs pairs) (v : List UInt32) (hv : v ≠ []) (word : Text) :
    ((∃ out w', TStep srt w (.appendWord h v word) out w') ↔
      word ∈ pairs.map Prod.snd ∨ ∀ p ∈ pairs, p.1.length = v.length) ∧
    ∀ out w', TStep srt w (.appendWord h v word) out w' → out = .inserted (decide (word ∉ pairs.map Prod.snd)) := by
  obtain ⟨ep, src, e, d, ho, he, _, hl⟩ := hp.embAt hne
  by_cases hk : word ∈ pairs.map Prod.snd
  · have hpk : d.push word = (d, false) := hl.words.push_known hk
    have hstep : TObj.appendWord w.files v word (.embeddings src d) = some (.embeddings src d, false) := by
      simp only [TObj.appendWord, hpk]
    refine ⟨⟨fun _ => Or.inl hk, fun _ => ⟨_, _, .appendWord w h v word _ _ _ ho hstep⟩⟩, fun out w' hs => ?_⟩
    cases hs with
    | appendWord h v word o o' b h1 h2 =>
      rw [ho] at h1; cases h1
      rw [hstep] at h2; cases h2
      simp only [hk, not_true_eq_false, decide_false]
  · have hpn : (d.push word).2 = true := (hl.words.push_new hk).1
    rcases hpush : d.push word with ⟨words, b'⟩
    rw [hpush] at hpn
    obtain rfl : b' = true := hpn
    have hstep : TObj.appendWord w.files v word (.embeddings src d) = (e.push v).map fun e' => (.embeddings (.owned e') words, true) := by
      simp only [TObj.appendWord, hpush, he]
      cases e.push v <;> rfl
    have happ : (⟨e, d⟩ : PyEmbeddings UInt32).append v word = (e.push v).map fun e' => (⟨e', words⟩, true) := by
      rw [PyEmbeddings.append, hpush]
      simp only
      cases e.push v <;> rfl
    refine ⟨⟨?_, ?_⟩, fun out w' hs => ?_⟩
    · rintro ⟨out, w', hs⟩
      right
      by_contra hcon
      push Not at hcon
      have hn := hl.unfit (v := v) hk hcon
      rw [happ, Option.map_eq_none_iff] at hn
      cases hs with
      | appendWord h v word o o' b h1 h2 =>
        rw [ho] at h1; cases h1
        rw [hstep, hn] at h2; cases h2
    · rintro (hx | hx)
      · exact absurd hx hk
      · obtain ⟨p', e1, _⟩ := hl.fresh hv hk hx
        rw [happ, Option.map_eq_some_iff] at e1
        obtain ⟨e', e2, _⟩ := e1
        exact ⟨_, _, .appendWord w h v word _ _ _ ho (by rw [hstep, e2]; rfl)⟩
    · cases hs with
      | appendWord h v word o o' b h1 h2 =>
        rw [ho] at h1; cases h1
        rw [hstep, Option.map_eq_some_iff] at h2
        obtain ⟨_, _, e2⟩ := h2
        cases e2
        simp only [hk, not_false_eq_true, decide_true]

/-! ### The embedding of a text -/

theorem FixRepr.mapData {S T : Type} {e : FixVec S} {d : Nat} {rows : List (List S)} (h : FixRepr e d rows) (f : S → T) :
    FixRepr (⟨e.data.map f, e.width⟩ : FixVec T) d (rows.map fun r => r.map f) :=
  ⟨h.pos, h.width, by simp only [h.data, List.map_flatten], by
    intro r hr
    obtain ⟨r', hr', rfl⟩ := List.mem_map.1 hr
    simpa using h.len r' hr'⟩

/-- The embeddings as numbers. -/
noncomputable def pairVectors (pairs : List (List UInt32 × Text)) : List (List F32) := pairs.map fun p => p.1.map F32.ofBits

theorem LockStep.vectors {e : FixVec UInt32} {d : WordDict} (hl : LockStep (⟨e, d⟩ : PyEmbeddings UInt32) pairs)
    (h0 : pairs ≠ []) : ∃ dim, 0 < dim ∧ (∀ p ∈ pairs, p.1.length = dim) ∧
      ∀ x, ShowsVectors (sumOf e x).embeddings dim (pairVectors pairs) := by
  rcases hl.vecs with ⟨hx, _⟩ | ⟨_, dim, hr⟩
  · exact absurd hx h0
  · refine ⟨dim, hr.pos, fun p hp => hr.len p.1 (List.mem_map_of_mem hp), fun x => ?_⟩
    have := (hr.mapData F32.ofBits).shows
    rw [List.map_map] at this
    exact this

theorem wordIds_dict {d : WordDict} {words : List Text} (hd : HoldsWords d words) (q : Text) :
    d.getWordIds q = wordIds words q := by
  unfold WordDict.getWordIds wordIds
  congr 1
  funext x
  apply Option.ext
  intro i
  rw [hd.ids, List.idxOf?, List.findIdx?_eq_some_iff_getElem]
  constructor
  · intro hx
    obtain ⟨hlt, e⟩ := List.getElem?_eq_some_iff.1 hx
    refine ⟨hlt, by simp [e], fun j hj => ?_⟩
    simp only [beq_iff_eq]
    intro e2
    have := (List.nodup_iff_injective_getElem.1 hd.nodup)
    have hji : (⟨j, by omega⟩ : Fin words.length) = ⟨i, hlt⟩ := this (by simp only; rw [e2, e])
    have := congrArg Fin.val hji
    simp only at this
    omega
  · rintro ⟨hlt, e, _⟩
    rw [List.getElem?_eq_getElem hlt]
    simpa using e

theorem wordIds_bound (words : List Text) (q : Text) : ∀ i ∈ wordIds words q, i < words.length := by
  intro i hi
  obtain ⟨x, _, hx⟩ := List.mem_filterMap.1 hi
  rw [List.idxOf?, List.findIdx?_eq_some_iff_getElem] at hx
  exact hx.1

theorem wordIds_known {words : List Text} (hn : words.Nodup) (q : Text) :
    (wordIds words q).map (fun i => words.getD i []) = knownWords words q := by
  let d : WordDict := ⟨fun x => words.idxOf? x, words⟩
  have hd : HoldsWords d words := by
    refine ⟨hn, rfl, fun x i => ?_⟩
    show words.idxOf? x = some i ↔ _
    rw [List.idxOf?, List.findIdx?_eq_some_iff_getElem]
    constructor
    · rintro ⟨hlt, e, _⟩
      rw [List.getElem?_eq_getElem hlt]
      simpa using e
    · intro hx
      obtain ⟨hlt, e⟩ := List.getElem?_eq_some_iff.1 hx
      refine ⟨hlt, by simp [e], fun j hj => ?_⟩
      simp only [beq_iff_eq]
      intro e2
      have hji : (⟨j, by omega⟩ : Fin words.length) = ⟨i, hlt⟩ :=
        (List.nodup_iff_injective_getElem.1 hn) (by simp only; rw [e2, e])
      have := congrArg Fin.val hji
      simp only at this
      omega
  exact wordIds_eq hd (splitWs q)

/-- C64. The embedding of a text is the embedding of the positions of its known words; that of a list of positions is
the sum of the embeddings, added up from left to right, zeros if there are none; a position out of range panics. -/
theorem C64_embedding (hp : HoldsPairs srt w h pairs) (hne : ProperPairs pairs) (h0 : pairs ≠ []) :
    (∀ q a, w.Answers h (.embedding (.text q)) a ↔ w.Answers h (.embedding (.ids (wordIds (pairs.map Prod.snd) q))) a) ∧
    (∀ a, w.Answers h (.embedding (.ids [])) a ↔
      ∃ p ∈ pairs, a = .vector (List.replicate p.1.length 0)) ∧
    (∀ (i : Nat) (v : List UInt32) (word : Text) (t : List Nat) (vs : List (List F32)), pairs[i]? = some (v, word) →
      List.Forall₂ (fun j r => (pairVectors pairs)[j]? = some r) t vs →
      ∀ a, w.Answers h (.embedding (.ids (i :: t))) a ↔
        a = .vector (vs.foldl (fun a b => List.zipWith (· + ·) a b) (v.map F32.ofBits))) ∧
    ∀ (ids : List Nat) (a : TAnswer), (∃ i ∈ ids, pairs.length ≤ i) → ¬ w.Answers h (.embedding (.ids ids)) a := by
  obtain ⟨ep, src, e, d, ho, he, _, hl⟩ := hp.embAt hne
  obtain ⟨x, hx, _⟩ := TermRepr.new
  obtain ⟨dim, hd, hdim, hs⟩ := hl.vectors h0
  obtain ⟨c1, c2, c3⟩ := C36_embedding_is_sum (sumOf e x) dim _ (hs x) hd
  have ans : ∀ (input : EmbInput) (a : TAnswer), w.Answers h (.embedding input) a ↔
      ∃ v, getEmbedding e d input = some v ∧ a = .vector v := by
    intro input a
    unfold TWorld.Answers
    simp [ho, TObj.Answers, he]
  have hget : ∀ ids, getEmbedding e d (.ids ids) = (sumOf e x).createEmbedding ids := by
    intro ids
    rw [getEmbedding, hx]
  refine ⟨fun q a => ?_, fun a => ?_, fun i v word t vs hi ht a => ?_, fun ids a hi hans => ?_⟩
  · have : getEmbedding e d (.text q) = getEmbedding e d (.ids (wordIds (pairs.map Prod.snd) q)) := by
      rw [getEmbedding, getEmbedding, hx]
      simp only
      rw [wordIds_dict (d := d) hl.words]
    rw [ans, ans, this]
  · rw [ans, hget, c1 (by simpa [pairVectors] using h0)]
    constructor
    · rintro ⟨v, hv, rfl⟩
      cases hv
      obtain ⟨p, hp⟩ := List.exists_mem_of_ne_nil _ h0
      exact ⟨p, hp, by rw [hdim p hp]⟩
    · rintro ⟨p, hp, rfl⟩
      exact ⟨_, rfl, by rw [hdim p hp]⟩
  · have hi' : (pairVectors pairs)[i]? = some (v.map F32.ofBits) := by
      rw [pairVectors, List.getElem?_map, hi]; rfl
    rw [ans, hget, c2 i t _ vs hi' ht]
    simp [eq_comm]
  · rw [ans, hget] at hans
    obtain ⟨v, hv, _⟩ := hans
    rw [c3 ids (by simpa [pairVectors] using hi)] at hv
    cases hv

/-- C64. `dist` is the angular distance of the two embeddings (it panics if one of them cannot be computed, or if the
distance is not a number), `dists` the list of these distances. -/
theorem C64_dist (hp : HoldsPairs srt w h pairs) (hne : ProperPairs pairs) (l : EmbInput) :
    (∀ r a, w.Answers h (.dist l r) a ↔ ∃ x y d, w.Answers h (.embedding l) (.vector x) ∧
      w.Answers h (.embedding r) (.vector y) ∧ angularDist (normalize x) (normalize y) = some d ∧ a = .dist d) ∧
    ∀ rs a, w.Answers h (.dists l rs) a ↔ ∃ x ds, w.Answers h (.embedding l) (.vector x) ∧
      List.Forall₂ (fun r d => w.Answers h (.dist l r) (.dist d)) rs ds ∧ a = .dists ds := by
  obtain ⟨ep, src, e, d, ho, he, _, hl⟩ := hp.embAt hne
  have ans : ∀ (input : EmbInput) (v : List F32), w.Answers h (.embedding input) (.vector v) ↔
      getEmbedding e d input = some v := by
    intro input v
    unfold TWorld.Answers
    simp [ho, TObj.Answers, he]
  have ansD : ∀ (r : EmbInput) (a : TAnswer), w.Answers h (.dist l r) a ↔ ∃ x y d', getEmbedding e d l = some x ∧
      getEmbedding e d r = some y ∧ angularDist (normalize x) (normalize y) = some d' ∧ a = .dist d' := by
    intro r a
    unfold TWorld.Answers
    simp only [ho, Option.some.injEq, exists_eq_left', TObj.Answers, he, embeddingDist]
    constructor
    · rintro ⟨_, z, rfl, hz, rfl⟩
      split at hz
      · next x y h1 h2 => exact ⟨x, y, z, h1, h2, hz, rfl⟩
      · cases hz
    · rintro ⟨x, y, z, h1, h2, h3, rfl⟩
      exact ⟨e, z, rfl, by rw [h1, h2]; exact h3, rfl⟩
  refine ⟨fun r a => by simp only [ans, ansD], fun rs a => ?_⟩
  have key : ∀ x, getEmbedding e d l = some x → ∀ rs ds,
      (∃ ys, seqOpt (rs.map (getEmbedding e d)) = some ys ∧
        seqOpt (ys.map fun y => angularDist (normalize x) (normalize y)) = some ds) ↔
      List.Forall₂ (fun r d => w.Answers h (.dist l r) (.dist d)) rs ds := by
    intro x hx rs
    induction rs with
    | nil =>
      intro ds
      simp only [List.map_nil, seqOpt, Option.some.injEq, exists_eq_left', List.forall₂_nil_left_iff]
      exact eq_comm
    | cons r rs ih =>
      intro ds
      constructor
      · rintro ⟨ys, h1, h2⟩
        rw [List.map_cons] at h1
        rcases Option.eq_none_or_eq_some (getEmbedding e d r) with hn | ⟨y, hy⟩
        · rw [hn, seqOpt] at h1; cases h1
        · rw [hy, seqOpt] at h1
          split at h1
          · next ys' h1' =>
            cases h1
            rw [List.map_cons] at h2
            rcases Option.eq_none_or_eq_some (angularDist (normalize x) (normalize y)) with hn | ⟨z, hz⟩
            · rw [hn, seqOpt] at h2; cases h2
            · rw [hz, seqOpt] at h2
              split at h2
              · next ds' h2' =>
                cases h2
                exact .cons ((ansD r _).2 ⟨x, y, z, hx, hy, hz, rfl⟩) ((ih ds').1 ⟨ys', h1', h2'⟩)
              · cases h2
          · cases h1
      · intro hf
        cases hf with
        | cons h1 h2 =>
          obtain ⟨x', y, z, e1, e2, e3, e4⟩ := (ansD r _).1 h1
          rw [hx] at e1; cases e1
          cases e4
          obtain ⟨ys, f1, f2⟩ := (ih _).2 h2
          refine ⟨y :: ys, by rw [List.map_cons, e2, seqOpt, f1], ?_⟩
          rw [List.map_cons, e3, seqOpt, f2]
  constructor
  · rintro ⟨o, ho', ha⟩
    rw [ho] at ho'; cases ho'
    obtain ⟨e', xs, h1, h2, rfl⟩ := ha
    rw [he] at h1; cases h1
    unfold embeddingDists at h2
    split at h2
    · next x ys h3 h4 => exact ⟨x, xs, (ans l x).2 h3, (key x h3 rs xs).1 ⟨ys, h4, h2⟩, rfl⟩
    · cases h2
  · rintro ⟨x, ds, h1, h2, rfl⟩
    rw [ans] at h1
    obtain ⟨ys, h3, h4⟩ := (key x h1 rs ds).2 h2
    refine ⟨_, ho, e, ds, he, ?_, rfl⟩
    unfold embeddingDists
    rw [h1, h3]
    exact h4

/-! ### Saving and opening -/

/-- C64. The files saved from an `Embeddings` with at least one word can be opened; the new object answers every question
as the old one did when it was saved. -/
theorem C64_reopen {w0 : TWorld} {ep wp : String} (hp : PairsSaved srt w0 h w ep wp pairs) (hs : SensiblePairs pairs) :
    (∃ out w', TStep srt w (.newEmbeddings (some ep) (some wp)) out w') ∧
    ∀ out w', TStep srt w (.newEmbeddings (some ep) (some wp)) out w' →
      HoldsPairs srt w' w.objects.length pairs ∧
      ∀ q a, w'.Answers w.objects.length q a ↔ w0.Answers h q a := by
  obtain ⟨e, d, hf, src, ho, he⟩ := hp.files hs.proper
  obtain ⟨o1, o2⟩ := openEmbeddings_saved hf.embeddings (hf.lock.fromBytes hs)
  obtain ⟨d', hd1, hd2⟩ := openWords_saved hf.words hf.lock.words
  refine ⟨⟨_, _, .newEmbeddings w _ _ _ (by simp only [newEmbeddings]; rw [o1, hd1])⟩, fun out w' hst => ⟨?_, ?_⟩⟩
  · obtain ⟨w1, after, h1, h2, h3, h4, h5⟩ := hp
    have := HoldsPairs.opened w0 w1 w w' h pairs ep wp after [] h1 h2 h3 h4 h5 (.cons _ _ _ _ _ _ hst (.nil _)) (by simp)
    simpa [wordsTo, firstPairs] using this
  · obtain ⟨d'', hd, rfl⟩ := hf.opened hs hst
    have hdd : d'' = d := by
      have h1 := hf.lock.words
      rcases d with ⟨m, l⟩
      rcases d'' with ⟨m', l'⟩
      have e1 : l' = l := by rw [show l' = _ from hd.list, show l = _ from h1.list]
      have e2 : m' = m := by
        funext x
        apply Option.ext
        intro i
        rw [hd.ids, ← h1.ids]
      rw [e1, e2]
    subst hdd
    intro q a
    unfold TWorld.Answers
    simp only [List.getElem?_concat_length, Option.some.injEq, exists_eq_left', ho]
    cases q <;> simp only [TObj.Answers, o2, he]

/-- C64. Saving the words always returns; saving the embeddings returns if the object has not been opened from that very
file, or if a word has been added since. -/
theorem C64_save_returns (hp : HoldsPairs srt w h pairs) (hne : ProperPairs pairs) (path : String) :
    (∃ out w', TStep srt w (.saveWords h path) out w') ∧
    ((∀ n d, w.objects[h]? ≠ some (.embeddings (.mapped path n) d)) → ∃ out w', TStep srt w (.saveEmbeddings h path) out w') := by
  obtain ⟨ep, src, e, d, ho, he, _, hl⟩ := hp.embAt hne
  refine ⟨⟨_, _, .saveWords w h path _ _ ho rfl⟩, fun hx => ?_⟩
  have : src.embeddings (w.files.put path []) = some e := by
    rw [← he]
    apply Src.embeddings_congr
    intro p hpm
    cases src with
    | owned v => cases hpm
    | mapped p' n =>
      simp only [Src.paths, List.mem_singleton] at hpm
      subst hpm
      have : p ≠ path := by
        rintro rfl
        exact hx n d ho
      exact put_ne this
  exact ⟨_, _, .saveEmbeddings w h path _ _ ho (by simp only [TObj.saveEmbeddings]; rw [this])⟩

/-- C64, negative. An object opened from a file cannot be saved to that file before a word is added: the file is truncated,
and the process dies. -/
theorem C64_save_over_own_file {w1 : TWorld} {out : TOut} {ep wp : String}
    (hs : TStep srt w (.newEmbeddings (some ep) (some wp)) out w1) (hf : ∃ b, w.files ep = some b) :
    (∀ out w', ¬ TStep srt w1 (.saveEmbeddings w.objects.length ep) out w') ∧
    ∀ o, w1.objects[w.objects.length]? = some o → (o.saveEmbeddings w1.files ep).1 ep = some [] ∧
      (o.saveEmbeddings w1.files ep).2 = false := by
  obtain ⟨b, hb⟩ := hf
  have key : ∀ o, w1.objects[w.objects.length]? = some o → o.saveEmbeddings w1.files ep = (w1.files.put ep [], false) := by
    intro o ho
    cases hs with
    | newEmbeddings a b' o' ho' =>
      simp only [List.getElem?_concat_length, Option.some.injEq] at ho
      subst ho
      simp only [newEmbeddings] at ho'
      split at ho'
      · next d e h1 h2 =>
        cases ho'
        unfold openEmbeddings at h2
        split at h2
        · next n b'' h3 h4 =>
          split at h2
          · next v hv =>
            cases h2
            have hn : n ≠ 0 := by
              rintro rfl
              unfold mapFile at h3
              rw [h4] at h3
              simp only at h3
              split at h3
              · cases h3
              · next hne => simp only [Option.some.injEq, List.length_eq_zero_iff] at h3; exact hne h3
            simp only [TObj.saveEmbeddings, Src.embeddings, mappedBytes, Files.put, if_true, List.length_nil, Nat.le_zero, hn,
              if_false]
          · cases h2
        · cases h2
      · cases ho'
  refine ⟨fun out w' hst => ?_, fun o ho => ?_⟩
  · cases hst with
    | saveEmbeddings h path o files h1 h2 =>
      rw [key o h1] at h2
      cases h2
  · rw [key o ho]
    simp [Files.put]

/-- C64, negative. Files saved from an `Embeddings` without words cannot be opened. -/
theorem C64_empty_does_not_open {w0 : TWorld} {ep wp : String} (hp : PairsSaved srt w0 h w ep wp []) (out : TOut) (w' : TWorld) :
    ¬ TStep srt w (.newEmbeddings (some ep) (some wp)) out w' := by
  obtain ⟨e, d, hf, _⟩ := hp.files (by simp)
  have hfe : e = FixVec.new := by
    rcases hf.lock.vecs with ⟨_, hx⟩ | ⟨hx, _⟩
    · exact hx
    · exact absurd rfl hx
  intro hs
  cases hs with
  | newEmbeddings a b o ho =>
    simp only [newEmbeddings] at ho
    have : openEmbeddings w.files ep = none := by
      unfold openEmbeddings
      rw [mapFile_some hf.embeddings (encodeAll_ne e), hf.embeddings]
      simp only
      rw [hfe, C30_empty_does_not_load]
    rw [this] at ho
    generalize openWords w.files wp = x at ho
    cases x <;> simp at ho

end Granne
