import Verif.Spec.PyText
import Verif.Props.PyIsolation
import Verif.Props.SumIndex

/-! Sessions with texts: what becomes of `Embeddings` objects. -/
namespace Granne
open Spec

variable {srt : List (Nat × ℝ) → List (Nat × ℝ)}

/-! ### Steps -/

theorem TStep.other_object {w w' : TWorld} {call : TCall} {out : TOut} (hs : TStep srt w call out w') {h : Nat} {o : TObj}
    (ho : w.objects[h]? = some o) (hc : ¬ TChanges h call) : w'.objects[h]? = some o := by
  have hlt := (List.getElem?_eq_some_iff.1 ho).1
  cases hs with
  | newEmbeddings => simp only; rw [List.getElem?_append_left hlt, ho]
  | newBuilder => simp only; rw [List.getElem?_append_left hlt, ho]
  | openIndex => simp only; rw [List.getElem?_append_left hlt, ho]
  | appendWord => simp only; rw [List.getElem?_set_ne (by simpa [TChanges] using hc), ho]
  | append => simp only; rw [List.getElem?_set_ne (by simpa [TChanges] using hc), ho]
  | build => simp only; rw [List.getElem?_set_ne (by simpa [TChanges] using hc), ho]
  | reorder => simp only; rw [List.getElem?_set_ne (by simpa [TChanges] using hc), ho]
  | saveEmbeddings => exact ho
  | saveWords => exact ho
  | saveIndex => exact ho
  | saveElements => exact ho
  | other => exact ho

theorem put_ne {files : Files} {p path : String} {b : Bytes} (h : p ≠ path) : files.put path b p = files p := by
  simp [Files.put, h]

theorem TStep.file {w w' : TWorld} {call : TCall} {out : TOut} (hs : TStep srt w call out w') {p : String}
    (hc : ¬ TWrites p call) : w'.files p = w.files p := by
  cases hs with
  | newEmbeddings => rfl
  | newBuilder => rfl
  | openIndex => rfl
  | appendWord => rfl
  | append => rfl
  | build => rfl
  | reorder => rfl
  | saveIndex h path o files h1 h2 =>
    have hne : p ≠ path := fun e => hc e.symm
    simp only [TObj.saveIndex] at h2
    split at h2
    · cases h2
    · rw [← (Prod.mk.inj h2).1]
      exact put_ne hne
  | saveElements h path o files h1 h2 =>
    have hne : p ≠ path := fun e => hc e.symm
    simp only [TObj.saveElements] at h2
    split at h2 <;> cases h2
    exact put_ne hne
  | saveEmbeddings h path o files h1 h2 =>
    have hne : p ≠ path := fun e => hc e.symm
    unfold TObj.saveEmbeddings at h2
    split at h2
    · split at h2 <;> cases h2
      exact put_ne hne
    · cases h2
  | saveWords h path o files h1 h2 =>
    have hne : p ≠ path := fun e => hc e.symm
    unfold TObj.saveWords at h2
    split at h2 <;> cases h2
    exact put_ne hne
  | other path content =>
    have hne : p ≠ path := fun e => hc e.symm
    simp [hne]

theorem Spec.TRun.file {w w' : TWorld} {calls : List TCall} (hr : TRun srt w calls w') {p : String}
    (hc : ∀ call ∈ calls, ¬ TWrites p call) : w'.files p = w.files p := by
  induction hr with
  | nil => rfl
  | cons w w1 w' call out calls hs _ ih =>
    rw [ih fun c hc' => hc c (by simp [hc']), hs.file (hc call (by simp))]

theorem Spec.TRun.other_object {w w' : TWorld} {calls : List TCall} (hr : TRun srt w calls w') {h : Nat} {o : TObj}
    (ho : w.objects[h]? = some o) (hc : ∀ call ∈ calls, ¬ TChanges h call) : w'.objects[h]? = some o := by
  induction hr with
  | nil => exact ho
  | cons w w1 w' call out calls hs _ ih =>
    exact ih (hs.other_object ho (hc call (by simp))) fun c hc' => hc c (by simp [hc'])

theorem Spec.TRun.append {w w' w'' : TWorld} {calls calls' : List TCall} (h : TRun srt w calls w')
    (h' : TRun srt w' calls' w'') : TRun srt w (calls ++ calls') w'' := by
  induction h with
  | nil => exact h'
  | cons w w1 w' call out calls hs _ ih => exact .cons _ _ _ _ _ _ hs (ih h')

theorem wordsTo_append (h : Nat) (l l' : List TCall) : wordsTo h (l ++ l') = wordsTo h l ++ wordsTo h l' := by
  induction l with
  | nil => rfl
  | cons a l ih =>
    cases a <;> simp only [List.cons_append, wordsTo, ih]
    split <;> simp

theorem textsTo_append (h : Nat) (l l' : List TCall) : textsTo h (l ++ l') = textsTo h l ++ textsTo h l' := by
  induction l with
  | nil => rfl
  | cons a l ih =>
    cases a <;> simp only [List.cons_append, textsTo, ih]
    split <;> simp

theorem firstPairs_append {S : Type} (l l' : List (List S × Text)) : ∀ seen : List Text,
    firstPairs seen (l ++ l') = firstPairs seen l ++ firstPairs (seen ++ (firstPairs seen l).map Prod.snd) l' := by
  induction l with
  | nil => intro seen; simp [firstPairs]
  | cons a l ih =>
    intro seen
    simp only [List.cons_append, firstPairs]
    split
    · exact ih seen
    · rw [ih, List.cons_append, List.map_cons, List.append_assoc]
      rfl

theorem Src.embeddings_congr {files files' : Files} {s : Src (FixVec UInt32)} (h : ∀ p ∈ s.paths, files' p = files p) :
    s.embeddings files' = s.embeddings files := by
  cases s with
  | owned v => rfl
  | mapped p n => simp only [Src.embeddings, mappedBytes, h p (by simp [Src.paths])]

theorem Src.terms_congr {files files' : Files} {s : Src Elems} (h : ∀ p ∈ s.paths, files' p = files p) :
    s.terms files' = s.terms files := by
  cases s with
  | owned v => rfl
  | mapped p n => simp only [Src.terms, mappedBytes, h p (by simp [Src.paths])]

/-! ### `Embeddings` objects -/

/-- Object `h` holds these pairs; it reads no file, except possibly `ep`. -/
def EmbAt (w : TWorld) (h : Nat) (ep : Option String) (pairs : List (List UInt32 × Text)) : Prop :=
  ∃ src e d, w.objects[h]? = some (.embeddings src d) ∧ src.embeddings w.files = some e ∧ (∀ p ∈ src.paths, ep = some p) ∧
    LockStep (⟨e, d⟩ : PyEmbeddings UInt32) pairs

theorem EmbAt.step {w w' : TWorld} {call : TCall} {out : TOut} {h : Nat} {ep : Option String} {pairs}
    (ha : EmbAt w h ep pairs) (hs : TStep srt w call out w') (hw : ∀ p, ep = some p → ¬ TWrites p call)
    (hne : ∀ p ∈ firstPairs (pairs.map Prod.snd) (wordsTo h [call]), p.1 ≠ []) :
    EmbAt w' h ep (pairs ++ firstPairs (pairs.map Prod.snd) (wordsTo h [call])) := by
  obtain ⟨src, e, d, ho, he, hp, hl⟩ := ha
  have hlt := (List.getElem?_eq_some_iff.1 ho).1
  by_cases hc : TChanges h call
  · cases hs with
    | appendWord h' v word o o' b h1 h2 =>
      obtain rfl : h' = h := hc
      rw [ho] at h1; cases h1
      have hap : wordsTo h' [TCall.appendWord h' v word] = [(v, word)] := by simp [wordsTo]
      rw [hap] at hne ⊢
      by_cases hk : word ∈ pairs.map Prod.snd
      · have hx : firstPairs (pairs.map Prod.snd) [(v, word)] = [] := by simp only [firstPairs, if_pos hk]
        rw [hx, List.append_nil]
        have hpk := hl.words.push_known hk
        simp only at hpk
        simp only [TObj.appendWord, hpk, Option.some.injEq, Prod.mk.injEq] at h2
        obtain ⟨rfl, rfl⟩ := h2
        exact ⟨src, e, d, by simp only; rw [List.getElem?_set_self hlt], he, hp, hl⟩
      · have hx : firstPairs (pairs.map Prod.snd) [(v, word)] = [(v, word)] := by simp only [firstPairs, if_neg hk]
        rw [hx] at hne ⊢
        have hpn := (hl.words.push_new hk).1
        rcases hpush : d.push word with ⟨words, b'⟩
        simp only [hpush] at hpn
        subst hpn
        simp only [TObj.appendWord, hpush, he] at h2
        split at h2
        · next e' he' =>
          simp only [Option.some.injEq, Prod.mk.injEq] at h2
          obtain ⟨rfl, rfl⟩ := h2
          have hfit : ∀ q ∈ pairs, q.1.length = v.length := by
            by_contra hcon
            push Not at hcon
            have := hl.unfit (v := v) hk hcon
            rw [PyEmbeddings.append, hpush] at this
            simp only [he'] at this
            cases this
          obtain ⟨p', e1, e2⟩ := hl.fresh (v := v) (hne (v, word) (by simp)) hk hfit
          rw [PyEmbeddings.append, hpush] at e1
          simp only [he', Option.some.injEq, Prod.mk.injEq, and_true] at e1
          subst e1
          exact ⟨.owned e', e', words, by simp only; rw [List.getElem?_set_self hlt], rfl, by simp [Src.paths], e2⟩
        · cases h2
    | append h' q o o' h1 h2 =>
      obtain rfl : h' = h := hc
      rw [ho] at h1; cases h1
      simp [TObj.appendText] at h2
    | build h' n o o' h1 h2 =>
      obtain rfl : h' = h := hc
      rw [ho] at h1; cases h1
      exact absurd h2 (by simp [TObj.Build])
    | reorder h' o o' order h1 h2 =>
      obtain rfl : h' = h := hc
      rw [ho] at h1; cases h1
      simp [TObj.reorder] at h2
    | _ => exact absurd hc (by simp [TChanges])
  · have hap : wordsTo h [call] = [] := by
      cases call <;> simp_all [wordsTo, TChanges]
    rw [hap, firstPairs, List.append_nil]
    refine ⟨src, e, d, hs.other_object ho hc, ?_, hp, hl⟩
    rw [Src.embeddings_congr (files := w.files), he]
    intro p hpm
    exact hs.file (hw p (hp p hpm))

theorem EmbAt.run {w w' : TWorld} {calls : List TCall} {h : Nat} {ep : Option String} {pairs}
    (hr : TRun srt w calls w') (ha : EmbAt w h ep pairs) (hw : ∀ p, ep = some p → ∀ call ∈ calls, ¬ TWrites p call)
    (hne : ∀ p ∈ firstPairs (pairs.map Prod.snd) (wordsTo h calls), p.1 ≠ []) :
    EmbAt w' h ep (pairs ++ firstPairs (pairs.map Prod.snd) (wordsTo h calls)) := by
  induction hr generalizing pairs with
  | nil => simpa [wordsTo, firstPairs] using ha
  | cons w w1 w' call out calls hs _ ih =>
    have e : wordsTo h (call :: calls) = wordsTo h [call] ++ wordsTo h calls := wordsTo_append h [call] calls
    rw [e, firstPairs_append, ← List.map_append] at hne ⊢
    have a1 := ha.step hs (fun p hp => hw p hp call (by simp)) fun p hp => hne p (List.mem_append_left _ hp)
    have a2 := ih a1 (fun p hp c hc => hw p hp c (by simp [hc])) fun p hp => hne p (List.mem_append_right _ hp)
    rwa [List.append_assoc] at a2

theorem EmbAt.new {w w' : TWorld} {out : TOut} (hs : TStep srt w (.newEmbeddings none none) out w') :
    EmbAt w' w.objects.length none [] := by
  cases hs with
  | newEmbeddings ep wp o h =>
    simp only [newEmbeddings, Option.some.injEq] at h
    subst h
    exact ⟨.owned FixVec.new, FixVec.new, WordDict.empty, by simp, rfl, by simp [Src.paths], lockStep_new⟩

/-- What `save` writes. -/
theorem EmbAt.save {w w' : TWorld} {h : Nat} {ep : Option String} {pairs} {ep' wp' : String}
    (ha : EmbAt w h ep pairs) (hne : ep' ≠ wp') (hr : TRun srt w [.saveEmbeddings h ep', .saveWords h wp'] w') :
    ∃ e d, LockStep (⟨e, d⟩ : PyEmbeddings UInt32) pairs ∧ w'.files ep' = some e.bytes ∧
      w'.files wp' = some (utf8 d.content) ∧ w'.objects = w.objects ∧
      (∃ src, w.objects[h]? = some (.embeddings src d) ∧ src.embeddings w.files = some e) := by
  obtain ⟨src, e, d, ho, he, hp, hl⟩ := ha
  cases hr with
  | cons _ w1 _ _ _ _ hs1 hr =>
    cases hr with
    | cons _ w2 _ _ _ _ hs2 hr =>
      cases hr
      cases hs1 with
      | saveEmbeddings h path o files h1 h2 =>
        rw [ho] at h1; cases h1
        simp only [TObj.saveEmbeddings] at h2
        split at h2
        · next e' he' =>
          obtain ⟨rfl, _⟩ := Prod.mk.inj h2
          cases hs2 with
          | saveWords h path' o2 files2 h3 h4 =>
            simp only at h3
            rw [ho] at h3; cases h3
            simp only [TObj.saveWords, Prod.mk.injEq, and_true] at h4
            subst h4
            have hee : e' = e := by
              cases src with
              | owned v => simp only [Src.embeddings, Option.some.injEq] at he he'; rw [← he, ← he']
              | mapped p n =>
                by_cases hpe : p = ep'
                · subst hpe
                  simp only [Src.embeddings, mappedBytes, Files.put, if_true, List.length_nil, Nat.le_zero] at he'
                  by_cases hn : n = 0
                  · subst hn
                    simp [FixVec.loadMmap] at he'
                  · simp [hn] at he'
                · have : (Src.mapped p n : Src (FixVec UInt32)).embeddings (w.files.put ep' []) =
                      (Src.mapped p n : Src (FixVec UInt32)).embeddings w.files :=
                    Src.embeddings_congr (by simp [Src.paths, Files.put, hpe])
                  rw [this, he] at he'
                  exact (Option.some.inj he').symm
            subst hee
            refine ⟨e', d, hl, ?_, ?_, rfl, src, ho, he⟩
            · simp [Files.put, hne]
            · simp [Files.put]
        · cases h2

theorem LockStep.fromBytes {e : FixVec UInt32} {d : WordDict} {pairs : List (List UInt32 × Text)}
    (h : LockStep (⟨e, d⟩ : PyEmbeddings UInt32) pairs) (hs : SensiblePairs pairs) :
    FixVec.fromBytes e.bytes = some e := by
  obtain ⟨dim, h1, h2⟩ := h.shows
  obtain ⟨p, hp⟩ := List.exists_mem_of_ne_nil _ hs.some_pair
  have hd : p.1.length = dim := h1.equalLength p.1 (List.mem_map_of_mem hp)
  exact C30_write_load_partial e dim _ h1 (h2 hs.some_pair) (by rw [← hd]; exact (hs.proper p hp).2)

theorem openEmbeddings_saved {files : Files} {ep : String} {e : FixVec UInt32} (h : files ep = some e.bytes)
    (hb : FixVec.fromBytes e.bytes = some e) :
    openEmbeddings files ep = some (.mapped ep e.bytes.length) ∧
    (Src.mapped ep e.bytes.length : Src (FixVec UInt32)).embeddings files = some e := by
  constructor
  · unfold openEmbeddings
    rw [mapFile_some h (encodeAll_ne e), h]
    simp only
    rw [hb]
  · unfold Src.embeddings
    simp only
    rw [mappedBytes_full h]
    exact loadMmap_of_fromBytes hb

theorem openWords_saved {files : Files} {wp : String} {d : WordDict} {words : List Text} (h : files wp = some (utf8 d.content))
    (hd : HoldsWords d words) : ∃ d', openWords files wp = some d' ∧ HoldsWords d' words := by
  obtain ⟨d', e1, e2⟩ := hd.load
  refine ⟨d', ?_, e2⟩
  unfold openWords
  rw [h]
  simp only
  rw [fromUtf8_utf8]
  exact e1

/-- The files contain the pairs. -/
structure PairFiles (files : Files) (ep wp : String) (pairs : List (List UInt32 × Text)) (e : FixVec UInt32) (d : WordDict) :
    Prop where
  lock : LockStep (⟨e, d⟩ : PyEmbeddings UInt32) pairs
  embeddings : files ep = some e.bytes
  words : files wp = some (utf8 d.content)

theorem EmbAt.saved {w0 w1 w : TWorld} {h : Nat} {epo : Option String} {pairs} {ep wp : String} {after : List TCall}
    (ha : EmbAt w0 h epo pairs) (hne : ep ≠ wp) (hr : TRun srt w0 [.saveEmbeddings h ep, .saveWords h wp] w1)
    (hr2 : TRun srt w1 after w) (hw : ∀ call ∈ after, ¬ TWrites ep call ∧ ¬ TWrites wp call) :
    ∃ e d, PairFiles w.files ep wp pairs e d ∧
      ∃ src, w0.objects[h]? = some (.embeddings src d) ∧ src.embeddings w0.files = some e := by
  obtain ⟨e, d, h1, h2, h3, _, h4⟩ := ha.save hne hr
  refine ⟨e, d, ⟨h1, ?_, ?_⟩, h4⟩
  · rw [hr2.file fun c hc => (hw c hc).1, h2]
  · rw [hr2.file fun c hc => (hw c hc).2, h3]

theorem PairFiles.opened {w w' : TWorld} {ep wp : String} {pairs e d} {out : TOut} (h : PairFiles w.files ep wp pairs e d)
    (hs : SensiblePairs pairs) (hst : TStep srt w (.newEmbeddings (some ep) (some wp)) out w') :
    ∃ d', HoldsWords d' (pairs.map Prod.snd) ∧
      w' = ⟨w.files, w.objects ++ [.embeddings (.mapped ep e.bytes.length) d']⟩ := by
  obtain ⟨o1, _⟩ := openEmbeddings_saved h.embeddings (h.lock.fromBytes hs)
  obtain ⟨d', hd1, hd2⟩ := openWords_saved h.words h.lock.words
  cases hst with
  | newEmbeddings a b o ho =>
    simp only [newEmbeddings] at ho
    rw [o1, hd1] at ho
    cases ho
    exact ⟨d', hd2, rfl⟩

theorem PairFiles.embAt {w : TWorld} {ep wp : String} {pairs e d d'} (h : PairFiles w.files ep wp pairs e d)
    (hs : SensiblePairs pairs) (hd' : HoldsWords d' (pairs.map Prod.snd)) :
    EmbAt ⟨w.files, w.objects ++ [.embeddings (.mapped ep e.bytes.length) d']⟩ w.objects.length (some ep) pairs :=
  ⟨_, e, d', by simp, (openEmbeddings_saved h.embeddings (h.lock.fromBytes hs)).2, by simp [Src.paths],
    ⟨hd', h.lock.vecs⟩⟩

/-- Objects as described in the specification hold the pairs. -/
theorem Spec.HoldsPairs.embAt {w : TWorld} {h : Nat} {pairs} (hp : HoldsPairs srt w h pairs)
    (hne : ∀ p ∈ pairs, p.1 ≠ [] ∧ p.1.length < 2 ^ 64) : ∃ ep, EmbAt w h ep pairs := by
  induction hp with
  | new w0 w calls hr =>
    cases hr with
    | cons _ w1 _ _ _ _ hs hr =>
      have := (EmbAt.new hs).run hr (by simp) fun p hp => (hne p hp).1
      exact ⟨none, by simpa using this⟩
  | opened w0 w1 w2 w h pairs ep wp between calls _ hpe h1 h2 hb hr hw ih =>
    obtain ⟨epo, ha⟩ := ih fun p hp => hne p (List.mem_append_left _ hp)
    obtain ⟨e, d, hf, _⟩ := ha.saved hpe h1 h2 hb
    cases hr with
    | cons _ w3 _ _ _ _ hs hr =>
      by_cases h0 : pairs = []
      · subst h0
        exfalso
        have hfe : e = FixVec.new := by
          rcases hf.lock.vecs with ⟨_, hx⟩ | ⟨hx, _⟩
          · exact hx
          · exact absurd rfl hx
        cases hs with
        | newEmbeddings a b o ho =>
          simp only [newEmbeddings] at ho
          have : openEmbeddings w2.files ep = none := by
            unfold openEmbeddings
            rw [mapFile_some hf.embeddings (encodeAll_ne e), hf.embeddings]
            simp only
            rw [hfe, C30_empty_does_not_load]
          rw [this] at ho
          generalize openWords w2.files wp = x at ho
          cases x <;> simp at ho
      · have hsens : SensiblePairs pairs := ⟨h0, fun p hp => hne p (List.mem_append_left _ hp)⟩
        obtain ⟨d', hd', rfl⟩ := hf.opened hsens hs
        exact ⟨some ep, (hf.embAt hsens hd').run hr (by rintro p ⟨⟩; exact hw)
          fun p hp => (hne p (List.mem_append_right _ hp)).1⟩

theorem Spec.PairsSaved.files {w0 w : TWorld} {h : Nat} {ep wp : String} {pairs} (hp : PairsSaved srt w0 h w ep wp pairs)
    (hs : ∀ p ∈ pairs, p.1 ≠ [] ∧ p.1.length < 2 ^ 64) : ∃ e d, PairFiles w.files ep wp pairs e d ∧
      ∃ src, w0.objects[h]? = some (.embeddings src d) ∧ src.embeddings w0.files = some e := by
  obtain ⟨w1, after, h1, h2, h3, h4, h5⟩ := hp
  obtain ⟨epo, ha⟩ := h1.embAt hs
  exact ha.saved h2 h3 h4 h5

end Granne
