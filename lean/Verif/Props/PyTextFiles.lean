import Verif.Props.PyTextIsolation
import Verif.Props.Format

/-!
C64, C65: which files can be opened at all, whoever wrote them.
-/
namespace Granne
open Spec

variable {srt : List (Nat × ℝ) → List (Nat × ℝ)}

/-- A file of embeddings: eight bytes for the dimension (little-endian, not zero), then complete embeddings of four bytes per
component; up to three bytes may follow. -/
def EmbeddingsFile (b : Bytes) : Prop :=
  8 ≤ b.length ∧ 0 < leNat (b.take 8) ∧ ((b.length - 8) / 4) % leNat (b.take 8) = 0

/-- A file of words: UTF-8, each line a JSON string. -/
def WordsFile (b : Bytes) (words : List Text) : Prop := ∃ content : Text, b = utf8 content ∧ JsonLines content words

theorem openWords_iff {files : Files} {path : String} : (∃ d, openWords files path = some d) ↔
    ∃ b words, files path = some b ∧ WordsFile b words := by
  constructor
  · rintro ⟨d, h⟩
    unfold openWords at h
    split at h
    · next b hb =>
      split at h
      · next content hc =>
        exact ⟨b, _, hb, content, fromUtf8_eq_some hc, ((C58_words_file content).1 d h).1⟩
      · cases h
    · cases h
  · rintro ⟨b, words, hb, content, rfl, hj⟩
    unfold openWords
    rw [hb]
    simp only [fromUtf8_utf8]
    rcases Option.eq_none_or_eq_some (WordDict.new content) with h | ⟨d, h⟩
    · exact absurd ⟨words, hj⟩ ((C58_words_file content).2.1 h)
    · exact ⟨d, h⟩

theorem embeddingsFile_iff {b : Bytes} : (∃ v : FixVec UInt32, FixVec.fromBytes b = some v) ↔ EmbeddingsFile b := by
  unfold FixVec.fromBytes FixVec.loadMmap EmbeddingsFile
  by_cases h8 : 8 ≤ b.length
  · have h4 : Scalar.size UInt32 = 4 := rfl
    rw [if_pos h8]
    simp only [loadBytesAs_length, List.length_drop, h4]
    split <;> simp_all
  · simp [h8]

theorem openEmbeddings_iff {files : Files} {path : String} : (∃ s, openEmbeddings files path = some s) ↔
    ∃ b, files path = some b ∧ EmbeddingsFile b := by
  unfold openEmbeddings mapFile
  rcases Option.eq_none_or_eq_some (files path) with e | ⟨b, e⟩
  · simp [e]
  · simp only [e, Option.some.injEq, exists_eq_left', ← embeddingsFile_iff]
    by_cases hb : b = []
    · subst hb
      simp [FixVec.fromBytes, FixVec.loadMmap]
    · simp only [if_neg hb]
      rcases Option.eq_none_or_eq_some (FixVec.fromBytes b : Option (FixVec UInt32)) with h | ⟨v, h⟩ <;> simp [h]

/-- C64. `Embeddings(embeddings_path, words_path)` returns exactly if the first is a file of embeddings and the second a file
of words; with only one of the paths it panics. -/
theorem C64_open_iff (w : TWorld) (ep wp : String) :
    ((∃ out w', TStep srt w (.newEmbeddings (some ep) (some wp)) out w') ↔
      (∃ b, w.files ep = some b ∧ EmbeddingsFile b) ∧ ∃ b words, w.files wp = some b ∧ WordsFile b words) ∧
    (∀ out w', ¬ TStep srt w (.newEmbeddings (some ep) none) out w') ∧
    (∀ out w', ¬ TStep srt w (.newEmbeddings none (some wp)) out w') := by
  refine ⟨?_, ?_, ?_⟩
  · rw [← openWords_iff, ← openEmbeddings_iff]
    constructor
    · rintro ⟨out, w', hs⟩
      cases hs with
      | newEmbeddings a b o ho =>
        simp only [newEmbeddings] at ho
        split at ho
        · next d e h1 h2 => exact ⟨⟨_, h2⟩, ⟨_, h1⟩⟩
        · cases ho
    · rintro ⟨⟨e, he⟩, ⟨d, hd⟩⟩
      exact ⟨_, _, .newEmbeddings w (some ep) (some wp) (.embeddings e d) (by simp [newEmbeddings, he, hd])⟩
  · intro out w' hs
    cases hs with | newEmbeddings a b o ho => simp [newEmbeddings] at ho
  · intro out w' hs
    cases hs with | newEmbeddings a b o ho => simp [newEmbeddings] at ho

/-- C64. What an `Embeddings` opened from any two files shows: the vectors of the first file, and the words of the second one.
(The two numbers need not be equal. If a word occurs more than once its last number counts.) -/
theorem C64_open_shows (w : TWorld) (ep wp : String) (out : TOut) (w' : TWorld) (b c : Bytes) (words : List Text)
    (hs : TStep srt w (.newEmbeddings (some ep) (some wp)) out w') (hb : w.files ep = some b) (hc : w.files wp = some c)
    (hw : WordsFile c words) :
    (∀ a, w'.Answers w.objects.length .numEmbeddings a ↔ a = .num ((b.length - 8) / 4 / leNat (b.take 8))) ∧
    ∃ d src, w'.objects[w.objects.length]? = some (.embeddings src d) ∧ d.idToWord = words ∧
      ∀ (word : Text) (i : Nat), d.wordToId word = some i ↔ words[i]? = some word ∧ ∀ j : Nat, i < j → words[j]? ≠ some word := by
  cases hs with
  | newEmbeddings x y o ho =>
    simp only [newEmbeddings] at ho
    split at ho
    · next d e h1 h2 =>
      cases ho
      obtain ⟨n, hn, hn', rfl⟩ := openEmbeddings_paths h2
      have hlen : n = b.length := by
        unfold mapFile at hn'
        rw [hb] at hn'
        simp only at hn'
        split at hn'
        · cases hn'
        · cases hn'; rfl
      subst hlen
      constructor
      · intro a
        unfold TWorld.Answers
        simp only [List.getElem?_concat_length, Option.some.injEq, exists_eq_left', TObj.Answers, Src.embeddings, mappedBytes, hb,
          le_refl, if_true, List.take_length]
        obtain ⟨v, hv⟩ := embeddingsFile_iff.2 (by
          obtain ⟨b', h3, h4⟩ := openEmbeddings_iff.1 ⟨_, h2⟩
          rw [hb] at h3; cases h3; exact h4)
        unfold FixVec.fromBytes at hv
        split at hv
        · next v' h3 =>
          rw [h3]
          split at hv
          · next h4 =>
            cases hv
            have h5 := h3
            unfold FixVec.loadMmap at h5
            split at h5
            · cases h5
              simp only [Option.some.injEq, exists_eq_left', FixVec.len, loadBytesAs_length, List.length_drop]
              have : Scalar.size UInt32 = 4 := rfl
              rw [this]
              have hne := h4.1
              simp only at hne
              rw [if_pos hne]
            · cases h5
          · cases hv
        · cases hv
      · refine ⟨d, _, by simp; rfl, ?_⟩
        unfold openWords at h1
        rw [hc] at h1
        simp only at h1
        obtain ⟨content, rfl, hj⟩ := hw
        rw [fromUtf8_utf8] at h1
        simp only at h1
        obtain ⟨k1, k2⟩ := (C58_words_file content).1 d h1
        have : d.idToWord = words := by
          have e1 := (jsonLines_iff _ _).1 k1
          have e2 := (jsonLines_iff _ _).1 hj
          rw [e1] at e2
          exact (List.map_inj_right (fun _ _ => Option.some.inj)).1 e2
        rw [this] at k2
        exact ⟨this, k2⟩
    · cases ho

/-- C65. A text builder or a text index is only opened if the files of embeddings and words are valid, and the files of
elements and index (where given) are there and not empty. -/
theorem C65_needs_files (w : TWorld) (out : TOut) (w' : TWorld) (ep wp : String) :
    (∀ c xpo ipo, TStep srt w (.newBuilder c xpo ep wp ipo) out w' →
      (∃ b, w.files ep = some b ∧ EmbeddingsFile b) ∧ (∃ b words, w.files wp = some b ∧ WordsFile b words) ∧
      (∀ xp, xpo = some xp → ∃ b, w.files xp = some b ∧ b ≠ []) ∧ ∀ ip, ipo = some ip → ∃ b, w.files ip = some b ∧ b ≠ []) ∧
    (∀ ip xp, TStep srt w (.openIndex ip xp ep wp) out w' →
      (∃ b, w.files ep = some b ∧ EmbeddingsFile b) ∧ (∃ b words, w.files wp = some b ∧ WordsFile b words) ∧
      (∃ b, w.files xp = some b ∧ b ≠ []) ∧ ∃ b, w.files ip = some b ∧ b ≠ []) := by
  have hmap : ∀ (p : String) (n : Nat), mapFile w.files p = some n → ∃ b, w.files p = some b ∧ b ≠ [] := by
    intro p n h
    unfold mapFile at h
    split at h
    · next b hb =>
      split at h
      · cases h
      · next hne => exact ⟨b, hb, hne⟩
    · cases h
  have hterms : ∀ (p : String) s, openTerms w.files (some p) = some s → ∃ b, w.files p = some b ∧ b ≠ [] := by
    intro p s h
    unfold openTerms at h
    simp only at h
    split at h
    · next n b h1 h2 => exact hmap p n h1
    · cases h
  constructor
  · intro c xpo ipo hs
    cases hs with
    | newBuilder c' xp' ep' wp' ip' o ho =>
      unfold newTextBuilder at ho
      split at ho
      · next d e xs h1 h2 h3 =>
        refine ⟨openEmbeddings_iff.1 ⟨_, h2⟩, openWords_iff.1 ⟨_, h1⟩, fun xp e => hterms xp xs (e ▸ h3), ?_⟩
        rintro ip rfl
        split at ho
        · cases ho
        · simp only at ho
          split at ho
          · next n buf h4 h5 => exact hmap ip n h4
          · cases ho
      · cases ho
  · intro ip xp hs
    cases hs with
    | openIndex ip' xp' ep' wp' o ho =>
      unfold openTextIndex at ho
      split at ho
      · next d e xs h1 h2 h3 =>
        refine ⟨openEmbeddings_iff.1 ⟨_, h2⟩, openWords_iff.1 ⟨_, h1⟩, hterms xp xs h3, ?_⟩
        split at ho
        · next n b h4 h5 => exact hmap ip n h4
        · cases ho
      · cases ho

/-- Non-vacuity of C64_open_iff and C64_open_shows: two files of other origin (one vector `[1.0]`; one word, with spaces
around the JSON string). -/
example : EmbeddingsFile ([1, 0, 0, 0, 0, 0, 0, 0] ++ [0, 0, 0x80, 0x3f]) ∧
    WordsFile (utf8 " \"a\" ".toList) ["a".toList] := by
  refine ⟨by unfold EmbeddingsFile; decide, _, rfl, _, .last _ (by decide) (by decide), ?_⟩
  refine .cons ⟨[' '], ['a'], [' '], rfl, .plain _ _ _ (by decide) (by decide) (by decide) .nil, by decide⟩ .nil

/-- Non-vacuity of C67: an opened text index; then the words file is deleted, it is reordered, the files of index and elements
are overwritten; its answers are those before. If the embeddings file is emptied, it has no answers any more. -/
example (w0 : TWorld) : ∃ w w1 w2 w3 w4, ∃ order, TRun exSortReal w [.openIndex "index" "elements" "embeddings" "words",
      .reorder w.objects.length] w1 ∧
    TRun exSortReal w1 [.other "words" none, .other "index" (some []), .other "elements" none] w2 ∧
    w1.objects.length = w.objects.length + 1 ∧
    TRun exSortReal w2 [.other "embeddings" (some [])] w3 ∧ TStep exSortReal w4 (.reorder w.objects.length) (.order order) w1 ∧
    (∃ a, w2.Answers w.objects.length (.internalElement 0) a) ∧
    (∃ a, w2.Answers w.objects.length (.search "east".toList 10 10) a) ∧
    ¬ ∃ a, w3.Answers w.objects.length (.search "east".toList 10 10) a := by
  obtain ⟨wp, wi, w, w1, w2, order, out, hb, hp, hs, hn, hst, hl, hre⟩ := exReordered w0 exTexts2 (by decide) (by decide)
    (by decide +kernel)
  have hP : ∀ c, c = ({} : PyConfig) → c.Good := fun c (hc : c = {}) => hc ▸ exPyConfig_good
  have hr : TRun exSortReal w [.openIndex "index" "elements" "embeddings" "words", .reorder w.objects.length] w2 :=
    .cons _ _ _ _ _ _ hst (.cons _ _ _ _ _ _ hre (.nil _))
  have hlen : w2.objects.length = w.objects.length + 1 := by
    cases hst with
    | openIndex _ _ _ _ o ho => cases hre with | reorder _ o o' order h1 h2 => simp
  let v1 : TWorld := ⟨fun p => if p = "words" then none else w2.files p, w2.objects⟩
  let v2 : TWorld := ⟨fun p => if p = "index" then some [] else v1.files p, v1.objects⟩
  let v3 : TWorld := ⟨fun p => if p = "elements" then none else v2.files p, v2.objects⟩
  let v4 : TWorld := ⟨fun p => if p = "embeddings" then some [] else v3.files p, v3.objects⟩
  have hr2 : TRun exSortReal w2 [.other "words" none, .other "index" (some []), .other "elements" none] v3 :=
    .cons _ v1 _ _ _ _ (.other _ _ _) (.cons _ v2 _ _ _ _ (.other _ _ _) (.cons _ v3 _ _ _ _ (.other _ _ _) (.nil _)))
  have hr3 : TRun exSortReal v3 [.other "embeddings" (some [])] v4 := .cons _ v4 _ _ _ _ (.other _ _ _) (.nil _)
  have same := C67_index hr hr2 (by simp [TChanges]) (by simp [TWrites]) (Or.inl (by simp))
  have hemb : ∃ b, w.files "embeddings" = some b ∧ 0 < b.length := by
    obtain ⟨⟨b, h1, h2⟩, _⟩ := (C65_needs_files w _ _ _ _).2 _ _ hst
    exact ⟨b, h1, by have := h2.1; omega⟩
  obtain ⟨b, hb1, hb2⟩ := hemb
  refine ⟨w, w2, v3, v4, w1, order, hr, hr2, hlen, hr3, hre, ?_, ?_, ?_⟩
  · obtain ⟨_, hall⟩ := C66_reorder exSortReal_sorts hP exPairs_sensible exPairs_noNan hs hp hn _ _ hst
    obtain ⟨order', e1, hperm, _, _, hint⟩ := hall _ _ hre
    cases e1
    have h0 : 0 < order.length := by rw [hperm.length_eq]; simp [exTexts2]
    have hlt : order[0] < exTexts2.length := by
      have : order[0] ∈ List.range exTexts2.length := (hperm.mem_iff).1 (List.getElem_mem h0)
      simpa using this
    exact ⟨_, (same _ _).2 ((hint 0 _ _ (List.getElem?_eq_getElem h0)).2 ⟨_, List.getElem?_eq_getElem hlt, rfl⟩)⟩
  · obtain ⟨r, r1, _⟩ := (C66_search exSortReal_sorts hP exPairs_sensible exPairs_noNan hs hp hn exSumEmb 2 _ exTextInput2
      out w1 hst order w2 hre 10 10 (by decide)).1 "east".toList (by decide) (by
        have : wordIds (exPairs.map Prod.snd) "east".toList = [1] := by decide +kernel
        rw [this]
        exact (exRange _ (by simp [exTerms])).1)
    exact ⟨_, (same _ _).2 ((r1 _).2 rfl)⟩
  · rintro ⟨a, ha⟩
    exact (C67_embeddings_file_lost (b' := []) ((hr.append hr2).append hr3) hb1 (by simp [v4]) (by simpa using hb2) a).2.1 _ _ _ ha

end Granne
