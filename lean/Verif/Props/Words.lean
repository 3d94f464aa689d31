import Verif.Proofs.Parsing
import Verif.Props.Elements
import Verif.Props.Math
import Verif.Model.Bits
import Verif.Model.Keys

/-!
Properties of the word dictionary, the parser of element files, the shard writer and the precomputed embeddings:
C34, C35, C45, C47, C48.
-/
namespace Granne
open Spec

variable {S : Type}

/-! ### C45 -/

/-- What the appends so far amount to. -/
structure LockStep (p : PyEmbeddings S) (pairs : List (List S × Text)) : Prop where
  words : HoldsWords p.words (pairs.map Prod.snd)
  vecs : (pairs = [] ∧ p.embeddings = FixVec.new) ∨
    (pairs ≠ [] ∧ ∃ d, FixRepr p.embeddings d (pairs.map Prod.fst))

theorem LockStep.shows {p : PyEmbeddings S} {pairs : List (List S × Text)} (h : LockStep p pairs) :
    ∃ dim, ShowsVectors p.embeddings dim (pairs.map Prod.fst) ∧ (pairs ≠ [] → 0 < dim) := by
  rcases h.vecs with ⟨rfl, h2⟩ | ⟨_, d, h2⟩
  · exact ⟨0, by rw [h2]; exact shows_empty, fun h => absurd rfl h⟩
  · exact ⟨d, h2.shows, fun _ => h2.pos⟩

theorem LockStep.known {p : PyEmbeddings S} {pairs : List (List S × Text)} (h : LockStep p pairs) (v : List S)
    {w : Text} (hw : w ∈ pairs.map Prod.snd) : p.append v w = some (p, false) := by
  rw [PyEmbeddings.append, h.words.push_known hw]

theorem LockStep.fresh {p : PyEmbeddings S} {pairs : List (List S × Text)} (h : LockStep p pairs) {v : List S}
    {w : Text} (hv : v ≠ []) (hw : w ∉ pairs.map Prod.snd) (hl : ∀ q ∈ pairs, q.1.length = v.length) :
    ∃ p', p.append v w = some (p', true) ∧ LockStep p' (pairs ++ [(v, w)]) := by
  obtain ⟨h1, h2⟩ := h.words.push_new hw
  obtain ⟨e', he, hvec⟩ : ∃ e', p.embeddings.push v = some e' ∧ ∃ d, FixRepr e' d (pairs.map Prod.fst ++ [v]) := by
    rcases h.vecs with ⟨rfl, hn⟩ | ⟨hp, d, hr⟩
    · rw [hn]
      obtain ⟨e', h3, h4⟩ := FixRepr.push_new (x := v) (List.length_pos_iff.2 hv)
      exact ⟨e', h3, _, h4⟩
    · obtain ⟨q, hq⟩ := List.exists_mem_of_ne_nil _ hp
      have := hr.len q.1 (List.mem_map.2 ⟨q, hq, rfl⟩)
      obtain ⟨e', h3, h4⟩ := hr.push (x := v) (by rw [← hl q hq, this])
      exact ⟨e', h3, d, h4⟩
  rcases hpush : p.words.push w with ⟨words, b⟩
  rw [hpush] at h1 h2
  obtain rfl : b = true := h1
  refine ⟨⟨e', words⟩, by rw [PyEmbeddings.append, hpush]; simp only [he], ?_, Or.inr ⟨by simp, ?_⟩⟩
  · simpa using h2
  · simpa using hvec

theorem LockStep.unfit {p : PyEmbeddings S} {pairs : List (List S × Text)} (h : LockStep p pairs) {v : List S}
    {w : Text} (hw : w ∉ pairs.map Prod.snd) (hl : ∃ q ∈ pairs, q.1.length ≠ v.length) : p.append v w = none := by
  obtain ⟨h1, _⟩ := h.words.push_new hw
  obtain ⟨q, hq, hne⟩ := hl
  rcases h.vecs with ⟨rfl, hn⟩ | ⟨hp, d, hr⟩
  · simp at hq
  · have := hr.len q.1 (List.mem_map.2 ⟨q, hq, rfl⟩)
    have hnone := hr.push_none (x := v) (by omega)
    rcases hpush : p.words.push w with ⟨words, b⟩
    rw [hpush] at h1
    obtain rfl : b = true := h1
    rw [PyEmbeddings.append, hpush]
    simp only [hnone]

theorem appends_step (ops : List (List S × Text)) : ∀ (p : PyEmbeddings S) (pairs : List (List S × Text)),
    LockStep p pairs → (∀ op ∈ ops, op.1 ≠ []) →
    (∀ p' res, runAppends p ops = some (p', res) →
      LockStep p' (pairs ++ firstPairs (pairs.map Prod.snd) ops) ∧
      res.length = ops.length ∧
      ∀ (k : Nat) (op : List S × Text), ops[k]? = some op →
        (res[k]? = some true ↔ op.2 ∉ pairs.map Prod.snd ∧ op.2 ∉ (ops.take k).map Prod.snd)) ∧
    (runAppends p ops = none ↔ ∃ a ∈ pairs ++ firstPairs (pairs.map Prod.snd) ops,
      ∃ b ∈ firstPairs (pairs.map Prod.snd) ops, a.1.length ≠ b.1.length) := by
  induction ops with
  | nil =>
    intro p pairs h _
    constructor
    · intro p' res hr
      rw [runAppends] at hr
      obtain ⟨rfl, rfl⟩ := Prod.mk.inj (Option.some.inj hr)
      exact ⟨by simpa [firstPairs] using h, rfl, by simp⟩
    · simp [runAppends, firstPairs]
  | cons op t ih =>
    intro p pairs h hne
    obtain ⟨v, w⟩ := op
    have hv : v ≠ [] := hne (v, w) (by simp)
    have hne' : ∀ op ∈ t, op.1 ≠ [] := fun o ho => hne o (by simp [ho])
    by_cases hw : w ∈ pairs.map Prod.snd
    · have hk := h.known v hw
      have hfp : firstPairs (pairs.map Prod.snd) ((v, w) :: t) = firstPairs (pairs.map Prod.snd) t := by
        rw [firstPairs, if_pos hw]
      obtain ⟨ih1, ih2⟩ := ih p pairs h hne'
      constructor
      · intro p' res hr
        rw [runAppends, hk] at hr
        simp only at hr
        rcases Option.eq_none_or_eq_some (runAppends p t) with hn | ⟨⟨p'', bs⟩, hs⟩
        · rw [hn] at hr; simp at hr
        · rw [hs] at hr
          obtain ⟨rfl, rfl⟩ := Prod.mk.inj (Option.some.inj hr)
          obtain ⟨h1, h2, h3⟩ := ih1 _ _ hs
          refine ⟨by rw [hfp]; exact h1, by simp [h2], ?_⟩
          intro k op hop
          cases k with
          | zero =>
            obtain rfl : (v, w) = op := by simpa using hop
            simp only [List.getElem?_cons_zero, Option.some.injEq, List.take_zero, List.map_nil, List.not_mem_nil,
              not_false_eq_true, and_true]
            constructor
            · intro hc; simp at hc
            · intro hc; exact absurd hw hc
          | succ k =>
            have := h3 k op (by simpa using hop)
            rw [List.getElem?_cons_succ, this, List.take_succ_cons, List.map_cons, List.mem_cons]
            constructor
            · rintro ⟨a, b⟩
              refine ⟨a, ?_⟩
              rintro (hc | hc)
              · exact a (by rw [hc]; exact hw)
              · exact b hc
            · rintro ⟨a, b⟩
              exact ⟨a, fun hc => b (Or.inr hc)⟩
      · rw [hfp, ← ih2, runAppends, hk]
        simp only
        rcases Option.eq_none_or_eq_some (runAppends p t) with hn | ⟨⟨p'', bs⟩, hs⟩
        · rw [hn]
        · rw [hs]; simp
    · have hfp : firstPairs (pairs.map Prod.snd) ((v, w) :: t) =
          (v, w) :: firstPairs ((pairs ++ [(v, w)]).map Prod.snd) t := by
        rw [firstPairs, if_neg hw]; simp
      by_cases hl : ∀ q ∈ pairs, q.1.length = v.length
      · obtain ⟨p1, hp1, hs1⟩ := h.fresh hv hw hl
        obtain ⟨ih1, ih2⟩ := ih p1 _ hs1 hne'
        constructor
        · intro p' res hr
          rw [runAppends, hp1] at hr
          simp only at hr
          rcases Option.eq_none_or_eq_some (runAppends p1 t) with hn | ⟨⟨p'', bs⟩, hs⟩
          · rw [hn] at hr; simp at hr
          · rw [hs] at hr
            obtain ⟨rfl, rfl⟩ := Prod.mk.inj (Option.some.inj hr)
            obtain ⟨h1, h2, h3⟩ := ih1 _ _ hs
            refine ⟨by rw [hfp]; simpa using h1, by simp [h2], ?_⟩
            intro k op hop
            cases k with
            | zero =>
              obtain rfl : (v, w) = op := by simpa using hop
              simp only [List.getElem?_cons_zero, List.take_zero, List.map_nil, List.not_mem_nil,
                not_false_eq_true, and_true, true_iff]
              exact hw
            | succ k =>
              have := h3 k op (by simpa using hop)
              rw [List.getElem?_cons_succ, this, List.take_succ_cons, List.map_cons, List.mem_cons, List.map_append,
                List.mem_append, List.map_cons, List.map_nil, List.mem_singleton]
              tauto
        · have e : runAppends p ((v, w) :: t) = none ↔ runAppends p1 t = none := by
            rw [runAppends, hp1]
            simp only
            rcases Option.eq_none_or_eq_some (runAppends p1 t) with hn | ⟨⟨p'', bs⟩, hs⟩
            · rw [hn]
            · rw [hs]; simp
          rw [e, ih2, hfp]
          generalize firstPairs ((pairs ++ [(v, w)]).map Prod.snd) t = f
          constructor
          · rintro ⟨a, ha, b, hb, hab⟩
            exact ⟨a, by simpa using ha, b, by simp [hb], hab⟩
          · rintro ⟨a, ha, b, hb, hab⟩
            rcases List.mem_cons.1 hb with rfl | hb
            · rcases List.mem_append.1 ha with ha | ha
              · exact absurd (hl a ha) hab
              · rcases List.mem_cons.1 ha with rfl | ha
                · exact absurd rfl hab
                · exact ⟨(v, w), by simp, a, ha, fun hc => hab hc.symm⟩
            · exact ⟨a, by simpa using ha, b, hb, hab⟩
      · push Not at hl
        have hu := h.unfit hw hl
        constructor
        · intro p' res hr
          rw [runAppends, hu] at hr
          simp at hr
        · rw [runAppends, hu, hfp]
          simp only [true_iff]
          obtain ⟨q, hq, hne⟩ := hl
          exact ⟨q, by simp [hq], (v, w), by simp, hne⟩

theorem lockStep_new : LockStep (PyEmbeddings.new : PyEmbeddings S) [] := ⟨HoldsWords.empty, Or.inl ⟨rfl, rfl⟩⟩

/-- C45. After any sequence of `append` calls with non-empty vectors, the object holds exactly the pairs whose word had
not been appended before, in order: embedding `i` is the vector given with word `i`, there are as many words as
embeddings, and call `k` returned `true` exactly if its word was new. -/
theorem C45_lockstep (ops : List (List S × Text)) (hne : ∀ op ∈ ops, op.1 ≠ []) (p : PyEmbeddings S) (res : List Bool)
    (h : runAppends PyEmbeddings.new ops = some (p, res)) :
    let pairs := firstPairs [] ops
    (∃ dim, ShowsVectors p.embeddings dim (pairs.map Prod.fst)) ∧ HoldsWords p.words (pairs.map Prod.snd) ∧
      p.len = p.words.len ∧ p.len = pairs.length ∧ res.length = ops.length ∧
      ∀ (k : Nat) (op : List S × Text), ops[k]? = some op →
        (res[k]? = some true ↔ op.2 ∉ (ops.take k).map Prod.snd) := by
  obtain ⟨h1, h2, h3⟩ := (appends_step ops _ [] lockStep_new hne).1 p res h
  simp only [List.nil_append, List.map_nil] at h1
  obtain ⟨dim, hs, _⟩ := h1.shows
  refine ⟨⟨dim, hs⟩, h1.words, ?_, ?_, h2, ?_⟩
  · rw [PyEmbeddings.len, hs.len, WordDict.len, h1.words.list]; simp
  · rw [PyEmbeddings.len, hs.len]; simp
  · intro k op hop
    have := h3 k op hop
    simpa using this

/-- C45. `append` panics exactly if the vector of a new word has another dimension than those before. -/
theorem C45_append_panics (ops : List (List S × Text)) (hne : ∀ op ∈ ops, op.1 ≠ []) :
    runAppends PyEmbeddings.new ops = none ↔
      ∃ a ∈ firstPairs [] ops, ∃ b ∈ firstPairs [] ops, a.1.length ≠ b.1.length := by
  simpa using (appends_step ops _ [] lockStep_new hne).2

/-- C45. Appending a known word returns `false` and changes nothing, in any state and for any vector. -/
theorem C45_known_word (p : PyEmbeddings S) (words : List Text) (h : HoldsWords p.words words) (v : List S) (w : Text)
    (hw : w ∈ words) : p.append v w = some (p, false) := by
  rw [PyEmbeddings.append, h.push_known hw]

/-- C45. Looking up the words of a list of ids gives the ids back (if the words contain no white space); an id out of
range panics. The embedding of the text is the embedding of the ids. -/
theorem C45_lookup (d : WordDict) (words : List Text) (h : HoldsWords d words) (hw : ∀ w ∈ words, IsWord w)
    (ids : List Nat) :
    ((∀ i ∈ ids, i < words.length) → ∃ q, d.getWords ids = some q ∧ d.getWordIds q = ids ∧
      ∀ [Add S] [Zero S] (emb : FixVec S) (e : Elems),
        (⟨emb, d⟩ : PyEmbeddings S).getEmbedding q e = (⟨emb, e⟩ : SumEmb S).createEmbedding ids) ∧
    ((∃ i ∈ ids, words.length ≤ i) → d.getWords ids = none) := by
  constructor
  · intro hi
    have key : ∃ q, d.getWords ids = some q ∧ d.getWordIds q = ids := by
      cases ids with
      | nil => exact ⟨[], rfl, rfl⟩
      | cons i t =>
        have hlt := hi i (by simp)
        refine ⟨words.getD i [] ++ (t.flatMap fun i => ' ' :: words.getD i []), ?_, ?_⟩
        · rw [WordDict.getWords, h.list, List.getElem?_eq_getElem hlt]
          simp only
          rw [getWordsLoop_ok h.list t _ (fun j hj => hi j (by simp [hj]))]
          simp [hlt]
        · exact getWordIds_words h hw t i hi
    obtain ⟨q, h1, h2⟩ := key
    exact ⟨q, h1, h2, fun emb e => by rw [PyEmbeddings.getEmbedding]; simp only [h2]⟩
  · intro hi
    cases ids with
    | nil => simp at hi
    | cons i t =>
      rw [WordDict.getWords]
      rcases Option.eq_none_or_eq_some d.idToWord[i]? with hn | ⟨w, hs⟩
      · rw [hn]
      · rw [hs]
        simp only
        apply getWordsLoop_none
        obtain ⟨j, hj, hle⟩ := hi
        rcases List.mem_cons.1 hj with rfl | hj
        · rw [h.list, List.getElem?_eq_none hle] at hs; simp at hs
        · exact ⟨j, hj, by rw [h.list]; exact hle⟩

/-- C45. In a text of words separated by spaces, unknown words are skipped and known ones give their ids in order. -/
theorem C45_unknown_words_skipped (d : WordDict) (words : List Text) (h : HoldsWords d words) (w : Text) (hw : IsWord w)
    (rest : Text) :
    (∀ i : Nat, words[i]? = some w → d.getWordIds (w ++ ' ' :: rest) = i :: d.getWordIds rest) ∧
    (w ∉ words → d.getWordIds (w ++ ' ' :: rest) = d.getWordIds rest) := by
  unfold WordDict.getWordIds
  rw [(splitWs_word hw.1 hw.2).1, List.filterMap_cons]
  constructor
  · intro i hi
    rw [(h.ids w i).2 hi]
  · intro hn
    rcases Option.eq_none_or_eq_some (d.wordToId w) with hx | ⟨i, hi⟩
    · rw [hx]
    · exact absurd ((h.known w).1 ⟨i, hi⟩) hn

/-- C45. The excluded case: an empty vector takes a word but no embedding; from then on the embedding with the id of a
word belongs to the next word. -/
theorem C45_empty_vector_breaks_lockstep (v : List S) (hv : v ≠ []) :
    ∃ p : PyEmbeddings S, runAppends PyEmbeddings.new [([], ['a']), (v, ['b'])] = some (p, [true, true]) ∧
      p.len = 1 ∧ p.words.len = 2 ∧ p.words.getWordIds ['b'] = [1] ∧ p.embeddings.get 0 = some v ∧
      p.embeddings.get 1 = none := by
  obtain ⟨e, h1, h2⟩ := FixRepr.push_new (x := v) (List.length_pos_iff.2 hv)
  refine ⟨⟨e, ((WordDict.empty.push ['a']).1.push ['b']).1⟩, ?_, ?_, rfl, ?_, ?_, ?_⟩
  · have hp : (FixVec.new : FixVec S).push [] = some FixVec.new := rfl
    have hab : ((WordDict.empty.push ['a']).1.push ['b']).2 = true := rfl
    simp only [runAppends, PyEmbeddings.append, PyEmbeddings.new]
    have e1 : WordDict.empty.push ['a'] = ((WordDict.empty.push ['a']).1, true) := rfl
    rw [e1]
    simp only [hp]
    have e2 : (WordDict.empty.push ['a']).1.push ['b'] = (((WordDict.empty.push ['a']).1.push ['b']).1, true) := rfl
    rw [e2]
    simp only [h1]
  · rw [PyEmbeddings.len, h2.len_eq]; rfl
  · show ((WordDict.empty.push ['a']).1.push ['b']).1.getWordIds ['b'] = [1]
    decide +kernel
  · rw [h2.get_eq]; rfl
  · rw [h2.get_eq]; rfl

/-- C45. The other excluded case: a word with a space in it can be appended, but never found by its text. -/
theorem C45_word_with_space : ∃ (p : PyEmbeddings Nat), runAppends PyEmbeddings.new [([1], "a b".toList)] = some (p, [true]) ∧
    p.words.getWords [0] = some "a b".toList ∧ p.words.getWordIds "a b".toList = [] :=
  ⟨_, rfl, by decide +kernel, by decide +kernel⟩

/-- Non-vacuity: a repeated word, and a panic. -/
example : (runAppends (PyEmbeddings.new : PyEmbeddings Nat)
    [([1, 2], "x".toList), ([3, 4], "y".toList), ([5, 6], "x".toList), ([7, 8], "z".toList)]).map
      (fun r => (r.1.embeddings.data, r.1.words.idToWord, r.2)) =
    some ([1, 2, 3, 4, 7, 8], ["x".toList, "y".toList, "z".toList], [true, true, false, true]) ∧
    (runAppends (PyEmbeddings.new : PyEmbeddings Nat) [([1, 2], "x".toList), ([3], "y".toList)]).isNone = true := by
  decide +kernel

/-! ### C47 -/

/-- C47. An object grown by appends with non-empty vectors, saved to its two files, is loaded back with the same words
(any characters) and the same vectors; in particular all ids stay the same. -/
theorem C47_save_load [Scalar S] (ops : List (List S × Text)) (hne : ∀ op ∈ ops, op.1 ≠ []) (hop : ops ≠ [])
    (hdim : ∀ op ∈ ops, op.1.length < 2 ^ 64) (p : PyEmbeddings S) (res : List Bool)
    (h : runAppends PyEmbeddings.new ops = some (p, res)) :
    ∃ p', PyEmbeddings.load p.embeddings.bytes p.words.content = some p' ∧ p'.embeddings = p.embeddings ∧
      p'.words.idToWord = p.words.idToWord ∧ ∀ w : Text, p'.words.wordToId w = p.words.wordToId w := by
  obtain ⟨h1, _, _⟩ := (appends_step ops _ [] lockStep_new hne).1 p res h
  simp only [List.nil_append, List.map_nil] at h1
  obtain ⟨dim, hs, hpos⟩ := h1.shows
  obtain ⟨⟨v, w⟩, t, rfl⟩ : ∃ a t, ops = a :: t := List.exists_cons_of_ne_nil hop
  have hfp : firstPairs [] ((v, w) :: t) = (v, w) :: firstPairs [w] t := by rw [firstPairs, if_neg (by simp)]; rfl
  have hd : v.length = dim := hs.equalLength v (by rw [hfp]; simp)
  have hload := C30_write_load_partial p.embeddings dim _ hs (hpos (by rw [hfp]; simp))
    (by rw [← hd]; exact hdim (v, w) (by simp))
  obtain ⟨d', e1, hw'⟩ := h1.words.load
  refine ⟨⟨p.embeddings, d'⟩, by rw [PyEmbeddings.load, hload, e1], rfl, by rw [hw'.list, h1.words.list], ?_⟩
  intro x
  apply Option.ext
  intro i
  rw [hw'.ids, h1.words.ids]

/-- C47. The words file is read the same way by the parser of elements, so its ids are those of the object. -/
theorem C47_parser_agrees (d : WordDict) (words : List Text) (h : HoldsWords d words) :
    ∃ ids, parseWords d.content = some ids ∧ ∀ w : Text, ids w = d.wordToId w := by
  obtain ⟨d', e1, h'⟩ := h.load
  unfold WordDict.new at e1
  unfold parseWords
  rcases Option.eq_none_or_eq_some (seqOpt ((textLines d.content).map jsonString)) with hn | ⟨ws, hs⟩
  · rw [hn] at e1; simp at e1
  · rw [hs] at e1 ⊢
    refine ⟨_, rfl, fun w => ?_⟩
    have : collectIds 0 ws (fun _ => none) = d'.wordToId := by rw [← Option.some.inj e1]
    rw [this]
    apply Option.ext
    intro i
    rw [h'.ids, h.ids]

/-- C47. A words file that contains a word twice: the word gets the later id; the object has more ids than distinct
words. -/
theorem C47_duplicate_word_last_wins (words : List Text) (w : Text) (j : Nat) (hj : words[j]? = some w)
    (hlast : ∀ k : Nat, j < k → words[k]? ≠ some w) :
    ∃ d, WordDict.new (words.flatMap fun w => jsonQuote w ++ ['\n']) = some d ∧ d.wordToId w = some j ∧
      d.len = words.length := by
  refine ⟨⟨collectIds 0 words fun _ => none, words⟩, by rw [WordDict.new, lines_json], ?_, rfl⟩
  show collectIds 0 words (fun _ => none) w = _
  rw [collectIds_last words 0 _ j hj hlast, Nat.zero_add]

/-- C47. An object without embeddings cannot be loaded back: the file has dimension 0. -/
theorem C47_empty_does_not_load [Scalar S] :
    (PyEmbeddings.load (PyEmbeddings.new : PyEmbeddings S).embeddings.bytes
      (PyEmbeddings.new : PyEmbeddings S).words.content : Option (PyEmbeddings S)).isNone = true := by
  have : (FixVec.fromBytes (FixVec.new : FixVec S).bytes : Option (FixVec S)) = none := by
    have h := fix_load ([] : List S) 0 (by decide) [] (Scalar.size_pos (T := S))
    rw [List.append_nil] at h
    have hb : (FixVec.new : FixVec S).bytes = leBytes 8 0 ++ encodeAll ([] : List S) := rfl
    rw [hb, FixVec.fromBytes, h]
    simp
  rw [PyEmbeddings.load]
  have e : (PyEmbeddings.new : PyEmbeddings S).embeddings = FixVec.new := rfl
  rw [e, this]
  generalize WordDict.new (PyEmbeddings.new : PyEmbeddings S).words.content = x
  cases x <;> rfl

/-- Non-vacuity: words with quotes, control characters and line breaks. -/
example : (jsonString (jsonQuote ("a\"b\\c\n\t".toList ++ [Char.ofNat 1, 'é']))) =
    some ("a\"b\\c\n\t".toList ++ [Char.ofNat 1, 'é']) := by decide +kernel

/-! ### C48 -/

/-- C48. If parsing element files succeeds, every line of every file is a JSON string (`qs` are the strings), and
element `k` is the list of the ids of the known words of line `k`, the files counting in the order given. -/
theorem C48_parse (ids : Text → Option Nat) (parts : List Text) (e : Elems) (h : parseElements ids parts = some e) :
    ∃ qs : List Text, (parts.flatMap textLines).map jsonString = qs.map some ∧
      ShowsTerms (⟨FixVec.new, e⟩ : SumEmb S) (qs.map (lineIds ids)) := by
  obtain ⟨qs, h1, h2, _⟩ := parseElements_some h
  exact ⟨qs, h1, h2.len_eq, h2.get_eq⟩

/-- C48. It succeeds exactly if every line is a JSON string, the ids are below `2^24` and there are fewer than `2^40`
terms in total; otherwise it panics. -/
theorem C48_parse_succeeds_iff (ids : Text → Option Nat) (parts : List Text) :
    (∃ e, parseElements ids parts = some e) ↔
      ∃ qs : List Text, (parts.flatMap textLines).map jsonString = qs.map some ∧
        (∀ q ∈ qs, ∀ n ∈ lineIds ids q, n < 2 ^ 24) ∧ (qs.map (lineIds ids)).flatten.length < 2 ^ 40 := by
  constructor
  · rintro ⟨e, he⟩
    obtain ⟨qs, h1, h2, h3⟩ := parseElements_some he
    exact ⟨qs, h1, fun q hq n hn => h2.ids _ (List.mem_map.2 ⟨q, hq, rfl⟩) n hn, h3⟩
  · rintro ⟨qs, h1, h2, h3⟩
    obtain ⟨e, he, _⟩ := parseElements_ok h1 h2 h3
    exact ⟨e, he⟩

theorem afterColon_of_not_mem {t : Text} (h : ':' ∉ t) : afterColon t = t := by
  have h' : ∀ c ∈ t.reverse, (decide (c ≠ ':')) = true := ?_
  · have := List.takeWhile_append_of_pos (l₂ := []) h'
    rw [List.append_nil, List.takeWhile_nil, List.append_nil] at this
    rw [afterColon, this, List.reverse_reverse]
  intro c hc
  simp only [ne_eq, decide_not, Bool.not_eq_eq_eq_not, Bool.not_true, decide_eq_false_iff_not]
  rintro rfl
  exact h (by simpa using hc)

theorem afterColon_colon {t : Text} (h : ':' ∉ t) (pre : Text) : afterColon (pre ++ ':' :: t) = t := by
  have h' : ∀ c ∈ t.reverse, (decide (c ≠ ':')) = true := by
    intro c hc
    simp only [ne_eq, decide_not, Bool.not_eq_eq_eq_not, Bool.not_true, decide_eq_false_iff_not]
    rintro rfl
    exact h (by simpa using hc)
  rw [afterColon, List.reverse_append, List.reverse_cons, List.append_assoc, List.takeWhile_append_of_pos h']
  simp

/-- C48. What a line stands for: a line `pre:w1 w2 ... wn` (or without `pre:`) of words of the dictionary stands for
their ids in order; whatever comes before the last colon is ignored. -/
theorem C48_line (d : WordDict) (words : List Text) (h : HoldsWords d words) (hw : ∀ w ∈ words, IsWord w ∧ ':' ∉ w)
    (is : List Nat) (hi : ∀ i ∈ is, i < words.length) (pre : Text) :
    ∃ q, d.getWords is = some q ∧ lineIds d.wordToId q = is ∧ lineIds d.wordToId (pre ++ ':' :: q) = is := by
  obtain ⟨q, h1, h2, _⟩ := (C45_lookup (S := Nat) d words h (fun w hx => (hw w hx).1) is).1 hi
  have hq : ':' ∉ q := by
    cases is with
    | nil => rw [WordDict.getWords] at h1; rw [← Option.some.inj h1]; simp
    | cons i t =>
      have hlt := hi i (by simp)
      rw [WordDict.getWords, h.list, List.getElem?_eq_getElem hlt] at h1
      simp only at h1
      rw [getWordsLoop_ok h.list t _ (fun j hj => hi j (by simp [hj]))] at h1
      rw [← Option.some.inj h1]
      intro hc
      rcases List.mem_append.1 hc with hc | hc
      · exact (hw _ (List.getElem_mem hlt)).2 hc
      · obtain ⟨j, hj, hc⟩ := List.mem_flatMap.1 hc
        rcases List.mem_cons.1 hc with hc | hc
        · exact absurd hc (by decide)
        · have hjl := hi j (by simp [hj])
          have e : words.getD j [] = words[j] := by simp [hjl]
          rw [e] at hc
          exact (hw _ (List.getElem_mem hjl)).2 hc
  refine ⟨q, h1, ?_, ?_⟩
  · rw [lineIds, afterColon_of_not_mem hq]; exact h2
  · rw [lineIds, afterColon_colon hq]; exact h2

/-- C48. Saving and loading: the file written by `parse_elements_and_save_to_disk` loads as the elements parsed, and
the number returned is their number. -/
theorem C48_save_load (wordsFile : Text) (parts : List Text) (b : Bytes) (n : Nat)
    (h : parseAndSave wordsFile parts = some (b, n)) (hn : n < 2 ^ 64) :
    ∃ (ids : Text → Option Nat) (qs : List Text) (e : Elems), parseWords wordsFile = some ids ∧ (parts.flatMap textLines).map jsonString = qs.map some ∧
      VarVec.fromBytes b = some e ∧ n = qs.length ∧
      ShowsTerms (⟨FixVec.new, e⟩ : SumEmb S) (qs.map (lineIds ids)) := by
  unfold parseAndSave at h
  rcases Option.eq_none_or_eq_some (parseWords wordsFile) with hx | ⟨ids, hids⟩
  · rw [hx] at h; simp at h
  · rw [hids] at h
    simp only at h
    rcases Option.eq_none_or_eq_some (parseElements ids parts) with hx | ⟨e, he⟩
    · rw [hx] at h; simp at h
    · rw [he] at h
      obtain ⟨rfl, rfl⟩ := Prod.mk.inj (Option.some.inj h)
      obtain ⟨qs, h1, h2, _⟩ := parseElements_some he
      have hl := h2.len_eq
      rw [List.length_map] at hl
      exact ⟨ids, qs, e, hids, h1, h2.rows.fromBytes_bytes (by rw [List.length_map, List.length_map, ← hl]; exact hn), hl,
        h2.len_eq, h2.get_eq⟩

/-- Non-vacuity: a query log with a prefix, an unknown word, an empty line is not JSON. -/
example : ((parseElements (collectIds 0 ["new".toList, "york".toList] fun _ => none)
      ["\"12:34:new  york\"\r\n\"york times\"".toList, "\"\"\n".toList]).map fun e =>
        (List.range e.len).map fun i => (e.get i).map fun l => l.map idInto) =
    some [some [0, 1], some [1], some []] ∧
    (parseElements (fun _ => none) ["\"a\"\n\n".toList]).isNone = true := by decide +kernel

/-! ### C34 -/

/-- The files of the shards hold the groups of elements, in order. -/
def ShardFiles (files : List Bytes) (groups : List (List (List Nat))) : Prop :=
  List.Forall₂ (fun file g => ∃ r : Elems, VarVec.fromBytes file = some r ∧
    ShowsTerms (⟨FixVec.new, r⟩ : SumEmb Nat) g) files groups

theorem shardFiles_of {ws : List Elems} {terms : List (List Nat)} (hids : ∀ t ∈ terms, ∀ n ∈ t, n < 2 ^ 24)
    (hlen : terms.length < 2 ^ 64) (k c : Nat)
    (h : List.Forall₂ VarRepr ws ((List.range k).map fun i => ((terms.map fun t => t.map encId).drop ((0 + i) * c)).take
      (min ((0 + i + 1) * c) (terms.map fun t => t.map encId).length - (0 + i) * c))) :
    ShardFiles (ws.map VarVec.bytes) ((List.range k).map fun i =>
      (terms.drop (i * c)).take (min ((i + 1) * c) terms.length - i * c)) := by
  simp only [Nat.zero_add, List.length_map] at h
  rw [ShardFiles, List.forall₂_map_left_iff, List.forall₂_map_right_iff]
  rw [List.forall₂_map_right_iff] at h
  refine h.imp ?_
  intro w i hw
  have hT : TermRepr w ((terms.drop (i * c)).take (min ((i + 1) * c) terms.length - i * c)) :=
    ⟨by rw [List.map_take, List.map_drop]; exact hw,
      fun t ht => hids t (List.mem_of_mem_drop (List.mem_of_mem_take ht))⟩
  refine ⟨w, hw.fromBytes_bytes ?_, hT.len_eq, hT.get_eq⟩
  rw [List.length_take, List.length_drop, List.length_map]
  omega

/-- C34 (partial). Splitting `n` elements into `s` shards of `ceil (n/s)`: the call succeeds exactly if the last shard
begins at or before the end, and then the `s` files hold every element exactly once, in order, at most `ceil (n/s)` in
each. Otherwise the call panics; the files written before still hold every element exactly once, in order (the panic
leaves one empty file behind, and the remaining shards have no file). Missing from the property: success for all `n`
and `s`, which is false. -/
theorem C34_shards_partial (ids : Text → Option Nat) (parts : List Text) (e : Elems)
    (h : parseElements ids parts = some e) (terms : List (List Nat))
    (ht : ShowsTerms (⟨FixVec.new, e⟩ : SumEmb Nat) terms) (hlen : terms.length < 2 ^ 64) (s : Nat) (hs : 0 < s) :
    ∃ files groups, groups.flatten = terms ∧ ShardFiles files groups ∧
      (∀ g ∈ groups, g.length ≤ (terms.length + s - 1) / s) ∧
      ((s - 1) * ((terms.length + s - 1) / s) ≤ terms.length → saveShards e s = (files, true) ∧ files.length = s) ∧
      (terms.length < (s - 1) * ((terms.length + s - 1) / s) →
        saveShards e s = (files ++ [[]], false) ∧ files.length < s) := by
  obtain ⟨qs, _, hT, _⟩ := parseElements_some h
  obtain rfl : qs.map (lineIds ids) = terms := List.ext_getElem? fun i => by rw [← ht.get, ← hT.get_eq]; rfl
  generalize qs.map (lineIds ids) = terms at *
  set c := shardSize terms.length s with hc
  have hc' : (terms.length + s - 1) / s = c := rfl
  rw [hc']
  have hcov : terms.length ≤ s * c := shardSize_covers _ _ hs
  have hsave : saveShards e s = shardLoop e c s 0 := by rw [saveShards, if_neg (by omega), hT.len_eq]
  have hgl : ∀ k : Nat, ∀ g ∈ (List.range k).map fun i =>
      (terms.drop (i * c)).take (min ((i + 1) * c) terms.length - i * c), g.length ≤ c := by
    intro k g hg
    obtain ⟨i, _, rfl⟩ := List.mem_map.1 hg
    rw [List.length_take, Nat.add_mul]
    omega
  by_cases hfit : (s - 1) * c ≤ terms.length
  · obtain ⟨ws, h1, h2⟩ := shardLoop_ok hT.rows c s 0 (fun i hi => by
      rw [List.length_map, Nat.zero_add]
      exact Nat.le_trans (Nat.mul_le_mul_right c (by omega)) hfit)
    refine ⟨ws.map VarVec.bytes, _, ?_, shardFiles_of hT.ids hlen s c h2, hgl s, ?_, fun hn => absurd hfit (by omega)⟩
    · rw [slices_flatten, List.take_of_length_le hcov]
    · intro _
      refine ⟨by rw [hsave, h1], ?_⟩
      rw [List.length_map, h2.length_eq]
      simp
  · have hcpos : 0 < c := by
      rcases Nat.eq_zero_or_pos c with h0 | h0
      · rw [h0] at hfit; simp at hfit
      · exact h0
    have hdm := Nat.div_add_mod terms.length c
    have hml := Nat.mod_lt terms.length hcpos
    set k := terms.length / c + 1 with hk
    have hlt : terms.length < k * c := by rw [hk, Nat.add_mul, Nat.one_mul, Nat.mul_comm]; omega
    have hks : k < s := by
      by_contra hge
      have h1 : (s - 1) * c ≤ (k - 1) * c := Nat.mul_le_mul_right c (by omega)
      have h2 : (k - 1) * c ≤ terms.length := by
        rw [hk, Nat.add_sub_cancel, Nat.mul_comm]; omega
      omega
    obtain ⟨ws, h1, h2⟩ := shardLoop_fail hT.rows c k s 0 hks (fun i hi => by
      rw [List.length_map, Nat.zero_add]
      have h1 : i * c ≤ (k - 1) * c := Nat.mul_le_mul_right c (by omega)
      have h2 : (k - 1) * c ≤ terms.length := by
        rw [hk, Nat.add_sub_cancel, Nat.mul_comm]; omega
      omega) (by rw [List.length_map, Nat.zero_add]; exact hlt)
    refine ⟨ws.map VarVec.bytes, _, ?_, shardFiles_of hT.ids hlen k c h2, hgl k, fun hn => absurd hn hfit, ?_⟩
    · rw [slices_flatten, List.take_of_length_le (by omega)]
    · intro _
      refine ⟨by rw [hsave, h1], ?_⟩
      rw [List.length_map, h2.length_eq]
      simpa using hks

/-- C34. Enough elements suffice: with `(s - 1)^2` or more elements the condition of `C34_shards_partial` holds. -/
theorem C34_enough_elements (n s : Nat) (hs : 0 < s) (h : (s - 1) * (s - 1) ≤ n) :
    (s - 1) * ((n + s - 1) / s) ≤ n := by
  obtain ⟨t, rfl⟩ : ∃ t, s = t + 1 := ⟨s - 1, by omega⟩
  simp only [Nat.add_sub_cancel] at h ⊢
  have h1 := Nat.div_mul_le_self (n + (t + 1) - 1) (t + 1)
  have e : n + (t + 1) - 1 = n + t := by omega
  rw [e] at h1 ⊢
  generalize (n + t) / (t + 1) = q at *
  by_contra hc
  push Not at hc
  have h2 : (n + 1) * (t + 1) ≤ t * q * (t + 1) := Nat.mul_le_mul_right _ hc
  have h3 : t * (q * (t + 1)) ≤ t * (n + t) := Nat.mul_le_mul_left _ h1
  have h4 : t * q * (t + 1) = t * (q * (t + 1)) := Nat.mul_assoc _ _ _
  have h5 : (n + 1) * (t + 1) = n * t + n + t + 1 := by ring
  have h6 : t * (n + t) = n * t + t * t := by ring
  omega

/-- C34. The negation: 10 elements in 7 shards, and 0 shards, panic. -/
theorem C34_panics (ids : Text → Option Nat) (parts : List Text) (e : Elems)
    (h : parseElements ids parts = some e) (hn : e.len = 10) :
    (saveShards e 7).2 = false ∧ (saveShards e 0).2 = false := by
  refine ⟨?_, rfl⟩
  obtain ⟨qs, _, hT, _⟩ := parseElements_some h
  have hl := hT.len_eq
  rw [hn] at hl
  obtain ⟨files, groups, _, _, _, _, hf⟩ := C34_shards_partial ids parts e h (qs.map (lineIds ids))
    ⟨hT.len_eq, hT.get_eq⟩ (by omega) 7 (by decide)
  rw [(hf (by rw [← hl]; decide)).1]

/-- Non-vacuity: ten elements, split into 4 and into 7 shards. -/
example : ((parseElements (collectIds 0 ["a".toList, "b".toList] fun _ => none)
      ["\"a\"\n\"b\"\n\"a b\"\n\"\"\n\"b b\"\n\"a\"\n\"b\"\n\"a b\"\n\"\"\n\"b b\"\n".toList]).map fun e =>
      (((saveShards e 4).1.map fun f => ((VarVec.fromBytes f : Option Elems).map VarVec.len), (saveShards e 4).2),
       ((saveShards e 7).1.map fun f => ((VarVec.fromBytes f : Option Elems).map VarVec.len), (saveShards e 7).2))) =
    some (([some 3, some 3, some 3, some 1], true),
      ([some 2, some 2, some 2, some 2, some 2, some 0, none], false)) := by decide +kernel

/-! ### C35 -/

/-- C35. For every number of elements (at least one): if element `i` has the quantised embedding `rows[i]` and all have
the same dimension, the file written in 100 chunks is loaded as exactly these vectors, one per element, in order. -/
theorem C35_chunks (rows : List (List UInt8)) (dim : Nat) (hd : 0 < dim) (hd' : dim < 2 ^ 64)
    (hr : ∀ r ∈ rows, r.length = dim) (hne : rows ≠ []) :
    ∃ b v, embeddingFile rows.length (fun i : Nat => rows[i]?) = some b ∧ FixVec.fromBytes b = some v ∧
      ShowsVectors v dim rows := by
  have hv : FixRepr (⟨rows.flatten, dim⟩ : FixVec UInt8) dim rows := ⟨hd, rfl, rfl, hr⟩
  have h2 := C30_write_load_partial _ dim rows hv.shows hd hd'
  rw [FixVec.bytes] at h2
  exact ⟨_, _, embeddingFile_eq hd hr hne, h2, hv.shows⟩

theorem embeddingFile_congr {n : Nat} {f g : Nat → Option (List UInt8)} (h : ∀ i < n, f i = g i) :
    embeddingFile n f = embeddingFile n g := by
  have : ∀ i : Nat, embeddingChunk n f i = embeddingChunk n g i := by
    intro i
    rw [embeddingChunk, embeddingChunk]
    have : ∀ b e : Nat, e ≤ n → (rangeFromTo b e).map f = (rangeFromTo b e).map g := by
      intro b e he
      apply List.map_congr_left
      intro j hj
      obtain ⟨k, hk, rfl⟩ := List.mem_map.1 hj
      exact h _ (by have := List.mem_range.1 hk; omega)
    rw [this _ _ (by omega)]
  rw [embeddingFile, embeddingFile, funext this]

/-- C35. `compute_embeddings_and_save_to_disk`: if the embedding of every element can be computed and quantised (no
unknown term, no NaN), the file is loaded as one vector per element, vector `i` being the quantised embedding of
element `i`. This holds whatever the arithmetic is. -/
theorem C35_compute {F : Type} [FloatOps F] [Add F] [Zero F] (s : SumEmb F) (dim : Nat) (hd : 0 < dim)
    (hd' : dim < 2 ^ 64) (hn : 0 < s.len)
    (hq : ∀ i : Nat, i < s.len → ∃ v q, s.getEmbedding i = some v ∧ quantize v = some q ∧ v.length = dim) :
    ∃ b v rows, computeEmbeddings s = some b ∧ FixVec.fromBytes b = some v ∧ ShowsVectors v dim rows ∧
      rows.length = s.len ∧
      ∀ (i : Nat) (x : List F) (q : List Int), i < s.len → s.getEmbedding i = some x → quantize x = some q →
        rows[i]? = some (q.map i8Bits) := by
  have hex : ∀ i : Nat, ∃ r : List UInt8, i < s.len → (∃ v q, s.getEmbedding i = some v ∧ quantize v = some q ∧
      r = q.map i8Bits) ∧ r.length = dim := by
    intro i
    by_cases hi : i < s.len
    · obtain ⟨v, q, h1, h2, h3⟩ := hq i hi
      refine ⟨q.map i8Bits, fun _ => ⟨⟨v, q, h1, h2, rfl⟩, ?_⟩⟩
      rw [List.length_map, ← h3]
      unfold quantize at h2
      split at h2
      · simp at h2
      · rw [← Option.some.inj h2]; simp
    · exact ⟨[], fun hc => absurd hc hi⟩
  choose f hf using hex
  have hlen : ((List.range s.len).map f).length = s.len := by simp
  obtain ⟨b, v, h1, h2, h3⟩ := C35_chunks ((List.range s.len).map f) dim hd hd' (by
    intro r hr
    obtain ⟨i, hi, rfl⟩ := List.mem_map.1 hr
    exact (hf i (List.mem_range.1 hi)).2) (by
    intro h0
    have := congrArg List.length h0
    rw [hlen] at this
    simp at this
    omega)
  have hrow : ∀ i : Nat, i < s.len → ((List.range s.len).map f)[i]? = some (f i) := by
    intro i hi
    rw [List.getElem?_map, List.getElem?_range hi]; rfl
  refine ⟨b, v, _, ?_, h2, h3, hlen, ?_⟩
  · rw [← h1, hlen, computeEmbeddings]
    apply embeddingFile_congr
    intro i hi
    obtain ⟨⟨x, q, e1, e2, e3⟩, _⟩ := hf i hi
    rw [hrow i hi, e1]
    simp only [e2, e3]
  · intro i x q hi hx hqx
    obtain ⟨⟨x', q', e1, e2, e3⟩, _⟩ := hf i hi
    rw [hx] at e1
    obtain rfl := Option.some.inj e1
    rw [hqx] at e2
    obtain rfl := Option.some.inj e2
    rw [hrow i hi, e3]

/-- C35. With no elements the file has dimension 0 and does not load. -/
theorem C35_no_elements (vec : Nat → Option (List UInt8)) :
    ∃ b, embeddingFile 0 vec = some b ∧ (FixVec.fromBytes b : Option (FixVec UInt8)) = none := by
  have hchunk : ∀ i : Nat, embeddingChunk 0 vec i = some (if i = 0 then leBytes 8 0 else []) := by
    intro i
    rw [embeddingChunk]
    have : rangeFromTo (i * ((0 + 100 - 1) / 100)) (min ((i + 1) * ((0 + 100 - 1) / 100)) 0) = [] := by
      simp [rangeFromTo]
    simp only [this, List.map_nil, seqOpt, FixVec.pushAll]
    by_cases hi : i = 0
    · rw [if_pos hi, if_pos hi]; rfl
    · rw [if_neg hi, if_neg hi]; rfl
  refine ⟨leBytes 8 0, ?_, by decide +kernel⟩
  have : (List.range 100).map (embeddingChunk 0 vec) =
      ((List.range 100).map fun i => if i = 0 then leBytes 8 0 else []).map some := by
    rw [List.map_map]
    exact List.map_congr_left fun i _ => hchunk i
  rw [embeddingFile, seqOpt_some this]
  simp only
  decide +kernel

/-- Non-vacuity: three elements in 100 chunks (97 of them empty). -/
example : embeddingFile 3 (fun i : Nat => [[1, 2], [3, 4], [5, 6]][i]?) =
    some [2, 0, 0, 0, 0, 0, 0, 0, 1, 2, 3, 4, 5, 6] := by decide +kernel

theorem i8OfByte_i8Bits {v : Int} (h1 : -128 ≤ v) (h2 : v ≤ 127) : i8OfByte (i8Bits v) = v := by
  unfold i8OfByte i8Bits
  have h : (v % 256).toNat < 256 := by omega
  rw [UInt8.toNat_ofNat', Nat.mod_eq_of_lt h]
  by_cases hv : 0 ≤ v
  · rw [if_pos (by omega)]; omega
  · rw [if_neg (by omega)]; omega

theorem toI8_range (x : F32) : -128 ≤ FloatOps.toI8 x ∧ FloatOps.toI8 x ≤ 127 := by
  cases x with
  | nan => exact ⟨by decide, by decide⟩
  | inf s => cases s <;> exact ⟨by decide, by decide⟩
  | fin a =>
    change -128 ≤ truncI8 a ∧ truncI8 a ≤ 127
    unfold truncI8
    omega

/-- C35. With 32-bit floats: the bytes of vector `i`, read as `i8` (two's complement), are the quantised embedding of element `i`. -/
theorem C35_compute_values (s : SumEmb F32) (dim : Nat) (hd : 0 < dim) (hd' : dim < 2 ^ 64) (hn : 0 < s.len)
    (hq : ∀ i : Nat, i < s.len → ∃ v q, s.getEmbedding i = some v ∧ quantize v = some q ∧ v.length = dim) :
    ∃ b v rows, computeEmbeddings s = some b ∧ FixVec.fromBytes b = some v ∧ ShowsVectors v dim rows ∧ rows.length = s.len ∧
      ∀ (i : Nat) (x : List F32), i < s.len → s.getEmbedding i = some x →
        ∃ row, rows[i]? = some row ∧ quantize x = some (row.map i8OfByte) := by
  obtain ⟨b, v, rows, h1, h2, h3, h4, h5⟩ := C35_compute s dim hd hd' hn hq
  refine ⟨b, v, rows, h1, h2, h3, h4, fun i x hi hx => ?_⟩
  obtain ⟨x', q, hx', hqx, _⟩ := hq i hi
  rw [hx] at hx'
  obtain rfl := Option.some.inj hx'
  refine ⟨_, h5 i x q hi hx hqx, ?_⟩
  rw [hqx, List.map_map]
  have hr : ∀ v ∈ q, -128 ≤ v ∧ v ≤ 127 := by
    unfold quantize at hqx
    split at hqx
    · cases hqx
    · rw [← Option.some.inj hqx]
      intro v hv
      obtain ⟨y, _, rfl⟩ := List.mem_map.1 hv
      exact toI8_range _
  rw [show q.map (i8OfByte ∘ i8Bits) = q.map id from List.map_congr_left fun v hv => i8OfByte_i8Bits (hr v hv).1 (hr v hv).2,
    List.map_id]

end Granne
