import Verif.Proofs.PyTextBuilder

/-!
C65: builders and indexes over texts in Python sessions.

`TextBuilder srt P pairs c reads w h texts` (Spec/PyText): in state `w`, object `h` is a builder over texts, to which `texts`
were appended (newly created, or resumed from files). `TextSaved srt P pairs ip xp h wi w texts`: index and elements of such
a builder are in the files `ip` and `xp`. `PairsSaved .. w ep wp pairs`: embeddings and words are in `ep` and `wp`.
-/
namespace Granne
open Spec

variable {srt : List (Nat × ℝ) → List (Nat × ℝ)} {P : PyConfig → Prop} {pairs : List (List UInt32 × Text)}

/-! ### Filling and building -/

theorem textBuilder_graph {w : TWorld} {h : Nat} {src : Src (FixVec UInt32)} {xs : Src Elems} {d : WordDict}
    {layers : List Layer} {cfg : BuildConfig ℝ} (ho : w.objects[h]? = some (.builder src xs d layers cfg)) (q : PyQuery)
    (hq : q ≠ .numElements) (a : TAnswer) :
    w.Answers h (.graph q) a ↔ ∃ b, (Layers.fixWidth layers).answer q = some b ∧ a = .graph b := by
  unfold TWorld.Answers
  simp only [ho, Option.some.injEq, exists_eq_left']
  cases q with
  | numElements => exact absurd rfl hq
  | _ => simp [TObj.Answers, TObj.layers]

theorem textBuilder_len {w : TWorld} {h : Nat} {src : Src (FixVec UInt32)} {xs : Src Elems} {d : WordDict}
    {layers : List Layer} {cfg : BuildConfig ℝ} (ho : w.objects[h]? = some (.builder src xs d layers cfg)) (a : TAnswer) :
    w.Answers h (.graph .len) a ↔ a = .graph (.num (lastLen layers)) := by
  rw [textBuilder_graph ho _ (by simp), fixWidth_len]
  simp

section
variable {c : PyConfig} {reads : List String} {w : TWorld} {h : Nat} {texts : List Text}

/-- C65. A builder over texts has as many elements as texts were appended. -/
theorem C65_num_elements (hsrt : IsSortByDist srt) (hP : ∀ c, P c → c.Good) (hs : SensiblePairs pairs)
    (hb : TextBuilder srt P pairs c reads w h texts) (a : TAnswer) :
    w.Answers h (.graph .numElements) a ↔ a = .graph (.num texts.length) := by
  obtain ⟨src, xs, d, e, x, vecs, layers, ha⟩ := hb.textAt hsrt hP hs
  unfold TWorld.Answers
  simp only [ha.object, Option.some.injEq, exists_eq_left', TObj.Answers, ha.elems]
  simp [ha.shape.len]

/-- C65. `append` returns exactly if there is room, no known word of the text is beyond the first `2^24` words, and all
texts together have less than `2^40` known words. -/
theorem C65_append_returns (hsrt : IsSortByDist srt) (hP : ∀ c, P c → c.Good) (hs : SensiblePairs pairs)
    (hb : TextBuilder srt P pairs c reads w h texts) (q : Text) :
    (∃ out w', TStep srt w (.append h q) out w') ↔
      texts.length < 4294967294 ∧
      (∀ (word : Text) (i : Nat), word ∈ splitWs q → (pairs.map Prod.snd)[i]? = some word → i < 2 ^ 24) ∧
      ((texts ++ [q]).map (knownWords (pairs.map Prod.snd))).flatten.length < 2 ^ 40 := by
  obtain ⟨src, xs, d, e, x, vecs, layers, ha⟩ := hb.textAt hsrt hP hs
  have hids : d.getWordIds q = wordIds (pairs.map Prod.snd) q := wordIds_dict (d := d) ha.lock.words q
  have hnd : (pairs.map Prod.snd).Nodup := ha.lock.words.nodup
  have hkl : ∀ q, (wordIds (pairs.map Prod.snd) q).length = (knownWords (pairs.map Prod.snd) q).length := by
    intro q
    rw [← wordIds_known hnd q, List.length_map]
  have hcount : ((texts ++ [q]).map (knownWords (pairs.map Prod.snd))).flatten.length =
      (texts.map (wordIds (pairs.map Prod.snd))).flatten.length + (wordIds (pairs.map Prod.snd) q).length := by
    simp only [List.length_flatten, List.map_map, List.map_append, List.map_cons, List.map_nil, List.sum_append,
      List.sum_cons, List.sum_nil, hkl, Nat.add_zero, Function.comp_def]
  have h24 : (∀ (word : Text) (i : Nat), word ∈ splitWs q → (pairs.map Prod.snd)[i]? = some word → i < 2 ^ 24) ↔
      ∀ n ∈ wordIds (pairs.map Prod.snd) q, n < 2 ^ 24 := by
    rw [← hids]
    constructor
    · intro hx n hn
      obtain ⟨word, hw, hn⟩ := List.mem_filterMap.1 hn
      exact hx word n hw ((ha.lock.words.ids word n).1 hn)
    · intro hx word i hw hi
      exact hx i (List.mem_filterMap.2 ⟨word, hw, (ha.lock.words.ids word i).2 hi⟩)
  have hlen : (sumOf FixVec.new x).len = texts.length := ha.shape.len
  have hpush : (∃ s, textPush (sumOf FixVec.new x) d q = some s) ↔ texts.length < 4294967294 ∧
      (∀ n ∈ wordIds (pairs.map Prod.snd) q, n < 2 ^ 24) ∧
      (texts.map (wordIds (pairs.map Prod.snd))).flatten.length + (wordIds (pairs.map Prod.snd) q).length < 2 ^ 40 := by
    unfold textPush
    rw [hlen, hids]
    have hU : UNUSED - 1 = 4294967294 := rfl
    rw [hU]
    by_cases hroom : texts.length < 4294967294
    · rw [if_pos hroom]
      constructor
      · rintro ⟨s, hp⟩
        refine ⟨hroom, ?_, ?_⟩
        · by_contra hx
          push Not at hx
          rw [SumEmb.push_big_id hx] at hp; cases hp
        · by_contra hx
          rw [SumEmb.push_too_many (s := sumOf FixVec.new x) ha.shape.terms (by omega)] at hp; cases hp
      · rintro ⟨_, h1, h2⟩
        obtain ⟨s', e1, _⟩ := SumEmb.push_ok (s := sumOf FixVec.new x) ha.shape.terms h1 h2
        exact ⟨s', e1⟩
    · rw [if_neg hroom]
      simp [hroom]
  rw [h24, hcount, ← hpush]
  constructor
  · rintro ⟨out, w', hst⟩
    cases hst with
    | append h q o o' e1 e2 =>
      rw [ha.object] at e1; cases e1
      simp only [TObj.appendText, ha.elems] at e2
      split at e2
      · next s hs => exact ⟨s, hs⟩
      · cases e2
  · rintro ⟨s, hp⟩
    exact ⟨_, _, .append w h q _ _ ha.object (by simp only [TObj.appendText, ha.elems, hp]; rfl)⟩

/-- C65. `build(num)` (all elements: `2^64 - 1`) with a number between the number of elements indexed so far and the
number of elements returns, under no schedule of the workers panics, and afterwards `len` is that number. -/
theorem C65_build (hsrt : IsSortByDist srt) (hP : ∀ c, P c → c.Good) (hs : SensiblePairs pairs)
    (hb : TextBuilder srt P pairs c reads w h texts) (num indexed n : Nat)
    (hidx : w.Answers h (.graph .len) (.graph (.num indexed))) (hn : n = if num = 2 ^ 64 - 1 then texts.length else num)
    (h1 : indexed ≤ n) (h2 : n ≤ texts.length) :
    (∃ out w', TStep srt w (.build h num) out w') ∧
    (∀ o, w.objects[h]? = some o → ¬ o.BuildPanics srt w.files num) ∧
    ∀ out w', TStep srt w (.build h num) out w' → ∀ a, w'.Answers h (.graph .len) a ↔ a = .graph (.num n) := by
  obtain ⟨src, xs, d, e, x, vecs, layers, ha⟩ := hb.textAt hsrt hP hs
  obtain ⟨hc, _, _⟩ := (hP c ha.shape.config).config
  have hlast : indexed = lastLen layers := by simpa using (textBuilder_len ha.object _).1 hidx
  have hreach := ha.shape.reach.reachable
  have hlt := (List.getElem?_eq_some_iff.1 ha.object).1
  have hel : (angularElements (vecs.map normalize)).data.length = texts.length := by
    simp only [angularElements, List.length_map, ha.shape.vlen]
  have hnum : (if num = 2 ^ 64 - 1 then (angularElements (vecs.map normalize)).data.length else num) = n := by rw [hn, hel]
  refine ⟨?_, ?_, ?_⟩
  · obtain ⟨b', hb'⟩ := C18_has_outcome hsrt _ hreach hc n (by simp only; omega) (by rw [hel]; exact h2)
    exact ⟨_, _, .build w h num _ _ ha.object ⟨_, b', ha.elements, by rw [hnum]; exact hb', rfl⟩⟩
  · intro o ho
    rw [ha.object] at ho; cases ho
    rintro (hx | ⟨es, hx, hp⟩)
    · rw [ha.elements] at hx; cases hx
    · rw [ha.elements] at hx; cases hx
      rw [hnum] at hp
      exact C18_no_panic hsrt _ hreach hc n (by simp only; omega) (by rw [hel]; exact h2) hp
  · intro out w' hst a
    cases hst with
    | build h' num o o' e1 e2 =>
      rw [ha.object] at e1; cases e1
      obtain ⟨es, b', e3, e4, rfl⟩ := e2
      rw [ha.elements] at e3; cases e3
      rw [hnum] at e4
      have hx : lastLen b'.layers = n := by
        by_cases h0 : n = 0
        · have := (C14_build_partial_exact hsrt _ hreach hc n _ e4).1 h0
          cases this
          simp only; omega
        · obtain ⟨b'', e, hx, _⟩ := (C14_build_partial_exact hsrt _ hreach hc n _ e4).2.2 h0 (by simp only; omega)
            (by rw [hel]; exact h2)
          cases e; exact hx
      rw [textBuilder_len (src := src) (xs := xs) (d := d) (layers := b'.layers) (cfg := c.config)
        (by simp only; rw [List.getElem?_set_self hlt]), hx]

/-- C65. Saving the elements returns unless the file is one of those the builder reads; saving the index returns if there
are at most 19 layers. -/
theorem C65_save_returns (hsrt : IsSortByDist srt) (hP : ∀ c, P c → c.Good) (hs : SensiblePairs pairs)
    (hb : TextBuilder srt P pairs c reads w h texts) (path : String) :
    (path ∉ reads → ∃ out w', TStep srt w (.saveElements h path) out w') ∧
    ∀ n, w.Answers h (.graph .numLayers) (.graph (.num n)) → n ≤ 19 →
      ∃ out w', TStep srt w (.saveIndex h path) out w' := by
  obtain ⟨src, xs, d, e, x, vecs, layers, ha⟩ := hb.textAt hsrt hP hs
  obtain ⟨hc, _, _⟩ := (hP c ha.shape.config).config
  constructor
  · intro hpath
    have : xs.terms (w.files.put path []) = some x := by
      rw [Src.terms_congr (files := w.files), ha.elems]
      intro p hp
      exact put_ne fun hx => hpath (hx ▸ ha.reads2 p hp)
    exact ⟨_, _, .saveElements w h path _ _ ha.object (by
      simp only [TObj.saveElements, TObj.elementBytes, this, Option.map_some]; rfl)⟩
  · intro n hn h19
    have hn' : n = layers.length := by
      rw [textBuilder_graph ha.object _ (by simp)] at hn
      obtain ⟨b, hb, he⟩ := hn
      simp only [Layers.answer, Layers.num, Option.some.injEq] at hb
      subst hb
      simpa using he
    have hsv := C06_builder_save_returns hsrt _ ha.shape.reach.reachable hc (by simp only; omega) [] 0
    exact ⟨_, _, .saveIndex w h path _ _ ha.object (Prod.ext rfl hsv)⟩

end

/-! ### Opening -/

/-- C65. From saved embeddings and words a builder can be created. -/
theorem C65_new_returns {w0 w : TWorld} {h : Nat} {ep wp : String} (hp : PairsSaved srt w0 h w ep wp pairs)
    (hs : SensiblePairs pairs) (c : PyConfig) : ∃ out w', TStep srt w (.newBuilder c none ep wp none) out w' := by
  obtain ⟨e, d, hf, _⟩ := hp.files hs.proper
  obtain ⟨o, ho⟩ := newTextBuilder_new (c := c) hf hs
  exact ⟨_, _, .newBuilder w c none ep wp none o ho⟩

section
variable {ip xp ep wp : String} {h hp : Nat} {wi w w0 : TWorld} {texts : List Text}

/-- C65, C21. A builder opened from the saved files, with any sensible configuration, is a builder with the same texts
(so the theorems above apply to it), and has the same layer sizes. -/
theorem C65_resume (hsrt : IsSortByDist srt) (hP : ∀ c, P c → c.Good) (hs : SensiblePairs pairs)
    (hsaved : TextSaved srt P pairs ip xp h wi w texts) (hpairs : PairsSaved srt w0 hp w ep wp pairs) (c : PyConfig) (hc : P c) :
    (∃ out w', TStep srt w (.newBuilder c (some xp) ep wp (some ip)) out w') ∧
    ∀ out w', TStep srt w (.newBuilder c (some xp) ep wp (some ip)) out w' →
      TextBuilder srt P pairs c [xp, ep] w' w.objects.length texts ∧
      (∀ a, w'.Answers w.objects.length (.graph .len) a ↔ wi.Answers h (.graph .len) a) ∧
      (∀ a, w'.Answers w.objects.length (.graph .numLayers) a ↔ wi.Answers h (.graph .numLayers) a) ∧
      ∀ l a, w'.Answers w.objects.length (.graph (.layerLen l)) a ↔ wi.Answers h (.graph (.layerLen l)) a := by
  obtain ⟨c0, reads, texts', src, xs, d, e, x, vecs, layers, vecs', x', f, ha, hf⟩ := hsaved.facts hsrt hP hs
  obtain ⟨e', d', hpf, _⟩ := hpairs.files hs.proper
  obtain ⟨d'', layers', hnew, hsame, hat⟩ := hf.resumed hsrt hP hc hpf hs
  refine ⟨⟨_, _, .newBuilder w c _ ep wp _ _ hnew⟩, fun out w' hst => ⟨?_, ?_⟩⟩
  · cases hsaved with
    | saved c0 reads wi we w texts between after hb hne hip h1 h2 h3 h4 =>
      have := TextBuilder.resumed c0 c reads ip xp ep wp wi we w0 w w' h hp texts between after [] hb hne hip h1 h2 h3 h4 hc
        hpairs (.cons _ _ _ _ _ _ hst (.nil _)) (by simp)
      simpa [textsTo] using this
  · obtain ⟨sh1, sh2⟩ := layers_same_shape hsame
    cases hst with
    | newBuilder c xp ep wp ip o ho =>
      rw [hnew] at ho; cases ho
      have hob := (hat w.objects).object
      refine ⟨fun a => ?_, fun a => ?_, fun l a => ?_⟩
      · rw [textBuilder_graph hob _ (by simp), textBuilder_graph ha.object _ (by simp)]
        simp only [Layers.answer, sh1, sh2]
      · rw [textBuilder_graph hob _ (by simp), textBuilder_graph ha.object _ (by simp)]
        simp only [Layers.answer, sh1]
      · rw [textBuilder_graph hob _ (by simp), textBuilder_graph ha.object _ (by simp)]
        simp only [Layers.answer, sh2]

/-- The opened index: its layers `vs` show the graph of the builder, with sorted neighbors. -/
theorem opened_text (hsrt : IsSortByDist srt) (hP : ∀ c, P c → c.Good) (hs : SensiblePairs pairs)
    (hsaved : TextSaved srt P pairs ip xp h wi w texts) (hpairs : PairsSaved srt w0 hp w ep wp pairs) :
    ∃ c layers vecs e x d vs gs lsrc esrc xsrc,
      openTextIndex w.files ip xp ep wp = some (.index lsrc esrc xsrc d) ∧
      lsrc.layers w.files = some (.compressed vs) ∧ esrc.embeddings w.files = some e ∧ xsrc.terms w.files = some x ∧
      LockStep (⟨e, d⟩ : PyEmbeddings UInt32) pairs ∧ TextShape srt P pairs c texts vecs e x layers ∧
      LayersSame layers vs ∧ (Layers.compressed vs).graphs = some gs ∧
      (∀ (es : Elements (List F32) ℝ) (q : List F32) (maxSearch k : Nat),
        search gs es q maxSearch k = search (layers.map fun l => graphOf l.rows) es q maxSearch k) ∧
      (∀ q a, q ≠ .numElements → (wi.Answers h (.graph q) a ↔ ∃ b, (Layers.fixWidth layers).answer q = some b ∧ a = .graph b)) := by
  obtain ⟨c, reads, texts', src, xs, d0, e0, x0, vecs0, layers, vecs, x, f, ha, hf⟩ := hsaved.facts hsrt hP hs
  obtain ⟨e, d1, hpf, _⟩ := hpairs.files hs.proper
  obtain rfl : e0 = e := ha.lock.unique hpf.lock
  obtain ⟨hc, h255, _⟩ := (hP c ha.shape.config).config
  obtain ⟨d, o1, o2, o3, o4⟩ := hpf.opens hs
  obtain ⟨t1, t2⟩ := hf.terms
  obtain ⟨hf0, vs, gs, l1, l2, l3, l4⟩ := saved_loaded hf.shape.reach.reachable hsrt hc h255 hf.saved (hf.small hsrt hc)
  have hopen : openTextIndex w.files ip xp ep wp =
      some (.index (.mapped ip f.length) (.mapped ep e0.bytes.length) (.mapped xp x.bytes.length) d) := by
    unfold openTextIndex
    rw [o1, o3, t1]
    simp only
    rw [mapFile_some hf.index hf0, hf.index]
    simp only
    rw [l1]
    simp only
    rcases Option.eq_none_or_eq_some vs.getLast? with hn | ⟨u, hu⟩
    · rw [hn]; rfl
    · have : ∃ n, u.len = some n := by
        obtain ⟨i, hi, rfl⟩ := List.getElem_of_mem (List.mem_of_getLast? hu)
        rcases forall₂_get? l2 i with ⟨_, e2⟩ | ⟨a, b, _, e2, h3, _⟩
        · rw [List.getElem?_eq_getElem hi] at e2; cases e2
        · rw [List.getElem?_eq_getElem hi] at e2; cases e2; exact ⟨_, h3⟩
      obtain ⟨n, hn⟩ := this
      rw [hu, Option.map_some, hn]
  refine ⟨c, layers, vecs, e0, x, d, vs, gs, _, _, _, hopen, ?_, o4, t2, o2, hf.shape, l2, l3, fun es q m k => l4 es q m k,
    fun q a hq => textBuilder_graph ha.object q hq a⟩
  unfold Src.layers
  simp only
  rw [mappedBytes_full hf.index]
  simp [l1]

/-- C65. Index and elements saved from a builder over texts can be opened, with the embeddings and words; the opened object
has the graph the builder had when the index was saved, and for every appended text an element: `get_internal_element`
returns the known words of the text, joined by spaces, and `get_element` the normalised embedding of the text (as any
`Embeddings` object with these pairs computes it). -/
theorem C65_open (hsrt : IsSortByDist srt) (hP : ∀ c, P c → c.Good) (hs : SensiblePairs pairs)
    (hsaved : TextSaved srt P pairs ip xp h wi w texts) (hpairs : PairsSaved srt w0 hp w ep wp pairs) :
    (∃ out w', TStep srt w (.openIndex ip xp ep wp) out w') ∧
    ∀ out w', TStep srt w (.openIndex ip xp ep wp) out w' →
      SameTextGraph wi h w' w.objects.length ∧
      (∀ i a, w'.Answers w.objects.length (.internalElement i) a ↔
        ∃ q, texts[i]? = some q ∧ a = .text (joinWords (knownWords (pairs.map Prod.snd) q))) ∧
      ∀ u k, HoldsPairs srt u k pairs → ∀ i a, w'.Answers w.objects.length (.element i) a ↔
        ∃ q v, texts[i]? = some q ∧ u.Answers k (.embedding (.text q)) (.vector v) ∧ a = .vector (normalize v) := by
  obtain ⟨c, layers, vecs, e, x, d, vs, gs, lsrc, esrc, xsrc, hopen, hl, he, hx, hlock, hsh, hsame, hgs, _, hB⟩ :=
    opened_text hsrt hP hs hsaved hpairs
  refine ⟨⟨_, _, .openIndex w ip xp ep wp _ hopen⟩, fun out w' hst => ?_⟩
  cases hst with
  | openIndex ip xp ep wp o ho =>
    rw [hopen] at ho; cases ho
    have hob : (w.objects ++ [TObj.index lsrc esrc xsrc d])[w.objects.length]? = some (.index lsrc esrc xsrc d) := by simp
    have ans : ∀ (q : PyQuery) (a : TAnswer), TWorld.Answers ⟨w.files, w.objects ++ [.index lsrc esrc xsrc d]⟩
        w.objects.length (.graph q) a ↔ ∃ b, (Layers.compressed vs).answer q = some b ∧ a = .graph b := by
      intro q a
      unfold TWorld.Answers
      simp [TObj.Answers, TObj.layers, hl]
    have hterms : ∀ (y : FixVec UInt32) (i : Nat), (sumOf y x).getTerms i = (texts.map (wordIds (pairs.map Prod.snd)))[i]? :=
      fun y i => hsh.terms.get_eq i
    refine ⟨⟨fun a => ?_, fun a => ?_, fun l a => ?_, fun i l ns hn a => ?_⟩, fun i a => ?_, fun u k hu i a => ?_⟩
    · rw [hB _ _ (by simp), ans]
      simp only [Layers.answer, hsame.num, hsame.layerLen]
    · rw [hB _ _ (by simp), ans]
      simp only [Layers.answer, hsame.num]
    · rw [hB _ _ (by simp), ans]
      simp only [Layers.answer, hsame.layerLen]
    · rw [hB _ _ (by simp)] at hn
      rw [ans]
      obtain ⟨b, hb, he⟩ := hn
      cases he
      cases l with
      | some l =>
        simp only [Layers.answer, Option.map_eq_some_iff, PyAnswer.ids.injEq, exists_eq_right] at hb ⊢
        rw [hsame.neighbors hb]
        simp [sortIds]
      | none =>
        simp only [Layers.answer, hsame.num] at hb ⊢
        split at hb
        · cases hb
        · next h0 =>
          rw [if_neg h0]
          simp only [Option.map_eq_some_iff, PyAnswer.ids.injEq, exists_eq_right] at hb
          rw [hsame.neighbors hb]
          simp [sortIds]
    · have hj : ∀ q, d.getWords (wordIds (pairs.map Prod.snd) q) = some (joinWords (knownWords (pairs.map Prod.snd) q)) := by
        intro q
        have hd : HoldsWords d (pairs.map Prod.snd) := hlock.words
        rw [getWords_join hd _ (wordIds_bound _ q), wordIds_known hd.nodup]
      unfold TWorld.Answers
      simp only [hob, Option.some.injEq, exists_eq_left', TObj.Answers, hx]
      constructor
      · rintro ⟨_, ids, t, rfl, h1, h2, rfl⟩
        rw [hterms, List.getElem?_map, Option.map_eq_some_iff] at h1
        obtain ⟨q, hq, rfl⟩ := h1
        rw [hj] at h2; cases h2
        exact ⟨q, hq, rfl⟩
      · rintro ⟨q, hq, rfl⟩
        exact ⟨x, _, _, rfl, by rw [hterms, List.getElem?_map, hq]; rfl, hj q, rfl⟩
    · obtain ⟨ep', src', e', d', ho', he', _, hl'⟩ := hu.embAt hs.proper
      obtain rfl : e = e' := hlock.unique hl'
      have hans : ∀ q v, u.Answers k (.embedding (.text q)) (.vector v) ↔ sumVec e (wordIds (pairs.map Prod.snd) q) = some v := by
        intro q v
        have : getEmbedding e d' (.text q) = sumVec e (wordIds (pairs.map Prod.snd) q) := by
          rw [sumVec, getEmbedding, getEmbedding, ← wordIds_dict (d := d') hl'.words]
        unfold TWorld.Answers
        simp [ho', TObj.Answers, he', this]
      have hel : ∀ r, sumElement (sumOf e x) i = some r ↔ ∃ q v, texts[i]? = some q ∧
          sumVec e (wordIds (pairs.map Prod.snd) q) = some v ∧ r = normalize v := by
        intro r
        rw [sumElement, getEmbedding_terms, hterms, List.getElem?_map]
        rcases Option.eq_none_or_eq_some texts[i]? with hn | ⟨q, hq⟩
        · simp [hn]
        · simp [hq, sumVec_create, eq_comm]
      unfold TWorld.Answers
      simp only [hob, Option.some.injEq, exists_eq_left', TObj.Answers, hx, he]
      constructor
      · rintro ⟨_, _, r, rfl, rfl, h1, rfl⟩
        obtain ⟨q, v, h2, h3, rfl⟩ := (hel r).1 h1
        exact ⟨q, v, h2, (hans q v).2 h3, rfl⟩
      · rintro ⟨q, v, h1, h2, rfl⟩
        exact ⟨e, x, _, rfl, rfl, (hel _).2 ⟨q, v, h1, (hans q v).1 h2, rfl⟩, rfl⟩

/-! ### Searching -/

/-- The exact sum of the embeddings of the known words of a text. -/
noncomputable def textSum (emb : List (List ℝ)) (dim : Nat) (words : List Text) (q : Text) : List ℝ :=
  exactSum emb dim (wordIds words q)

/-- What is assumed of embeddings and texts: `emb` are the embeddings as real numbers, of a dimension that is modest, and
the embeddings of the known words of every text do not nearly cancel out (see `SumRange`; `τ` bounds the rounding errors
of the sums). -/
structure TextInput (pairs : List (List UInt32 × Text)) (emb : List (List ℝ)) (dim : Nat) (texts : List Text) (τ : ℝ) :
    Prop where
  decodes : List.Forall₂ Decodes (pairs.map Prod.fst) emb
  length : ∀ v ∈ emb, v.length = dim
  small : ModestDim dim
  range : ∀ q ∈ texts, SumRange emb dim (wordIds (pairs.map Prod.snd) q)
  error : ∀ q ∈ texts, sumError emb dim (wordIds (pairs.map Prod.snd) q) ≤ τ

theorem TextInput.sumInput' {emb : List (List ℝ)} {dim : Nat} {τ : ℝ} (hin : TextInput pairs emb dim texts τ)
    (hs : SensiblePairs pairs) {e : FixVec UInt32} {x : Elems} {d : WordDict}
    (hlock : LockStep (⟨e, d⟩ : PyEmbeddings UInt32) pairs)
    (hterms : TermRepr x (texts.map (wordIds (pairs.map Prod.snd)))) :
    SumInput (sumOf e x) emb dim (texts.map (wordIds (pairs.map Prod.snd))) := by
  obtain ⟨dim', hd, hdl, hsv⟩ := hlock.vectors hs.some_pair
  obtain ⟨p, hp⟩ := List.exists_mem_of_ne_nil _ hs.some_pair
  have hlen := hin.decodes.length_eq
  rw [List.length_map] at hlen
  have hdd : dim' = dim := by
    obtain ⟨i, hi, hpi⟩ := List.getElem_of_mem hp
    have hi' : i < emb.length := by omega
    obtain ⟨raw, h1, h2⟩ := forall₂_at hin.decodes (List.getElem?_eq_getElem hi')
    rw [List.getElem?_map, List.getElem?_eq_getElem hi, hpi, Option.map_some, Option.some.injEq] at h1
    subst h1
    have h3 := congrArg List.length h2
    rw [List.length_map, List.length_map, hdl p hp, hin.length _ (List.getElem_mem hi')] at h3
    exact h3
  subst hdd
  have hvec : pairVectors pairs = emb.map fun v => v.map F32.fin := by
    have : ∀ (raws : List (List UInt32)) (xs : List (List ℝ)), List.Forall₂ Decodes raws xs →
        raws.map (fun r => r.map F32.ofBits) = xs.map fun v => v.map F32.fin := by
      intro raws xs h
      induction h with
      | nil => rfl
      | cons h1 _ ih => rw [List.map_cons, List.map_cons, ih, h1]
    rw [← this _ _ hin.decodes, List.map_map]
    rfl
  refine ⟨hd, hin.small, ?_, ?_, ?_, ⟨?_, ?_⟩, ?_⟩
  · rintro rfl
    rw [List.length_nil, List.length_eq_zero_iff] at hlen
    exact hs.some_pair hlen
  · rw [← hvec]; exact hsv x
  · intro v hv a ha
    obtain ⟨i, hi, rfl⟩ := List.getElem_of_mem hv
    obtain ⟨raw, h1, h2⟩ := forall₂_at hin.decodes (List.getElem?_eq_getElem hi)
    have : F32.fin a ∈ raw.map F32.ofBits := by rw [h2]; exact List.mem_map_of_mem ha
    obtain ⟨u, _, hu⟩ := List.mem_map.1 this
    have := ofBits_rep u
    rw [hu] at this
    exact this.1
  · exact hterms.len_eq
  · exact fun i => hterms.get_eq i
  · intro ts hts
    obtain ⟨q, hq, rfl⟩ := List.mem_map.1 hts
    exact hin.range q hq

theorem TextInput.sumInput {emb : List (List ℝ)} {dim : Nat} {τ : ℝ} (hin : TextInput pairs emb dim texts τ)
    (hs : SensiblePairs pairs) {c : PyConfig} {vecs : List (List F32)} {e : FixVec UInt32} {x : Elems} {d : WordDict}
    {layers : List Layer} (hlock : LockStep (⟨e, d⟩ : PyEmbeddings UInt32) pairs)
    (hsh : TextShape srt P pairs c texts vecs e x layers) :
    SumInput (sumOf e x) emb dim (texts.map (wordIds (pairs.map Prod.snd))) := hin.sumInput' hs hlock hsh.terms

theorem TextShape.sumBuilder {emb : List (List ℝ)} {dim : Nat} {τ : ℝ} (hin : TextInput pairs emb dim texts τ)
    (hs : SensiblePairs pairs) (hP : ∀ c, P c → c.Good) {c : PyConfig} {vecs : List (List F32)} {e : FixVec UInt32} {x : Elems}
    {d : WordDict} {layers : List Layer} (hlock : LockStep (⟨e, d⟩ : PyEmbeddings UInt32) pairs)
    (hsh : TextShape srt P pairs c texts vecs e x layers) :
    SumBuilder srt (⟨angularElements (vecs.map normalize), layers, c.config⟩ : Builder (List F32) ℝ) (sumOf e x) emb dim
      (texts.map (wordIds (pairs.map Prod.snd))) := by
  obtain ⟨h1, _, h3⟩ := (hP c hsh.config).config
  exact ⟨hin.sumInput hs hlock hsh, hsh.reach.reachable, h1, h3, hsh.elements⟩

/-- What a search of the opened object computes. -/
theorem opened_text_search (hsrt : IsSortByDist srt) (hP : ∀ c, P c → c.Good) (hs : SensiblePairs pairs)
    (hsaved : TextSaved srt P pairs ip xp h wi w texts) (hpairs : PairsSaved srt w0 hp w ep wp pairs)
    {out : TOut} {w' : TWorld} (hst : TStep srt w (.openIndex ip xp ep wp) out w') :
    ∃ c layers vecs e x d, LockStep (⟨e, d⟩ : PyEmbeddings UInt32) pairs ∧ TextShape srt P pairs c texts vecs e x layers ∧
      (∀ a, wi.Answers h (.graph .len) a ↔ a = .graph (.num (lastLen layers))) ∧
      (∀ (q : Text) (maxSearch k : Nat) (a : TAnswer), w'.Answers w.objects.length (.search q maxSearch k) a ↔
        ∃ v r, (if q = [] then some [] else sumVec e (wordIds (pairs.map Prod.snd) q)) = some v ∧
          search (layers.map fun l => graphOf l.rows) (angularElements (vecs.map normalize)) (normalize v) maxSearch k =
            some r ∧ a = .found r) ∧
      ∀ (raw : List UInt32) (maxSearch k : Nat) (a : TAnswer),
        w'.Answers w.objects.length (.searchVector raw maxSearch k) a ↔ ∃ r,
          search (layers.map fun l => graphOf l.rows) (angularElements (vecs.map normalize)) (normalize (raw.map F32.ofBits))
            maxSearch k = some r ∧ a = .found r := by
  obtain ⟨c, layers, vecs, e, x, d, vs, gs, lsrc, esrc, xsrc, hopen, hl, he, hx, hlock, hsh, hsame, hgs, hsearch, hB⟩ :=
    opened_text hsrt hP hs hsaved hpairs
  cases hst with
  | openIndex ip xp ep wp o ho =>
    rw [hopen] at ho; cases ho
    have hob : (w.objects ++ [TObj.index lsrc esrc xsrc d])[w.objects.length]? = some (.index lsrc esrc xsrc d) := by simp
    refine ⟨c, layers, vecs, e, x, d, hlock, hsh, fun a => ?_, fun q maxSearch k a => ?_, fun raw maxSearch k a => ?_⟩
    · rw [hB _ _ (by simp), fixWidth_len]
      simp
    · have hq : (⟨.compressed vs, sumOf e x, d⟩ : TextIndex).queryVector q =
          (if q = [] then some [] else sumVec e (wordIds (pairs.map Prod.snd) q)).map normalize := by
        unfold TextIndex.queryVector
        split
        · rfl
        · simp only
          rw [sumVec_create, wordIds_dict (d := d) hlock.words]
      have hkey : ∀ r, (⟨.compressed vs, sumOf e x, d⟩ : TextIndex).search q maxSearch k = some r ↔
          ∃ v, (if q = [] then some [] else sumVec e (wordIds (pairs.map Prod.snd) q)) = some v ∧
            search (layers.map fun l => graphOf l.rows) (angularElements (vecs.map normalize)) (normalize v) maxSearch k =
              some r := by
        intro r
        unfold TextIndex.search
        rw [hq, hsh.elements, hgs]
        generalize (if q = [] then some [] else sumVec e (wordIds (pairs.map Prod.snd) q)) = y
        cases y with
        | none => simp
        | some v => simp [hsearch]
      unfold TWorld.Answers
      simp only [hob, Option.some.injEq, exists_eq_left', TObj.Answers, hl, he, hx]
      constructor
      · rintro ⟨_, _, _, r, rfl, rfl, rfl, h1, rfl⟩
        obtain ⟨v, h2, h3⟩ := (hkey r).1 h1
        exact ⟨v, r, h2, h3, rfl⟩
      · rintro ⟨v, r, h2, h3, rfl⟩
        exact ⟨_, _, _, r, rfl, rfl, rfl, (hkey r).2 ⟨v, h2, h3⟩, rfl⟩
    · have hte : textElements w.files esrc xsrc = some (angularElements (vecs.map normalize)) := by
        rw [textElements, he, hx]; exact hsh.elements
      unfold TWorld.Answers
      simp only [hob, Option.some.injEq, exists_eq_left', TObj.Answers, hl, hte]
      constructor
      · rintro ⟨_, gs', _, r, rfl, h1, rfl, h2, rfl⟩
        rw [hgs] at h1; cases h1
        rw [hsearch] at h2
        exact ⟨r, h2, rfl⟩
      · rintro ⟨r, h2, rfl⟩
        exact ⟨_, gs, _, r, rfl, hgs, rfl, by rw [hsearch]; exact h2, rfl⟩

/-- C65. Searching an opened text index for a text returns, and whatever it returns are good results in terms of the
cosines of the exact sums of the embeddings of the known words (the tolerance includes the rounding errors of the sums). -/
theorem C65_search (hsrt : IsSortByDist srt) (hP : ∀ c, P c → c.Good) (hs : SensiblePairs pairs)
    (hsaved : TextSaved srt P pairs ip xp h wi w texts) (hpairs : PairsSaved srt w0 hp w ep wp pairs)
    (emb : List (List ℝ)) (dim : Nat) (τ : ℝ) (hin : TextInput pairs emb dim texts τ)
    (out : TOut) (w' : TWorld) (hst : TStep srt w (.openIndex ip xp ep wp) out w')
    (q : Text) (hq0 : q ≠ []) (hq : SumRange emb dim (wordIds (pairs.map Prod.snd) q)) (maxSearch k : Nat) (hms : 1 ≤ maxSearch) :
    (∃ a, w'.Answers w.objects.length (.search q maxSearch k) a) ∧
    ∀ a, w'.Answers w.objects.length (.search q maxSearch k) a → ∃ r, a = .found r ∧
      GoodResults (texts.map (textSum emb dim (pairs.map Prod.snd))) (textSum emb dim (pairs.map Prod.snd) q)
        (zeroThreshold + 2 * τ + 2 * sumError emb dim (wordIds (pairs.map Prod.snd) q)) k r ∧
      ∀ n, wi.Answers h (.graph .len) (.graph (.num n)) → 0 < n → 1 ≤ k → r ≠ [] := by
  obtain ⟨c, layers, vecs, e, x, d, hlock, hsh, hlen, hans, _⟩ := opened_text_search hsrt hP hs hsaved hpairs hst
  have hsb := hsh.sumBuilder hin hs hP hlock
  have hτ : ∀ ts ∈ texts.map (wordIds (pairs.map Prod.snd)), sumError emb dim ts ≤ τ := by
    intro ts hts
    obtain ⟨q', hq', rfl⟩ := List.mem_map.1 hts
    exact hin.error q' hq'
  obtain ⟨v, hv, ha⟩ := hsb.approx hτ _ hq
  rw [sumVec_create] at hv
  obtain ⟨r, h1, h2, h3⟩ := opened_results hsrt hsb.history hsb.config ha (by
    intro i y hy hz
    rw [List.getElem?_map, Option.map_eq_some_iff] at hy
    obtain ⟨ts, hts, rfl⟩ := hy
    rw [hsb.zero_iff, hts, ((hsb.input.range ts (List.mem_of_getElem? hts)).zero_iff).1 hz]) (maxSearch := maxSearch) (k := k) hms
  rw [List.map_map] at h2
  have hthe : ∀ a, w'.Answers w.objects.length (.search q maxSearch k) a ↔ a = .found r := by
    intro a
    rw [hans, if_neg hq0, hv]
    simp only [Option.some.injEq]
    constructor
    · rintro ⟨v', r', rfl, e1, rfl⟩
      rw [show search (layers.map fun l => graphOf l.rows) _ _ _ _ = some r from h1] at e1
      cases e1; rfl
    · rintro rfl
      exact ⟨v, r, rfl, h1, rfl⟩
  refine ⟨⟨_, (hthe _).2 rfl⟩, fun a haa => ⟨r, (hthe a).1 haa, h2, fun n hn h0 hk => h3 ?_ hk⟩⟩
  have := (hlen _).1 hn
  simp only [TAnswer.graph.injEq, PyAnswer.num.injEq] at this
  simp only; omega

/-- C65. The same for a search with a vector. -/
theorem C65_search_vector (hsrt : IsSortByDist srt) (hP : ∀ c, P c → c.Good) (hs : SensiblePairs pairs)
    (hsaved : TextSaved srt P pairs ip xp h wi w texts) (hpairs : PairsSaved srt w0 hp w ep wp pairs)
    (emb : List (List ℝ)) (dim : Nat) (τ : ℝ) (hin : TextInput pairs emb dim texts τ)
    (out : TOut) (w' : TWorld) (hst : TStep srt w (.openIndex ip xp ep wp) out w')
    (raw : List UInt32) (q : List ℝ) (hraw : Decodes raw q) (hq : q.length = dim) (hqr : InRange q) (maxSearch k : Nat)
    (hms : 1 ≤ maxSearch) :
    (∃ a, w'.Answers w.objects.length (.searchVector raw maxSearch k) a) ∧
    ∀ a, w'.Answers w.objects.length (.searchVector raw maxSearch k) a → ∃ r, a = .found r ∧
      GoodResults (texts.map (textSum emb dim (pairs.map Prod.snd))) q (zeroThreshold + 2 * τ) k r ∧
      ∀ n, wi.Answers h (.graph .len) (.graph (.num n)) → 0 < n → 1 ≤ k → r ≠ [] := by
  obtain ⟨c, layers, vecs, e, x, d, hlock, hsh, hlen, _, hans⟩ := opened_text_search hsrt hP hs hsaved hpairs hst
  have hsb := hsh.sumBuilder hin hs hP hlock
  obtain ⟨cs, c1, c2, c3, c4⟩ := hsb.input.computed
  have hel : angularElements (vecs.map normalize) = angularElements (cs.map storedF32) := by
    have := hsb.elements
    rw [c1] at this
    exact (Option.some.inj this).symm
  have ha : Approximates (angularElements (vecs.map normalize)) ((texts.map (wordIds (pairs.map Prod.snd))).map (exactSum emb dim))
      (normalize (raw.map F32.ofBits)) q (zeroThreshold + 2 * τ) := by
    have ha := c2.approx hq hqr
    rw [hel]
    refine ⟨by simp only [angularElements, List.length_map]; rw [c3, List.length_map], fun i el y he hy => ?_⟩
    rw [List.getElem?_map, Option.map_eq_some_iff] at hy
    obtain ⟨ts, hts, rfl⟩ := hy
    have hlt : i < cs.length := by rw [c3]; exact (List.getElem?_eq_some_iff.1 hts).1
    have n1 := ha.near i el cs[i] he (List.getElem?_eq_getElem hlt)
    have n2 := (c4 i ts _ hts (List.getElem?_eq_getElem hlt)).2 q hq
    have n3 : sumError emb dim ts ≤ τ := by
      obtain ⟨q', hq', rfl⟩ := List.mem_map.1 (List.mem_of_getElem? hts)
      exact hin.error q' hq'
    rw [show raw.map F32.ofBits = q.map F32.fin from hraw]
    change |(angularElements (cs.map storedF32)).dist el (storedF32 q) - _| ≤ _
    rw [abs_le] at n1 n2 ⊢
    constructor <;> linarith [n1.1, n1.2, n2.1, n2.2]
  obtain ⟨r, h1, h2, h3⟩ := opened_results hsrt hsb.history hsb.config ha (by
    intro i y hy hz
    rw [List.getElem?_map, Option.map_eq_some_iff] at hy
    obtain ⟨ts, hts, rfl⟩ := hy
    rw [hsb.zero_iff, hts, ((hsb.input.range ts (List.mem_of_getElem? hts)).zero_iff).1 hz]) (maxSearch := maxSearch) (k := k) hms
  rw [List.map_map] at h2
  have hthe : ∀ a, w'.Answers w.objects.length (.searchVector raw maxSearch k) a ↔ a = .found r := by
    intro a
    rw [hans, show search (layers.map fun l => graphOf l.rows) _ _ maxSearch k = some r from h1]
    simp
  refine ⟨⟨_, (hthe _).2 rfl⟩, fun a haa => ⟨r, (hthe a).1 haa, h2, fun n hn h0 hk => h3 ?_ hk⟩⟩
  have := (hlen _).1 hn
  simp only [TAnswer.graph.injEq, PyAnswer.num.injEq] at this
  simp only; omega

theorem sq_le_dot_self {x : List ℝ} {a : ℝ} (ha : a ∈ x) : a * a ≤ dot x x := by
  induction x with
  | nil => simp at ha
  | cons b x ih =>
    rw [dot_cons]
    rcases List.mem_cons.1 ha with rfl | ha
    · have := dot_self_nonneg x; linarith
    · have := ih ha; have := mul_self_nonneg b; linarith

theorem inRange_entry {x : List ℝ} (h : InRange x) {a : ℝ} (ha : a ∈ x) : |a| ≤ maxF32 := by
  have habs : |a| ≤ Spec.norm x := by
    refine Real.le_sqrt_of_sq_le ?_
    rw [sq_abs, sq]
    exact sq_le_dot_self ha
  refine habs.trans ?_
  rcases h with h | h
  · rw [h]; exact maxF32_pos.le
  · refine h.2.trans ?_
    unfold maxF32
    norm_num

/-- C65. A search for a text without known words (also the empty text) reports the distance 1 for everything. -/
theorem C65_unknown_text (hsrt : IsSortByDist srt) (hP : ∀ c, P c → c.Good) (hs : SensiblePairs pairs)
    (hsaved : TextSaved srt P pairs ip xp h wi w texts) (hpairs : PairsSaved srt w0 hp w ep wp pairs)
    (emb : List (List ℝ)) (dim : Nat) (τ : ℝ) (hin : TextInput pairs emb dim texts τ)
    (out : TOut) (w' : TWorld) (hst : TStep srt w (.openIndex ip xp ep wp) out w')
    (q : Text) (hq : knownWords (pairs.map Prod.snd) q = []) (maxSearch k : Nat) (r : List (Nat × ℝ))
    (ha : w'.Answers w.objects.length (.search q maxSearch k) (.found r)) : ∀ p ∈ r, p.2 = 1 := by
  obtain ⟨c, layers, vecs, e, x, d, hlock, hsh, hlen, hans, _⟩ := opened_text_search hsrt hP hs hsaved hpairs hst
  have hsi := hin.sumInput hs hlock hsh
  obtain ⟨v, r', h1, h2, h3⟩ := (hans q maxSearch k _).1 ha
  cases h3
  refine C56_unknown_text ⟨.fixWidth layers, sumOf e x, d⟩ dim _ hsi.embeddings hsi.pos (by simpa using hsi.nonempty) ?_
    _ hlock.words q hq maxSearch k r ?_
  · intro i v' hi hv'
    simp only at hi hv'
    rw [hsi.elements.len, List.length_map] at hi
    rw [getEmbedding_terms, hsi.elements.get, List.getElem?_map, List.getElem?_eq_getElem hi] at hv'
    simp only [Option.map_some] at hv'
    obtain ⟨cc, e1, e2, e3, _, e4, _⟩ := computed_sum_floats hsi _ (hin.range _ (List.getElem_mem hi))
    rw [e1] at hv'; cases hv'
    refine ⟨by simpa using e2, fun a ha => ?_⟩
    obtain ⟨y, hy, rfl⟩ := List.mem_map.1 ha
    exact ⟨y, rfl, e4 y hy, inRange_entry e3 hy⟩
  · have hq' : (⟨.fixWidth layers, sumOf e x, d⟩ : TextIndex).queryVector q =
        (if q = [] then some [] else sumVec e (wordIds (pairs.map Prod.snd) q)).map normalize := by
      unfold TextIndex.queryVector
      split
      · rfl
      · simp only
        rw [sumVec_create, wordIds_dict (d := d) hlock.words]
    unfold TextIndex.search
    rw [hq', h1, hsh.elements]
    exact h2

/-- C65, C50. If the builders involved had at least `m` neighbors, with at most `m / 4 + 1` indexed texts and `max_search` at
least their number, a search misses nothing, up to the tolerance. -/
theorem C65_small_exact (hsrt : IsSortByDist srt) (hP : ∀ c, P c → c.Good) (m : Nat) (hm : ∀ c, P c → m ≤ c.numNeighbors.getD 30)
    (hs : SensiblePairs pairs) (hsaved : TextSaved srt P pairs ip xp h wi w texts) (hpairs : PairsSaved srt w0 hp w ep wp pairs)
    (emb : List (List ℝ)) (dim : Nat) (τ : ℝ) (hin : TextInput pairs emb dim texts τ)
    (out : TOut) (w' : TWorld) (hst : TStep srt w (.openIndex ip xp ep wp) out w') (n : Nat)
    (hn : wi.Answers h (.graph .len) (.graph (.num n))) (hn0 : 0 < n) (hn4 : n ≤ m / 2 / 2 + 1)
    (q : Text) (hq0 : q ≠ []) (hq : SumRange emb dim (wordIds (pairs.map Prod.snd) q)) (maxSearch k : Nat) (hms : n ≤ maxSearch)
    (r : List (Nat × ℝ)) (ha : w'.Answers w.objects.length (.search q maxSearch k) (.found r)) :
    ∀ (j : Nat) (t : Text), j < n → texts[j]? = some t → knownWords (pairs.map Prod.snd) t ≠ [] → j ∉ r.map Prod.fst →
      r.length = k ∧ ∀ p ∈ r, ∃ t', texts[p.1]? = some t' ∧
        cosine (textSum emb dim (pairs.map Prod.snd) t) (textSum emb dim (pairs.map Prod.snd) q) ≤
          cosine (textSum emb dim (pairs.map Prod.snd) t') (textSum emb dim (pairs.map Prod.snd) q) +
          2 * (zeroThreshold + 2 * τ + 2 * sumError emb dim (wordIds (pairs.map Prod.snd) q)) := by
  obtain ⟨c, layers, vecs, e, x, d, hlock, hsh, hlen, hans, _⟩ := opened_text_search hsrt hP hs hsaved hpairs hst
  have hsb := hsh.sumBuilder hin hs hP hlock
  have hnl : n = lastLen layers := by simpa using (hlen _).1 hn
  subst hnl
  have hτ : ∀ ts ∈ texts.map (wordIds (pairs.map Prod.snd)), sumError emb dim ts ≤ τ := by
    intro ts hts
    obtain ⟨q', hq', rfl⟩ := List.mem_map.1 hts
    exact hin.error q' hq'
  have hsmall : SmallCollection srt (⟨angularElements (vecs.map normalize), layers, c.config⟩ : Builder (List F32) ℝ) := by
    have hmc := hm c hsh.config
    have h255 := (hP c hsh.config).config.2.1
    have hnn : c.config.numNeighbors = c.numNeighbors.getD 30 := rfl
    refine ⟨by simp only; omega, hsh.reach.mono ?_⟩
    rintro bc ⟨c', hc', rfl⟩
    have hmc' := hm c' hc'
    have hnn' : c'.config.numNeighbors = c'.numNeighbors.getD 30 := rfl
    have h255' := (hP c' hc').config.2.1
    simp only at *
    exact ⟨(hP c' hc').config.1, by omega, Or.inr (by omega)⟩
  obtain ⟨v, r', h1, h2, _, h4⟩ := C57_small_exact hsrt _ _ emb dim _ hsb hsmall hn0 τ hτ _ hq maxSearch k hms
  rw [sumVec_create] at h1
  obtain ⟨v', r'', e1, e2, e3⟩ := (hans q maxSearch k _).1 ha
  cases e3
  rw [if_neg hq0, h1] at e1; cases e1
  rw [show search (layers.map fun l => graphOf l.rows) _ _ maxSearch k = some r' from h2] at e2
  cases e2
  intro j t hj ht hne hnot
  have hnd : (pairs.map Prod.snd).Nodup := hlock.words.nodup
  obtain ⟨hk, hall⟩ := h4 j (wordIds (pairs.map Prod.snd) t) hj (by rw [List.getElem?_map, ht]; rfl) (by
    intro hx
    apply hne
    rw [← wordIds_known hnd, hx]; rfl) hnot
  refine ⟨hk, fun p hp => ?_⟩
  obtain ⟨us, hus, hle⟩ := hall p hp
  rw [List.getElem?_map, Option.map_eq_some_iff] at hus
  obtain ⟨t', ht', rfl⟩ := hus
  exact ⟨t', ht', hle⟩

end

end Granne
