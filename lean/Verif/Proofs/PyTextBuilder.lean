import Verif.Props.PyText

/-! Sessions with texts: what becomes of builders. -/
namespace Granne
open Spec

variable {srt : List (Nat × ℝ) → List (Nat × ℝ)} {P : PyConfig → Prop} {pairs : List (List UInt32 × Text)}

/-- The sum of embeddings. -/
noncomputable def sumVec (e : FixVec UInt32) (ids : List Nat) : Option (List F32) := getEmbedding e WordDict.empty (.ids ids)

theorem sumVec_create (e : FixVec UInt32) (x : Elems) (ids : List Nat) : (sumOf e x).createEmbedding ids = sumVec e ids := by
  obtain ⟨x0, hx, _⟩ := TermRepr.new
  rw [sumVec, getEmbedding, hx]
  rfl

theorem LockStep.unique {e e' : FixVec UInt32} {d d' : WordDict} (h : LockStep (⟨e, d⟩ : PyEmbeddings UInt32) pairs)
    (h' : LockStep (⟨e', d'⟩ : PyEmbeddings UInt32) pairs) : e = e' := by
  rcases h.vecs with ⟨hx, h1⟩ | ⟨hx, dim, h1⟩
  · rcases h'.vecs with ⟨_, h2⟩ | ⟨hy, _⟩
    · exact (show e = FixVec.new from h1).trans (show e' = FixVec.new from h2).symm
    · exact absurd hx hy
  · rcases h'.vecs with ⟨hy, _⟩ | ⟨_, dim', h2⟩
    · exact absurd hy hx
    · obtain ⟨p, hp⟩ := List.exists_mem_of_ne_nil _ hx
      have e1 := h1.len p.1 (List.mem_map_of_mem hp)
      have e2 := h2.len p.1 (List.mem_map_of_mem hp)
      have w1 := h1.width
      have w2 := h2.width
      have d1 := h1.data
      have d2 := h2.data
      rcases e with ⟨da, wa⟩
      rcases e' with ⟨da', wa'⟩
      simp only at w1 w2 d1 d2
      rw [w1, w2, d1, d2, ← e1, ← e2]

theorem sumVec_total {e : FixVec UInt32} {d : WordDict} (hl : LockStep (⟨e, d⟩ : PyEmbeddings UInt32) pairs) (h0 : pairs ≠ [])
    (ids : List Nat) (hi : ∀ i ∈ ids, i < pairs.length) : ∃ v, sumVec e ids = some v := by
  obtain ⟨x, _, _⟩ := TermRepr.new
  obtain ⟨dim, hd, _, hs⟩ := hl.vectors h0
  obtain ⟨c1, c2, _⟩ := C36_embedding_is_sum (sumOf e x) dim _ (hs x) hd
  rw [← sumVec_create e x]
  cases ids with
  | nil => exact ⟨_, c1 (by simpa [pairVectors] using h0)⟩
  | cons i t =>
    have hlen : (pairVectors pairs).length = pairs.length := by simp [pairVectors]
    have : List.Forall₂ (fun j r => (pairVectors pairs)[j]? = some r) t (t.map fun j => (pairVectors pairs).getD j []) := by
      rw [List.forall₂_map_right_iff, List.forall₂_same]
      intro j hj
      have := hi j (by simp [hj])
      rw [List.getD_eq_getElem?_getD, List.getElem?_eq_getElem (by omega)]
      rfl
    have hi' := hi i (by simp)
    exact ⟨_, c2 i t _ _ (List.getElem?_eq_getElem (by omega)) this⟩

/-- The elements `x` are the texts, `vecs` their embeddings, and `layers` are those of a builder in some state it can get
into. -/
structure TextShape (srt : List (Nat × ℝ) → List (Nat × ℝ)) (P : PyConfig → Prop) (pairs : List (List UInt32 × Text))
    (c : PyConfig) (texts : List Text) (vecs : List (List F32)) (e : FixVec UInt32) (x : Elems) (layers : List Layer) :
    Prop where
  terms : TermRepr x (texts.map (wordIds (pairs.map Prod.snd)))
  sums : List.Forall₂ (fun q v => sumVec e (wordIds (pairs.map Prod.snd) q) = some v) texts vecs
  config : P c
  reach : ReachableBy srt (fun bc => ∃ c, P c ∧ bc = c.config)
    (⟨angularElements (vecs.map normalize), layers, c.config⟩ : Builder (List F32) ℝ)

section
variable {c : PyConfig} {texts : List Text} {vecs : List (List F32)} {e : FixVec UInt32} {x : Elems} {layers : List Layer}

theorem TextShape.len (h : TextShape srt P pairs c texts vecs e x layers) : x.len = texts.length := by
  rw [h.terms.len_eq, List.length_map]

theorem TextShape.vlen (h : TextShape srt P pairs c texts vecs e x layers) : vecs.length = texts.length :=
  h.sums.length_eq.symm

theorem TextShape.elements (h : TextShape srt P pairs c texts vecs e x layers) :
    sumElements (sumOf e x) = some (angularElements (vecs.map normalize)) := by
  have hlen : (sumOf e x).len = texts.length := h.len
  refine sumElements_eq (by rw [List.length_map, hlen, h.vlen]) fun i hi => ?_
  rw [hlen] at hi
  have hg : (sumOf e x).getTerms i = some (wordIds (pairs.map Prod.snd) texts[i]) := by
    have := h.terms.get_eq i
    rw [List.getElem?_map, List.getElem?_eq_getElem hi] at this
    exact this
  rw [sumElement, getEmbedding_terms, hg]
  simp only
  rw [sumVec_create]
  rcases forall₂_get? h.sums i with ⟨e1, _⟩ | ⟨q, v, e1, e2, e3⟩
  · rw [List.getElem?_eq_getElem hi] at e1; cases e1
  · rw [List.getElem?_eq_getElem hi] at e1
    cases e1
    rw [e3, List.getElem?_map, e2]

theorem TextShape.new (hc : P c) {x : Elems} (hx : TermRepr x []) : TextShape srt P pairs c [] [] e x [] :=
  ⟨hx, .nil, hc, .new c.config _ _ ⟨c, hc, rfl⟩ (if_pos (by simp [angularElements, UNUSED]))⟩

theorem TextShape.append (h : TextShape srt P pairs c texts vecs e x layers) {d : WordDict}
    (hl : LockStep (⟨e, d⟩ : PyEmbeddings UInt32) pairs) (h0 : pairs ≠ []) {q : Text} {s : SumEmb F32}
    (hp : textPush (sumOf FixVec.new x) d q = some s) :
    ∃ v, TextShape srt P pairs c (texts ++ [q]) (vecs ++ [v]) e s.elements layers := by
  have hids : d.getWordIds q = wordIds (pairs.map Prod.snd) q := wordIds_dict (d := d) hl.words q
  have hb : ∀ i ∈ wordIds (pairs.map Prod.snd) q, i < pairs.length := by
    have := wordIds_bound (pairs.map Prod.snd) q
    simpa using this
  obtain ⟨v, hv⟩ := sumVec_total hl h0 _ hb
  unfold textPush at hp
  split at hp
  · next hroom =>
    rw [hids] at hp
    have hlen : (sumOf FixVec.new x).len = texts.length := h.len
    have hterms : TermRepr s.elements (texts.map (wordIds (pairs.map Prod.snd)) ++ [wordIds (pairs.map Prod.snd) q]) := by
      by_cases h24 : ∀ n ∈ wordIds (pairs.map Prod.snd) q, n < 2 ^ 24
      · by_cases h40 : (texts.map (wordIds (pairs.map Prod.snd))).flatten.length + (wordIds (pairs.map Prod.snd) q).length < 2 ^ 40
        · obtain ⟨s', e1, e2, _⟩ := SumEmb.push_ok (s := sumOf FixVec.new x) h.terms h24 h40
          rw [hp] at e1; cases e1; exact e2
        · rw [SumEmb.push_too_many (s := sumOf FixVec.new x) h.terms (by omega)] at hp; cases hp
      · push Not at h24
        rw [SumEmb.push_big_id h24] at hp; cases hp
    refine ⟨v, by simpa using hterms, List.rel_append h.sums (.cons hv .nil), h.config, ?_⟩
    refine .push _ _ (normalize v) h.reach ?_
    unfold Builder.push
    have : (angularElements (vecs.map normalize)).data.length < UNUSED - 1 := by
      simp only [angularElements, List.length_map, h.vlen]
      omega
    simp only
    rw [if_pos this]
    simp [angularElements]
  · cases hp

theorem TextShape.build (h : TextShape srt P pairs c texts vecs e x layers) {num : Nat} {b' : Builder (List F32) ℝ}
    (hb : BuildPartial srt ⟨angularElements (vecs.map normalize), layers, c.config⟩ num (some b')) :
    TextShape srt P pairs c texts vecs e x b'.layers := by
  obtain ⟨e1, e2⟩ := buildPartial_same hb
  refine ⟨h.terms, h.sums, h.config, ?_⟩
  have := ReachableBy.build _ _ _ h.reach hb
  rcases b' with ⟨es, ls, cf⟩
  cases e1; cases e2
  exact this

end

/-- Object `h` is such a builder; it reads no files but `reads`. -/
structure TextAt (srt : List (Nat × ℝ) → List (Nat × ℝ)) (P : PyConfig → Prop) (pairs : List (List UInt32 × Text))
    (c : PyConfig) (reads : List String) (w : TWorld) (h : Nat) (texts : List Text) (src : Src (FixVec UInt32)) (xs : Src Elems)
    (d : WordDict) (e : FixVec UInt32) (x : Elems) (vecs : List (List F32)) (layers : List Layer) : Prop where
  object : w.objects[h]? = some (.builder src xs d layers c.config)
  embeddings : src.embeddings w.files = some e
  elems : xs.terms w.files = some x
  reads1 : ∀ p ∈ src.paths, p ∈ reads
  reads2 : ∀ p ∈ xs.paths, p ∈ reads
  lock : LockStep (⟨e, d⟩ : PyEmbeddings UInt32) pairs
  shape : TextShape srt P pairs c texts vecs e x layers

section
variable {c : PyConfig} {reads : List String} {w w' : TWorld} {h : Nat} {texts : List Text} {src : Src (FixVec UInt32)}
  {xs : Src Elems} {d : WordDict} {e : FixVec UInt32} {x : Elems} {vecs : List (List F32)} {layers : List Layer}

theorem TextAt.elements (ha : TextAt srt P pairs c reads w h texts src xs d e x vecs layers) :
    textElements w.files src xs = some (angularElements (vecs.map normalize)) := by
  rw [textElements, ha.embeddings, ha.elems]
  exact ha.shape.elements

theorem TextAt.step (ha : TextAt srt P pairs c reads w h texts src xs d e x vecs layers) (h0 : pairs ≠ []) {call : TCall}
    {out : TOut} (hs : TStep srt w call out w') (hw : ∀ p ∈ reads, ¬ TWrites p call) :
    ∃ xs' x' vecs' layers', TextAt srt P pairs c reads w' h (texts ++ textsTo h [call]) src xs' d e x' (vecs ++ vecs') layers' ∧
      ((∀ num, call ≠ .build h num) → layers' = layers) := by
  have hlt := (List.getElem?_eq_some_iff.1 ha.object).1
  have hfile : ∀ p ∈ reads, w'.files p = w.files p := fun p hp => hs.file (hw p hp)
  have hemb : src.embeddings w'.files = some e := by
    rw [Src.embeddings_congr fun p hp => hfile p (ha.reads1 p hp), ha.embeddings]
  have helem : xs.terms w'.files = some x := by
    rw [Src.terms_congr fun p hp => hfile p (ha.reads2 p hp), ha.elems]
  by_cases hc : TChanges h call
  · cases hs with
    | append h' q o o' h1 h2 =>
      obtain rfl : h' = h := hc
      rw [ha.object] at h1; cases h1
      have hap : textsTo h' [TCall.append h' q] = [q] := by simp [textsTo]
      simp only [TObj.appendText, ha.elems] at h2
      split at h2
      · next s hp =>
        cases h2
        obtain ⟨v, hv⟩ := ha.shape.append ha.lock h0 hp
        rw [hap]
        exact ⟨.owned s.elements, s.elements, [v], layers, ⟨by simp only; rw [List.getElem?_set_self hlt], hemb, rfl,
          ha.reads1, by simp [Src.paths], ha.lock, hv⟩, fun _ => rfl⟩
      · cases h2
    | build h' n o o' h1 h2 =>
      obtain rfl : h' = h := hc
      rw [ha.object] at h1; cases h1
      have hap : textsTo h' [TCall.build h' n] = [] := by simp [textsTo]
      obtain ⟨es, b', e1, e2, rfl⟩ := h2
      rw [ha.elements] at e1; cases e1
      rw [hap, List.append_nil]
      exact ⟨xs, x, [], b'.layers, ⟨by simp only; rw [List.getElem?_set_self hlt], hemb, helem, ha.reads1, ha.reads2, ha.lock,
        by rw [List.append_nil]; exact ha.shape.build e2⟩, fun hx => absurd rfl (hx n)⟩
    | reorder h' o o' order h1 h2 =>
      obtain rfl : h' = h := hc
      rw [ha.object] at h1; cases h1
      simp [TObj.reorder] at h2
    | appendWord h' v word o o' b h1 h2 =>
      obtain rfl : h' = h := hc
      rw [ha.object] at h1; cases h1
      simp [TObj.appendWord] at h2
    | _ => exact absurd hc (by simp [TChanges])
  · have hap : textsTo h [call] = [] := by
      cases call <;> simp_all [textsTo, TChanges]
    rw [hap, List.append_nil]
    exact ⟨xs, x, [], layers, ⟨hs.other_object ha.object hc, hemb, helem, ha.reads1, ha.reads2, ha.lock, by
      rw [List.append_nil]; exact ha.shape⟩, fun _ => rfl⟩

theorem TextAt.run {calls : List TCall} (hr : TRun srt w calls w') (h0 : pairs ≠ [])
    (ha : TextAt srt P pairs c reads w h texts src xs d e x vecs layers)
    (hw : ∀ call ∈ calls, ∀ p ∈ reads, ¬ TWrites p call) :
    ∃ xs' x' vecs' layers', TextAt srt P pairs c reads w' h (texts ++ textsTo h calls) src xs' d e x' (vecs ++ vecs') layers' ∧
      ((∀ num, .build h num ∉ calls) → layers' = layers) := by
  induction hr generalizing texts xs x vecs layers with
  | nil => exact ⟨xs, x, [], layers, by simpa [textsTo] using ha, fun _ => rfl⟩
  | cons w w1 w' call out calls hs _ ih =>
    have he : textsTo h (call :: calls) = textsTo h [call] ++ textsTo h calls := textsTo_append h [call] calls
    obtain ⟨xs1, x1, v1, l1, a1, b1⟩ := ha.step h0 hs (hw call (by simp))
    obtain ⟨xs2, x2, v2, l2, a2, b2⟩ := ih a1 fun call' hc => hw call' (by simp [hc])
    refine ⟨xs2, x2, v1 ++ v2, l2, by rw [he]; simpa [List.append_assoc] using a2, fun hx => ?_⟩
    rw [b2 fun num hm => hx num (by simp [hm]), b1 fun num hm => hx num (by simp [hm])]

end

/-! ### Opening -/

theorem openTerms_saved {files : Files} {xp : String} {x : Elems} {terms : List (List Nat)} (hx : TermRepr x terms)
    (hlen : terms.length < 2 ^ 64) (h : files xp = some x.bytes) :
    openTerms files (some xp) = some (.mapped xp x.bytes.length) ∧
    (Src.mapped xp x.bytes.length : Src Elems).terms files = some x := by
  have hb : VarVec.fromBytes x.bytes = some x := hx.rows.fromBytes_bytes (by simpa using hlen)
  have hne : x.bytes ≠ [] := by
    intro hc
    have := congrArg List.length hc
    rw [VarVec.bytes, List.length_append, List.length_append, leBytes_length] at this
    simp at this
  constructor
  · unfold openTerms
    simp only
    rw [mapFile_some h hne, h]
    simp only
    rw [hb]
  · unfold Src.terms
    simp only
    rw [mappedBytes_full h]
    exact hb

/-- The part of the index that `loadLayers` and `fromBytes` see depends on the number of elements only. -/
theorem fromBytes_unknown {config : BuildConfig ℝ} {buffer : Bytes} {es : Elements (List F32) ℝ} {b : Builder (List F32) ℝ}
    (h : Builder.fromBytes config buffer es = some b) :
    ∃ b' : Builder Nat ℝ, Builder.fromBytes config buffer (unknownElements es.data.length) = some b' ∧ b'.layers = b.layers := by
  unfold Builder.fromBytes at h ⊢
  unfold Builder.new at h ⊢
  have hl : (unknownElements es.data.length).data.length = es.data.length := by simp [unknownElements]
  rw [hl]
  by_cases hs : es.data.length < UNUSED
  · rw [if_pos hs] at h ⊢
    simp only at h ⊢
    split at h
    · cases h
    · next vs hvs =>
      split at h
      · cases h
      · next gs hgs =>
        cases h
        exact ⟨_, rfl, rfl⟩
  · rw [if_neg hs] at h; cases h

theorem PairFiles.opens {files : Files} {ep wp : String} {e : FixVec UInt32} {d : WordDict}
    (h : PairFiles files ep wp pairs e d) (hs : SensiblePairs pairs) :
    ∃ d', openWords files wp = some d' ∧ LockStep (⟨e, d'⟩ : PyEmbeddings UInt32) pairs ∧
      openEmbeddings files ep = some (.mapped ep e.bytes.length) ∧
      (Src.mapped ep e.bytes.length : Src (FixVec UInt32)).embeddings files = some e := by
  obtain ⟨o1, o2⟩ := openEmbeddings_saved h.embeddings (h.lock.fromBytes hs)
  obtain ⟨d', hd1, hd2⟩ := openWords_saved h.words h.lock.words
  exact ⟨d', hd1, ⟨hd2, h.lock.vecs⟩, o1, o2⟩

theorem TextAt.new {c : PyConfig} {w w' : TWorld} {out : TOut} {ep wp : String} {e : FixVec UInt32} {d : WordDict}
    (hc : P c) (hf : PairFiles w.files ep wp pairs e d) (hs : SensiblePairs pairs)
    (hst : TStep srt w (.newBuilder c none ep wp none) out w') :
    ∃ src xs d' x, TextAt srt P pairs c [ep] w' w.objects.length [] src xs d' e x [] [] := by
  obtain ⟨d', h1, h2, h3, h4⟩ := hf.opens hs
  obtain ⟨x, hx, hx'⟩ := TermRepr.new
  cases hst with
  | newBuilder c xp ep wp ip o ho =>
    simp only [newTextBuilder, openTerms] at ho
    rw [h1, h3, hx] at ho
    simp only [Option.map_some, Src.terms] at ho
    split at ho
    · cases ho
      exact ⟨_, .owned x, d', x, by simp, h4, rfl, by simp [Src.paths], by simp [Src.paths], h2, TextShape.new hc hx'⟩
    · cases ho

theorem newTextBuilder_new {files : Files} {c : PyConfig} {ep wp : String} {e : FixVec UInt32} {d : WordDict}
    (hf : PairFiles files ep wp pairs e d) (hs : SensiblePairs pairs) :
    ∃ o, newTextBuilder files c.config none ep wp none = some o := by
  obtain ⟨d', h1, h2, h3, h4⟩ := hf.opens hs
  obtain ⟨x, hx, hx'⟩ := TermRepr.new
  refine ⟨.builder (.mapped ep e.bytes.length) (.owned x) d' [] c.config, ?_⟩
  simp only [newTextBuilder, openTerms]
  rw [h1, h3, hx]
  simp only [Option.map_some, Src.terms]
  have hl : x.len = 0 := hx'.len_eq
  unfold Builder.new
  rw [if_pos (by simp [unknownElements, hl, UNUSED])]

/-! ### Saving -/

/-- What is in the files `ip` and `xp`. -/
structure TextFiles (srt : List (Nat × ℝ) → List (Nat × ℝ)) (P : PyConfig → Prop) (pairs : List (List UInt32 × Text))
    (c : PyConfig) (files : Files) (ip xp : String) (texts : List Text) (vecs : List (List F32)) (e : FixVec UInt32) (x : Elems)
    (layers : List Layer) (f : Bytes) : Prop where
  index : files ip = some f
  saved : saveIndex (.fixWidth layers) [] 0 = (f, true)
  elements : files xp = some x.bytes
  lock : ∃ d, LockStep (⟨e, d⟩ : PyEmbeddings UInt32) pairs
  shape : TextShape srt P pairs c texts vecs e x layers

theorem TextAt.saved {c : PyConfig} {reads : List String} {wi we w : TWorld} {h : Nat} {texts : List Text}
    {src : Src (FixVec UInt32)} {xs : Src Elems} {d : WordDict} {e : FixVec UInt32} {x : Elems} {vecs : List (List F32)}
    {layers : List Layer} {ip xp : String} {between after : List TCall}
    (ha : TextAt srt P pairs c reads wi h texts src xs d e x vecs layers) (h0 : pairs ≠ []) (hne : ip ≠ xp) (hip : ip ∉ reads)
    (h1 : TRun srt wi (.saveIndex h ip :: between) we)
    (h2 : ∀ call ∈ between, ¬ TWrites ip call ∧ ∀ p ∈ reads, ¬ TWrites p call)
    (h3 : TRun srt we (.saveElements h xp :: after) w) (h4 : ∀ call ∈ after, ¬ TWrites ip call ∧ ¬ TWrites xp call) :
    ∃ vecs' x' f, TextFiles srt P pairs c w.files ip xp (texts ++ textsTo h between) vecs' e x' layers f := by
  obtain ⟨xs', x', more, layers', a2, _⟩ := ha.run h1 h0 (by
    intro call hc p hp
    rcases List.mem_cons.1 hc with rfl | hc
    · exact fun hx => hip (show ip ∈ reads from (show ip = p from hx) ▸ hp)
    · exact (h2 call hc).2 p hp)
  rw [show textsTo h (.saveIndex h ip :: between) = textsTo h between from rfl] at a2
  have hf : ∃ f, we.files ip = some f ∧ saveIndex (.fixWidth layers) [] 0 = (f, true) := by
    cases h1 with
    | cons _ w1 _ _ _ _ hs hr =>
      rw [hr.file fun call hc => (h2 call hc).1]
      cases hs with
      | saveIndex h path o files e1 e2 =>
        rw [ha.object] at e1; cases e1
        simp only [TObj.saveIndex, TObj.layers] at e2
        obtain ⟨x1, x2⟩ := Prod.mk.inj e2
        exact ⟨_, by rw [← x1]; simp [Files.put], Prod.ext rfl x2⟩
  obtain ⟨f, hf1, hf2⟩ := hf
  refine ⟨vecs ++ more, x', f, ?_, hf2, ?_, ⟨d, ha.lock⟩, ⟨a2.shape.terms, a2.shape.sums, ha.shape.config, ?_⟩⟩
  · rw [h3.file, hf1]
    intro call hc
    rcases List.mem_cons.1 hc with rfl | hc
    · exact fun hx => hne (show xp = ip from hx).symm
    · exact (h4 call hc).1
  · cases h3 with
    | cons _ w1 _ _ _ _ hs hr =>
      rw [hr.file fun call hc => (h4 call hc).2]
      cases hs with
      | saveElements h path o files e1 e2 =>
        rw [a2.object] at e1; cases e1
        simp only [TObj.saveElements, TObj.elementBytes] at e2
        split at e2
        · cases e2
        · next b hb =>
          obtain ⟨rfl, _⟩ := Prod.mk.inj e2
          have hxx : xs'.terms (we.files.put xp []) = some x' := by
            rw [Option.map_eq_some_iff] at hb
            obtain ⟨y, hy, _⟩ := hb
            rw [hy]
            cases xs' with
            | owned v => simp only [Src.terms] at hy; rw [← hy]; exact a2.elems
            | mapped p n =>
              by_cases hpe : p = xp
              · subst hpe
                simp only [Src.terms, mappedBytes, Files.put, if_true, List.length_nil, Nat.le_zero] at hy
                by_cases hn : n = 0
                · subst hn
                  simp [VarVec.fromBytes] at hy
                · simp [hn] at hy
              · rw [← hy, Src.terms_congr (files := we.files) (by simp [Src.paths, Files.put, hpe]), a2.elems]
          rw [hxx, Option.map_some, Option.some.injEq] at hb
          simp only [Files.put, if_true, Option.some.injEq]
          exact hb.symm
  · have hsize := reachableBy_size a2.shape.reach
    have := reachableBy_extend (rows := vecs.map normalize) (more := more.map normalize) (dist := (angularElements []).dist)
      (layers := layers) (c := c.config) ha.shape.reach (by simpa [angularElements] using hsize)
    rw [← List.map_append] at this
    exact this

section
variable {c : PyConfig} {files : Files} {ip xp : String} {texts : List Text} {vecs : List (List F32)} {e : FixVec UInt32}
  {x : Elems} {layers : List Layer} {f : Bytes}

theorem TextFiles.small (h : TextFiles srt P pairs c files ip xp texts vecs e x layers f) (hsrt : IsSortByDist srt)
    (hc : GoodConfig c.config) : f.length < 2 ^ 64 := by
  have := C06_builder_size hsrt _ h.shape.reach.reachable hc [] f 0 h.saved
  simp only [List.length_nil] at this
  omega

theorem TextFiles.count (h : TextFiles srt P pairs c files ip xp texts vecs e x layers f) : texts.length < UNUSED := by
  have := reachableBy_size h.shape.reach
  simp only [angularElements, List.length_map, h.shape.vlen] at this
  exact this

theorem TextFiles.terms (h : TextFiles srt P pairs c files ip xp texts vecs e x layers f) :
    openTerms files (some xp) = some (.mapped xp x.bytes.length) ∧
    (Src.mapped xp x.bytes.length : Src Elems).terms files = some x :=
  openTerms_saved h.shape.terms (by have := h.count; rw [List.length_map]; unfold UNUSED at this; omega) h.elements

/-- A builder opened from the files. -/
theorem TextFiles.resumed (h : TextFiles srt P pairs c files ip xp texts vecs e x layers f) (hsrt : IsSortByDist srt)
    (hP : ∀ c, P c → c.Good) {c' : PyConfig} (hc' : P c') {ep wp : String} {e' : FixVec UInt32} {d : WordDict}
    (hf : PairFiles files ep wp pairs e' d) (hs : SensiblePairs pairs) :
    ∃ d' layers', newTextBuilder files c'.config (some xp) ep wp (some ip) =
        some (.builder (.mapped ep e'.bytes.length) (.mapped xp x.bytes.length) d' layers' c'.config) ∧
      List.Forall₂ (fun a b : Layer => a.rows.length = b.rows.length) layers layers' ∧
      ∀ objects : List TObj, TextAt srt P pairs c' [xp, ep]
        ⟨files, objects ++ [.builder (.mapped ep e'.bytes.length) (.mapped xp x.bytes.length) d' layers' c'.config]⟩
        objects.length texts (.mapped ep e'.bytes.length) (.mapped xp x.bytes.length) d' e' x vecs layers' := by
  obtain ⟨hg, h255, heps⟩ := (hP c h.shape.config).config
  obtain ⟨hg', _, heps'⟩ := (hP c' hc').config
  obtain ⟨d', o1, o2, o3, o4⟩ := hf.opens hs
  obtain ⟨t1, t2⟩ := h.terms
  have hb := h.shape.reach.reachable
  have hsize := reachableBy_size h.shape.reach
  have hflen := h.small hsrt hg
  have hlen : (angularElements (vecs.map normalize)).data.length = x.len := by
    simp only [angularElements, List.length_map, h.shape.vlen, h.shape.len]
  obtain ⟨b', hb1, hb2, hb3, hb4⟩ := C21_reload_resumes hsrt _ hb hg [] f 0 h.saved hflen c'.config
    (angularElements (vecs.map normalize)) (by unfold UNUSED at hsize; exact hsize)
  have hreach : ReachableBy srt (fun bc => ∃ c, P c ∧ bc = c.config) b' :=
    .reload _ b' [] f 0 c'.config (angularElements (vecs.map normalize)) ⟨c', hc', rfl⟩ h.shape.reach hg h.saved hflen
      (by rw [heps']; exact heps.symm) ⟨rfl, fun _ _ => rfl⟩ hb1
  rw [List.drop_zero] at hb1
  obtain ⟨b'', hu1, hu2⟩ := fromBytes_unknown hb1
  rw [hlen] at hu1
  have hf0 : f ≠ [] := by
    rintro rfl
    unfold Builder.fromBytes at hb1
    have : loadLayers [] = none := by simp [loadLayers, readLayerSizes, asc]
    rw [this] at hb1
    split at hb1 <;> cases hb1
  have hnew : newTextBuilder files c'.config (some xp) ep wp (some ip) =
      some (.builder (.mapped ep e'.bytes.length) (.mapped xp x.bytes.length) d' b'.layers c'.config) := by
    unfold newTextBuilder
    rw [o1, o3, t1]
    simp only
    rw [t2]
    simp only
    rw [mapFile_some h.index hf0, h.index]
    simp only
    rw [hu1]
    simp only
    rw [hu2]
  obtain rfl : e = e' := by
    obtain ⟨d0, hd0⟩ := h.lock
    exact hd0.unique hf.lock
  refine ⟨d', b'.layers, hnew, hb4.imp fun a b hab => hab.2.length_eq, fun objects => ⟨by simp, o4, t2, by simp [Src.paths],
    by simp [Src.paths], o2, h.shape.terms, ?_, hc', ?_⟩⟩
  · exact h.shape.sums
  · rcases b' with ⟨es, ls, cf⟩
    cases hb2; cases hb3
    exact hreach

end

/-- Builders as described in the specification. -/
theorem Spec.TextBuilder.textAt (hsrt : IsSortByDist srt) (hP : ∀ c, P c → c.Good) (hs : SensiblePairs pairs) {c : PyConfig}
    {reads : List String} {w : TWorld} {h : Nat} {texts : List Text} (hb : TextBuilder srt P pairs c reads w h texts) :
    ∃ src xs d e x vecs layers, TextAt srt P pairs c reads w h texts src xs d e x vecs layers := by
  induction hb with
  | new c ep wp wp0 w0 w hp calls hc hpairs hr hw =>
    obtain ⟨e, d, hf, _⟩ := hpairs.files hs.proper
    cases hr with
    | cons _ w1 _ _ _ _ hst hr =>
      obtain ⟨src, xs, d', x, ha⟩ := TextAt.new hc hf hs hst
      obtain ⟨xs', x', vecs', layers', a, _⟩ := ha.run hr hs.some_pair (by
        intro call hc p hp
        rw [List.mem_singleton.1 hp]; exact hw call hc)
      exact ⟨_, _, _, _, _, _, _, a⟩
  | resumed c c' reads ip xp ep wp wi we wp0 w0 w h hp texts between after calls _ hne hip h1 h2 h3 h4 hc' hpairs hr hw ih =>
    obtain ⟨src, xs, d, e, x, vecs, layers, ha⟩ := ih
    obtain ⟨vecs', x', f, hfiles⟩ := ha.saved hs.some_pair hne hip h1 h2 h3 h4
    obtain ⟨e', d', hf, _⟩ := hpairs.files hs.proper
    obtain ⟨d'', layers', hnew, _, hat⟩ := hfiles.resumed hsrt hP hc' hf hs
    cases hr with
    | cons _ w1 _ _ _ _ hst hr =>
      cases hst with
      | newBuilder c xp ep wp ip o ho =>
        rw [hnew] at ho; cases ho
        obtain ⟨xs', x'', vecs'', layers'', a, _⟩ := (hat w0.objects).run hr hs.some_pair (by
          intro call hc p hp
          rcases List.mem_cons.1 hp with rfl | hp
          · exact (hw call hc).1
          · rw [List.mem_singleton.1 hp]; exact (hw call hc).2)
        exact ⟨_, _, _, _, _, _, _, a⟩

theorem Spec.TextSaved.facts (hsrt : IsSortByDist srt) (hP : ∀ c, P c → c.Good) (hs : SensiblePairs pairs) {ip xp : String}
    {h : Nat} {wi w : TWorld} {texts : List Text} (hb : TextSaved srt P pairs ip xp h wi w texts) :
    ∃ c reads texts' src xs d e x vecs layers vecs' x' f, TextAt srt P pairs c reads wi h texts' src xs d e x vecs layers ∧
      TextFiles srt P pairs c w.files ip xp texts vecs' e x' layers f := by
  cases hb with
  | saved c reads wi we w texts between after hb hne hip h1 h2 h3 h4 =>
    obtain ⟨src, xs, d, e, x, vecs, layers, ha⟩ := hb.textAt hsrt hP hs
    obtain ⟨vecs', x', f, hfiles⟩ := ha.saved hs.some_pair hne hip h1 h2 h3 h4
    exact ⟨_, _, _, _, _, _, _, _, _, _, _, _, _, ha, hfiles⟩

end Granne
