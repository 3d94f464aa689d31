import Verif.Model.Py
import Verif.Model.TextIndex

/-!
Sessions of the Python module with texts: objects `Embeddings` (py/src/embeddings.rs), and `GranneBuilder` and `Granne`
over the element type `embeddings` (py/src/lib.rs:196-205, 440-452, py/src/variants).

The conventions of `Model/Py` apply: files are opened by memory mapping, except for words, which are read; saving truncates
the file that is there. Whatever else happens (objects of the other element types, other programs) is seen from here as
files that change, see `TCall.other`.
-/
namespace Granne

/-- Embeddings, given by their bit patterns, together with elements made up of them (src/elements/embeddings/mod.rs:40-44). -/
noncomputable def sumOf (e : FixVec UInt32) (x : Elems) : SumEmb F32 := ⟨⟨e.data.map F32.ofBits, e.width⟩, x⟩

/-- src/slice_vector/mod.rs:206-211 `load` of the embeddings. -/
def Src.embeddings (files : Files) : Src (FixVec UInt32) → Option (FixVec UInt32)
  | .mapped p n => match mappedBytes files p n with
    | some b => FixVec.loadMmap b
    | none => none
  | .owned v => some v

/-- src/slice_vector/mod.rs:638-643 `load` of the elements (lists of embedding ids). -/
def Src.terms (files : Files) : Src Elems → Option Elems
  | .mapped p n => match mappedBytes files p n with
    | some b => VarVec.fromBytes b
    | none => none
  | .owned x => some x

/-- The objects: py/src/embeddings.rs:8-10, py/src/variants/builder.rs:24-27, py/src/variants/index.rs:41-44. -/
inductive TObj
  | embeddings (emb : Src (FixVec UInt32)) (words : WordDict)
  | builder (emb : Src (FixVec UInt32)) (elems : Src Elems) (words : WordDict) (layers : List Layer)
      (config : BuildConfig ℝ)
  | index (layers : Src Layers) (emb : Src (FixVec UInt32)) (elems : Src Elems) (words : WordDict)

/-- The state of a session. -/
structure TWorld where
  files : Files
  objects : List TObj

/-- py/src/variants/mod.rs:15-33 `WordDict::new`: the file is read; `none` is a panic. -/
def openWords (files : Files) (path : String) : Option WordDict :=
  match files path with
  | some b => match fromUtf8 b with
    | some content => WordDict.new content
    | none => none
  | none => none

/-- src/slice_vector/mod.rs:110-121 `from_file`, with src/elements/embeddings/mod.rs:82-83: the mapping, if the content is
valid. -/
def openEmbeddings (files : Files) (path : String) : Option (Src (FixVec UInt32)) :=
  match mapFile files path, files path with
  | some n, some b => match (FixVec.fromBytes b : Option (FixVec UInt32)) with
    | some _ => some (.mapped path n)
    | none => none
  | _, _ => none

/-- src/elements/embeddings/mod.rs:76-80 with src/slice_vector/mod.rs:516-523: the mapping, or no elements if there is no
path. -/
def openTerms (files : Files) : Option String → Option (Src Elems)
  | none => (VarVec.new : Option Elems).map .owned
  | some path => match mapFile files path, files path with
    | some n, some b => match (VarVec.fromBytes b : Option Elems) with
      | some _ => some (.mapped path n)
      | none => none
    | _, _ => none

/-- py/src/embeddings.rs:27-55 `Embeddings(..)`; `none` is a panic. -/
def newEmbeddings (files : Files) : Option String → Option String → Option TObj
  | none, none => some (.embeddings (.owned FixVec.new) WordDict.empty)
  | some ep, some wp => match openWords files wp, openEmbeddings files ep with
    | some d, some e => some (.embeddings e d)
    | _, _ => none
  | _, _ => none

/-- `n` elements of which nothing is known: src/index/mod.rs:419-461 looks only at their number. -/
def unknownElements (n : Nat) : Elements Nat ℝ := ⟨List.range n, fun _ _ => 0⟩

/-- py/src/lib.rs:384-458 `GranneBuilder("embeddings", ..)` with py/src/variants/builder.rs:30-50; `none` is a panic.
The accessors py/src/variants/builder.rs:55-57, py/src/variants/builder.rs:59-61, py/src/variants/builder.rs:65-67,
py/src/variants/builder.rs:69-71, py/src/variants/index.rs:62-64, py/src/variants/index.rs:66-68 only borrow. -/
noncomputable def newTextBuilder (files : Files) (config : BuildConfig ℝ) (elementsPath : Option String)
    (embeddingsPath wordsPath : String) (indexPath : Option String) : Option TObj :=
  match openWords files wordsPath, openEmbeddings files embeddingsPath, openTerms files elementsPath with
  | some d, some e, some xs => match xs.terms files with
    | none => none
    | some x => match indexPath with
      | none => match Builder.new config (unknownElements x.len) with
        | some _ => some (.builder e xs d [] config)
        | none => none
      | some ip => match mapFile files ip, files ip with
        | some _, some buffer => match Builder.fromBytes config buffer (unknownElements x.len) with
          | some b => some (.builder e xs d b.layers config)
          | none => none
        | _, _ => none
  | _, _, _ => none

/-- py/src/lib.rs:175-211 `Granne(.., "embeddings", ..)` with py/src/variants/index.rs:47-58 and src/index/mod.rs:122-135;
`none` is a panic. -/
def openTextIndex (files : Files) (indexPath elementsPath embeddingsPath wordsPath : String) : Option TObj :=
  match openWords files wordsPath, openEmbeddings files embeddingsPath, openTerms files (some elementsPath) with
  | some d, some e, some xs => match mapFile files indexPath, files indexPath with
    | some n, some b => match loadLayers b with
      | some vs => match (vs.getLast?).map SetVec.len with
        | some none => none
        | _ => some (.index (.mapped indexPath n) e xs d)
      | none => none
    | _, _ => none
  | _, _, _ => none

/-- py/src/embeddings.rs:108-115 `append` of an `Embeddings`: the object afterwards, and what is returned. The embeddings
are copied into memory if one is added (src/slice_vector/mod.rs:191-204). `none` is a panic. -/
def TObj.appendWord (files : Files) (v : List UInt32) (w : Text) : TObj → Option (TObj × Bool)
  | .embeddings emb words => match words.push w with
    | (words', true) => match emb.embeddings files with
      | some e => match e.push v with
        | some e' => some (.embeddings (.owned e') words', true)
        | none => none
      | none => none
    | (words', false) => some (.embeddings emb words', false)
  | _ => none

/-- py/src/lib.rs:474-476, py/src/variants/builder.rs:85-92 `append` of a `GranneBuilder`, with src/index/mod.rs:527-530
and src/elements/embeddings/mod.rs:97-100; `none` is a panic. -/
noncomputable def TObj.appendText (files : Files) (q : Text) : TObj → Option TObj
  | .builder emb elems words layers config => match elems.terms files with
    | some x => match textPush (sumOf FixVec.new x) words q with
      | some s => some (.builder emb (.owned s.elements) words layers config)
      | none => none
    | none => none
  | _ => none

/-- The elements of a builder or an index as they are computed from the embeddings; `none` if something cannot be read, or
if a term has no embedding. -/
noncomputable def textElements (files : Files) (emb : Src (FixVec UInt32)) (elems : Src Elems) :
    Option (Elements (List F32) ℝ) :=
  match emb.embeddings files, elems.terms files with
  | some e, some x => sumElements (sumOf e x)
  | _, _ => none

/-- py/src/lib.rs:486-494 `build(num_elements)`, the default being `usize::MAX` for all. No result: a panic (or no
end). -/
def TObj.Build (srt : List (Nat × ℝ) → List (Nat × ℝ)) (files : Files) (num : Nat) : TObj → TObj → Prop
  | .builder emb elems words layers config, o' => ∃ es b', textElements files emb elems = some es ∧
      BuildPartial srt ⟨es, layers, config⟩ (if num = 2 ^ 64 - 1 then es.data.length else num) (some b') ∧
      o' = .builder emb elems words b'.layers config
  | _, _ => False

/-- Some execution of `build(num_elements)` panics (or may do so: some element cannot be computed). -/
def TObj.BuildPanics (srt : List (Nat × ℝ) → List (Nat × ℝ)) (files : Files) (num : Nat) : TObj → Prop
  | .builder emb elems _ layers config => textElements files emb elems = none ∨ ∃ es, textElements files emb elems = some es ∧
      BuildPartial srt ⟨es, layers, config⟩ (if num = 2 ^ 64 - 1 then es.data.length else num) none
  | _ => True

/-- py/src/lib.rs:311-315, py/src/variants/index.rs:71-76 `reorder`: the object afterwards (layers and elements in memory)
and the order returned; `none` is a panic. -/
noncomputable def TObj.reorder (files : Files) : TObj → Option (TObj × List Nat)
  | .index layers emb elems words => match layers.layers files, emb.embeddings files, elems.terms files with
    | some L, some e, some x => match (⟨L, sumOf e x, words⟩ : TextIndex).reorder with
      | some (ix, order) => some (.index (.owned ix.layers) emb (.owned ix.elements.elements) words, order)
      | none => none
    | _, _, _ => none
  | _ => none

/-- The layers of an object (for a builder, src/index/mod.rs:358-361). -/
def TObj.layers (files : Files) : TObj → Option Layers
  | .embeddings .. => none
  | .builder _ _ _ layers _ => some (.fixWidth layers)
  | .index layers _ _ _ => layers.layers files

/-- The bytes of the elements (src/elements/embeddings/mod.rs:156-158). -/
def TObj.elementBytes (files : Files) : TObj → Option Bytes
  | .embeddings .. => none
  | .builder _ elems _ _ _ => (elems.terms files).map VarVec.bytes
  | .index _ _ elems _ => (elems.terms files).map VarVec.bytes

/-- py/src/lib.rs:325-329, 504-508, py/src/variants/builder.rs:74-82, py/src/variants/index.rs:78-88 `save_index`: the files
afterwards, and whether the process survives. -/
def TObj.saveIndex (files : Files) (o : TObj) (path : String) : Files × Bool :=
  match o.layers (files.put path []) with
  | none => (files.put path [], false)
  | some L => (files.put path (Granne.saveIndex L [] 0).1, (Granne.saveIndex L [] 0).2)

/-- py/src/lib.rs:339-343, 518-522 `save_elements`, in the same way. -/
def TObj.saveElements (files : Files) (o : TObj) (path : String) : Files × Bool :=
  match o.elementBytes (files.put path []) with
  | none => (files.put path [], false)
  | some b => (files.put path b, true)

/-- py/src/embeddings.rs:126-133 `save_embeddings`, in the same way. -/
def TObj.saveEmbeddings (files : Files) (o : TObj) (path : String) : Files × Bool :=
  match o with
  | .embeddings emb _ => match emb.embeddings (files.put path []) with
    | some e => (files.put path e.bytes, true)
    | none => (files.put path [], false)
  | _ => (files, false)

/-- py/src/embeddings.rs:136-143 `save_words` (`save`, py/src/embeddings.rs:118-123, is `save_embeddings` and then `save_words`). -/
def TObj.saveWords (files : Files) (o : TObj) (path : String) : Files × Bool :=
  match o with
  | .embeddings _ d => (files.put path (utf8 d.content), true)
  | _ => (files, false)

/-- What can be called. Objects are named by their number. -/
inductive TCall
  | newEmbeddings (embeddingsPath wordsPath : Option String)
  | appendWord (h : Nat) (embedding : List UInt32) (word : Text)
  | saveEmbeddings (h : Nat) (path : String)
  | saveWords (h : Nat) (path : String)
  | newBuilder (config : PyConfig) (elementsPath : Option String) (embeddingsPath wordsPath : String)
      (indexPath : Option String)
  | openIndex (indexPath elementsPath embeddingsPath wordsPath : String)
  | append (h : Nat) (text : Text)
  | build (h : Nat) (numElements : Nat)
  | reorder (h : Nat)
  | saveIndex (h : Nat) (path : String)
  | saveElements (h : Nat) (path : String)
  /-- Something else changes a file. -/
  | other (path : String) (content : Option Bytes)

/-- What a call returns. -/
inductive TOut
  | nothing
  | inserted (b : Bool)
  | order (l : List Nat)

/-- A call that returns: what it returns, and the state afterwards. -/
inductive TStep (srt : List (Nat × ℝ) → List (Nat × ℝ)) : TWorld → TCall → TOut → TWorld → Prop
  | newEmbeddings (w : TWorld) (ep wp : Option String) (o : TObj) : Granne.newEmbeddings w.files ep wp = some o →
      TStep srt w (.newEmbeddings ep wp) .nothing ⟨w.files, w.objects ++ [o]⟩
  | appendWord (w : TWorld) (h : Nat) (v : List UInt32) (word : Text) (o o' : TObj) (b : Bool) :
      w.objects[h]? = some o → o.appendWord w.files v word = some (o', b) →
      TStep srt w (.appendWord h v word) (.inserted b) ⟨w.files, w.objects.set h o'⟩
  | saveEmbeddings (w : TWorld) (h : Nat) (path : String) (o : TObj) (files : Files) : w.objects[h]? = some o →
      o.saveEmbeddings w.files path = (files, true) →
      TStep srt w (.saveEmbeddings h path) .nothing ⟨files, w.objects⟩
  | saveWords (w : TWorld) (h : Nat) (path : String) (o : TObj) (files : Files) : w.objects[h]? = some o →
      o.saveWords w.files path = (files, true) → TStep srt w (.saveWords h path) .nothing ⟨files, w.objects⟩
  | newBuilder (w : TWorld) (c : PyConfig) (xp : Option String) (ep wp : String) (ip : Option String) (o : TObj) :
      newTextBuilder w.files c.config xp ep wp ip = some o →
      TStep srt w (.newBuilder c xp ep wp ip) .nothing ⟨w.files, w.objects ++ [o]⟩
  | openIndex (w : TWorld) (ip xp ep wp : String) (o : TObj) : openTextIndex w.files ip xp ep wp = some o →
      TStep srt w (.openIndex ip xp ep wp) .nothing ⟨w.files, w.objects ++ [o]⟩
  | append (w : TWorld) (h : Nat) (q : Text) (o o' : TObj) : w.objects[h]? = some o →
      o.appendText w.files q = some o' → TStep srt w (.append h q) .nothing ⟨w.files, w.objects.set h o'⟩
  | build (w : TWorld) (h num : Nat) (o o' : TObj) : w.objects[h]? = some o → o.Build srt w.files num o' →
      TStep srt w (.build h num) .nothing ⟨w.files, w.objects.set h o'⟩
  | reorder (w : TWorld) (h : Nat) (o o' : TObj) (order : List Nat) : w.objects[h]? = some o →
      o.reorder w.files = some (o', order) → TStep srt w (.reorder h) (.order order) ⟨w.files, w.objects.set h o'⟩
  | saveIndex (w : TWorld) (h : Nat) (path : String) (o : TObj) (files : Files) : w.objects[h]? = some o →
      o.saveIndex w.files path = (files, true) → TStep srt w (.saveIndex h path) .nothing ⟨files, w.objects⟩
  | saveElements (w : TWorld) (h : Nat) (path : String) (o : TObj) (files : Files) : w.objects[h]? = some o →
      o.saveElements w.files path = (files, true) → TStep srt w (.saveElements h path) .nothing ⟨files, w.objects⟩
  | other (w : TWorld) (path : String) (content : Option Bytes) :
      TStep srt w (.other path content) .nothing ⟨fun p => if p = path then content else w.files p, w.objects⟩

/-- What is given to `get_embedding`: a text, or ids. -/
inductive EmbInput
  | text (q : Text)
  | ids (l : List Nat)

/-- What can be asked about an object. -/
inductive TQuery
  /-- a question about the graph of a builder or an index, or the number of elements of a builder -/
  | graph (q : PyQuery)
  /-- `len` of an `Embeddings` -/
  | numEmbeddings
  | embedding (input : EmbInput)
  | dist (left right : EmbInput)
  | dists (left : EmbInput) (rights : List EmbInput)
  | element (idx : Nat)
  | internalElement (idx : Nat)
  | search (text : Text) (maxSearch numElements : Nat)
  | searchVector (query : List UInt32) (maxSearch numElements : Nat)

/-- Answers. -/
inductive TAnswer
  | graph (a : PyAnswer)
  | num (n : Nat)
  | vector (v : List F32)
  | dist (d : F32)
  | dists (l : List F32)
  | text (t : Text)
  | found (l : List (Nat × ℝ))

/-- py/src/embeddings.rs:63-75 `get_embedding`; `none` is a panic. -/
noncomputable def getEmbedding (e : FixVec UInt32) (d : WordDict) (input : EmbInput) : Option (List F32) :=
  match (VarVec.new : Option Elems) with
  | some x => (sumOf e x).createEmbedding (match input with
    | .text q => d.getWordIds q
    | .ids l => l)
  | none => none

/-- py/src/embeddings.rs:78-83 `dist`; `none` is a panic. -/
noncomputable def embeddingDist (e : FixVec UInt32) (d : WordDict) (l r : EmbInput) : Option F32 :=
  match getEmbedding e d l, getEmbedding e d r with
  | some x, some y => angularDist (normalize x) (normalize y)
  | _, _ => none

/-- py/src/embeddings.rs:86-94 `dists`; `none` is a panic. -/
noncomputable def embeddingDists (e : FixVec UInt32) (d : WordDict) (l : EmbInput) (rs : List EmbInput) : Option (List F32) :=
  match getEmbedding e d l, seqOpt (rs.map (getEmbedding e d)) with
  | some x, some ys => seqOpt (ys.map fun y => angularDist (normalize x) (normalize y))
  | _, _ => none

/-- The answers of an object; a question without answer makes the process panic. -/
def TObj.Answers (files : Files) (o : TObj) (q : TQuery) (a : TAnswer) : Prop :=
  match o, q with
  -- py/src/embeddings.rs:58-60
  | .embeddings emb _, .numEmbeddings => ∃ e, emb.embeddings files = some e ∧ a = .num e.len
  | .embeddings emb d, .embedding input => ∃ e v, emb.embeddings files = some e ∧ getEmbedding e d input = some v ∧ a = .vector v
  | .embeddings emb d, .dist l r => ∃ e x, emb.embeddings files = some e ∧ embeddingDist e d l r = some x ∧ a = .dist x
  | .embeddings emb d, .dists l rs => ∃ e xs, emb.embeddings files = some e ∧ embeddingDists e d l rs = some xs ∧ a = .dists xs
  -- py/src/lib.rs:544-578
  | .builder _ elems _ _ _, .graph .numElements => ∃ x, elems.terms files = some x ∧ a = .graph (.num x.len)
  | .builder .., .graph q => ∃ L b, o.layers files = some L ∧ L.answer q = some b ∧ a = .graph b
  | .index .., .graph q => ∃ L b, o.layers files = some L ∧ L.answer q = some b ∧ a = .graph b
  -- py/src/variants/index.rs:112-114
  | .index _ emb elems _, .element i => ∃ e x v, emb.embeddings files = some e ∧ elems.terms files = some x ∧
      sumElement (sumOf e x) i = some v ∧ a = .vector v
  -- py/src/variants/index.rs:116-121
  | .index _ _ elems d, .internalElement i => ∃ x ids t, elems.terms files = some x ∧
      (sumOf FixVec.new x).getTerms i = some ids ∧ d.getWords ids = some t ∧ a = .text t
  -- py/src/variants/index.rs:91-110
  | .index layers emb elems d, .search t maxSearch k => ∃ L e x r, layers.layers files = some L ∧
      emb.embeddings files = some e ∧ elems.terms files = some x ∧
      (⟨L, sumOf e x, d⟩ : TextIndex).search t maxSearch k = some r ∧ a = .found r
  | .index layers emb elems _, .searchVector raw maxSearch k => ∃ L gs es r, layers.layers files = some L ∧
      L.graphs = some gs ∧ textElements files emb elems = some es ∧
      Granne.search gs es (normalize (raw.map F32.ofBits)) maxSearch k = some r ∧ a = .found r
  | _, _ => False

/-- The answers of object `h`. -/
def TWorld.Answers (w : TWorld) (h : Nat) (q : TQuery) (a : TAnswer) : Prop :=
  ∃ o, w.objects[h]? = some o ∧ o.Answers w.files q a

end Granne
