import Verif.Model.Concrete
import Verif.Model.Keys
import Verif.Model.Words

/-!
`SumEmbeddings` as the elements of an index (src/elements/embeddings/mod.rs), and the text variants of the Python
builder and index (py/src/variants/builder.rs, py/src/variants/index.rs).
-/
namespace Granne

/-- src/elements/embeddings/mod.rs:164-166 `get`: the normalised embedding of element `i`. -/
noncomputable def sumElement (s : SumEmb F32) (i : Nat) : Option (List F32) := (s.getEmbedding i).map normalize

/-- src/elements/embeddings/mod.rs:161-175 `ElementContainer`: the elements as an index sees them. The code computes an
element whenever it is needed; `none` if one of these computations would panic. -/
noncomputable def sumElements (s : SumEmb F32) : Option (Elements (List F32) ℝ) :=
  match seqOpt ((List.range s.len).map (sumElement s)) with
  | some rows => some (angularElements rows)
  | none => none

/-- py/src/variants/index.rs:41-44 `WordEmbeddingsGranne`. -/
structure TextIndex where
  layers : Layers
  elements : SumEmb F32
  words : WordDict

namespace TextIndex

/-- py/src/variants/index.rs:98-107: the vector a string is searched with. The empty string is a sequence without
entries and extracts as an empty list of numbers (98); any other string does not extract as such a list. -/
noncomputable def queryVector (ix : TextIndex) (q : Text) : Option (List F32) :=
  if q = [] then some (normalize [])
  else (ix.elements.createEmbedding (ix.words.getWordIds q)).map normalize

/-- py/src/variants/index.rs:91-110 `search` with a string; `none` is a panic. -/
noncomputable def search (ix : TextIndex) (q : Text) (maxSearch k : Nat) : Option (List (Nat × ℝ)) :=
  match ix.queryVector q, sumElements ix.elements, ix.layers.graphs with
  | some v, some es, some gs => Granne.search gs es v maxSearch k
  | _, _, _ => none

/-- py/src/variants/index.rs:116-121 `get_internal_element`; `none` is a panic. -/
def getInternalElement (ix : TextIndex) (i : Nat) : Option Text :=
  match ix.elements.getTerms i with
  | some ids => ix.words.getWords ids
  | none => none

/-- py/src/variants/index.rs:71-76 `reorder`: the new index and the order returned. Layers and elements are treated
by src/index/reorder.rs:112-118, see `reorderWith`. `none` is a panic. -/
noncomputable def reorder (ix : TextIndex) : Option (TextIndex × List Nat) :=
  match computeKeys ix.elements, ix.layers.graphs with
  | some keys, some gs =>
    if indexLen gs = keys.length then
      match keyOrder keys 0 (gs.map List.length) with
      | none => none
      | some order => match reorderLayers gs order, ix.elements.permute order with
        | some layers, some es => some ({ ix with layers := layers, elements := es }, order)
        | _, _ => none
    else none
  | _, _ => none

end TextIndex

/-- py/src/variants/builder.rs:85-92 `push` of a `WordEmbeddingsBuilder`, with the assertion of src/index/mod.rs:528
(the elements and the words only; nothing else of the builder is touched). `none` is a panic. -/
def textPush (s : SumEmb F32) (d : WordDict) (q : Text) : Option (SumEmb F32) :=
  if s.len < UNUSED - 1 then s.push (d.getWordIds q) else none

end Granne
