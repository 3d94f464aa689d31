import Verif.Model.Text
import Verif.Model.Embeddings

/-!
py/src/variants/mod.rs `WordDict`, py/src/embeddings.rs `Embeddings`. A `HashMap` is a function to `Option`.
-/
namespace Granne

/-- py/src/variants/mod.rs:8-12. -/
structure WordDict where
  wordToId : Text → Option Nat
  idToWord : List Text

/-- `map.insert(w, i)`. -/
def mapInsert (m : Text → Option Nat) (w : Text) (i : Nat) : Text → Option Nat := fun x => if x = w then some i else m x

/-- `words.iter().enumerate().map(|(i, w)| (w, i)).collect()`: later entries replace earlier ones. `i` is the number
of the first word. -/
def collectIds : Nat → List Text → (Text → Option Nat) → (Text → Option Nat)
  | _, [], m => m
  | i, w :: t, m => collectIds (i + 1) t (mapInsert m w i)

namespace WordDict

/-- `WordDict::default()`. -/
def empty : WordDict := ⟨fun _ => none, []⟩

/-- py/src/variants/mod.rs:15-33 `new`, from the content of the file. `none` is a panic. -/
def new (content : Text) : Option WordDict :=
  match seqOpt ((textLines content).map jsonString) with
  | some words => some ⟨collectIds 0 words (fun _ => none), words⟩
  | none => none

/-- py/src/variants/mod.rs:34-36 `len`. -/
def len (d : WordDict) : Nat := d.idToWord.length

/-- py/src/variants/mod.rs:45-48 the loop of `get_words` over the remaining ids. -/
def getWordsLoop (d : WordDict) : Text → List Nat → Option Text
  | q, [] => some q
  | q, i :: t => match d.idToWord[i]? with
    | some w => getWordsLoop d (q ++ ' ' :: w) t
    | none => none

/-- py/src/variants/mod.rs:38-51 `get_words`. `none` is a panic (an id out of range). -/
def getWords (d : WordDict) : List Nat → Option Text
  | [] => some []
  | i :: t => match d.idToWord[i]? with
    | some w => d.getWordsLoop w t
    | none => none

/-- py/src/variants/mod.rs:53-58 `get_word_ids`. -/
def getWordIds (d : WordDict) (q : Text) : List Nat := (splitWs q).filterMap d.wordToId

/-- py/src/variants/mod.rs:60-69 `push`. -/
def push (d : WordDict) (w : Text) : WordDict × Bool :=
  match d.wordToId w with
  | some _ => (d, false)
  | none => (⟨mapInsert d.wordToId w d.idToWord.length, d.idToWord ++ [w]⟩, true)

/-- py/src/variants/mod.rs:71-77 `write`: the characters written. -/
def content (d : WordDict) : Text := d.idToWord.flatMap fun w => jsonQuote w ++ ['\n']

end WordDict

/-- py/src/embeddings.rs:8-10. The embeddings are those of a `SumEmbeddings` without elements. -/
structure PyEmbeddings (S : Type) where
  embeddings : FixVec S
  words : WordDict

namespace PyEmbeddings
variable {S : Type}

/-- py/src/embeddings.rs:47-52 the constructor without arguments. -/
def new : PyEmbeddings S := ⟨FixVec.new, WordDict.empty⟩

/-- py/src/embeddings.rs:32-46 the constructor with both files (lengths are not compared). -/
def load [Scalar S] (embeddingsFile : Bytes) (wordsFile : Text) : Option (PyEmbeddings S) :=
  match WordDict.new wordsFile, FixVec.fromBytes embeddingsFile with
  | some w, some e => some ⟨e, w⟩
  | _, _ => none

/-- py/src/embeddings.rs:58-60 `__len__`. -/
def len (p : PyEmbeddings S) : Nat := p.embeddings.len

/-- py/src/embeddings.rs:108-115 `append`. `none` is a panic (wrong dimension), which ends the process. -/
def append (p : PyEmbeddings S) (v : List S) (w : Text) : Option (PyEmbeddings S × Bool) :=
  match p.words.push w with
  | (words, true) => match p.embeddings.push v with
    | some e => some (⟨e, words⟩, true)
    | none => none
  | (words, false) => some (⟨p.embeddings, words⟩, false)

/-- py/src/embeddings.rs:63-75 `get_embedding` for a string. -/
def getEmbedding [Add S] [Zero S] (p : PyEmbeddings S) (q : Text) (e : Elems) : Option (List S) :=
  (⟨p.embeddings, e⟩ : SumEmb S).createEmbedding (p.words.getWordIds q)

end PyEmbeddings
end Granne
