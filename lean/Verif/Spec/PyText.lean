import Verif.Model.PyText
import Verif.Spec.Words
import Verif.Spec.Text

/-! Vocabulary for sessions of the Python module with texts. -/
namespace Granne.Spec
open Granne

/-- Calls one after the other, all of which return. -/
inductive TRun (srt : List (Nat × ℝ) → List (Nat × ℝ)) : TWorld → List TCall → TWorld → Prop
  | nil (w : TWorld) : TRun srt w [] w
  | cons (w w' w'' : TWorld) (call : TCall) (out : TOut) (calls : List TCall) : TStep srt w call out w' →
      TRun srt w' calls w'' → TRun srt w (call :: calls) w''

/-- The call changes the file with this path. -/
def TWrites (path : String) : TCall → Prop
  | .saveEmbeddings _ p => p = path
  | .saveWords _ p => p = path
  | .saveIndex _ p => p = path
  | .saveElements _ p => p = path
  | .other p _ => p = path
  | _ => False

/-- The call changes object `h`. -/
def TChanges (h : Nat) : TCall → Prop
  | .appendWord h' _ _ => h' = h
  | .append h' _ => h' = h
  | .build h' _ => h' = h
  | .reorder h' => h' = h
  | _ => False

/-- The pairs of an embedding and a word appended to object `h` (an `Embeddings`). -/
def wordsTo (h : Nat) : List TCall → List (List UInt32 × Text)
  | [] => []
  | .appendWord h' v w :: calls => if h' = h then (v, w) :: wordsTo h calls else wordsTo h calls
  | _ :: calls => wordsTo h calls

/-- The texts appended to object `h` (a builder). -/
def textsTo (h : Nat) : List TCall → List Text
  | [] => []
  | .append h' q :: calls => if h' = h then q :: textsTo h calls else textsTo h calls
  | _ :: calls => textsTo h calls

/-- Object `h` is an `Embeddings` that holds the given pairs: it was created empty, or opened from files saved by such an
object (to which nothing else was saved in between, nor to the first of them afterwards), and then filled by `append`.
Pairs whose word was there before do not count. -/
inductive HoldsPairs (srt : List (Nat × ℝ) → List (Nat × ℝ)) : TWorld → Nat → List (List UInt32 × Text) → Prop
  | new (w0 w : TWorld) (calls : List TCall) : TRun srt w0 (.newEmbeddings none none :: calls) w →
      HoldsPairs srt w w0.objects.length (firstPairs [] (wordsTo w0.objects.length calls))
  | opened (w0 w1 w2 w : TWorld) (h : Nat) (pairs : List (List UInt32 × Text)) (ep wp : String) (between calls : List TCall) :
      HoldsPairs srt w0 h pairs → ep ≠ wp → TRun srt w0 [.saveEmbeddings h ep, .saveWords h wp] w1 →
      TRun srt w1 between w2 → (∀ call ∈ between, ¬ TWrites ep call ∧ ¬ TWrites wp call) →
      TRun srt w2 (.newEmbeddings (some ep) (some wp) :: calls) w → (∀ call ∈ calls, ¬ TWrites ep call) →
      HoldsPairs srt w w2.objects.length
        (pairs ++ firstPairs (pairs.map Prod.snd) (wordsTo w2.objects.length calls))

/-- The files `ep` and `wp` were saved by an `Embeddings` with the given pairs (`h`, in state `w0`), and have not been
changed since. -/
def PairsSaved (srt : List (Nat × ℝ) → List (Nat × ℝ)) (w0 : TWorld) (h : Nat) (w : TWorld) (ep wp : String)
    (pairs : List (List UInt32 × Text)) : Prop :=
  ∃ (w1 : TWorld) (after : List TCall), HoldsPairs srt w0 h pairs ∧ ep ≠ wp ∧
    TRun srt w0 [.saveEmbeddings h ep, .saveWords h wp] w1 ∧ TRun srt w1 after w ∧
    ∀ call ∈ after, ¬ TWrites ep call ∧ ¬ TWrites wp call

/-- What the theorems assume of the pairs: there is at least one, and no embedding of dimension 0. -/
structure SensiblePairs (pairs : List (List UInt32 × Text)) : Prop where
  some_pair : pairs ≠ []
  proper : ∀ p ∈ pairs, p.1 ≠ [] ∧ p.1.length < 2 ^ 64

/-- The positions of the known words of a text in the list of words. -/
def wordIds (words : List Text) (q : Text) : List Nat := (splitWs q).filterMap fun w => words.idxOf? w

/-- Object `h` is a builder over texts with configuration `c`, to which these texts were appended; the embeddings and words
are the `pairs`. It was created from saved embeddings and words without elements and index, or it was resumed: created
from saved embeddings and words and the elements and the index saved from such a builder (between saving the index and
saving the elements more texts may have been appended). All configurations satisfy `P`. `reads` are the files it may read:
they have not been changed since. -/
inductive TextBuilder (srt : List (Nat × ℝ) → List (Nat × ℝ)) (P : PyConfig → Prop) (pairs : List (List UInt32 × Text)) :
    PyConfig → List String → TWorld → Nat → List Text → Prop
  | new (c : PyConfig) (ep wp : String) (wp0 w0 w : TWorld) (hp : Nat) (calls : List TCall) : P c →
      PairsSaved srt wp0 hp w0 ep wp pairs → TRun srt w0 (.newBuilder c none ep wp none :: calls) w →
      (∀ call ∈ calls, ¬ TWrites ep call) →
      TextBuilder srt P pairs c [ep] w w0.objects.length (textsTo w0.objects.length calls)
  | resumed (c c' : PyConfig) (reads : List String) (ip xp ep wp : String) (wi we wp0 w0 w : TWorld) (h hp : Nat)
      (texts : List Text) (between after calls : List TCall) : TextBuilder srt P pairs c reads wi h texts →
      ip ≠ xp → ip ∉ reads → TRun srt wi (.saveIndex h ip :: between) we →
      (∀ call ∈ between, ¬ TWrites ip call ∧ ∀ p ∈ reads, ¬ TWrites p call) →
      TRun srt we (.saveElements h xp :: after) w0 → (∀ call ∈ after, ¬ TWrites ip call ∧ ¬ TWrites xp call) →
      P c' → PairsSaved srt wp0 hp w0 ep wp pairs →
      TRun srt w0 (.newBuilder c' (some xp) ep wp (some ip) :: calls) w →
      (∀ call ∈ calls, ¬ TWrites xp call ∧ ¬ TWrites ep call) →
      TextBuilder srt P pairs c' [xp, ep] w w0.objects.length
        (texts ++ textsTo h between ++ textsTo w0.objects.length calls)

/-- The files `ip` and `xp` contain the index and the elements of a builder over texts (`h`, in state `wi` when the index was
saved); `texts` are the texts appended until the elements were saved. -/
inductive TextSaved (srt : List (Nat × ℝ) → List (Nat × ℝ)) (P : PyConfig → Prop) (pairs : List (List UInt32 × Text))
    (ip xp : String) (h : Nat) : TWorld → TWorld → List Text → Prop
  | saved (c : PyConfig) (reads : List String) (wi we w : TWorld) (texts : List Text) (between after : List TCall) :
      TextBuilder srt P pairs c reads wi h texts → ip ≠ xp → ip ∉ reads → TRun srt wi (.saveIndex h ip :: between) we →
      (∀ call ∈ between, ¬ TWrites ip call ∧ ∀ p ∈ reads, ¬ TWrites p call) →
      TRun srt we (.saveElements h xp :: after) w → (∀ call ∈ after, ¬ TWrites ip call ∧ ¬ TWrites xp call) →
      TextSaved srt P pairs ip xp h wi w (texts ++ textsTo h between)

/-- Object `k` of `w'` answers questions about the graph as object `h` of `w` does, with the neighbors in ascending
order. -/
structure SameTextGraph (w : TWorld) (h : Nat) (w' : TWorld) (k : Nat) : Prop where
  len : ∀ a, w.Answers h (.graph .len) a ↔ w'.Answers k (.graph .len) a
  numLayers : ∀ a, w.Answers h (.graph .numLayers) a ↔ w'.Answers k (.graph .numLayers) a
  layerLen : ∀ layer a, w.Answers h (.graph (.layerLen layer)) a ↔ w'.Answers k (.graph (.layerLen layer)) a
  neighbors : ∀ (i : Nat) (layer : Option Nat) (ns : List Nat),
    w.Answers h (.graph (.neighbors i layer)) (.graph (.ids ns)) →
    ∀ a, w'.Answers k (.graph (.neighbors i layer)) a ↔ a = .graph (.ids (ns.insertionSort (· ≤ ·)))

end Granne.Spec
