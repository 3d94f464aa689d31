import Verif.Model.Parsing
import Verif.Spec.Elements

/-! Vocabulary for words and text. -/
namespace Granne.Spec
open Granne

/-- The dictionary holds exactly the distinct words given, numbered in order. -/
structure HoldsWords (d : WordDict) (words : List Text) : Prop where
  nodup : words.Nodup
  list : d.idToWord = words
  ids : ∀ (w : Text) (i : Nat), d.wordToId w = some i ↔ words[i]? = some w

/-- A word that `split_whitespace` leaves in one piece. -/
def IsWord (w : Text) : Prop := w ≠ [] ∧ ∀ c ∈ w, isWhite c = false

/-- Appends one pair after the other; the results of the calls. `none` is a panic. -/
def runAppends {S : Type} : PyEmbeddings S → List (List S × Text) → Option (PyEmbeddings S × List Bool)
  | p, [] => some (p, [])
  | p, (v, w) :: t => match p.append v w with
    | none => none
    | some (p', b) => match runAppends p' t with
      | none => none
      | some (p'', bs) => some (p'', b :: bs)

/-- The pairs whose word does not occur before (in `seen` or earlier in the list). -/
def firstPairs {S : Type} : List Text → List (List S × Text) → List (List S × Text)
  | _, [] => []
  | seen, p :: t => if p.2 ∈ seen then firstPairs seen t else p :: firstPairs (seen ++ [p.2]) t

/-- The ids that a line of an elements file stands for: the known words after the last colon. -/
def lineIds (ids : Text → Option Nat) (line : Text) : List Nat := (splitWs (afterColon line)).filterMap ids

end Granne.Spec
