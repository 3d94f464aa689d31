import Verif.Model.Py

/-! Vocabulary for sessions of the Python module. -/
namespace Granne.Spec
open Granne

/-- Calls one after the other, all of which return. -/
inductive PyRun (checked : Bool) (srt : List (Nat × ℝ) → List (Nat × ℝ)) : World → List PyCall → World → Prop
  | nil (w : World) : PyRun checked srt w [] w
  | cons (w w' w'' : World) (call : PyCall) (calls : List PyCall) : PyStep checked srt w call w' →
      PyRun checked srt w' calls w'' → PyRun checked srt w (call :: calls) w''

/-- The call saves to this path. -/
def Writes (path : String) : PyCall → Prop
  | .saveIndex _ p => p = path
  | .saveElements _ p => p = path
  | _ => False

/-- The call changes object `h`. -/
def Changes (h : Nat) : PyCall → Prop
  | .append h' _ => h' = h
  | .build h' _ => h' = h
  | .reorder h' => h' = h
  | _ => False

/-- The vectors appended to object `h`. -/
def appendedTo (h : Nat) : List PyCall → List (List UInt32)
  | [] => []
  | .append h' raw :: calls => if h' = h then raw :: appendedTo h calls else appendedTo h calls
  | _ :: calls => appendedTo h calls

/-- A builder `h` was created empty and filled by `append`; at the end index and elements of it are in the files `ip` and
`ep`. `wi` is the state in which the index was saved, `w` the state at the end; `indexed` are the vectors appended until
the index was saved, `vectors` those appended until the elements were saved. Besides, anything may be called (also on
`h`), except that nothing else is saved to these files afterwards, and that no vectors are appended after the elements
were saved and before the index was. -/
inductive Saved (checked : Bool) (srt : List (Nat × ℝ) → List (Nat × ℝ)) (t : ElementType) (c : PyConfig) (h : Nat)
    (ip ep : String) : (wi w : World) → (indexed vectors : List (List UInt32)) → Prop
  | indexFirst (w0 wi we w : World) (calls between after : List PyCall) :
      h = w0.objects.length → ip ≠ ep →
      PyRun checked srt w0 (.newBuilder t c none none :: calls) wi →
      PyRun checked srt wi (.saveIndex h ip :: between) we →
      PyRun checked srt we (.saveElements h ep :: after) w →
      (∀ call ∈ between, ¬ Writes ip call) → (∀ call ∈ after, ¬ Writes ip call ∧ ¬ Writes ep call) →
      Saved checked srt t c h ip ep wi w (appendedTo h calls) (appendedTo h calls ++ appendedTo h between)
  | elementsFirst (w0 we wi w : World) (calls between after : List PyCall) :
      h = w0.objects.length → ip ≠ ep →
      PyRun checked srt w0 (.newBuilder t c none none :: calls) we →
      PyRun checked srt we (.saveElements h ep :: between) wi →
      PyRun checked srt wi (.saveIndex h ip :: after) w →
      (∀ call ∈ between, ¬ Writes ep call) → (∀ call ∈ after, ¬ Writes ip call ∧ ¬ Writes ep call) →
      appendedTo h between = [] →
      Saved checked srt t c h ip ep wi w (appendedTo h calls) (appendedTo h calls)

/-- What the theorems assume of the vectors: there is at least one, and none of dimension 0. -/
structure Sensible (vectors : List (List UInt32)) : Prop where
  some_vector : vectors ≠ []
  proper : ∀ raw ∈ vectors, raw ≠ [] ∧ raw.length < 2 ^ 64

/-- Object `k` of `w'` answers questions about the graph as object `h` of `w` does, with the neighbors in ascending
order. -/
structure SameGraph (checked : Bool) (w : World) (h : Nat) (w' : World) (k : Nat) : Prop where
  len : ∀ a, w.Answers checked h .len a ↔ w'.Answers checked k .len a
  numLayers : ∀ a, w.Answers checked h .numLayers a ↔ w'.Answers checked k .numLayers a
  layerLen : ∀ layer a, w.Answers checked h (.layerLen layer) a ↔ w'.Answers checked k (.layerLen layer) a
  neighbors : ∀ (i : Nat) (layer : Option Nat) (ns : List Nat), w.Answers checked h (.neighbors i layer) (.ids ns) →
    ∀ a, w'.Answers checked k (.neighbors i layer) a ↔
      a = .ids (ns.insertionSort (· ≤ ·))

/-- Object `k` has these vectors (normalised, or quantised) as elements, in this order. -/
def HasElements (checked : Bool) (w : World) (k : Nat) (t : ElementType) (vectors : List (List UInt32)) : Prop :=
  ∃ rows : List (List (Scal t)), List.Forall₂ (Convert t) vectors rows ∧
    ∀ (i : Nat) (a : PyAnswer), w.Answers checked k (.element i) a ↔ ∃ row, rows[i]? = some row ∧
      a = .vector (encodeAll row)

end Granne.Spec
