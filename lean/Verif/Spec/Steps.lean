import Verif.Model.Builder

/-! Sequences of pushes and of indexing the first elements. -/
namespace Granne.Spec
open Granne

variable {E D : Type} [LinearOrder D]

/-- A call of `push` or of `build_partial`. -/
inductive IndexStep (E : Type) where
  | push (e : E)
  | indexFirst (num : Nat)

/-- The calls lead from `b` to `b'`, without a panic. -/
inductive IndexSteps (srt : List (Nat × D) → List (Nat × D)) : Builder E D → List (IndexStep E) → Builder E D → Prop
  | nil (b : Builder E D) : IndexSteps srt b [] b
  | push (b b1 b' : Builder E D) (e : E) (l : List (IndexStep E)) : b.push e = some b1 → IndexSteps srt b1 l b' →
      IndexSteps srt b (.push e :: l) b'
  | index (b b1 b' : Builder E D) (num : Nat) (l : List (IndexStep E)) : BuildPartial srt b num (some b1) → IndexSteps srt b1 l b' →
      IndexSteps srt b (.indexFirst num :: l) b'

/-- The elements that are pushed. -/
def pushedBy : List (IndexStep E) → List E
  | [] => []
  | .push e :: l => e :: pushedBy l
  | .indexFirst _ :: l => pushedBy l

/-- The same calls of `build_partial`, without the pushes. -/
def withoutPushes : List (IndexStep E) → List (IndexStep E)
  | [] => []
  | .push _ :: l => withoutPushes l
  | .indexFirst num :: l => .indexFirst num :: withoutPushes l

/-- No call asks for more elements than there are at the time, `n` at the start. -/
def InTime : Nat → List (IndexStep E) → Prop
  | _, [] => True
  | n, .push _ :: l => InTime (n + 1) l
  | n, .indexFirst num :: l => num ≤ n ∧ InTime n l

end Granne.Spec
