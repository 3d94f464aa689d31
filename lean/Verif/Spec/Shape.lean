import Verif.Model.History

/-! Histories of a builder with the same plan of layer sizes throughout. -/
namespace Granne.Spec
open Granne

variable {E D : Type} [LinearOrder D]

/-- A sensible configuration with the given plan of layer sizes and `total` expected elements, of which there are no more. -/
structure Planned (schedule : Nat → Nat → Nat) (total : Nat) (b : Builder E D) : Prop where
  good : GoodConfig b.config
  schedule : b.config.schedule = schedule
  expected : b.config.expectedNumElements = some total
  enough : b.elements.data.length ≤ total

/-- The histories of `Reachable` (new, push, build_partial, save and reload, save and reorder and reload, with other configurations and
elements after reloading) in which every state satisfies `Q`. -/
inductive ReachableWhile (srt : List (Nat × D) → List (Nat × D)) (Q : Builder E D → Prop) : Builder E D → Prop
  | new (config : BuildConfig D) (elements : Elements E D) (b : Builder E D) : Builder.new config elements = some b → Q b →
      ReachableWhile srt Q b
  | push (b b' : Builder E D) (e : E) : ReachableWhile srt Q b → b.push e = some b' → Q b' → ReachableWhile srt Q b'
  | build (b b' : Builder E D) (num : Nat) : ReachableWhile srt Q b → BuildPartial srt b num (some b') → Q b' →
      ReachableWhile srt Q b'
  | reload (b b' : Builder E D) (f f' : Bytes) (start : Nat) (config : BuildConfig D) (elements : Elements E D) :
      ReachableWhile srt Q b → GoodConfig b.config → saveIndex (.fixWidth b.layers) f start = (f', true) →
      f'.length < 2 ^ 64 → config.eps = b.config.eps → SamePrefix (lastLen b.layers) b.elements elements →
      Builder.fromBytes config (f'.drop start) elements = some b' → Q b' → ReachableWhile srt Q b'
  | reorder (b b' : Builder E D) (f f' g g' : Bytes) (start start' : Nat) (vs : List SetVec) (es : Elements E D)
      (ix : GIndex E D) (order : List Nat) (config : BuildConfig D) (elements : Elements E D) :
      ReachableWhile srt Q b → GoodConfig b.config → Reordered b f f' start vs es ix order →
      saveIndex ix.layers g start' = (g', true) → g'.length < 2 ^ 64 → config.eps = b.config.eps →
      SamePrefix (lastLen b.layers) ix.elements elements → Builder.fromBytes config (g'.drop start') elements = some b' → Q b' →
      ReachableWhile srt Q b'

end Granne.Spec
