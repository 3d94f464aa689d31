import Verif.Model.IndexIO
import Verif.Model.Reorder
import Verif.Spec.Builder

/-!
Histories of a `GranneBuilder`.
-/
namespace Granne
open Spec

variable {E D : Type} [LinearOrder D]

/-- `es'` agrees with `es` on the first `n` elements (and has at least as many of them). -/
def SamePrefix (n : Nat) (es es' : Elements E D) : Prop :=
  es'.dist = es.dist ∧ ∀ i < n, es'.data[i]? = es.data[i]?

/-- The builder `b` was saved at position `start` of the file `f` (which then is `f'`), opened from there as the index `vs` over
the elements `es`, all of them indexed, and reordered into `ix`; `order` was returned, with 0 first. -/
structure Reordered (b : Builder E D) (f f' : Bytes) (start : Nat) (vs : List SetVec) (es : Elements E D) (ix : GIndex E D)
    (order : List Nat) : Prop where
  saved : saveIndex (.fixWidth b.layers) f start = (f', true)
  size : f'.length < 2 ^ 64
  opened : loadLayers (f'.drop start) = some vs
  same : SamePrefix (lastLen b.layers) b.elements es
  full : es.data.length = lastLen b.layers
  call : Reorders ⟨.compressed vs, es⟩ ix order
  first : order.getD 0 0 = 0

/-- The states a builder can get into: created (src/index/mod.rs:419-426), elements pushed (527-530), built or
partially built (366-402) under any interleaving of the workers, or saved to a file, at any position, and loaded
from there (358-360, 430-472) with a possibly different configuration and with elements that agree on those
already indexed, or saved, opened as a `Granne`, reordered (src/index/reorder.rs:59-125) with element 0 staying first (which
`reorder` guarantees), saved and opened as a builder again. (`reorder` needs all elements of the index to be indexed, C27;
afterwards more may follow.) Operations that panic end a history. File sizes fit in 64 bits; a builder that is saved has a
sensible configuration (its successor's may be anything). -/
inductive Reachable (srt : List (Nat × D) → List (Nat × D)) : Builder E D → Prop
  | new (config : BuildConfig D) (elements : Elements E D) (b : Builder E D) :
      Builder.new config elements = some b → Reachable srt b
  | push (b b' : Builder E D) (e : E) : Reachable srt b → b.push e = some b' → Reachable srt b'
  | build (b b' : Builder E D) (num : Nat) : Reachable srt b → BuildPartial srt b num (some b') → Reachable srt b'
  | reload (b b' : Builder E D) (f f' : Bytes) (start : Nat) (config : BuildConfig D) (elements : Elements E D) :
      Reachable srt b → GoodConfig b.config → saveIndex (.fixWidth b.layers) f start = (f', true) →
      f'.length < 2 ^ 64 → config.eps = b.config.eps → SamePrefix (lastLen b.layers) b.elements elements →
      Builder.fromBytes config (f'.drop start) elements = some b' → Reachable srt b'
  | reorder (b b' : Builder E D) (f f' g g' : Bytes) (start start' : Nat) (vs : List SetVec) (es : Elements E D)
      (ix : GIndex E D) (order : List Nat) (config : BuildConfig D) (elements : Elements E D) :
      Reachable srt b → GoodConfig b.config → Reordered b f f' start vs es ix order → saveIndex ix.layers g start' = (g', true) →
      g'.length < 2 ^ 64 → config.eps = b.config.eps → SamePrefix (lastLen b.layers) ix.elements elements →
      Builder.fromBytes config (g'.drop start') elements = some b' → Reachable srt b'

/-- The same histories, with only configurations that satisfy `P` ever used. -/
inductive ReachableBy (srt : List (Nat × D) → List (Nat × D)) (P : BuildConfig D → Prop) : Builder E D → Prop
  | new (config : BuildConfig D) (elements : Elements E D) (b : Builder E D) : P config →
      Builder.new config elements = some b → ReachableBy srt P b
  | push (b b' : Builder E D) (e : E) : ReachableBy srt P b → b.push e = some b' → ReachableBy srt P b'
  | build (b b' : Builder E D) (num : Nat) : ReachableBy srt P b → BuildPartial srt b num (some b') →
      ReachableBy srt P b'
  | reload (b b' : Builder E D) (f f' : Bytes) (start : Nat) (config : BuildConfig D) (elements : Elements E D) :
      P config → ReachableBy srt P b → GoodConfig b.config → saveIndex (.fixWidth b.layers) f start = (f', true) →
      f'.length < 2 ^ 64 → config.eps = b.config.eps → SamePrefix (lastLen b.layers) b.elements elements →
      Builder.fromBytes config (f'.drop start) elements = some b' → ReachableBy srt P b'
  | reorder (b b' : Builder E D) (f f' g g' : Bytes) (start start' : Nat) (vs : List SetVec) (es : Elements E D)
      (ix : GIndex E D) (order : List Nat) (config : BuildConfig D) (elements : Elements E D) :
      P config → ReachableBy srt P b → GoodConfig b.config → Reordered b f f' start vs es ix order →
      saveIndex ix.layers g start' = (g', true) → g'.length < 2 ^ 64 → config.eps = b.config.eps →
      SamePrefix (lastLen b.layers) ix.elements elements → Builder.fromBytes config (g'.drop start') elements = some b' →
      ReachableBy srt P b'

end Granne
