import Verif.Model.Build

/-!
`GranneBuilder`: state, `push`, `build_partial` (src/index/mod.rs:293-531, 645-713).
-/
namespace Granne

/-- src/index/mod.rs:199-231 `BuildConfig`. `schedule total i` is
`compute_num_elements_in_layer(total, layer_multiplier, i)` (src/index/mod.rs:634-643), a parameter here
(the formula over the reals is in `Model/Schedule`); `eps` is the threshold of lines 813/829. A configuration is given by its values; the constructor
and the setters (src/index/mod.rs:235-237, src/index/mod.rs:242-245, src/index/mod.rs:252-255,
src/index/mod.rs:259-262, src/index/mod.rs:270-273, src/index/mod.rs:279-282, src/index/mod.rs:287-290) store one value
each and are not modelled one by one. -/
structure BuildConfig (D : Type) where
  schedule : Nat → Nat → Nat
  expectedNumElements : Option Nat
  numNeighbors : Nat
  maxSearch : Nat
  reinsertElements : Bool
  eps : D

/-- src/index/mod.rs:295-299 `GranneBuilder`. -/
structure Builder (E D : Type) where
  elements : Elements E D
  layers : List Layer
  config : BuildConfig D

variable {E D : Type} [LinearOrder D]

/-- The number of nodes of the last layer; `Index::len` of builder and index
(src/index/mod.rs:76-83, 329-331, 380). -/
def lastLen (layers : List Layer) : Nat :=
  match layers.getLast? with
  | some l => l.rows.length
  | none => 0

/-- src/index/mod.rs:483-488 `get_index`: the layers as seen by a search. -/
def Builder.graphs (b : Builder E D) : List Graph := b.layers.map fun l => graphOf l.rows

/-- src/index/mod.rs:419-426 `GranneBuilder::new`; `none` is the failed assertion. -/
def Builder.new (config : BuildConfig D) (elements : Elements E D) : Option (Builder E D) :=
  if elements.data.length < UNUSED then some ⟨elements, [], config⟩ else none

/-- src/index/mod.rs:527-530 `push`; `none` is the failed assertion. -/
def Builder.push (b : Builder E D) (e : E) : Option (Builder E D) :=
  if b.elements.data.length < UNUSED - 1 then
    some { b with elements := { b.elements with data := b.elements.data ++ [e] } }
  else none

/-- `total_num_elements` of src/index/mod.rs:647. -/
def Builder.total (b : Builder E D) : Nat :=
  b.config.expectedNumElements.getD b.elements.data.length

/-- `ideal_num_elements_in_layer` of src/index/mod.rs:648-652 for the last of `numLayers` layers. -/
def Builder.ideal (b : Builder E D) (numLayers : Nat) : Nat :=
  b.config.schedule (max b.total b.elements.data.length) (numLayers - 1)

/-- The configuration for the first pass over the last layer, src/index/mod.rs:662-668. -/
def Builder.layerConfig (b : Builder E D) (ideal : Nat) : LayerConfig D where
  numNeighbors := if ideal < b.total then max 1 (b.config.numNeighbors / 2) else b.config.numNeighbors
  maxSearch := b.config.maxSearch
  eps := b.config.eps

/-- The configuration for reinsertion, src/index/mod.rs:699. -/
def LayerConfig.forReinsert (c : LayerConfig D) : LayerConfig D := { c with maxSearch := max 1 (c.maxSearch / 2) }

/-- src/index/mod.rs:646-713 `index_elements_in_last_layer(max_num_elements)`: possible outcomes, `none` is a
panic. -/
inductive IndexLast (srt : List (Nat × D) → List (Nat × D)) (b : Builder E D) (maxNum : Nat) :
    Option (Builder E D) → Prop
  /-- `self.layers.len() - 1` underflows / `last().unwrap()` panics. -/
  | noLayer : b.layers = [] → IndexLast srt b maxNum none
  /-- lines 654-657. -/
  | nothing : b.layers ≠ [] → b.ideal b.layers.length ≤ lastLen b.layers → IndexLast srt b maxNum (some b)
  /-- first pass panics. -/
  | firstPanics (upper : List Layer) (layer : Layer) : b.layers = upper ++ [layer] →
      layer.rows.length < b.ideal b.layers.length →
      IndexElements (b.layerConfig (b.ideal b.layers.length)) b.elements srt
        (min maxNum (b.ideal b.layers.length)) (upper.map fun l => graphOf l.rows) layer false none →
      IndexLast srt b maxNum none
  /-- no reinsertion, lines 684-691, 712. -/
  | once (upper : List Layer) (layer layer' : Layer) : b.layers = upper ++ [layer] →
      layer.rows.length < b.ideal b.layers.length →
      IndexElements (b.layerConfig (b.ideal b.layers.length)) b.elements srt
        (min maxNum (b.ideal b.layers.length)) (upper.map fun l => graphOf l.rows) layer false (some layer') →
      b.config.reinsertElements = false →
      IndexLast srt b maxNum (some { b with layers := upper ++ [layer'] })
  /-- reinsertion, lines 693-710. -/
  | twice (upper : List Layer) (layer layer' : Layer) (out : Option Layer) : b.layers = upper ++ [layer] →
      layer.rows.length < b.ideal b.layers.length →
      IndexElements (b.layerConfig (b.ideal b.layers.length)) b.elements srt
        (min maxNum (b.ideal b.layers.length)) (upper.map fun l => graphOf l.rows) layer false (some layer') →
      b.config.reinsertElements = true →
      IndexElements (b.layerConfig (b.ideal b.layers.length)).forReinsert b.elements srt
        (min maxNum (b.ideal b.layers.length)) (upper.map fun l => graphOf l.rows) layer' true out →
      IndexLast srt b maxNum (out.map fun l => { b with layers := upper ++ [l] })

/-- src/index/mod.rs:393-398: push a copy of the last layer, or an empty one. -/
def Builder.addLayer (b : Builder E D) : Builder E D :=
  { b with layers := b.layers ++ [match b.layers.getLast? with
    | some l => l
    | none => ⟨b.config.numNeighbors, []⟩] }

/-- The `while` loop of `build_partial`, src/index/mod.rs:392-401. -/
inductive BuildLoop (srt : List (Nat × D) → List (Nat × D)) (num : Nat) :
    Builder E D → Option (Builder E D) → Prop
  | done (b : Builder E D) : ¬ lastLen b.layers < num → BuildLoop srt num b (some b)
  | panic (b : Builder E D) : lastLen b.layers < num → IndexLast srt b.addLayer num none →
      BuildLoop srt num b none
  | round (b b' : Builder E D) (out : Option (Builder E D)) : lastLen b.layers < num →
      IndexLast srt b.addLayer num (some b') → BuildLoop srt num b' out → BuildLoop srt num b out

/-- src/index/mod.rs:374-402 `build_partial(num_elements)`: possible outcomes, `none` is a panic. -/
inductive BuildPartial (srt : List (Nat × D) → List (Nat × D)) (b : Builder E D) (num : Nat) :
    Option (Builder E D) → Prop
  | zero : num = 0 → BuildPartial srt b num (some b)
  | fewer : num ≠ 0 → ¬ lastLen b.layers ≤ num → BuildPartial srt b num none
  | more : num ≠ 0 → lastLen b.layers ≤ num → ¬ num ≤ b.elements.data.length → BuildPartial srt b num none
  | fresh (out : Option (Builder E D)) : num ≠ 0 → lastLen b.layers ≤ num → num ≤ b.elements.data.length →
      b.layers = [] → BuildLoop srt num b out → BuildPartial srt b num out
  | lastPanics : num ≠ 0 → lastLen b.layers ≤ num → num ≤ b.elements.data.length →
      b.layers ≠ [] → IndexLast srt b num none → BuildPartial srt b num none
  | continue (b' : Builder E D) (out : Option (Builder E D)) : num ≠ 0 → lastLen b.layers ≤ num →
      num ≤ b.elements.data.length → b.layers ≠ [] → IndexLast srt b num (some b') →
      BuildLoop srt num b' out → BuildPartial srt b num out

/-- src/index/mod.rs:366-368 `build`. -/
def Build (srt : List (Nat × D) → List (Nat × D)) (b : Builder E D) (out : Option (Builder E D)) : Prop :=
  BuildPartial srt b b.elements.data.length out

end Granne
