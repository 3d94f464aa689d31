import Verif.Model.Builder

/-!
The build with the cargo feature `singlethreaded` (Cargo.toml:27): the elements of a layer are indexed one after
the other on the calling thread (src/index/mod.rs:771-772, 789-790) instead of by a pool of threads.
-/
namespace Granne

variable {E D : Type} [LinearOrder D]

/-- Runs one task, i.e. one call of `index_element` (src/index/mod.rs:805-846), to its end, with nobody else
changing the rows; `none` is a panic. -/
def Prog.runRW {α : Type} (rows : Rows) : Prog α → Option (Rows × α)
  | .ret a => some (rows, a)
  | .fail => none
  | .nbrs i k => match rows[i]? with
    | some row => (k (visible row)).runRW rows
    | none => none
  | .unused i k => match rows[i]? with
    | some (x :: _) => (k (x == UNUSED)).runRW rows
    | _ => none
  | .upd i f k => match rows[i]? with
    | none => none
    | some row => match f row with
      | none => none
      | some row' => k.runRW (rows.set i row')

/-- `layer.iter()....for_each(insert_element)` (src/index/mod.rs:771-782): the tasks one after the other. -/
def runSeq (rows : Rows) : List (Prog Unit) → Option Rows
  | [] => some rows
  | p :: ps => match p.runRW rows with
    | none => none
    | some (rows', _) => runSeq rows' ps

/-- `index_elements` (src/index/mod.rs:716-802) on one thread, the resulting rows. -/
def indexSeq (cfg : LayerConfig D) (es : Elements E D) (srt : List (Nat × D) → List (Nat × D))
    (num : Nat) (prev : List Graph) (layer : Layer) (reinsert : Bool) : Option Rows :=
  let s := indexPar cfg es srt num prev layer reinsert
  match runSeq s.rows s.threads with
  | none => none
  | some rows => limitPass cfg es srt rows

/-- `index_elements` (src/index/mod.rs:716-802) on one thread; `none` is a panic. -/
def indexElementsSeq (cfg : LayerConfig D) (es : Elements E D) (srt : List (Nat × D) → List (Nat × D))
    (num : Nat) (prev : List Graph) (layer : Layer) (reinsert : Bool) : Option Layer :=
  if layer.rows.length ≤ num then
    (indexSeq cfg es srt num prev layer reinsert).map fun rows => { layer with rows := rows }
  else none

/-- `index_elements_in_last_layer` (src/index/mod.rs:646-713) on one thread; `none` is a panic. -/
def indexLastSeq (srt : List (Nat × D) → List (Nat × D)) (b : Builder E D) (maxNum : Nat) :
    Option (Builder E D) :=
  match b.layers.getLast? with
  | none => none
  | some layer =>
    let ideal := b.ideal b.layers.length
    if ideal ≤ layer.rows.length then some b
    else
      let upper := b.layers.dropLast
      let prev := upper.map fun l => graphOf l.rows
      let config := b.layerConfig ideal
      match indexElementsSeq config b.elements srt (min maxNum ideal) prev layer false with
      | none => none
      | some layer' =>
        if b.config.reinsertElements then
          (indexElementsSeq config.forReinsert b.elements srt (min maxNum ideal) prev layer' true).map
            fun l => { b with layers := upper ++ [l] }
        else some { b with layers := upper ++ [layer'] }

/-- The `while` loop of `build_partial` (src/index/mod.rs:392-401) on one thread; a loop that never ends has no
outcome. -/
inductive BuildLoopSeq (srt : List (Nat × D) → List (Nat × D)) (num : Nat) :
    Builder E D → Option (Builder E D) → Prop
  | done (b : Builder E D) : ¬ lastLen b.layers < num → BuildLoopSeq srt num b (some b)
  | panic (b : Builder E D) : lastLen b.layers < num → indexLastSeq srt b.addLayer num = none →
      BuildLoopSeq srt num b none
  | round (b b' : Builder E D) (out : Option (Builder E D)) : lastLen b.layers < num →
      indexLastSeq srt b.addLayer num = some b' → BuildLoopSeq srt num b' out → BuildLoopSeq srt num b out

/-- `build_partial(num_elements)` (src/index/mod.rs:374-402) on one thread; `none` is a panic. -/
inductive BuildPartialSeq (srt : List (Nat × D) → List (Nat × D)) (b : Builder E D) (num : Nat) :
    Option (Builder E D) → Prop
  | zero : num = 0 → BuildPartialSeq srt b num (some b)
  | fewer : num ≠ 0 → ¬ lastLen b.layers ≤ num → BuildPartialSeq srt b num none
  | more : num ≠ 0 → lastLen b.layers ≤ num → ¬ num ≤ b.elements.data.length → BuildPartialSeq srt b num none
  | fresh (out : Option (Builder E D)) : num ≠ 0 → lastLen b.layers ≤ num → num ≤ b.elements.data.length →
      b.layers = [] → BuildLoopSeq srt num b out → BuildPartialSeq srt b num out
  | lastPanics : num ≠ 0 → lastLen b.layers ≤ num → num ≤ b.elements.data.length →
      b.layers ≠ [] → indexLastSeq srt b num = none → BuildPartialSeq srt b num none
  | continue (b' : Builder E D) (out : Option (Builder E D)) : num ≠ 0 → lastLen b.layers ≤ num →
      num ≤ b.elements.data.length → b.layers ≠ [] → indexLastSeq srt b num = some b' →
      BuildLoopSeq srt num b' out → BuildPartialSeq srt b num out

/-- The calls of a program that fills a builder: `push` (src/index/mod.rs:527-530) and `build_partial`
(366-402; `build()` is `build_partial` of all elements). -/
inductive BuilderCall (E : Type) where
  | push (e : E)
  | buildPartial (num : Nat)
  | build

/-- One call, built on one thread, that returns. -/
inductive BuilderCall.RunsSeq (srt : List (Nat × D) → List (Nat × D)) (b : Builder E D) :
    BuilderCall E → Builder E D → Prop
  | push (e : E) (b' : Builder E D) : b.push e = some b' → RunsSeq srt b (.push e) b'
  | buildPartial (num : Nat) (b' : Builder E D) : BuildPartialSeq srt b num (some b') →
      RunsSeq srt b (.buildPartial num) b'
  | build (b' : Builder E D) : BuildPartialSeq srt b b.elements.data.length (some b') → RunsSeq srt b .build b'

/-- One call, built by any number of threads, that returns. -/
inductive BuilderCall.Runs (srt : List (Nat × D) → List (Nat × D)) (b : Builder E D) :
    BuilderCall E → Builder E D → Prop
  | push (e : E) (b' : Builder E D) : b.push e = some b' → Runs srt b (.push e) b'
  | buildPartial (num : Nat) (b' : Builder E D) : BuildPartial srt b num (some b') →
      Runs srt b (.buildPartial num) b'
  | build (b' : Builder E D) : Build srt b (some b') → Runs srt b .build b'

/-- A whole program: one call after the other. -/
inductive RunCalls (step : Builder E D → BuilderCall E → Builder E D → Prop) :
    Builder E D → List (BuilderCall E) → Builder E D → Prop
  | nil (b : Builder E D) : RunCalls step b [] b
  | cons (b b1 b2 : Builder E D) (c : BuilderCall E) (cs : List (BuilderCall E)) :
      step b c b1 → RunCalls step b1 cs b2 → RunCalls step b (c :: cs) b2

end Granne
