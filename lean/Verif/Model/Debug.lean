import Verif.Model.Sequential
import Verif.Model.SetVector
import Verif.Model.FixedWidth

/-!
A build with debug assertions (`cargo build` without `--release`): the `debug_assert!`s of the storage of neighbor lists
and of the builder are checked, and `u32` additions panic when they overflow. The functions here differ from the ones of
the release build only in that; those without an assertion are shared. `usize` arithmetic on sizes that fit into memory
does not overflow and is not modelled. The assertion of src/index/mod.rs:858-862 is part of `selectNeighbors`; the
one of src/elements/angular_int.rs:39 is in `quantizeDebug` of `Model/F32`.
-/
namespace Granne

/-! ### Storage of neighbor lists -/

/-- src/slice_vector/offsets.rs:177-187 `get`, with the assertion of line 182. -/
def Chunk.getDebug (c : Chunk) (index : Nat) : Option Nat :=
  if index < OFFSETS_PER_CHUNK then
    if ∀ d ∈ c.deltas.take (index + 1), d ≠ UNUSED_DELTA then some ((c.deltas.take (index + 1)).sum + c.initial)
    else none
  else none

/-- src/slice_vector/offsets.rs:189-195. -/
def Chunk.getConsecutiveDebug (c : Chunk) (index : Nat) : Option (Nat × Nat) :=
  if index + 1 < OFFSETS_PER_CHUNK then
    match c.getDebug index, c.deltas[index + 1]? with
    | some first, some d => some (first, first + d)
    | _, _ => none
  else none

/-- src/slice_vector/offsets.rs:211-217. -/
def Chunk.lastDebug (c : Chunk) : Option (Option Nat) :=
  if c.isEmpty then some none else (c.getDebug (c.len - 1)).map some

/-- src/slice_vector/offsets.rs:197-209. -/
def Chunk.pushDebug (c : Chunk) (offset : Nat) : Option Chunk :=
  if c.isFull then none
  else
    match c.lastDebug with
    | none => none
    | some l =>
      let lastOffset := l.getD c.initial
      if lastOffset ≤ offset then
        let delta := offset - lastOffset
        if delta ≤ 65535 then some { c with deltas := c.deltas.set c.len delta } else none
      else none

/-- src/slice_vector/offsets.rs:238-246. -/
def Offsets.pushDebug (o : Offsets) (offset : Nat) : Option Offsets :=
  match o.getLast? with
  | none => none
  | some c =>
    if c.isFull then ((Chunk.new offset).pushDebug offset).map fun c' => o ++ [c']
    else (c.pushDebug offset).map fun c' => o.dropLast ++ [c']

/-- src/slice_vector/offsets.rs:248-251. -/
def Offsets.getDebug (o : Offsets) (index : Nat) : Option Nat :=
  match o[index / OFFSETS_PER_CHUNK]? with
  | none => none
  | some c => c.getDebug (index % OFFSETS_PER_CHUNK)

/-- src/slice_vector/offsets.rs:253-259. -/
def Offsets.getConsecutiveDebug (o : Offsets) (index : Nat) : Option (Nat × Nat) :=
  if (index + 1) % OFFSETS_PER_CHUNK = 0 then
    match o.getDebug index, o.getDebug (index + 1) with
    | some a, some b => some (a, b)
    | _, _ => none
  else
    match o[index / OFFSETS_PER_CHUNK]? with
    | none => none
    | some c => c.getConsecutiveDebug (index % OFFSETS_PER_CHUNK)

/-- src/slice_vector/set_vector.rs:157-162 `delta_decode`; an overflow of the `u32` addition panics. -/
def deltaDecodeDebug (prev : Nat) : List Nat → Option (List Nat)
  | [] => some []
  | x :: xs => if prev + x < 2 ^ 32 then (deltaDecodeDebug (prev + x) xs).map fun l => (prev + x) :: l else none

/-- The number of bytes that `decode::<Scalar>(input, count, _)` of the crate `stream-vbyte` reads, its return value
(src/slice_vector/set_vector.rs:101): the control bytes and the data bytes they announce. -/
def vbDecodedBytes (input : Bytes) (count : Nat) : Nat :=
  let controlLen := (count + 3) / 4
  controlLen + ((((input.take controlLen).flatMap vbUnpack).take count).map (· + 1)).sum

/-- src/slice_vector/set_vector.rs:91-115 `decode_into`, with the assertion of line 103. -/
def decodeIntoDebug : Bytes → Option (List Nat)
  | [] => none
  | c :: body =>
    let count := c.toNat
    if body.length ≠ 4 * count then
      match vbDecode body (max 4 count) with
      | none => none
      | some nums =>
        if body.length = vbDecodedBytes body (max 4 count) then deltaDecodeDebug 0 (nums.take count) else none
    else deltaDecodeDebug 0 (readRaw count body)

namespace SetVec

/-- src/slice_vector/set_vector.rs:41-51 `push` and src/slice_vector/offsets.rs:68-73. -/
def pushDebug (v : SetVec) (ids : List Nat) : Option SetVec :=
  match setEncodeDebug (sortIds ids) with
  | none => none
  | some b => (v.offsets.pushDebug (v.data ++ b).length).map fun o => ⟨o, v.data ++ b⟩

/-- src/slice_vector/offsets.rs:51-60 and src/slice_vector/set_vector.rs:57-69 `get`. -/
def getDebug (v : SetVec) (idx : Nat) : Option (List Nat) :=
  match v.offsets.getConsecutiveDebug idx with
  | none => none
  | some (b, e) =>
    if b ≤ e ∧ e ≤ v.data.length then decodeIntoDebug ((v.data.drop b).take (e - b)) else none

/-- Pushing several lists. -/
def pushAllDebug (v : SetVec) : List (List Nat) → Option SetVec
  | [] => some v
  | x :: xs => match v.pushDebug x with
    | none => none
    | some v' => v'.pushAllDebug xs

end SetVec

/-- src/slice_vector/mod.rs:344-356 `get`, with the assertion of line 350. -/
def FixVec.getDebug {T : Type} (v : FixVec T) (idx : Nat) : Option (List T) :=
  if idx < v.len then v.get idx else none

/-- src/slice_vector/mod.rs:358-370 `get_mut(idx).clone_from_slice(row)`, with the assertion of line 362. -/
def FixVec.setRowDebug {T : Type} (v : FixVec T) (idx : Nat) (row : List T) : Option (FixVec T) :=
  if idx < v.len then v.setRow idx row else none

/-! ### Building -/

variable {E D : Type} [LinearOrder D]

/-- src/index/mod.rs:834-845, with the assertion of line 887: `initialize_node` reads the first slot once more, in a
read-locked section of its own, before it takes the write lock. -/
def publishDebug (es : Elements E D) (srt : List (Nat × D) → List (Nat × D)) (idx : Nat)
    (neighbors : List (Nat × D)) : Prog Unit :=
  .unused idx fun empty =>
    if empty then
      .unused idx fun stillEmpty =>
        if stillEmpty then .upd idx (initializeNode neighbors) (connectOthers es srt idx neighbors (.ret ()))
        else .fail
    else connectOwn es srt idx neighbors (connectOthers es srt idx neighbors (.ret ()))

/-- src/index/mod.rs:805-846 `index_element`. -/
def indexElementDebug (cfg : LayerConfig D) (es : Elements E D) (srt : List (Nat × D) → List (Nat × D))
    (prev : List Graph) (layerLen idx : Nat) : Prog Unit :=
  match es.dist? idx idx with
  | none => .fail
  | some dSelf =>
    if cfg.eps < dSelf then .ret ()
    else
      match es.data[idx]? with
      | none => .fail
      | some element =>
        match search prev es element 1 1 with
        | none => .fail
        | some r =>
          let entrypoint := match r.head? with
            | some p => p.1
            | none => 0
          (searchForNeighbors layerLen entrypoint (es.distTo element) cfg.maxSearch).bind fun found =>
            let candidates := found.filter fun p => p.1 != idx
            match selectNeighbors es candidates cfg.numNeighbors with
            | none => .fail
            | some neighbors =>
              match neighbors[cfg.numNeighbors / 2]? with
              | some (_, d) => if d < cfg.eps then .ret () else publishDebug es srt idx neighbors
              | none => publishDebug es srt idx neighbors

/-- The tasks of one `index_elements` call (src/index/mod.rs:755-783). -/
def indexParDebug (cfg : LayerConfig D) (es : Elements E D) (srt : List (Nat × D) → List (Nat × D))
    (num : Nat) (prev : List Graph) (layer : Layer) (reinsert : Bool) : Par :=
  let (rows, ids) := indexStart num layer reinsert
  ⟨rows, ids.map (indexElementDebug cfg es srt prev rows.length)⟩

/-- src/index/mod.rs:716-802 `index_elements`: the possible outcomes; `none` is a panic. -/
inductive IndexElementsDebug (cfg : LayerConfig D) (es : Elements E D)
    (srt : List (Nat × D) → List (Nat × D)) (num : Nat) (prev : List Graph) (layer : Layer)
    (reinsert : Bool) : Option Layer → Prop
  | tooMany : ¬ layer.rows.length ≤ num → IndexElementsDebug cfg es srt num prev layer reinsert none
  | panic (s : Par) : layer.rows.length ≤ num →
      Par.Steps (indexParDebug cfg es srt num prev layer reinsert) s → s.Panicked →
      IndexElementsDebug cfg es srt num prev layer reinsert none
  | done (s : Par) : layer.rows.length ≤ num →
      Par.Steps (indexParDebug cfg es srt num prev layer reinsert) s → s.Done →
      IndexElementsDebug cfg es srt num prev layer reinsert
        ((limitPass cfg es srt s.rows).map fun rows => { layer with rows := rows })

/-- src/index/mod.rs:716-802 `index_elements` on one thread; `none` is a panic. -/
def indexElementsSeqDebug (cfg : LayerConfig D) (es : Elements E D) (srt : List (Nat × D) → List (Nat × D))
    (num : Nat) (prev : List Graph) (layer : Layer) (reinsert : Bool) : Option Layer :=
  if layer.rows.length ≤ num then
    let s := indexParDebug cfg es srt num prev layer reinsert
    match runSeq s.rows s.threads with
    | none => none
    | some rows => (limitPass cfg es srt rows).map fun rows => { layer with rows := rows }
  else none

/-- src/index/mod.rs:646-713 `index_elements_in_last_layer(max_num_elements)`, by any number of threads. -/
inductive IndexLastDebug (srt : List (Nat × D) → List (Nat × D)) (b : Builder E D) (maxNum : Nat) :
    Option (Builder E D) → Prop
  | noLayer : b.layers = [] → IndexLastDebug srt b maxNum none
  | nothing : b.layers ≠ [] → b.ideal b.layers.length ≤ lastLen b.layers → IndexLastDebug srt b maxNum (some b)
  | firstPanics (upper : List Layer) (layer : Layer) : b.layers = upper ++ [layer] →
      layer.rows.length < b.ideal b.layers.length →
      IndexElementsDebug (b.layerConfig (b.ideal b.layers.length)) b.elements srt
        (min maxNum (b.ideal b.layers.length)) (upper.map fun l => graphOf l.rows) layer false none →
      IndexLastDebug srt b maxNum none
  | once (upper : List Layer) (layer layer' : Layer) : b.layers = upper ++ [layer] →
      layer.rows.length < b.ideal b.layers.length →
      IndexElementsDebug (b.layerConfig (b.ideal b.layers.length)) b.elements srt
        (min maxNum (b.ideal b.layers.length)) (upper.map fun l => graphOf l.rows) layer false (some layer') →
      b.config.reinsertElements = false →
      IndexLastDebug srt b maxNum (some { b with layers := upper ++ [layer'] })
  | twice (upper : List Layer) (layer layer' : Layer) (out : Option Layer) : b.layers = upper ++ [layer] →
      layer.rows.length < b.ideal b.layers.length →
      IndexElementsDebug (b.layerConfig (b.ideal b.layers.length)) b.elements srt
        (min maxNum (b.ideal b.layers.length)) (upper.map fun l => graphOf l.rows) layer false (some layer') →
      b.config.reinsertElements = true →
      IndexElementsDebug (b.layerConfig (b.ideal b.layers.length)).forReinsert b.elements srt
        (min maxNum (b.ideal b.layers.length)) (upper.map fun l => graphOf l.rows) layer' true out →
      IndexLastDebug srt b maxNum (out.map fun l => { b with layers := upper ++ [l] })

/-- The `while` loop of `build_partial`, src/index/mod.rs:392-401. -/
inductive BuildLoopDebug (srt : List (Nat × D) → List (Nat × D)) (num : Nat) :
    Builder E D → Option (Builder E D) → Prop
  | done (b : Builder E D) : ¬ lastLen b.layers < num → BuildLoopDebug srt num b (some b)
  | panic (b : Builder E D) : lastLen b.layers < num → IndexLastDebug srt b.addLayer num none →
      BuildLoopDebug srt num b none
  | round (b b' : Builder E D) (out : Option (Builder E D)) : lastLen b.layers < num →
      IndexLastDebug srt b.addLayer num (some b') → BuildLoopDebug srt num b' out → BuildLoopDebug srt num b out

/-- src/index/mod.rs:374-402 `build_partial(num_elements)`, by any number of threads. -/
inductive BuildPartialDebug (srt : List (Nat × D) → List (Nat × D)) (b : Builder E D) (num : Nat) :
    Option (Builder E D) → Prop
  | zero : num = 0 → BuildPartialDebug srt b num (some b)
  | fewer : num ≠ 0 → ¬ lastLen b.layers ≤ num → BuildPartialDebug srt b num none
  | more : num ≠ 0 → lastLen b.layers ≤ num → ¬ num ≤ b.elements.data.length → BuildPartialDebug srt b num none
  | fresh (out : Option (Builder E D)) : num ≠ 0 → lastLen b.layers ≤ num → num ≤ b.elements.data.length →
      b.layers = [] → BuildLoopDebug srt num b out → BuildPartialDebug srt b num out
  | lastPanics : num ≠ 0 → lastLen b.layers ≤ num → num ≤ b.elements.data.length →
      b.layers ≠ [] → IndexLastDebug srt b num none → BuildPartialDebug srt b num none
  | continue (b' : Builder E D) (out : Option (Builder E D)) : num ≠ 0 → lastLen b.layers ≤ num →
      num ≤ b.elements.data.length → b.layers ≠ [] → IndexLastDebug srt b num (some b') →
      BuildLoopDebug srt num b' out → BuildPartialDebug srt b num out

/-- src/index/mod.rs:366-368 `build`. -/
def BuildDebug (srt : List (Nat × D) → List (Nat × D)) (b : Builder E D) (out : Option (Builder E D)) : Prop :=
  BuildPartialDebug srt b b.elements.data.length out

end Granne
