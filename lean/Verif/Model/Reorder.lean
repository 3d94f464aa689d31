import Verif.Model.IndexIO
import Verif.Model.Embeddings
import Mathlib.Data.List.Sort
import Mathlib.Data.List.Lex

/-!
src/index/reorder.rs: `Granne::reorder` and `Granne::reorder_by_keys`.
-/
namespace Granne

variable {E D : Type} [LinearOrder D]

/-- src/index/mod.rs:38-41 `Granne`: the layers and the elements; src/index/mod.rs:44-49 `from_parts`,
src/index/mod.rs:153-155 `get_element` and src/index/mod.rs:158-160 `get_elements` make one and read it,
src/index/mod.rs:175-184 `to_owned` copies it (values have no identity here, so it is the identity). -/
structure GIndex (E D : Type) where
  layers : Layers
  elements : Elements E D

/-- The loop of src/index/reorder.rs:284-286 from position `i` on; `none` is an index panic. -/
def reverseLoop : List Nat → Nat → List Nat → Option (List Nat)
  | [], _, rev => some rev
  | j :: t, i, rev => if j < rev.length then reverseLoop t (i + 1) (rev.set j i) else none

/-- src/index/reorder.rs:280-289 `get_reverse_mapping`. -/
def reverseMapping (mapping : List Nat) : Option (List Nat) :=
  reverseLoop mapping 0 (List.replicate mapping.length 0)

/-- src/index/reorder.rs:249-254: the new neighbors of the node that was `id`. -/
def reorderRow (g : Graph) (rev : List Nat) (id : Nat) : Option (List Nat) :=
  match g[id]? with
  | none => none
  | some l => seqOpt (l.map fun n => match rev[n]? with
    | none => none
    | some r => toNeighborId r)

/-- src/index/reorder.rs:227-278 `reorder_layer`. The chunks are computed in parallel, each depends only on its
part of the mapping; the pairs of offsets and concatenated neighbors are represented by the list of the neighbor
lists they delimit. -/
def reorderLayer (mapping rev : List Nat) (g : Graph) : Option SetVec :=
  if g.length ≤ mapping.length then
    match seqOpt ((chunksOf (max 10000 (g.length / 1000)) g.length (mapping.take g.length)).map fun c =>
        seqOpt (c.map (reorderRow g rev))) with
    | some chunks => SetVec.new.pushAll chunks.flatten
    | none => none
  else none

/-- src/index/reorder.rs:209-225 `reorder_layers`. -/
def reorderLayers (gs : List Graph) (mapping : List Nat) : Option Layers :=
  match reverseMapping mapping with
  | none => none
  | some rev => match seqOpt (gs.map (reorderLayer mapping rev)) with
    | none => none
    | some vs => some (.compressed vs)

/-- `Permutable::permute` (src/elements/mod.rs): `Vectors` and `SumEmbeddings` move element `p[i]` to position `i`
for every permutation `p`, and panic on a list of another length (C28, proved for both). -/
def Elements.permute (es : Elements E D) (p : List Nat) : Option (Elements E D) :=
  if es.data.length = p.length then
    match seqOpt (p.map fun i => es.data[i]?) with
    | some d => some { es with data := d }
    | none => none
  else none

/-- src/index/reorder.rs:112-118 (= 69-75): the layers, then the elements. -/
def reorderWith (ix : GIndex E D) (gs : List Graph) (order : List Nat) : Option (GIndex E D × List Nat) :=
  match reorderLayers gs order with
  | none => none
  | some layers => match ix.elements.permute order with
    | none => none
    | some es => some (⟨layers, es⟩, order)

/-- The order of tuples `(key, id)`. -/
def pairLe {K : Type} [LinearOrder K] (a b : K × Nat) : Bool := decide (a.1 < b.1 ∨ (a.1 = b.1 ∧ a.2 ≤ b.2))

/-- `par_sort_unstable` (rayon, external) on pairs with different ids: the sorted sequence is unique. -/
def sortPairs {K : Type} [LinearOrder K] (l : List (K × Nat)) : List (K × Nat) :=
  l.insertionSort fun a b => pairLe a b = true

/-- src/index/reorder.rs:98-105: the loop over the layers, `begin` being the length of the previous layer. -/
def keyOrder {K : Type} [LinearOrder K] (keys : List K) : Nat → List Nat → Option (List Nat)
  | _, [] => some []
  | start, len :: lens =>
    match seqOpt ((List.range' start (len - start)).map fun l => (keys[l]?).map fun k => (k, l)) with
    | none => none
    | some pairs => match keyOrder keys len lens with
      | none => none
      | some rest => some ((sortPairs pairs).map Prod.snd ++ rest)

/-- The number of indexed elements (src/index/mod.rs:76-83). -/
def indexLen (gs : List Graph) : Nat :=
  match gs.getLast? with
  | some g => g.length
  | none => 0

/-- src/index/reorder.rs:90-125 `reorder_by_keys`: the new index and the order returned; `none` is a panic. -/
def GIndex.reorderByKeys {K : Type} [LinearOrder K] (ix : GIndex E D) (keys : List K) :
    Option (GIndex E D × List Nat) :=
  match ix.layers.graphs with
  | none => none
  | some gs =>
    if indexLen gs = keys.length then
      match keyOrder keys 0 (gs.map List.length) with
      | none => none
      | some order => reorderWith ix gs order
    else none

/-- src/index/reorder.rs:177. -/
def TRAIL_LEN : Nat := 8

/-- src/index/reorder.rs:193-199: one entry of the trail. The entry point is 0 in every layer: line 194 reads
`eps[i]`, which has not been written yet. -/
def trailEntry (dq : Nat → Option D) (g : Graph) : Option Nat :=
  match (searchForNeighbors g.length 0 dq 1).runRO g with
  | some ((i, _) :: _) => toNeighborId i
  | _ => none

/-- src/index/reorder.rs:180-207 `find_entrypoint_trail`. -/
def entrypointTrail (gs : List Graph) (dq : Nat → Option D) (maxLayer : Nat) : Option (List Nat) :=
  match seqOpt ((gs.take (min TRAIL_LEN maxLayer)).map (trailEntry dq)) with
  | none => none
  | some l => some (l ++ List.replicate (TRAIL_LEN - l.length) 0)

/-- src/index/reorder.rs:144-154: the key of node `idx` of layer `layer`; `as NeighborId` truncates. -/
def orderKey (gs : List Graph) (es : Elements E D) (orderInv : List Nat) (layer idx : Nat) : Option (List Nat × Nat) :=
  match es.data[idx]? with
  | none => none
  | some q => match entrypointTrail gs (es.distTo q) layer with
    | none => none
    | some t => match seqOpt (t.map fun i => (orderInv[i]?).map fun o => o % 2 ^ 32) with
      | none => none
      | some k => some (k, idx)

/-- src/index/reorder.rs:161-163: `order_inv[order[i]] = i` for the given `i`s. -/
def updateInv (order : List Nat) : List Nat → List Nat → Option (List Nat)
  | [], inv => some inv
  | i :: is, inv => match order[i]? with
    | none => none
    | some o => if o < inv.length then updateInv order is (inv.set o i) else none

/-- src/index/reorder.rs:141-165: the loop over the layers from `layer` on; `start` is the length of the layer
before, `rest` the lengths of the layers that remain. -/
def orderLoop (gs : List Graph) (es : Elements E D) : Nat → Nat → List Nat → List Nat → List Nat → Option (List Nat)
  | _, _, [], order, _ => some order
  | layer, start, len :: rest, order, inv =>
    match seqOpt ((List.range' start (len - start)).map (orderKey gs es inv layer)) with
    | none => none
    | some keys =>
      let order' := order ++ (sortPairs keys).map Prod.snd
      match (if layer < gs.length - 1 then updateInv order' (List.range' start (len - start)) inv else some inv) with
      | none => none
      | some inv' => orderLoop gs es (layer + 1) len rest order' inv'

/-- src/index/reorder.rs:127-174 `compute_order`. With fewer than two layers, line 129 (or 128) panics. -/
def computeOrder (gs : List Graph) (es : Elements E D) : Option (List Nat) :=
  if gs.length < 2 then none
  else match gs[0]?, gs[gs.length - 2]? with
    | some first, some last =>
      orderLoop gs es 1 first.length ((gs.drop 1).map List.length) (List.range first.length)
        (List.replicate last.length 0)
    | _, _ => none

/-- src/index/reorder.rs:59-82 `reorder`: the new index and the order returned; `none` is a panic. -/
def GIndex.reorder (ix : GIndex E D) : Option (GIndex E D × List Nat) :=
  match ix.layers.graphs with
  | none => none
  | some gs => match computeOrder gs ix.elements with
    | none => none
    | some order => reorderWith ix gs order

/-- The call reorders `ix` into `ix'` and returns `order`: `reorder` (src/index/reorder.rs:59-82) or `reorder_by_keys`
(src/index/reorder.rs:90-125). -/
inductive Reorders (ix : GIndex E D) : GIndex E D → List Nat → Prop
  | search (ix' : GIndex E D) (order : List Nat) : ix.reorder = some (ix', order) → Reorders ix ix' order
  | byKeys {K : Type} [LinearOrder K] (keys : List K) (ix' : GIndex E D) (order : List Nat) :
      ix.reorderByKeys keys = some (ix', order) → Reorders ix ix' order

end Granne
