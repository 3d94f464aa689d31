import Verif.Model.Builder

/-!
src/index/mod.rs:660 and 672: the room that a build reserves for a layer before it indexes elements in it. (Not modelled: how the
allocator turns nodes into bytes; a node takes `4 * num_neighbors` bytes, src/slice_vector/mod.rs:165-168.)
-/
namespace Granne

variable {E D : Type} [LinearOrder D]

/-- src/index/mod.rs:647-660 `additional`: for how many further nodes `index_elements_in_last_layer` makes room; 0 if it returns
at line 656. It does not depend on `max_num_elements`. -/
def Builder.additional (b : Builder E D) : Nat :=
  if b.ideal b.layers.length ≤ lastLen b.layers then 0 else b.ideal b.layers.length - lastLen b.layers

/-- src/index/mod.rs:388-401: `build_partial(num)` on `b` calls `index_elements_in_last_layer` on `c`: once for the layer that is
there, then for every new layer. -/
def Builder.IndexesIn (srt : List (Nat × D) → List (Nat × D)) (b : Builder E D) (num : Nat) (c : Builder E D) : Prop :=
  (num ≠ 0 ∧ lastLen b.layers ≤ num ∧ num ≤ b.elements.data.length) ∧
  ((b.layers ≠ [] ∧ c = b) ∨
   ∃ b0 b1 : Builder E D, ((b.layers = [] ∧ b0 = b) ∨ (b.layers ≠ [] ∧ IndexLast srt b num (some b0))) ∧
     Relation.ReflTransGen (fun b b' => lastLen b.layers < num ∧ IndexLast srt b.addLayer num (some b')) b0 b1 ∧
     lastLen b1.layers < num ∧ c = b1.addLayer)

end Granne
