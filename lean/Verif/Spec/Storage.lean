import Verif.Model.IndexIO

/-! Vocabulary for saved indexes. -/
namespace Granne.Spec
open Granne

/-- `row` consists of neighbor ids followed by unused slots. -/
def Padded (row : Row) : Prop := ∃ (ids : List Nat) (k : Nat), row = ids ++ List.replicate k UNUSED ∧ UNUSED ∉ ids

/-- How an index can come about: in a builder (rows of `u32`s, ids before unused slots), by compressing neighbor
lists one after the other (as `reorder` does), or by loading a saved index from the position where it was saved.
File sizes fit in 64 bits. -/
inductive IndexState : Layers → Prop
  | built (ls : List Layer) : (∀ l ∈ ls, ∀ row ∈ l.rows, (∀ n ∈ row, n < 2 ^ 32) ∧ Padded row) →
      IndexState (.fixWidth ls)
  | pushed (vs : List SetVec) (lists : List (List (List Nat))) :
      List.Forall₂ (fun v l => SetVec.new.pushAll l = some v ∧ ∀ ids ∈ l, ∀ n ∈ ids, n < 2 ^ 32) vs lists →
      IndexState (.compressed vs)
  | loaded (L : Layers) (f f' : Bytes) (start : Nat) (vs : List SetVec) : IndexState L →
      saveIndex L f start = (f', true) → f'.length < 2 ^ 64 → loadLayers (f'.drop start) = some vs →
      IndexState (.compressed vs)

end Granne.Spec

namespace Granne.Spec
open Granne

/-- The single-byte writes that saving an index at position `start` performs, in the order in which they are
issued. -/
def saveEffects (L : Layers) (start : Nat) : List (Nat × UInt8) :=
  byteEffects (writeIndex L ⟨start, []⟩).1.ops start

/-- The content of a file `f` after `b` was written over it at position `p`. -/
def overwrite (f : Bytes) (p : Nat) (b : Bytes) : Bytes :=
  f.take p ++ List.replicate (p - f.length) 0 ++ b ++ f.drop (p + b.length)

end Granne.Spec
