import Verif.Proofs.IndexIO

/-! How large a saved index can get: far below `2^64` bytes. -/
namespace Granne
open Spec

theorem encLists_length_le (lists : List (List Nat)) : (lists.map encList).flatten.length ≤ 1021 * lists.length := by
  induction lists with
  | nil => simp
  | cons l t ih =>
    have := setEncode_length_le (sortIds l)
    simp only [List.map_cons, List.flatten_cons, List.length_append, List.length_cons]
    unfold encList at ih ⊢
    omega

theorem HoldsLists.size_le {v : SetVec} {lists : List (List Nat)} (h : HoldsLists v lists) :
    v.toBytes.length ≤ 264 + 1024 * lists.length := by
  have hdl := h.stored.repr.offsets.deltas_length
  have hl : v.toBytes.length = 8 + 128 * v.offsets.length + v.data.length := by
    simp only [SetVec.toBytes, List.length_append, leBytes_length, Offsets.toBytes_length hdl]
  have hc := h.stored.repr.offsets.chunks (by simp)
  have hd := encLists_length_le lists
  rw [← h.stored.repr.data] at hd
  simp only [List.length_cons, ends_length, List.length_map, Nat.add_sub_cancel] at hc
  omega

theorem flatten_size_le {vs : List SetVec} {lists : List (List (List Nat))} (h : List.Forall₂ HoldsLists vs lists)
    (hrows : ∀ g ∈ lists, g.length < 2 ^ 32) : (vs.map SetVec.toBytes).flatten.length ≤ 2 ^ 43 * lists.length := by
  induction h with
  | nil => simp
  | @cons v g vs lists hv _ ih =>
    have h1 := hv.size_le
    have h2 := hrows g (by simp)
    have h3 := ih fun g hg => hrows g (by simp [hg])
    simp only [List.map_cons, List.flatten_cons, List.length_append, List.length_cons]
    omega

/-- The file written by a save that returns. -/
theorem saved_size {L : Layers} {lists : List (List (List Nat))} (h : HasLists L lists)
    (hrows : ∀ g ∈ lists, g.length < 2 ^ 32) {f f' : Bytes} {start : Nat}
    (hs : saveIndex L f start = (f', true)) : f'.length ≤ max f.length (start + 2 ^ 54) := by
  obtain ⟨vs, nn, h1, _, _, hfit, rfl, _⟩ := save_load h hs
  have h2 := flatten_size_le h1 hrows
  have h3 := printNums_length (lists.map List.length)
  have h4 : (printNums (lists.map List.length)).length ≤ (metaOf nn vs lists).length := by
    simp only [metaOf, metadataText, List.length_append]; omega
  rw [List.length_map] at h3
  have hp := padMetadata_length hfit
  rw [METADATA_LEN] at hfit hp
  rw [writeAt_length (imageOf_ne_nil nn vs lists)]
  have : (imageOf nn vs lists).length ≤ 2 ^ 54 := by
    unfold imageOf
    rw [List.length_append, hp]
    omega
  omega

end Granne
