import Verif.Proofs.SetVec
import Verif.Model.OddByteInt

/-!
Properties of the compressed storage of neighbor lists: C11, C12, C33.
-/
namespace Granne

/-! ### C11 -/

/-- C11. Pushing any sequence of neighbor lists (ids are `u32`s) into a compressed layer never panics; the layer
has one entry per list; reading entry `i` back gives list `i` as a sorted multiset if it has at most 255 ids and
its 255 smallest ids otherwise. -/
theorem C11_codec_lossless (lists : List (List Nat)) (hids : ∀ l ∈ lists, ∀ n ∈ l, n < 2 ^ 32) :
    ∃ v, SetVec.new.pushAll lists = some v ∧ v.len = some lists.length ∧
      ∀ (i : Nat) (l : List Nat), lists[i]? = some l →
        ∃ s : List Nat, s.Perm l ∧ s.Pairwise (· ≤ ·) ∧ v.get i = some (s.take 255) ∧
          (l.length ≤ 255 → v.get i = some s) := by
  obtain ⟨v, h1, h2⟩ := SetRepr.new.pushAll lists
  refine ⟨v, h1, by rw [h2.len]; simp, ?_⟩
  intro i l hl
  have := get_encoded h2 (i := i) (l := l) (by simp [hl]) (hids l (List.mem_of_getElem? hl))
  refine ⟨sortIds l, sortIds_perm l, sortIds_sorted l, this, fun hlen => ?_⟩
  rw [this, List.take_of_length_le (by rw [(sortIds_perm l).length_eq]; exact hlen)]

/-- C11. Reading an entry is not affected by later pushes, nor by what is in the other entries. -/
theorem C11_codec_independent (before after before' after' : List (List Nat)) (l : List Nat)
    (hids : ∀ n ∈ l, n < 2 ^ 32) (v v' : SetVec) (h : SetVec.new.pushAll (before ++ l :: after) = some v)
    (h' : SetVec.new.pushAll (before' ++ l :: after') = some v') :
    v.get before.length = v'.get before'.length := by
  obtain ⟨w, e, r⟩ := SetRepr.new.pushAll (before ++ l :: after)
  obtain ⟨w', e', r'⟩ := SetRepr.new.pushAll (before' ++ l :: after')
  obtain rfl : w = v := by rw [e] at h; exact Option.some.inj h
  obtain rfl : w' = v' := by rw [e'] at h'; exact Option.some.inj h'
  rw [get_encoded r (l := l) (by simp) hids, get_encoded r' (l := l) (by simp) hids]

/-- C11. A list of more than 255 ids comes back with 255 of them: the others are gone. -/
theorem C11_long_lists_lose_ids (l : List Nat) (hids : ∀ n ∈ l, n < 2 ^ 32) (hlen : 255 < l.length) :
    ∃ v r, SetVec.new.push l = some v ∧ v.get 0 = some r ∧ r.length = 255 ∧ r.Sublist (sortIds l) ∧
      ¬ r.Perm l := by
  obtain ⟨v, h1, _, h3⟩ := C11_codec_lossless [l] (by simpa using hids)
  obtain ⟨v', h1', r⟩ := SetRepr.new.pushAll [l]
  obtain rfl : v' = v := by rw [h1'] at h1; exact Option.some.inj h1
  have h := get_encoded r (i := 0) (l := l) (by simp) hids
  have hp : (sortIds l).length = l.length := (sortIds_perm l).length_eq
  refine ⟨v', (sortIds l).take 255, ?_, h, by simp; omega, List.take_sublist _ _, fun hc => ?_⟩
  · rw [SetVec.pushAll] at h1
    rcases Option.eq_none_or_eq_some (SetVec.new.push l) with hn | ⟨t, ht⟩
    · simp [hn] at h1
    · rw [ht] at h1 ⊢; simpa [SetVec.pushAll] using h1
  · have := hc.length_eq
    simp at this; omega

/-- C11. In a build with debug assertions, saving a list of 255 or more ids panics, and below that the bytes are
those of the release build. -/
theorem C11_debug_panics (l : List Nat) :
    (setEncodeDebug l = none ↔ 255 ≤ l.length) ∧ (l.length < 255 → setEncodeDebug l = some (setEncode l)) := by
  unfold setEncodeDebug
  constructor
  · split <;> simp <;> omega
  · intro h; rw [if_pos h]

/-- Non-vacuity: three lists, one with a duplicate and one with large ids. -/
example : ∃ v, SetVec.new.pushAll [[7, 3, 7], [], [4294967294, 1, 70000, 2, 300]] = some v ∧
    v.get 0 = some [3, 7, 7] ∧ v.get 1 = some [] ∧ v.get 2 = some [1, 2, 300, 70000, 4294967294] := by
  refine ⟨(SetVec.new.pushAll [[7, 3, 7], [], [4294967294, 1, 70000, 2, 300]]).get (by decide +kernel), by simp, ?_⟩
  decide +kernel

/-- Non-vacuity: a list of 300 ids. -/
example : (∀ n ∈ List.range 300, n < 2 ^ 32) ∧ 255 < (List.range 300).length := by
  refine ⟨fun n hn => ?_, by simp⟩
  have := List.mem_range.1 hn
  omega

/-! ### C12 -/

/-- C12. Pushing offsets that start below 65535, never decrease and step by less than 65535 never panics; the
table then returns each offset, each pair of consecutive offsets, the number of offsets and the last one. -/
theorem C12_offsets_address_every_node (offs : List Nat)
    (hs : List.IsChain (fun a b => a ≤ b ∧ b - a < 65535) (0 :: offs)) :
    ∃ o, Offsets.new.pushAll offs = some o ∧ o.len = some offs.length ∧ o.last = some offs.getLast? ∧
      (∀ (i x : Nat), offs[i]? = some x → o.get i = some x) ∧
      (∀ (i x y : Nat), offs[i]? = some x → offs[i + 1]? = some y → o.getConsecutive i = some (x, y)) := by
  obtain ⟨o, h1, h2⟩ := OffRepr.new.pushAll (p := 0) (Or.inr ⟨rfl, by simp [Offsets.new, Chunk.new]⟩) hs
  rw [List.nil_append] at h2
  exact ⟨o, h1, h2.len, h2.last, fun i x => h2.get, fun i x y => h2.getConsecutive⟩

/-- C12. After such pushes, unless the number of offsets is a multiple of 60, an offset that is smaller than the
last one or more than 65535 larger is rejected (panic). -/
theorem C12_bad_steps_rejected (offs : List Nat) (hs : List.IsChain (fun a b => a ≤ b ∧ b - a < 65535) (0 :: offs))
    (hn : offs.length % 60 ≠ 0) (o : Offsets) (ho : Offsets.new.pushAll offs = some o) (last x : Nat)
    (hl : offs.getLast? = some last) (hx : x < last ∨ last + 65535 < x) : o.push x = none := by
  obtain ⟨o', h1, h2⟩ := OffRepr.new.pushAll (p := 0) (Or.inr ⟨rfl, by simp [Offsets.new, Chunk.new]⟩) hs
  obtain rfl : o' = o := by rw [h1] at ho; exact Option.some.inj ho
  rw [List.nil_append] at h2
  exact h2.push_bad hn hl hx

/-- C12. When the number of offsets is a positive multiple of 60, every next offset is accepted, also a smaller
one: the check is made within a chunk only. -/
theorem C12_boundary_accepts_everything (offs : List Nat)
    (hs : List.IsChain (fun a b => a ≤ b ∧ b - a < 65535) (0 :: offs)) (hne : offs ≠ [])
    (hn : offs.length % 60 = 0) (x : Nat) :
    ∃ o, Offsets.new.pushAll (offs ++ [x]) = some o ∧ o.get offs.length = some x := by
  obtain ⟨o, h1, h2⟩ := OffRepr.new.pushAll (p := 0) (Or.inr ⟨rfl, by simp [Offsets.new, Chunk.new]⟩) hs
  rw [List.nil_append] at h2
  obtain ⟨o', h3, h4⟩ := h2.push (x := x) (Or.inl ⟨hn, hne⟩)
  refine ⟨o', ?_, h4.get (by simp)⟩
  rw [Offsets.pushAll_append, h1]
  simp [Offsets.pushAll, h3]

/-- C12. A step of exactly 65535 collides with the marker of unused entries: the push is accepted, but the table
stays as it is. -/
theorem C12_step_65535_lost (offs : List Nat) (hs : List.IsChain (fun a b => a ≤ b ∧ b - a < 65535) (0 :: offs))
    (hn : offs.length % 60 ≠ 0) (o : Offsets) (ho : Offsets.new.pushAll offs = some o) (last : Nat)
    (hl : offs.getLast? = some last) : o.push (last + 65535) = some o := by
  obtain ⟨o', h1, h2⟩ := OffRepr.new.pushAll (p := 0) (Or.inr ⟨rfl, by simp [Offsets.new, Chunk.new]⟩) hs
  obtain rfl : o' = o := by rw [h1] at ho; exact Option.some.inj ho
  rw [List.nil_append] at h2
  exact h2.push_lost hn hl

/-- Non-vacuity: 150 offsets over three chunks. -/
example : List.IsChain (fun a b => a ≤ b ∧ b - a < 65535) (0 :: (List.range 150).map fun i => 1000 * i) := by
  decide +kernel

/-- Non-vacuity of the boundary case: 60 offsets. -/
example : (List.replicate 60 500).length % 60 = 0 ∧
    List.IsChain (fun a b => a ≤ b ∧ b - a < 65535) (0 :: List.replicate 60 500) := by decide +kernel

/-- Non-vacuity of the loss: three offsets. -/
example : List.IsChain (fun a b => a ≤ b ∧ b - a < 65535) (0 :: [0, 5, 9]) ∧ [0, 5, 9].length % 60 ≠ 0 ∧
    [0, 5, 9].getLast? = some 9 := by decide

/-! ### C33 -/

/-- C33. Storing an integer in `k` bytes: the integer comes back if it is below `256 ^ k`, and the conversion
panics if it is not. -/
theorem C33_odd_byte_roundtrip (k n : Nat) :
    (n < 256 ^ k → ∃ b, oddFrom k n = some b ∧ b.length = k ∧ oddInto b = n) ∧
    (256 ^ k ≤ n → oddFrom k n = none) := by
  unfold oddFrom oddInto
  refine ⟨fun h => ⟨leBytes k n, by simp [h], by simp, leNat_leBytes_of_lt h⟩, fun h => by simp [h]⟩

/-- C33. Every pattern of `k` bytes is the stored form of an integer below `256 ^ k`, so different integers never
share a stored form and no stored form is invalid. -/
theorem C33_odd_byte_bijective (b : Bytes) : oddInto b < 256 ^ b.length ∧ oddFrom b.length (oddInto b) = some b := by
  unfold oddFrom oddInto
  exact ⟨leNat_lt b, by rw [if_pos (leNat_lt b), leBytes_leNat]⟩

/-- C33. `max_value` is the largest storable integer. -/
theorem C33_max_value (k : Nat) : oddInto (oddMax k) = 256 ^ k - 1 := by
  unfold oddInto oddMax
  induction k with
  | zero => rfl
  | succ k ih =>
    rw [List.replicate_succ, leNat, ih]
    have : 0 < 256 ^ k := Nat.pow_pos (by omega)
    have h2 : (0xFF : UInt8).toNat = 255 := rfl
    rw [h2, pow_succ]; omega

/-- Non-vacuity: a three byte id and a five byte offset; the smallest integers that do not fit. -/
example : oddFrom 3 16777215 = some [255, 255, 255] ∧ oddFrom 5 4294967296 = some [0, 0, 0, 0, 1] ∧
    oddFrom 3 16777216 = none ∧ oddFrom 5 1099511627776 = none := by decide +kernel

end Granne
