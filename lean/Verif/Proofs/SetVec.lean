import Verif.Proofs.Offsets

/-! The compressed slice vector refines a list of byte blocks; its byte form. -/
namespace Granne

/-- End positions of blocks laid out from `a`. -/
def ends (a : Nat) : List Bytes → List Nat
  | [] => []
  | b :: t => (a + b.length) :: ends (a + b.length) t

theorem ends_length (a : Nat) (bs : List Bytes) : (ends a bs).length = bs.length := by
  induction bs generalizing a with
  | nil => rfl
  | cons b t ih => simp [ends, ih]

theorem ends_snoc (a : Nat) (bs : List Bytes) (b : Bytes) :
    ends a (bs ++ [b]) = ends a bs ++ [a + bs.flatten.length + b.length] := by
  induction bs generalizing a with
  | nil => simp [ends]
  | cons x t ih => simp only [List.cons_append, ends, ih, List.flatten_cons, List.length_append]; congr 3; omega

theorem ends_getLast (a : Nat) (bs : List Bytes) : (a :: ends a bs).getLast? = some (a + bs.flatten.length) := by
  induction bs generalizing a with
  | nil => simp [ends]
  | cons b t ih =>
    rw [ends, List.getLast?_cons_cons, ih]
    simp [List.length_append]; omega

theorem ends_get {a : Nat} {bs : List Bytes} {i : Nat} {b : Bytes} (h : bs[i]? = some b) :
    (a :: ends a bs)[i]? = some (a + (bs.take i).flatten.length) ∧
    (a :: ends a bs)[i + 1]? = some (a + (bs.take i).flatten.length + b.length) := by
  induction bs generalizing a i with
  | nil => simp at h
  | cons x t ih =>
    cases i with
    | zero => simp only [List.getElem?_cons_zero, Option.some.injEq] at h; subst h; simp [ends]
    | succ i =>
      obtain ⟨h1, h2⟩ := ih (a := a + x.length) (i := i) (by simpa using h)
      simp only [ends]
      constructor
      · rw [List.getElem?_cons_succ, h1]; simp; omega
      · rw [List.getElem?_cons_succ, h2]; simp; omega

theorem ends_le {a : Nat} {bs : List Bytes} : ∀ x ∈ ends a bs, x ≤ a + bs.flatten.length := by
  induction bs generalizing a with
  | nil => simp [ends]
  | cons b t ih =>
    intro x hx
    rw [ends] at hx
    rw [List.flatten_cons, List.length_append]
    rcases List.mem_cons.1 hx with rfl | hx
    · omega
    · have := ih x hx; omega

/-- `v` holds the blocks `bs`. -/
structure SetRepr (v : SetVec) (bs : List Bytes) : Prop where
  offsets : OffRepr v.offsets (0 :: ends 0 bs)
  data : v.data = bs.flatten

theorem SetRepr.new : SetRepr SetVec.new [] := by
  obtain ⟨o, h1, h2⟩ := OffRepr.new.push (x := 0) (Or.inr (Or.inl ⟨rfl, by simp [Offsets.new, Chunk.new, OffStep]⟩))
  refine ⟨?_, rfl⟩
  simp only [SetVec.new, h1]
  exact h2

theorem SetRepr.pushRaw {v : SetVec} {bs : List Bytes} (h : SetRepr v bs) {b : Bytes} (hb : b.length < 65535) :
    ∃ v', v.pushRaw b = some v' ∧ SetRepr v' (bs ++ [b]) := by
  obtain ⟨o, h1, h2⟩ := h.offsets.push (x := (v.data ++ b).length) (Or.inr (Or.inr
    ⟨_, ends_getLast 0 bs, by rw [h.data]; simp only [List.length_append]; constructor <;> omega⟩))
  refine ⟨⟨o, v.data ++ b⟩, by unfold SetVec.pushRaw; rw [h1]; rfl, ?_, by simp [h.data]⟩
  have : (0 :: ends 0 bs) ++ [(v.data ++ b).length] = 0 :: ends 0 (bs ++ [b]) := by
    rw [ends_snoc, h.data]; simp
  rw [← this]
  exact h2

theorem SetRepr.len {v : SetVec} {bs : List Bytes} (h : SetRepr v bs) : v.len = some bs.length := by
  unfold SetVec.len
  rw [h.offsets.len]
  simp [ends_length]

theorem SetRepr.getRaw {v : SetVec} {bs : List Bytes} (h : SetRepr v bs) {i : Nat} {b : Bytes}
    (hi : bs[i]? = some b) : v.getRaw i = some b := by
  obtain ⟨h1, h2⟩ := ends_get (a := 0) hi
  unfold SetVec.getRaw
  rw [h.offsets.getConsecutive h1 h2]
  simp only [Nat.zero_add]
  have hlt := (List.getElem?_eq_some_iff.1 hi).1
  have hsplit : bs.flatten = (bs.take i).flatten ++ (b ++ (bs.drop (i + 1)).flatten) := by
    conv_lhs => rw [← List.take_append_drop i bs, List.drop_eq_getElem_cons hlt]
    rw [(List.getElem?_eq_some_iff.1 hi).2]
    simp
  rw [h.data, hsplit, if_pos ⟨by omega, by simp only [List.length_append]; omega⟩]
  rw [List.drop_left' rfl, Nat.add_sub_cancel_left, List.take_left' rfl]

theorem sortIds_perm (l : List Nat) : (sortIds l).Perm l := List.perm_insertionSort _ l
theorem sortIds_sorted (l : List Nat) : (sortIds l).Pairwise (· ≤ ·) := List.pairwise_insertionSort _ l

theorem setEncode_short (l : List Nat) : (setEncode l).length < 65535 := by
  have := setEncode_length_le l
  omega

theorem SetRepr.pushAll {v : SetVec} {bs : List Bytes} (h : SetRepr v bs) (ls : List (List Nat)) :
    ∃ v', v.pushAll ls = some v' ∧ SetRepr v' (bs ++ ls.map fun l => setEncode (sortIds l)) := by
  induction ls generalizing v bs with
  | nil => exact ⟨v, rfl, by simpa using h⟩
  | cons l t ih =>
    obtain ⟨v1, h1, h2⟩ := h.pushRaw (setEncode_short (sortIds l))
    obtain ⟨v', h3, h4⟩ := ih h2
    exact ⟨v', by rw [SetVec.pushAll, SetVec.push, h1]; exact h3, by simpa using h4⟩

theorem get_encoded {v : SetVec} {bs : List Bytes} (h : SetRepr v bs) {i : Nat} {l : List Nat}
    (hi : bs[i]? = some (setEncode (sortIds l))) (hl : ∀ n ∈ l, n < 2 ^ 32) :
    v.get i = some ((sortIds l).take 255) := by
  unfold SetVec.get
  rw [h.getRaw hi, Option.bind_some, decode_setEncode (sortIds_sorted l) fun n hn =>
    hl n ((sortIds_perm l).mem_iff.1 hn)]

/-! ### Byte form -/

structure ChunkWF (c : Chunk) : Prop where
  len : c.deltas.length = 60
  small : ∀ d ∈ c.deltas, d < 2 ^ 16
  initial : c.initial < 2 ^ 64

theorem readDeltas_flatMap (l : List Nat) (h : ∀ n ∈ l, n < 2 ^ 16) (rest : Bytes) :
    Chunk.readDeltas l.length (l.flatMap (leBytes 2) ++ rest) = l := by
  induction l with
  | nil => rfl
  | cons x t ih =>
    rw [List.length_cons, Chunk.readDeltas, List.flatMap_cons, List.append_assoc, List.take_left' (by simp),
      List.drop_left' (by simp), ih fun m hm => h m (by simp [hm]), leNat_leBytes_of_lt (by
        have := h x (by simp); omega)]

theorem Chunk.toBytes_length {c : Chunk} (h : c.deltas.length = 60) : c.toBytes.length = 128 := by
  rw [Chunk.toBytes, List.length_append, flatMap_leBytes_length, h, leBytes_length]

theorem Chunk.ofBytes_toBytes {c : Chunk} (h : ChunkWF c) : Chunk.ofBytes c.toBytes = c := by
  unfold Chunk.ofBytes Chunk.toBytes
  rw [List.take_left' (by simp), List.drop_left' (by simp), leNat_leBytes_of_lt (by have := h.initial; omega)]
  have := readDeltas_flatMap c.deltas h.small []
  rw [h.len, List.append_nil] at this
  rw [OFFSETS_PER_CHUNK, this]

theorem Offsets.toBytes_length {o : Offsets} (h : ∀ c ∈ o, c.deltas.length = 60) :
    (Offsets.toBytes o).length = 128 * o.length := by
  induction o with
  | nil => rfl
  | cons c t ih =>
    have := ih fun c' hc' => h c' (by simp [hc'])
    simp only [Offsets.toBytes, List.flatMap_cons, List.length_append, List.length_cons,
      Chunk.toBytes_length (h c (by simp))] at this ⊢
    omega

theorem readChunks_toBytes {o : Offsets} (h : ∀ c ∈ o, ChunkWF c) (rest : Bytes) :
    Offsets.readChunks o.length (Offsets.toBytes o ++ rest) = o := by
  induction o with
  | nil => rfl
  | cons c t ih =>
    have h1 := ih fun c' hc' => h c' (by simp [hc'])
    have hl := Chunk.toBytes_length (h c (by simp)).len
    simp only [Offsets.toBytes, List.flatMap_cons, List.length_cons, Offsets.readChunks, List.append_assoc,
      CHUNK_BYTES] at h1 ⊢
    rw [List.take_left' hl, List.drop_left' hl, Chunk.ofBytes_toBytes (h c (by simp)), h1]

theorem SetVec.ofBytes_toBytes {v : SetVec} (h : ∀ c ∈ v.offsets, ChunkWF c) (hn : 128 * v.offsets.length < 2 ^ 64) :
    SetVec.ofBytes v.toBytes = some v := by
  have hlen := Offsets.toBytes_length fun c hc => (h c hc).len
  unfold SetVec.ofBytes SetVec.toBytes Offsets.numBytes CHUNK_BYTES
  rw [if_pos (by simp)]
  simp only [List.append_assoc]
  rw [List.take_left' (by simp), List.drop_left' (by simp), leNat_leBytes_of_lt (by omega), if_pos (by simp; omega)]
  rw [List.take_left' (by omega), List.drop_left' (by omega), Offsets.ofBytes, CHUNK_BYTES, hlen,
    Nat.mul_div_cancel_left _ (by omega)]
  have := readChunks_toBytes h []
  rw [List.append_nil] at this
  rw [this]

theorem ChunkRepr.wf {c : Chunk} {l : List Nat} (h : ChunkRepr c l) (hi : c.initial < 2 ^ 64) : ChunkWF c := by
  have := h.len
  refine ⟨by rw [h.deltas]; simp [deltaEncodeFrom_length]; omega, ?_, hi⟩
  intro d hd
  rw [h.deltas] at hd
  rcases List.mem_append.1 hd with hd | hd
  · have := deltas_lt h.steps d hd; omega
  · rw [List.eq_of_mem_replicate hd, UNUSED_DELTA]; omega

theorem OffRepr.deltas_length {o : Offsets} {offs : List Nat} (h : OffRepr o offs) :
    ∀ c ∈ o, c.deltas.length = 60 := by
  induction h with
  | one c l hc =>
    have := hc.len
    intro c' hc'; rw [List.mem_singleton] at hc'; subst hc'
    rw [hc.deltas]; simp [deltaEncodeFrom_length]; omega
  | cons c l cs offs hc _ _ _ ih =>
    have := hc.len
    intro c' hc'
    rcases List.mem_cons.1 hc' with rfl | hc'
    · rw [hc.deltas]; simp [deltaEncodeFrom_length]; omega
    · exact ih c' hc'

theorem OffRepr.wf {o : Offsets} {offs : List Nat} (h : OffRepr o offs) (hi : ∀ c ∈ o, c.initial < 2 ^ 64) :
    ∀ c ∈ o, ChunkWF c := by
  induction h with
  | one c l hc => intro c' hc'; rw [List.mem_singleton] at hc'; subst hc'; exact hc.wf (hi c' (by simp))
  | cons c l cs offs hc _ _ _ ih =>
    intro c' hc'
    rcases List.mem_cons.1 hc' with rfl | hc'
    · exact hc.wf (hi c' (by simp))
    · exact ih (fun c hc => hi c (by simp [hc])) c' hc'

theorem Chunk.push_initial {c c' : Chunk} {x : Nat} (h : c.push x = some c') : c'.initial = c.initial := by
  unfold Chunk.push at h
  split at h
  · cases h
  split at h
  · cases h
  · simp only at h
    split at h
    · split at h
      · cases h; rfl
      · cases h
    · cases h

theorem Offsets.push_initial {o o' : Offsets} {x B : Nat} (h : o.push x = some o') (ho : ∀ c ∈ o, c.initial ≤ B)
    (hx : x ≤ B) : ∀ c ∈ o', c.initial ≤ B := by
  unfold Offsets.push at h
  split at h
  · cases h
  · next la hla =>
    split at h
    · rcases Option.eq_none_or_eq_some ((Chunk.new x).push x) with hp | ⟨c', hp⟩
      · simp [hp] at h
      · simp only [hp, Option.map_some, Option.some.injEq] at h
        subst h
        intro c hc
        rcases List.mem_append.1 hc with hc | hc
        · exact ho c hc
        · rw [List.mem_singleton] at hc; subst hc; rw [Chunk.push_initial hp]; exact hx
    · rcases Option.eq_none_or_eq_some (la.push x) with hp | ⟨c', hp⟩
      · simp [hp] at h
      · simp only [hp, Option.map_some, Option.some.injEq] at h
        subst h
        intro c hc
        rcases List.mem_append.1 hc with hc | hc
        · exact ho c (List.dropLast_subset _ hc)
        · rw [List.mem_singleton] at hc; subst hc; rw [Chunk.push_initial hp]
          exact ho la (List.mem_of_getLast? hla)

theorem Offsets.pushAll_initial {new : List Nat} {o o' : Offsets} {B : Nat} (h : o.pushAll new = some o')
    (ho : ∀ c ∈ o, c.initial ≤ B) (hx : ∀ x ∈ new, x ≤ B) : ∀ c ∈ o', c.initial ≤ B := by
  induction new generalizing o with
  | nil => cases h; exact ho
  | cons x t ih =>
    rw [Offsets.pushAll] at h
    rcases Option.eq_none_or_eq_some (o.push x) with hp | ⟨o1, hp⟩
    · simp [hp] at h
    · simp only [hp] at h
      exact ih h (Offsets.push_initial hp ho (hx x (by simp))) fun y hy => hx y (by simp [hy])

end Granne
