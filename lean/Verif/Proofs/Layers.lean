import Verif.Proofs.File
import Verif.Proofs.SetVec
import Verif.Model.IndexIO

/-! What `write_index` writes. -/
namespace Granne

/-- The stored form of one row. -/
def encRow (row : Row) : Bytes := setEncode (sortIds (row.filter (· != UNUSED)))

/-- The loop over the rows. -/
theorem writeRows_runs (rows : Rows) {bs : List Bytes} {offsets : Offsets}
    (h : OffRepr offsets (0 :: ends 0 bs)) {B : Nat} (hB : ∀ c ∈ offsets, c.initial ≤ B)
    (hle : (bs ++ rows.map encRow).flatten.length ≤ B) :
    ∃ offsets', (∀ p, Emits (writeRows rows bs.flatten.length offsets) p (rows.map encRow).flatten offsets') ∧
      OffRepr offsets' (0 :: ends 0 (bs ++ rows.map encRow)) ∧ ∀ c ∈ offsets', c.initial ≤ B := by
  induction rows generalizing bs offsets with
  | nil =>
    refine ⟨offsets, fun p => ⟨[], ?_, ?_, by simp [byteEffects]⟩, by simpa using h, hB⟩
    · exact Runs.pure offsets p
    · intro f; simp [runOps, writeAt_nil]
  | cons row rows ih =>
    have hlen : (encRow row).length < 65535 := setEncode_short _
    obtain ⟨o1, e1, e2⟩ := h.push (x := bs.flatten.length + (encRow row).length) (Or.inr (Or.inr
      ⟨_, ends_getLast 0 bs, by omega, by omega⟩))
    have e3 : OffRepr o1 (0 :: ends 0 (bs ++ [encRow row])) := by
      rw [ends_snoc]; simpa using e2
    have hle' : (bs ++ [encRow row] ++ rows.map encRow).flatten.length ≤ B := by simpa using hle
    have hxle : bs.flatten.length + (encRow row).length ≤ B := by simp at hle; simp; omega
    obtain ⟨o', hem, hr, hB'⟩ := ih (bs := bs ++ [encRow row]) e3
      (Offsets.push_initial e1 hB hxle) hle'
    refine ⟨o', fun p => ?_, by simpa using hr, hB'⟩
    obtain ⟨ops, r1, r2, r3⟩ := hem (p + (encRow row).length)
    refine ⟨[.write (encRow row)] ++ ([] ++ ops), ?_, ?_, ?_⟩
    · unfold writeRows
      refine (Runs.write (encRow row) p).bind ((Runs.ofOption e1 _).bind ?_)
      have : bs.flatten.length + (encRow row).length = (bs ++ [encRow row]).flatten.length := by simp
      change Runs (writeRows rows (bs.flatten.length + (encRow row).length) o1) _ _ _ _
      rw [this]
      convert r1 using 1
      simp [Nat.add_assoc]
    · intro f
      simp only [List.nil_append, List.singleton_append, runOps, r2]
      rw [writeAt_append]
      simp [Nat.add_assoc]
    · simp only [List.nil_append, List.singleton_append, byteEffects]
      intro e he
      rcases List.mem_append.1 he with he | he
      · exact byteEffects_write_ge _ _ e he
      · have := r3 e he; omega

/-- One layer of a builder. -/
theorem writeFixLayer_emits (l : Layer) :
    ∃ v : SetVec, SetRepr v (l.rows.map encRow) ∧ (∀ c ∈ v.offsets, c.initial ≤ v.data.length) ∧
      ∀ p, Emits (writeFixLayer l) p v.toBytes v.toBytes.length := by
  set bs := l.rows.map encRow with hbs
  set nb := (1 + l.rows.length / OFFSETS_PER_CHUNK) * CHUNK_BYTES with hnb
  obtain ⟨o0, e0, r0⟩ := OffRepr.new.push (x := 0) (Or.inr (Or.inl ⟨rfl, by simp [Offsets.new, Chunk.new, OffStep]⟩))
  have i0 : ∀ c ∈ o0, c.initial ≤ bs.flatten.length :=
    Offsets.push_initial e0 (by simp [Offsets.new, Chunk.new]) (Nat.zero_le _)
  obtain ⟨o', hem, hr, hB⟩ := writeRows_runs l.rows (bs := []) (B := bs.flatten.length)
    (by simpa [ends] using r0) i0 (by simp [hbs])
  rw [List.nil_append] at hr
  have hchunk : o'.length = 1 + l.rows.length / 60 := by
    rw [hr.chunks (by simp)]; simp [ends_length]
  have hdl : ∀ c ∈ o', c.deltas.length = 60 := by
    intro c hc; exact (hr.deltas_length c hc)
  have hol : (Offsets.toBytes o').length = nb := by
    rw [Offsets.toBytes_length hdl, hchunk, hnb, OFFSETS_PER_CHUNK, CHUNK_BYTES]; ring
  have hone : Offsets.toBytes o' ≠ [] := by
    intro hc; rw [hc] at hol; simp [hnb, CHUNK_BYTES] at hol
  have hnum : Offsets.numBytes o' = nb := by
    rw [Offsets.numBytes, hchunk, hnb, OFFSETS_PER_CHUNK]
  refine ⟨⟨o', bs.flatten⟩, ⟨hr, rfl⟩, hB, ?_⟩
  have himg : SetVec.toBytes ⟨o', bs.flatten⟩ = leBytes 8 nb ++ (Offsets.toBytes o' ++ bs.flatten) := by
    simp [SetVec.toBytes, hnum]
  have hil : (SetVec.toBytes ⟨o', bs.flatten⟩).length = 8 + nb + bs.flatten.length := by
    rw [himg]; simp [hol]; omega
  intro p
  obtain ⟨ops, r1, r2, r3⟩ := hem (p + 8 + nb)
  refine ⟨[.seek p] ++ ([.write (leBytes 8 nb)] ++ ([.seek (p + 8)] ++ ([] ++ ([.seek (p + 8 + nb)] ++ (ops ++
    ([.seek (p + 8 + nb + bs.flatten.length)] ++ ([.seek (p + 8)] ++ ([.write (Offsets.toBytes o')] ++ ([] ++
    ([.seek (p + 8 + nb + bs.flatten.length)] ++ [])))))))))), ?_, ?_, ?_⟩
  · unfold writeFixLayer
    refine (Runs.tell p).bind ?_
    refine Runs.bind (p1 := p + 8) (by simpa using Runs.write (leBytes 8 nb) p) ?_
    refine (Runs.tell _).bind ?_
    refine (Runs.ofOption e0 _).bind ?_
    refine (Runs.seekTo _ _).bind ?_
    refine Runs.bind r1 ?_
    refine (Runs.tell _).bind ?_
    refine (Runs.seekTo _ _).bind ?_
    refine (Runs.write _ _).bind ?_
    refine (Runs.assert (by simpa using hol) _).bind ?_
    refine (Runs.seekTo _ _).bind ?_
    have := Runs.pure (p + 8 + nb + bs.flatten.length - p) (p + 8 + nb + bs.flatten.length)
    have ea : p + 8 + nb + bs.flatten.length - p = 8 + nb + bs.flatten.length := by clear_value nb bs; omega
    have eb : p + 8 + nb + bs.flatten.length = p + (8 + nb + bs.flatten.length) := by clear_value nb bs; omega
    rw [ea] at this
    rw [hil]
    simp only [← hbs]
    rw [ea]
    simp only [Nat.add_assoc] at this ⊢
    exact this
  · intro f
    simp only [List.nil_append, List.singleton_append, List.append_nil, runOps, runOps_append, r2]
    rw [← hol, show p + 8 = p + (leBytes 8 (Offsets.toBytes o').length).length by simp, writeAt_backfill _ _ _ _ hone,
      writeAt_append]
    rw [hil, himg, hol, ← hbs]
    simp [Nat.add_assoc]
  · simp only [List.nil_append, List.singleton_append, List.append_nil, byteEffects]
    intro e he
    rcases List.mem_append.1 he with he | he
    · exact byteEffects_write_ge _ _ e he
    rw [byteEffects_append _ _ _ []] at he
    rcases List.mem_append.1 he with he | he
    · have := r3 e he; omega
    · simp only [byteEffects, List.append_nil] at he
      have := byteEffects_write_ge _ _ e he; omega

/-- One compressed layer. -/
theorem writeSetVec_emits (v : SetVec) (p : Nat) : Emits (writeSetVec v) p v.toBytes v.toBytes.length := by
  refine ⟨[.write (leBytes 8 v.offsets.numBytes)] ++ ([.write v.offsets.toBytes] ++ ([.write v.data] ++ [])),
    ?_, ?_, ?_⟩
  · unfold writeSetVec
    refine (Runs.write _ _).bind ((Runs.write _ _).bind ((Runs.write _ _).bind ?_))
    have := Runs.pure (8 + v.offsets.toBytes.length + v.data.length)
      (p + 8 + v.offsets.toBytes.length + v.data.length)
    have hl : v.toBytes.length = 8 + v.offsets.toBytes.length + v.data.length := by
      simp [SetVec.toBytes, Nat.add_assoc]
    rw [hl]
    simp only [leBytes_length]
    have e : p + (8 + v.offsets.toBytes.length + v.data.length) = p + 8 + v.offsets.toBytes.length + v.data.length := by
      omega
    rw [e]
    exact this
  · intro f
    simp only [List.singleton_append, runOps, SetVec.toBytes]
    rw [writeAt_append, Nat.add_assoc p, ← List.length_append, writeAt_append]
    simp [Nat.add_assoc]
  · simp only [List.singleton_append, byteEffects, List.append_nil]
    intro e he
    rcases List.mem_append.1 he with he | he
    · exact byteEffects_write_ge _ _ e he
    rcases List.mem_append.1 he with he | he
    · have := byteEffects_write_ge _ _ e he; omega
    · have := byteEffects_write_ge _ _ e he; omega

theorem Emits.bind_each {α : Type} {one : α → Wr Nat} {l : α} {ls : List α} {p : Nat} {v : Bytes} {vs : List Bytes}
    (h1 : Emits (one l) p v v.length)
    (h2 : Emits (writeEach one ls) (p + v.length) vs.flatten (vs.map List.length)) :
    Emits (writeEach one (l :: ls)) p (v :: vs).flatten ((v :: vs).map List.length) := by
  obtain ⟨ops1, a1, a2, a3⟩ := h1
  obtain ⟨ops2, b1, b2, b3⟩ := h2
  refine ⟨ops1 ++ (ops2 ++ []), ?_, ?_, ?_⟩
  · unfold writeEach
    refine a1.bind (b1.bind ?_)
    have := Runs.pure (v.length :: vs.map List.length) (p + v.length + vs.flatten.length)
    have e : p + (v :: vs).flatten.length = p + v.length + vs.flatten.length := by
      rw [List.flatten_cons, List.length_append]; omega
    rw [e]
    exact this
  · intro f
    rw [List.append_nil, runOps_append, a2, b2, writeAt_append]
    simp [Nat.add_assoc]
  · rw [List.append_nil, byteEffects_append _ _ _ [], a2]
    intro e he
    rcases List.mem_append.1 he with he | he
    · exact a3 e he
    · have := b3 e he; omega

theorem Emits.each_nil {α : Type} (one : α → Wr Nat) (p : Nat) : Emits (writeEach one []) p [] [] := by
  refine ⟨[], ?_, ?_, by simp [byteEffects]⟩
  · simpa [writeEach] using Runs.pure ([] : List Nat) p
  · intro f; simp [runOps, writeAt_nil]

/-- The stored form `v` of a layer. -/
structure Stored (v : SetVec) (bs : List Bytes) : Prop where
  repr : SetRepr v bs
  initial : ∀ c ∈ v.offsets, c.initial ≤ v.data.length

theorem writeFixLayers_emits (ls : List Layer) :
    ∃ vs : List SetVec, List.Forall₂ (fun v l => Stored v (l.rows.map encRow)) vs ls ∧
      ∀ p, Emits (writeLayers (.fixWidth ls)) p (vs.map SetVec.toBytes).flatten ((vs.map SetVec.toBytes).map List.length) := by
  induction ls with
  | nil => exact ⟨[], .nil, Emits.each_nil writeFixLayer⟩
  | cons l ls ih =>
    obtain ⟨v, h1, h2, h3⟩ := writeFixLayer_emits l
    obtain ⟨vs, h4, h5⟩ := ih
    exact ⟨v :: vs, .cons ⟨h1, h2⟩ h4, fun p => (h3 p).bind_each (h5 _)⟩

theorem writeCompressed_emits (vs : List SetVec) (p : Nat) :
    Emits (writeLayers (.compressed vs)) p (vs.map SetVec.toBytes).flatten ((vs.map SetVec.toBytes).map List.length) := by
  induction vs generalizing p with
  | nil => exact Emits.each_nil writeSetVec p
  | cons v vs ih => exact (writeSetVec_emits v p).bind_each (ih _)

end Granne
