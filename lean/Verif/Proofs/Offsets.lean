import Verif.Proofs.Codec

/-! The chunked offset table refines a list of offsets. -/
namespace Granne

/-- One admissible step between consecutive offsets. -/
abbrev OffStep (a b : Nat) : Prop := a ≤ b ∧ b - a < 65535

abbrev Steps (p : Nat) (l : List Nat) : Prop := List.IsChain OffStep (p :: l)

theorem Steps.nil (p : Nat) : Steps p [] := by simp [Steps]
theorem steps_cons {p x : Nat} {l : List Nat} : Steps p (x :: l) ↔ OffStep p x ∧ Steps x l :=
  List.isChain_cons_cons

/-- The chunk `c` holds the offsets `l`. -/
structure ChunkRepr (c : Chunk) (l : List Nat) : Prop where
  len : l.length ≤ 60
  deltas : c.deltas = deltaEncodeFrom c.initial l ++ List.replicate (60 - l.length) UNUSED_DELTA
  steps : Steps c.initial l

theorem deltas_lt {p : Nat} {l : List Nat} (h : Steps p l) : ∀ d ∈ deltaEncodeFrom p l, d < 65535 := by
  induction l generalizing p with
  | nil => simp [deltaEncodeFrom]
  | cons x t ih =>
    obtain ⟨h1, h2⟩ := steps_cons.1 h
    intro d hd
    rw [deltaEncodeFrom] at hd
    rcases List.mem_cons.1 hd with rfl | hd
    · exact h1.2
    · exact ih h2 d hd

theorem deltas_sum {p : Nat} {l : List Nat} (h : Steps p l) :
    ∀ i x, l[i]? = some x → ((deltaEncodeFrom p l).take (i + 1)).sum + p = x := by
  induction l generalizing p with
  | nil => intro i x hi; simp at hi
  | cons y t ih =>
    obtain ⟨h1, h2⟩ := steps_cons.1 h
    intro i x hi
    rw [deltaEncodeFrom, List.take_succ_cons, List.sum_cons]
    cases i with
    | zero =>
      simp only [List.getElem?_cons_zero, Option.some.injEq] at hi
      subst hi
      have := h1.1
      simp; omega
    | succ i =>
      have := ih h2 i x (by simpa using hi)
      have := h1.1
      omega

theorem Steps.snoc {p : Nat} {l : List Nat} {x : Nat} (h : Steps p l) (hx : OffStep (l.getLast?.getD p) x) :
    Steps p (l ++ [x]) := by
  induction l generalizing p with
  | nil => exact steps_cons.2 ⟨by simpa using hx, Steps.nil _⟩
  | cons y t ih =>
    obtain ⟨h1, h2⟩ := steps_cons.1 h
    rw [List.cons_append]
    refine steps_cons.2 ⟨h1, ih h2 ?_⟩
    simpa [List.getLast?_cons] using hx

theorem deltaEncodeFrom_snoc (p : Nat) (l : List Nat) (x : Nat) :
    deltaEncodeFrom p (l ++ [x]) = deltaEncodeFrom p l ++ [x - l.getLast?.getD p] := by
  induction l generalizing p with
  | nil => simp [deltaEncodeFrom]
  | cons y t ih =>
    rw [List.cons_append, deltaEncodeFrom, deltaEncodeFrom, ih]
    simp [List.getLast?_cons]

namespace ChunkRepr

variable {c : Chunk} {l : List Nat}

theorem new (p : Nat) : ChunkRepr (Chunk.new p) [] :=
  ⟨by simp, by simp [Chunk.new, deltaEncodeFrom, OFFSETS_PER_CHUNK], Steps.nil _⟩

theorem chunkLen (h : ChunkRepr c l) : c.len = l.length := by
  unfold Chunk.len
  rw [h.deltas, List.takeWhile_append_of_pos]
  · cases 60 - l.length <;> simp [deltaEncodeFrom_length, List.replicate_succ]
  · intro d hd
    have := deltas_lt h.steps d hd
    simp [UNUSED_DELTA]; omega

theorem isFull (h : ChunkRepr c l) : c.isFull = decide (l.length = 60) := by
  have hl := h.len
  unfold Chunk.isFull OFFSETS_PER_CHUNK
  rw [h.deltas]
  by_cases h60 : l.length = 60
  · have hlen : (deltaEncodeFrom c.initial l).length = 60 := by rw [deltaEncodeFrom_length, h60]
    rw [List.getElem?_append_left (by omega), List.getElem?_eq_getElem (by omega)]
    have := deltas_lt h.steps _ (List.getElem_mem (show 60 - 1 < (deltaEncodeFrom c.initial l).length by omega))
    simp [h60, UNUSED_DELTA]
    exact Nat.ne_of_lt this
  · rw [List.getElem?_append_right (by rw [deltaEncodeFrom_length]; omega), List.getElem?_replicate,
      if_pos (by rw [deltaEncodeFrom_length]; omega)]
    simp [h60]

theorem isEmpty (h : ChunkRepr c l) : c.isEmpty = decide (l = []) := by
  unfold Chunk.isEmpty
  rw [h.deltas]
  cases l with
  | nil => simp [deltaEncodeFrom, List.replicate_succ]
  | cons x t =>
    have := deltas_lt h.steps (x - c.initial) (by simp [deltaEncodeFrom])
    simp [deltaEncodeFrom, UNUSED_DELTA]
    omega

theorem get (h : ChunkRepr c l) {i x : Nat} (hi : l[i]? = some x) : c.get i = some x := by
  have hlt := (List.getElem?_eq_some_iff.1 hi).1
  have := h.len
  unfold Chunk.get OFFSETS_PER_CHUNK
  rw [if_pos (by omega), h.deltas, List.take_append_of_le_length (by rw [deltaEncodeFrom_length]; omega),
    deltas_sum h.steps i x hi]

theorem delta_at (h : ChunkRepr c l) {i x y : Nat} (hi : l[i]? = some x) (hj : l[i + 1]? = some y) :
    ∃ d, c.deltas[i + 1]? = some d ∧ x + d = y := by
  have hlt := (List.getElem?_eq_some_iff.1 hj).1
  have h1 := deltas_sum h.steps i x hi
  have h2 := deltas_sum h.steps (i + 1) y hj
  have hlen := deltaEncodeFrom_length c.initial l
  rw [List.take_succ_eq_append_getElem (by omega)] at h2
  refine ⟨(deltaEncodeFrom c.initial l)[i + 1], ?_, ?_⟩
  · rw [h.deltas, List.getElem?_append_left (by omega), List.getElem?_eq_getElem]
  · simp only [List.sum_append, List.sum_singleton] at h2
    omega

theorem last (h : ChunkRepr c l) : c.last = some l.getLast? := by
  unfold Chunk.last
  rw [h.isEmpty]
  by_cases hn : l = []
  · simp [hn]
  · have hpos := List.length_pos_iff.2 hn
    rw [if_neg (by simpa using hn), h.chunkLen]
    rw [h.get (i := l.length - 1) (x := l[l.length - 1]) (List.getElem?_eq_getElem _)]
    simp [List.getLast?_eq_getElem?]

theorem push (h : ChunkRepr c l) (hl : l.length < 60) {x : Nat} (hx : OffStep (l.getLast?.getD c.initial) x) :
    ∃ c', c.push x = some c' ∧ ChunkRepr c' (l ++ [x]) := by
  refine ⟨{ c with deltas := c.deltas.set l.length (x - l.getLast?.getD c.initial) }, ?_, ?_, ?_, ?_⟩
  · unfold Chunk.push
    have hnf : c.isFull = false := by rw [h.isFull]; simp; omega
    rw [hnf, if_neg (by simp), h.last]
    simp only
    rw [if_pos hx.1, if_pos (by have := hx.2; omega), h.chunkLen]
  · simp; omega
  · simp only
    rw [h.deltas, deltaEncodeFrom_snoc, List.length_append, List.length_singleton]
    rw [List.set_append_right _ _ (by rw [deltaEncodeFrom_length]), deltaEncodeFrom_length, Nat.sub_self]
    rw [show 60 - l.length = (60 - (l.length + 1)) + 1 by omega, List.replicate_succ, List.set_cons_zero]
    simp
  · exact h.steps.snoc hx

end ChunkRepr

/-- The table `o` holds the offsets `offs`. -/
inductive OffRepr : Offsets → List Nat → Prop
  | one (c : Chunk) (l : List Nat) : ChunkRepr c l → OffRepr [c] l
  | cons (c : Chunk) (l : List Nat) (cs : Offsets) (offs : List Nat) : ChunkRepr c l → l.length = 60 →
      offs ≠ [] → OffRepr cs offs → OffRepr (c :: cs) (l ++ offs)

namespace OffRepr

variable {o : Offsets} {offs : List Nat}

theorem new : OffRepr Offsets.new [] := .one _ _ (.new 0)

theorem ne_nil (h : OffRepr o offs) : o ≠ [] := by cases h <;> simp

theorem push (h : OffRepr o offs) {x : Nat}
    (hx : offs.length % 60 = 0 ∧ offs ≠ [] ∨ (offs = [] ∧ (∀ c, o.getLast? = some c → OffStep c.initial x)) ∨
      ∃ l, offs.getLast? = some l ∧ OffStep l x) :
    ∃ o', o.push x = some o' ∧ OffRepr o' (offs ++ [x]) := by
  induction h with
  | one c l hc =>
    have hcl := hc.len
    unfold Offsets.push
    simp only [List.getLast?_singleton]
    by_cases hf : l.length = 60
    · rw [hc.isFull, if_pos (by simpa using hf)]
      obtain ⟨c', h1, h2⟩ := (ChunkRepr.new x).push (by simp) (x := x) (by simp [Chunk.new, OffStep])
      rw [h1]
      exact ⟨_, rfl, .cons c l [c'] [x] hc hf (by simp) (.one _ _ (by simpa using h2))⟩
    · rw [hc.isFull, if_neg (by simpa using hf)]
      have hstep : OffStep (l.getLast?.getD c.initial) x := by
        rcases hx with ⟨h1, h2⟩ | ⟨h1, h2⟩ | ⟨z, h1, h2⟩
        · have := List.length_pos_iff.2 h2
          omega
        · subst h1; simpa using h2 c rfl
        · rw [h1]; exact h2
      obtain ⟨c', h1, h2⟩ := hc.push (by omega) hstep
      rw [h1]
      exact ⟨_, rfl, .one _ _ h2⟩
  | cons c l cs offs hc hl hne hcs ih =>
    obtain ⟨o', h1, h2⟩ := ih (by
      rcases hx with ⟨h1, _⟩ | ⟨h1, _⟩ | ⟨z, h1, h2⟩
      · left; rw [List.length_append, hl] at h1; exact ⟨by omega, hne⟩
      · simp [hne] at h1
      · right; right
        rw [List.getLast?_append] at h1
        cases hz : offs.getLast? with
        | none => exact absurd (List.getLast?_eq_none_iff.1 hz) hne
        | some z' => rw [hz] at h1; exact ⟨z, h1, h2⟩)
    refine ⟨c :: o', ?_, ?_⟩
    · have hcne := hcs.ne_nil
      obtain ⟨up, la, rfl⟩ := List.eq_nil_or_concat cs |>.resolve_left hcne
      simp only [List.concat_eq_append] at *
      unfold Offsets.push at h1 ⊢
      have e1 : (up ++ [la]).getLast? = some la := by simp
      have e2 : (c :: (up ++ [la])).getLast? = some la := by
        rw [← List.cons_append]; exact List.getLast?_concat
      rw [e1] at h1
      rw [e2]
      simp only at h1 ⊢
      split at h1
      · next hf =>
        rw [if_pos hf]
        cases hp : (Chunk.new x).push x with
        | none => simp [hp] at h1
        | some c' => simp only [hp, Option.map_some, Option.some.injEq] at h1 ⊢; rw [← h1]; rfl
      · next hf =>
        rw [if_neg hf]
        cases hp : la.push x with
        | none => simp [hp] at h1
        | some c' =>
          simp only [hp, Option.map_some, Option.some.injEq] at h1 ⊢
          rw [← h1, ← List.cons_append, List.dropLast_concat, List.dropLast_concat]
          rfl
    · rw [List.append_assoc]
      exact .cons c l o' _ hc hl (by simp) h2

theorem get (h : OffRepr o offs) {i x : Nat} (hi : offs[i]? = some x) : o.get i = some x := by
  induction h generalizing i with
  | one c l hc =>
    have hlt := (List.getElem?_eq_some_iff.1 hi).1
    have := hc.len
    unfold Offsets.get OFFSETS_PER_CHUNK
    rw [Nat.div_eq_of_lt (by omega), Nat.mod_eq_of_lt (by omega)]
    simpa using hc.get hi
  | cons c l cs offs hc hl hne hcs ih =>
    by_cases hlt : i < 60
    · rw [List.getElem?_append_left (by omega)] at hi
      unfold Offsets.get OFFSETS_PER_CHUNK
      rw [Nat.div_eq_of_lt hlt, Nat.mod_eq_of_lt hlt]
      simpa using hc.get hi
    · rw [List.getElem?_append_right (by omega), hl] at hi
      have := ih hi
      unfold Offsets.get OFFSETS_PER_CHUNK at this ⊢
      obtain ⟨k, rfl⟩ : ∃ k, i = k + 60 := ⟨i - 60, by omega⟩
      rw [Nat.add_sub_cancel] at this
      rw [show (k + 60) / 60 = k / 60 + 1 by omega, show (k + 60) % 60 = k % 60 by omega,
        List.getElem?_cons_succ]
      exact this

theorem chunk_consecutive {c : Chunk} {l : List Nat} (hc : ChunkRepr c l) {i x y : Nat}
    (hi : l[i]? = some x) (hj : l[i + 1]? = some y) : c.getConsecutive i = some (x, y) := by
  have hlt := (List.getElem?_eq_some_iff.1 hj).1
  have := hc.len
  obtain ⟨d, hd, he⟩ := hc.delta_at hi hj
  unfold Chunk.getConsecutive OFFSETS_PER_CHUNK
  rw [if_pos (by omega), hc.get hi, hd]
  simp [he]

theorem getConsecutive (h : OffRepr o offs) {i x y : Nat} (hi : offs[i]? = some x)
    (hj : offs[i + 1]? = some y) : o.getConsecutive i = some (x, y) := by
  by_cases hm : (i + 1) % 60 = 0
  · unfold Offsets.getConsecutive OFFSETS_PER_CHUNK
    rw [if_pos hm, h.get hi, h.get hj]
  · induction h generalizing i with
    | one c l hc =>
      have hlt := (List.getElem?_eq_some_iff.1 hj).1
      have := hc.len
      unfold Offsets.getConsecutive OFFSETS_PER_CHUNK
      rw [if_neg hm, Nat.div_eq_of_lt (by omega), Nat.mod_eq_of_lt (by omega)]
      simpa using chunk_consecutive hc hi hj
    | cons c l cs offs hc hl hne hcs ih =>
      by_cases hlt : i < 60
      · rw [List.getElem?_append_left (by omega)] at hi hj
        unfold Offsets.getConsecutive OFFSETS_PER_CHUNK
        rw [if_neg hm, Nat.div_eq_of_lt hlt, Nat.mod_eq_of_lt hlt]
        simpa using chunk_consecutive hc hi hj
      · rw [List.getElem?_append_right (by omega), hl] at hi hj
        obtain ⟨k, rfl⟩ : ∃ k, i = k + 60 := ⟨i - 60, by omega⟩
        rw [Nat.add_sub_cancel] at hi
        rw [show k + 60 + 1 - 60 = k + 1 by omega] at hj
        have := ih hi hj (by omega)
        unfold Offsets.getConsecutive OFFSETS_PER_CHUNK at this ⊢
        rw [if_neg hm]
        rw [if_neg (by omega)] at this
        rw [show (k + 60) / 60 = k / 60 + 1 by omega, show (k + 60) % 60 = k % 60 by omega,
          List.getElem?_cons_succ]
        exact this

theorem len (h : OffRepr o offs) : o.len = some offs.length := by
  unfold Offsets.len OFFSETS_PER_CHUNK
  induction h with
  | one c l hc => simp [hc.chunkLen]
  | cons c l cs offs hc hl hne hcs ih =>
    obtain ⟨up, la, rfl⟩ := List.eq_nil_or_concat cs |>.resolve_left hcs.ne_nil
    simp only [List.concat_eq_append] at *
    have e1 : (up ++ [la]).getLast? = some la := by simp
    have e2 : (c :: (up ++ [la])).getLast? = some la := by rw [← List.cons_append]; exact List.getLast?_concat
    rw [e1] at ih
    rw [e2]
    simp only [Option.some.injEq, List.length_append, List.length_cons, List.length_nil] at ih ⊢
    omega

theorem last (h : OffRepr o offs) : o.last = some offs.getLast? := by
  unfold Offsets.last
  induction h with
  | one c l hc => simp [hc.last]
  | cons c l cs offs hc hl hne hcs ih =>
    obtain ⟨up, la, rfl⟩ := List.eq_nil_or_concat cs |>.resolve_left hcs.ne_nil
    simp only [List.concat_eq_append] at *
    have e1 : (up ++ [la]).getLast? = some la := by simp
    have e2 : (c :: (up ++ [la])).getLast? = some la := by rw [← List.cons_append]; exact List.getLast?_concat
    rw [e1] at ih
    rw [e2]
    simp only at ih ⊢
    rw [ih, List.getLast?_append]
    cases hz : offs.getLast? with
    | none => exact absurd (List.getLast?_eq_none_iff.1 hz) hne
    | some z => rfl

/-- The number of chunks. -/
theorem chunks (h : OffRepr o offs) (hne : offs ≠ []) : o.length = 1 + (offs.length - 1) / 60 := by
  induction h with
  | one c l hc =>
    have := hc.len
    have := List.length_pos_iff.2 hne
    simp; omega
  | cons c l cs offs hc hl hne' hcs ih =>
    have := ih hne'
    have := List.length_pos_iff.2 hne'
    simp only [List.length_cons, List.length_append, hl]
    omega

/-- The last chunk, which holds the last offsets. -/
theorem lastChunk (h : OffRepr o offs) (hne : offs ≠ []) :
    ∃ up la l, o = up ++ [la] ∧ ChunkRepr la l ∧ l ≠ [] ∧ l.length % 60 = offs.length % 60 ∧
      l.getLast? = offs.getLast? := by
  induction h with
  | one c l hc => exact ⟨[], c, l, rfl, hc, hne, rfl, rfl⟩
  | cons c l cs offs hc hl hne' hcs ih =>
    obtain ⟨up, la, l', h1, h2, h3, h4, h5⟩ := ih hne'
    refine ⟨c :: up, la, l', by rw [h1]; rfl, h2, h3, by rw [List.length_append, hl]; omega, ?_⟩
    rw [h5, List.getLast?_append]
    cases hz : offs.getLast? with
    | none => exact absurd (List.getLast?_eq_none_iff.1 hz) hne'
    | some z => rfl

theorem push_eq_last (up : Offsets) (la : Chunk) (x : Nat) (hf : la.isFull = false) :
    Offsets.push (up ++ [la]) x = (la.push x).map fun c' => up ++ [c'] := by
  unfold Offsets.push
  rw [List.getLast?_concat]
  simp [hf]

theorem push_bad (h : OffRepr o offs) (hn : offs.length % 60 ≠ 0) {last x : Nat} (hl : offs.getLast? = some last)
    (hx : x < last ∨ last + 65535 < x) : o.push x = none := by
  obtain ⟨up, la, l, rfl, h2, h3, h4, h5⟩ := h.lastChunk (by rintro rfl; simp at hl)
  have hnf : la.isFull = false := by rw [h2.isFull]; simp; omega
  rw [push_eq_last _ _ _ hnf, Option.map_eq_none_iff, Chunk.push, hnf, if_neg (by simp), h2.last, h5, hl]
  simp only [Option.getD_some]
  split
  · rw [if_neg (by omega)]
  · rfl

theorem push_lost (h : OffRepr o offs) (hn : offs.length % 60 ≠ 0) {last : Nat} (hl : offs.getLast? = some last) :
    o.push (last + 65535) = some o := by
  obtain ⟨up, la, l, rfl, h2, h3, h4, h5⟩ := h.lastChunk (by rintro rfl; simp at hl)
  have hlen := h2.len
  have hnf : la.isFull = false := by rw [h2.isFull]; simp; omega
  rw [push_eq_last _ _ _ hnf, Chunk.push, hnf, if_neg (by simp), h2.last, h5, hl]
  simp only [Option.getD_some]
  rw [if_pos (by omega), if_pos (by omega), Option.map_some]
  have : la.deltas.set la.len (last + 65535 - last) = la.deltas := by
    rw [h2.chunkLen, Nat.add_sub_cancel_left, h2.deltas,
      List.set_append_right _ _ (by rw [deltaEncodeFrom_length]), deltaEncodeFrom_length, Nat.sub_self]
    obtain ⟨m, hm⟩ : ∃ m, 60 - l.length = m + 1 := ⟨59 - l.length, by omega⟩
    rw [hm, List.replicate_succ, List.set_cons_zero]
    rfl
  rw [this]

end OffRepr

theorem Offsets.pushAll_append (o : Offsets) (a b : List Nat) :
    o.pushAll (a ++ b) = (o.pushAll a).bind fun o' => Offsets.pushAll o' b := by
  induction a generalizing o with
  | nil => rfl
  | cons x t ih =>
    rw [List.cons_append, Offsets.pushAll, Offsets.pushAll]
    rcases Option.eq_none_or_eq_some (o.push x) with h | ⟨o', h⟩
    · simp [h]
    · simp only [h]; exact ih o'

/-- Pushing a whole list. -/
theorem OffRepr.pushAll {o : Offsets} {offs : List Nat} (h : OffRepr o offs) {p : Nat}
    (hp : offs.getLast? = some p ∨ (offs = [] ∧ ∀ c, o.getLast? = some c → c.initial = p)) {new : List Nat}
    (hs : Steps p new) : ∃ o', o.pushAll new = some o' ∧ OffRepr o' (offs ++ new) := by
  induction new generalizing o offs p with
  | nil => exact ⟨o, rfl, by simpa using h⟩
  | cons x t ih =>
    obtain ⟨h1, h2⟩ := steps_cons.1 hs
    obtain ⟨o1, e1, e2⟩ := h.push (x := x) (by
      rcases hp with hp | ⟨hp, hp'⟩
      · exact Or.inr (Or.inr ⟨p, hp, h1⟩)
      · exact Or.inr (Or.inl ⟨hp, fun c hc => by rw [hp' c hc]; exact h1⟩))
    obtain ⟨o', e3, e4⟩ := ih e2 (p := x) (Or.inl (by simp)) h2
    refine ⟨o', by rw [Offsets.pushAll, e1]; exact e3, by simpa using e4⟩

end Granne
