import Verif.Model.BufWriter
import Verif.Proofs.IndexIO

/-! The buffered writer. -/
namespace Granne

/-- The byte effects of writing `b` at `p`. -/
def eff (b : Bytes) (p : Nat) : List (Nat × UInt8) := (List.range b.length).map fun i => (p + i, b.getD i 0)

theorem eff_nil (p : Nat) : eff [] p = [] := rfl

theorem eff_append (a b : Bytes) (p : Nat) : eff (a ++ b) p = eff a p ++ eff b (p + a.length) := by
  unfold eff
  rw [List.length_append, List.range_add, List.map_append, List.map_map]
  congr 1
  · apply List.map_congr_left
    intro i hi
    have := List.mem_range.1 hi
    simp [List.getElem?_append_left this]
  · apply List.map_congr_left
    intro i hi
    simp [Nat.add_assoc, List.getElem?_append_right]

theorem applyBytes_eff (f b : Bytes) (p : Nat) : applyBytes f (eff b p) = writeAt f p b := applyBytes_write b f p

theorem byteEffects_write (b : Bytes) (t : List IoOp) (p : Nat) :
    byteEffects (.write b :: t) p = eff b p ++ byteEffects t (p + b.length) := rfl

/-- `s'` is `s` with the effects `X` moved further to the file, except for `rest`. -/
def Moves (f : Bytes) (E : List (Nat × UInt8)) (s' : BufState) (rest : List (Nat × UInt8)) (all : List (Nat × UInt8)) :
    Prop := ∃ E', s'.file = applyBytes f E' ∧ E' ++ eff s'.buf s'.pos ++ rest = E ++ all

theorem flushBuf_moves {fail : Nat → Bool} {s s' : BufState} {ok : Bool} {f : Bytes} {E : List (Nat × UInt8)}
    (hf : s.file = applyBytes f E) (h : flushBuf fail s = (s', ok)) :
    (ok = false → s'.file = s.file ∧ s'.buf = s.buf ∧ s'.pos = s.pos) ∧
    (ok = true → s'.file = applyBytes f (E ++ eff s.buf s.pos) ∧ s'.buf = [] ∧ s'.pos = s.pos + s.buf.length) := by
  unfold flushBuf at h
  split at h
  · next hb =>
    cases h
    refine ⟨by simp, fun _ => ?_⟩
    simp [hb, eff_nil, hf]
  · unfold innerWrite at h
    split at h
    · next heq =>
      split at heq
      · cases heq
      · cases heq
        cases h
        refine ⟨by simp, fun _ => ⟨?_, rfl, rfl⟩⟩
        rw [applyBytes_append, ← hf, applyBytes_eff]
    · next heq =>
      split at heq
      · cases heq
        cases h
        exact ⟨fun _ => ⟨rfl, rfl, rfl⟩, by simp⟩
      · cases heq

theorem innerWrite_moves {fail : Nat → Bool} {s s' : BufState} {b : Bytes} {ok : Bool} {f : Bytes}
    {E : List (Nat × UInt8)} (hf : s.file = applyBytes f E) (h : innerWrite fail s b = (s', ok)) :
    (ok = false → s'.file = s.file ∧ s'.buf = s.buf ∧ s'.pos = s.pos) ∧
    (ok = true → s'.file = applyBytes f (E ++ eff b s.pos) ∧ s'.buf = s.buf ∧ s'.pos = s.pos + b.length) := by
  unfold innerWrite at h
  split at h
  · cases h; simp
  · cases h
    refine ⟨by simp, fun _ => ⟨?_, rfl, rfl⟩⟩
    rw [applyBytes_append, ← hf, applyBytes_eff]

/-- The position the program believes to be at. -/
def BufState.cursor (s : BufState) : Nat := s.pos + s.buf.length

theorem bufOp_moves {fail : Nat → Bool} {s s' : BufState} {o : IoOp} {ok : Bool} {f : Bytes}
    {E : List (Nat × UInt8)} (hf : s.file = applyBytes f E) (h : bufOp fail s o = (s', ok)) :
    (ok = true → ∃ E', s'.file = applyBytes f E' ∧
      E' ++ eff s'.buf s'.pos = E ++ eff s.buf s.pos ++ byteEffects [o] s.cursor ∧
      ∀ t, byteEffects (o :: t) s.cursor = byteEffects [o] s.cursor ++ byteEffects t s'.cursor) ∧
    (ok = false → ∃ E' rest, s'.file = applyBytes f E' ∧ E' ++ eff s'.buf s'.pos ++ rest = E ++ eff s.buf s.pos) := by
  cases o with
  | write b =>
    simp only [bufOp, bufWrite] at h
    split at h
    · cases h
      refine ⟨fun _ => ⟨E, hf, ?_, ?_⟩, by simp⟩
      · rw [eff_append, byteEffects_write]
        simp [byteEffects, BufState.cursor]
      · intro t; simp [byteEffects, BufState.cursor, Nat.add_assoc]
    · have hmid : ∀ s1 ok1, (if BUF_CAP < s.buf.length + b.length then flushBuf fail s else (s, true)) = (s1, ok1) →
          (ok1 = false → s1.file = s.file ∧ s1.buf = s.buf ∧ s1.pos = s.pos) ∧
          (ok1 = true → ∃ E1, s1.file = applyBytes f E1 ∧ E1 ++ eff s1.buf s1.pos = E ++ eff s.buf s.pos ∧
            s1.cursor = s.cursor ∧ (BUF_CAP ≤ b.length → s1.buf = [])) := by
        intro s1 ok1 h1
        split at h1
        · obtain ⟨a, c⟩ := flushBuf_moves hf h1
          refine ⟨a, fun hok => ?_⟩
          obtain ⟨c1, c2, c3⟩ := c hok
          refine ⟨_, c1, ?_, ?_, fun _ => c2⟩
          · rw [c2, eff_nil, List.append_nil]
          · simp [BufState.cursor, c2, c3]
        · next hn =>
          cases h1
          refine ⟨by simp, fun _ => ⟨E, hf, rfl, rfl, fun hb => ?_⟩⟩
          rw [← List.length_eq_zero_iff]; omega
      split at h
      · next s1 heq =>
        cases h
        refine ⟨by simp, fun _ => ?_⟩
        obtain ⟨a, b', c⟩ := (hmid _ _ heq).1 rfl
        exact ⟨E, [], by rw [a, hf], by rw [b', c, List.append_nil]⟩
      · next s1 heq =>
        obtain ⟨E1, e1, e2, e3, e4⟩ := (hmid _ _ heq).2 rfl
        split at h
        · next hb =>
          have hb1 := e4 hb
          rw [hb1, eff_nil, List.append_nil] at e2
          obtain ⟨i1, i2⟩ := innerWrite_moves e1 h
          constructor
          · intro hok
            obtain ⟨j1, j2, j3⟩ := i2 hok
            have hpos : s1.pos = s.cursor := by simpa [BufState.cursor, hb1] using e3
            refine ⟨_, j1, ?_, ?_⟩
            · rw [j2, hb1, eff_nil, List.append_nil, e2, hpos]
              simp [byteEffects, eff]
            · intro t
              simp only [byteEffects, List.append_nil, BufState.cursor, j2, j3, hb1, List.length_nil, Nat.add_zero]
              rw [hpos]; rfl
          · intro hok
            obtain ⟨j1, j2, j3⟩ := i1 hok
            exact ⟨E1, [], by rw [j1, e1], by rw [j2, hb1, eff_nil, e2]; simp⟩
        · cases h
          refine ⟨fun _ => ⟨E1, e1, ?_, ?_⟩, by simp⟩
          · simp only [eff_append, ← List.append_assoc, e2]
            have : s1.pos + s1.buf.length = s.cursor := e3
            rw [this]
            simp [byteEffects, eff]
          · intro t
            have : s1.pos + s1.buf.length = s.cursor := e3
            simp only [byteEffects, BufState.cursor, List.length_append, List.append_nil]
            rw [← Nat.add_assoc, this]; rfl
  | seek p =>
    simp only [bufOp, bufSeek] at h
    split at h
    · next s1 heq =>
      cases h
      refine ⟨by simp, fun _ => ?_⟩
      obtain ⟨a, b', c⟩ := (flushBuf_moves hf heq).1 rfl
      exact ⟨E, [], by rw [a, hf], by rw [b', c, List.append_nil]⟩
    · next s1 heq =>
      obtain ⟨a, b', c⟩ := (flushBuf_moves hf heq).2 rfl
      split at h
      · cases h
        refine ⟨by simp, fun _ => ⟨_, [], a, ?_⟩⟩
        simp [b', eff_nil]
      · cases h
        refine ⟨fun _ => ⟨_, a, ?_, ?_⟩, by simp⟩
        · simp [b', eff_nil, byteEffects]
        · intro t; simp [byteEffects, BufState.cursor, b']

theorem bufRun_moves {fail : Nat → Bool} {ops : List IoOp} {s s' : BufState} {ok : Bool} {f : Bytes}
    {E : List (Nat × UInt8)} (hf : s.file = applyBytes f E) (h : bufRun fail ops s = (s', ok)) :
    ∃ E' rest, s'.file = applyBytes f E' ∧
      E' ++ eff s'.buf s'.pos ++ rest = E ++ eff s.buf s.pos ++ byteEffects ops s.cursor ∧ (ok = true → rest = []) := by
  induction ops generalizing s E with
  | nil => cases h; exact ⟨E, [], hf, by simp [byteEffects], by simp⟩
  | cons o t ih =>
    rw [bufRun] at h
    split at h
    · next s1 heq =>
      cases h
      obtain ⟨E', rest, h1, h2⟩ := (bufOp_moves hf heq).2 rfl
      exact ⟨E', rest ++ byteEffects (o :: t) s.cursor, h1, by rw [← List.append_assoc, h2], by simp⟩
    · next s1 heq =>
      obtain ⟨E1, e1, e2, e3⟩ := (bufOp_moves hf heq).1 rfl
      obtain ⟨E', rest, h1, h2, h3⟩ := ih e1 h
      refine ⟨E', rest, h1, ?_, h3⟩
      rw [h2, e2, e3 t, List.append_assoc]

/-- Whatever fails: the content of the file is the result of some first part of the program's byte effects. -/
theorem saveFailing_prefix (L : Layers) (fail : Nat → Bool) (f : Bytes) (start : Nat) :
    ∃ n, (saveFailing L fail f start).1 = applyBytes f ((byteEffects (writeIndex L ⟨start, []⟩).1.ops start).take n) := by
  unfold saveFailing
  simp only
  generalize (writeIndex L ⟨start, []⟩).1.ops = ops
  rcases hr : bufRun fail ops ⟨f, start, [], 0⟩ with ⟨s, ok⟩
  simp only
  obtain ⟨E', rest, h1, h2, _⟩ := bufRun_moves (f := f) (E := []) rfl hr
  simp only [eff_nil, List.append_nil, List.nil_append, BufState.cursor, List.length_nil, Nat.add_zero] at h2
  rcases hfl : flushBuf fail s with ⟨s', ok'⟩
  obtain ⟨a, b⟩ := flushBuf_moves h1 hfl
  rw [← h2]
  cases ok' with
  | true => exact ⟨(E' ++ eff s.buf s.pos).length, by rw [(b rfl).1, List.take_left' rfl]⟩
  | false =>
    refine ⟨E'.length, ?_⟩
    rw [(a rfl).1, List.append_assoc, List.take_left' rfl, h1]

def never : Nat → Bool := fun _ => false

theorem bufOp_never (s : BufState) (o : IoOp) : (bufOp never s o).2 = true := by
  have hf : ∀ s, (flushBuf never s).2 = true := by
    intro s; unfold flushBuf innerWrite never; split <;> simp
  cases o with
  | write b =>
    simp only [bufOp, bufWrite]
    split
    · rfl
    · split
      · next heq =>
        split at heq
        · have := hf s; rw [heq] at this; cases this
        · cases heq
      · split
        · simp [innerWrite, never]
        · rfl
  | seek p =>
    simp only [bufOp, bufSeek]
    split
    · next heq => have := hf s; rw [heq] at this; cases this
    · simp [never]

theorem bufRun_never (ops : List IoOp) (s : BufState) : (bufRun never ops s).2 = true := by
  induction ops generalizing s with
  | nil => rfl
  | cons o t ih =>
    rw [bufRun]
    split
    · next heq => have := bufOp_never s o; rw [heq] at this; cases this
    · exact ih _

/-- Without failures the buffered writer is the same as the plain one. -/
theorem saveFailing_never (L : Layers) (f : Bytes) (start : Nat) :
    (saveFailing L never f start).1 = (saveIndex L f start).1 ∧
    (saveFailing L never f start).2.1 = if (saveIndex L f start).2 then .ok else .panic := by
  unfold saveFailing saveIndex
  simp only
  generalize (writeIndex L ⟨start, []⟩).1.ops = ops
  rcases hr : bufRun never ops ⟨f, start, [], 0⟩ with ⟨s, ok⟩
  have hok : ok = true := by have := bufRun_never ops ⟨f, start, [], 0⟩; rw [hr] at this; exact this
  subst hok
  simp only [if_true, and_true]
  obtain ⟨E', rest, h1, h2, h3⟩ := bufRun_moves (f := f) (E := []) rfl hr
  rw [h3 rfl] at h2
  simp only [eff_nil, List.append_nil, List.nil_append, BufState.cursor, List.length_nil, Nat.add_zero] at h2
  rcases hfl : flushBuf never s with ⟨s', ok'⟩
  have : ok' = true := by
    have : (flushBuf never s).2 = true := by unfold flushBuf innerWrite never; split <;> simp
    rw [hfl] at this; exact this
  obtain ⟨b1, _⟩ := (flushBuf_moves h1 hfl).2 this
  rw [b1, h2, applyBytes_byteEffects]

/-! ### Which calls were made -/

/-- A run that went well made only calls that did not fail, and is the run without failures. -/
theorem flushBuf_ok {fail : Nat → Bool} {s s' : BufState} (h : flushBuf fail s = (s', true)) :
    flushBuf never s = (s', true) ∧ s.calls ≤ s'.calls ∧ ∀ k, s.calls ≤ k → k < s'.calls → fail k = false := by
  unfold flushBuf innerWrite at h ⊢
  by_cases hb : s.buf = []
  · rw [if_pos hb] at h ⊢
    cases h
    exact ⟨rfl, Nat.le_refl _, fun k h1 h2 => by omega⟩
  · rw [if_neg hb] at h ⊢
    by_cases hc : fail s.calls = true
    · rw [if_pos hc] at h; cases h
    · rw [if_neg hc] at h
      rw [if_neg (by simp [never])]
      simp only at h ⊢
      cases h
      refine ⟨rfl, by simp, fun k h1 h2 => ?_⟩
      obtain rfl : k = s.calls := by simp at h2; omega
      simpa using hc

theorem innerWrite_ok {fail : Nat → Bool} {s s' : BufState} {b : Bytes} (h : innerWrite fail s b = (s', true)) :
    innerWrite never s b = (s', true) ∧ s.calls ≤ s'.calls ∧ ∀ k, s.calls ≤ k → k < s'.calls → fail k = false := by
  unfold innerWrite at h ⊢
  by_cases hc : fail s.calls = true
  · rw [if_pos hc] at h; cases h
  · rw [if_neg hc] at h
    rw [if_neg (by simp [never])]
    cases h
    refine ⟨rfl, by simp, fun k h1 h2 => ?_⟩
    obtain rfl : k = s.calls := by simp at h2; omega
    simpa using hc

theorem bufOp_ok {fail : Nat → Bool} {s s' : BufState} {o : IoOp} (h : bufOp fail s o = (s', true)) :
    bufOp never s o = (s', true) ∧ s.calls ≤ s'.calls ∧ ∀ k, s.calls ≤ k → k < s'.calls → fail k = false := by
  cases o with
  | write b =>
    simp only [bufOp, bufWrite] at h ⊢
    split at h
    · next hlt =>
      rw [if_pos hlt]
      cases h
      exact ⟨rfl, Nat.le_refl _, fun k h1 h2 => by simp at h2; omega⟩
    · next hlt =>
      rw [if_neg hlt]
      split at h
      · cases h
      · next s1 heq =>
        have hmid : (if BUF_CAP < s.buf.length + b.length then flushBuf never s else (s, true)) = (s1, true) ∧
            s.calls ≤ s1.calls ∧ ∀ k, s.calls ≤ k → k < s1.calls → fail k = false := by
          split at heq
          · next hc => rw [if_pos hc]; exact flushBuf_ok heq
          · next hc =>
            rw [if_neg hc]; cases heq
            exact ⟨rfl, Nat.le_refl _, fun k h1 h2 => by omega⟩
        obtain ⟨m1, m2, m3⟩ := hmid
        rw [m1]
        simp only
        split at h
        · next hb =>
          rw [if_pos hb]
          obtain ⟨i1, i2, i3⟩ := innerWrite_ok h
          refine ⟨i1, by omega, fun k h1 h2 => ?_⟩
          by_cases hk : k < s1.calls
          · exact m3 k h1 hk
          · exact i3 k (by omega) h2
        · next hb =>
          rw [if_neg hb]
          cases h
          exact ⟨rfl, m2, m3⟩
  | seek p =>
    simp only [bufOp, bufSeek] at h ⊢
    split at h
    · cases h
    · next s1 heq =>
      obtain ⟨m1, m2, m3⟩ := flushBuf_ok heq
      rw [m1]
      simp only
      split at h
      · cases h
      · next hc =>
        rw [if_neg (by simp [never])]
        cases h
        refine ⟨rfl, by simp; omega, fun k h1 h2 => ?_⟩
        simp only at h2
        by_cases hk : k < s1.calls
        · exact m3 k h1 hk
        · obtain rfl : k = s1.calls := by omega
          simpa using hc

theorem bufRun_ok {fail : Nat → Bool} {ops : List IoOp} {s s' : BufState} (h : bufRun fail ops s = (s', true)) :
    bufRun never ops s = (s', true) ∧ s.calls ≤ s'.calls ∧ ∀ k, s.calls ≤ k → k < s'.calls → fail k = false := by
  induction ops generalizing s with
  | nil => cases h; exact ⟨rfl, Nat.le_refl _, fun k h1 h2 => by omega⟩
  | cons o t ih =>
    rw [bufRun] at h ⊢
    split at h
    · cases h
    · next s1 heq =>
      obtain ⟨m1, m2, m3⟩ := bufOp_ok heq
      obtain ⟨i1, i2, i3⟩ := ih h
      rw [m1]
      refine ⟨i1, by omega, fun k h1 h2 => ?_⟩
      by_cases hk : k < s1.calls
      · exact m3 k h1 hk
      · exact i3 k (by omega) h2

/-- A run depends on the oracle only for the calls it makes. -/
theorem bufRun_congr {fail : Nat → Bool} {ops : List IoOp} {s s' : BufState}
    (h : bufRun never ops s = (s', true)) (hf : ∀ k, s.calls ≤ k → k < s'.calls → fail k = false) :
    bufRun fail ops s = (s', true) := by
  induction ops generalizing s with
  | nil => exact h
  | cons o t ih =>
    rw [bufRun] at h ⊢
    rcases hn : bufOp never s o with ⟨s1, ok⟩
    rw [hn] at h
    cases ok with
    | false => cases h
    | true =>
      simp only at h
      have hm := bufOp_ok hn
      have hr := bufRun_ok h
      have : bufOp fail s o = (s1, true) := by
        have hflush : ∀ {s s1 : BufState}, flushBuf never s = (s1, true) →
            (∀ k, s.calls ≤ k → k < s1.calls → fail k = false) → flushBuf fail s = (s1, true) := by
          intro s s1 h1 h2
          unfold flushBuf innerWrite at h1 ⊢
          by_cases hb : s.buf = []
          · rw [if_pos hb] at h1 ⊢; exact h1
          · rw [if_neg hb] at h1 ⊢
            rw [if_neg (by simp [never])] at h1
            cases h1
            rw [if_neg (by rw [h2 s.calls (Nat.le_refl _) (by simp)]; simp)]
        have hinner : ∀ {s s1 : BufState} {b : Bytes}, innerWrite never s b = (s1, true) →
            (∀ k, s.calls ≤ k → k < s1.calls → fail k = false) → innerWrite fail s b = (s1, true) := by
          intro s s1 b h1 h2
          unfold innerWrite at h1 ⊢
          rw [if_neg (by simp [never])] at h1
          cases h1
          rw [if_neg (by rw [h2 s.calls (Nat.le_refl _) (by simp)]; simp)]
        have hf1 : ∀ k, s.calls ≤ k → k < s1.calls → fail k = false := fun k h1 h2 => hf k h1 (by omega)
        cases o with
        | write b =>
          simp only [bufOp, bufWrite] at hn ⊢
          split at hn
          · next hlt => rw [if_pos hlt]; exact hn
          · next hlt =>
            rw [if_neg hlt]
            split at hn
            · cases hn
            · next s2 heq =>
              have h12 : s2.calls ≤ s1.calls := by
                split at hn
                · exact (innerWrite_ok hn).2.1
                · cases hn; exact Nat.le_refl _
              have h02 : (if BUF_CAP < s.buf.length + b.length then flushBuf fail s else (s, true)) = (s2, true) := by
                split at heq
                · next hc =>
                  rw [if_pos hc]
                  exact hflush heq fun k h1 h2 => hf1 k h1 (by omega)
                · next hc => rw [if_neg hc]; exact heq
              have h0 : s.calls ≤ s2.calls := by
                split at heq
                · exact (flushBuf_ok heq).2.1
                · cases heq; exact Nat.le_refl _
              rw [h02]
              simp only
              split at hn
              · next hb => rw [if_pos hb]; exact hinner hn fun k h1 h2 => hf1 k (by omega) h2
              · next hb => rw [if_neg hb]; exact hn
        | seek p =>
          simp only [bufOp, bufSeek] at hn ⊢
          split at hn
          · cases hn
          · next s2 heq =>
            rw [if_neg (by simp [never])] at hn
            cases hn
            have h0 := (flushBuf_ok heq).2.1
            rw [hflush heq fun k h1 h2 => hf1 k h1 (by simp; omega)]
            simp only
            rw [if_neg (by rw [hf1 s2.calls h0 (by simp)]; simp)]
      rw [this]
      exact ih h fun k h1 h2 => hf k (by omega) h2

theorem bufRun_append {fail : Nat → Bool} {a b : List IoOp} {s s' : BufState} (h : bufRun fail a s = (s', true)) :
    bufRun fail (a ++ b) s = bufRun fail b s' := by
  induction a generalizing s with
  | nil => cases h; rfl
  | cons o t ih =>
    rw [bufRun] at h
    rw [List.cons_append, bufRun]
    rcases hn : bufOp fail s o with ⟨s1, ok⟩
    rw [hn] at h
    cases ok with
    | false => cases h
    | true => exact ih h

/-- After a seek the buffer is empty. -/
theorem bufRun_seek_empty {fail : Nat → Bool} {a : List IoOp} {p : Nat} {s s' : BufState}
    (h : bufRun fail (a ++ [.seek p]) s = (s', true)) : s'.buf = [] := by
  induction a generalizing s with
  | nil =>
    simp only [List.nil_append, bufRun] at h
    split at h
    · cases h
    · next s1 heq =>
      cases h
      simp only [bufOp, bufSeek] at heq
      split at heq
      · cases heq
      · next s2 heq2 =>
        split at heq
        · cases heq
        · cases heq
          unfold flushBuf at heq2
          split at heq2
          · next hb => cases heq2; exact hb
          · split at heq2
            · cases heq2; rfl
            · cases heq2
  | cons o t ih =>
    rw [List.cons_append, bufRun] at h
    split at h
    · cases h
    · exact ih h

end Granne
