import Verif.Proofs.F32Dist

/-! NaN and infinite components. -/
namespace Granne
open Spec F32

theorem f32_mulAdd_comm (a b c : F32) : MulAddOps.mulAdd a b c = MulAddOps.mulAdd b a c := by
  change F32.mulAdd a b c = F32.mulAdd b a c
  have hm : ∀ a b : F32, F32.mul a b = F32.mul b a := by
    intro a b
    cases a <;> cases b <;> first | rfl | simp only [F32.mul, mul_comm, bne_comm]
  cases a <;> cases b <;> cases c <;>
    first | rfl | (simp only [F32.mulAdd, mul_comm]; done) | simp only [F32.mulAdd, hm]

theorem f32_mul_comm (a b : F32) : FloatOps.mul a b = FloatOps.mul b a := by
  change F32.mul a b = F32.mul b a
  cases a <;> cases b <;> first | rfl | simp only [F32.mul, mul_comm, bne_comm]

/-- An infinite component makes the squared norm infinite, unless there is a NaN. -/
theorem acc_square_inf {l : List (F32 × F32)} {k : Nat} {v : F32} (h : Acc l k v)
    (hl : ∀ p ∈ l, ∃ a : F32, p = (a, a) ∧ a ≠ nan) :
    (v = inf false ∨ ∃ r, v = fin r ∧ 0 ≤ r) ∧ ((∃ s t, (inf s, inf t) ∈ l) → v = inf false) := by
  induction h with
  | zero => exact ⟨Or.inr ⟨0, rfl, le_rfl⟩, fun ⟨s, t, h⟩ => by simp at h⟩
  | @mulAdd l k c a b hc ih =>
    obtain ⟨a', ha, hne⟩ := hl (a, b) (by simp)
    obtain ⟨rfl, rfl⟩ := Prod.mk.inj ha
    obtain ⟨i1, i2⟩ := ih fun p hp => hl p (by simp [hp])
    cases b with
    | nan => exact absurd rfl hne
    | inf s =>
      have e : MulAddOps.mulAdd (inf s) (inf s) c = inf false := by
        change F32.mulAdd (inf s) (inf s) c = _
        rcases i1 with rfl | ⟨r, rfl, _⟩ <;> cases s <;> rfl
      rw [e]
      exact ⟨Or.inl rfl, fun _ => rfl⟩
    | fin a =>
      rcases i1 with rfl | ⟨r, rfl, hr⟩
      · exact ⟨Or.inl rfl, fun _ => rfl⟩
      · have e : MulAddOps.mulAdd (fin a) (fin a) (fin r) = ofReal (a * a + r) := rfl
        have h0 : 0 ≤ a * a + r := by have := mul_self_nonneg a; linarith
        rw [e]
        constructor
        · rcases ofReal_nonneg h0 with h | h
          · exact Or.inl h
          · exact Or.inr ⟨_, h, rne32_nonneg h0⟩
        · rintro ⟨s, t, hm⟩
          have hm' : (inf s, inf t) ∈ l := by simpa using hm
          have := i2 ⟨s, t, hm'⟩
          cases this
  | @add l l' k v w _ _ ih1 ih2 =>
    obtain ⟨i1, i2⟩ := ih1 fun p hp => hl p (by simp [hp])
    obtain ⟨j1, j2⟩ := ih2 fun p hp => hl p (by simp [hp])
    rcases i1 with rfl | ⟨r, rfl, hr⟩
    · have e : MulAddOps.add (inf false) w = inf false := by
        rcases j1 with rfl | ⟨s, rfl, _⟩ <;> rfl
      rw [e]
      exact ⟨Or.inl rfl, fun _ => rfl⟩
    · rcases j1 with rfl | ⟨s, rfl, hs⟩
      · exact ⟨Or.inl rfl, fun _ => rfl⟩
      · have e : MulAddOps.add (fin r) (fin s) = ofReal (r + s) := rfl
        have h0 : 0 ≤ r + s := by linarith
        rw [e]
        constructor
        · rcases ofReal_nonneg h0 with h | h
          · exact Or.inl h
          · exact Or.inr ⟨_, h, rne32_nonneg h0⟩
        · rintro ⟨s, t, hm⟩
          rcases List.mem_append.1 hm with hm | hm
          · have := i2 ⟨s, t, hm⟩; cases this
          · have := j2 ⟨s, t, hm⟩; cases this
  | mono _ _ ih => exact ih hl
  | perm _ hp ih =>
    obtain ⟨i1, i2⟩ := ih fun p h => hl p (hp.subset h)
    exact ⟨i1, fun ⟨s, t, h⟩ => i2 ⟨s, t, hp.symm.subset h⟩⟩

/-- After normalisation, a vector with a NaN or infinite component has a NaN component. -/
theorem normalize_nan {x : List F32} (h : nan ∈ x ∨ ∃ s, inf s ∈ x) : nan ∈ normalize x := by
  by_cases hn : nan ∈ x
  · have hd : dotProduct x x = nan := acc_nan (dotProduct_acc x x rfl)
      ⟨nan, by rw [zip_self_map]; exact List.mem_map.2 ⟨nan, hn, rfl⟩⟩
    unfold normalize
    rw [hd]
    have e : FloatOps.gt (FloatOps.sqrt (nan : F32)) (FloatOps.ofInt 0) = false := by rw [ofInt_zero]; rfl
    simp only [e, Bool.false_eq_true, if_false]
    exact hn
  · obtain ⟨s, hs⟩ := h.resolve_left hn
    have hd : dotProduct x x = inf false := by
      refine (acc_square_inf (dotProduct_acc x x rfl) ?_).2 ⟨s, s, ?_⟩
      · intro p hp
        obtain ⟨a, h1, rfl⟩ := zip_self_mem hp
        exact ⟨a, rfl, fun e => hn (e ▸ h1)⟩
      · rw [zip_self_map]; exact List.mem_map.2 ⟨_, hs, rfl⟩
    unfold normalize
    rw [hd]
    have e : FloatOps.gt (FloatOps.sqrt (inf false : F32)) (FloatOps.ofInt 0) = true := by rw [ofInt_zero]; rfl
    simp only [e, if_true]
    exact List.mem_map.2 ⟨_, hs, rfl⟩

theorem angularDist_nan {x y : List F32} (hlen : x.length = y.length) (h : nan ∈ x) : angularDist x y = none := by
  obtain ⟨i, hi, he⟩ := List.mem_iff_getElem.1 h
  have hd : dotProduct x y = nan := acc_nan (dotProduct_acc x y hlen) ⟨y[i], by
    rw [List.mem_iff_getElem]
    exact ⟨i, by rw [List.length_zip]; omega, by simp [he]⟩⟩
  unfold angularDist
  rw [hd, ofInt_one]
  rfl

end Granne
