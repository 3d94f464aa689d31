import Verif.Proofs.VarWidth
import Verif.Proofs.FixedWidth

/-! Files of elements that were cut off. -/
namespace Granne

variable {T O : Type} [Scalar T]

theorem encodeAll_take (l : List T) (m : Nat) : ∃ rest : Bytes,
    (encodeAll l).take m = encodeAll (l.take (m / Scalar.size T)) ++ rest ∧ rest.length < Scalar.size T := by
  have hs := Scalar.size_pos (T := T)
  induction l generalizing m with
  | nil => exact ⟨[], by simp [encodeAll], hs⟩
  | cons x t ih =>
    by_cases hm : m < Scalar.size T
    · refine ⟨(Scalar.enc x).take m, ?_, ?_⟩
      · rw [encodeAll_cons, List.take_append_of_le_length (by rw [Scalar.enc_length]; omega), Nat.div_eq_of_lt hm]
        simp [encodeAll]
      · rw [List.length_take]; omega
    · obtain ⟨rest, h1, h2⟩ := ih (m - Scalar.size T)
      refine ⟨rest, ?_, h2⟩
      have : m / Scalar.size T = (m - Scalar.size T) / Scalar.size T + 1 := by
        conv_lhs => rw [← Nat.sub_add_cancel (Nat.le_of_not_lt hm), Nat.add_div_right _ hs]
      rw [encodeAll_cons, List.take_append, List.take_of_length_le (by rw [Scalar.enc_length]; omega),
        Scalar.enc_length, h1, this, List.take_succ_cons, encodeAll_cons, List.append_assoc]

variable [OffsetInt O]

theorem VarVec.fromBytes_take (v : VarVec T O) (hn : v.len < 2 ^ 64) (ho : v.offsets.length = v.len + 1) (n : Nat) :
    (VarVec.fromBytes (v.bytes.take n) : Option (VarVec T O)) =
      if 8 + Scalar.size O * (v.len + 1) ≤ n then
        some ⟨v.offsets, v.data.take ((n - (8 + Scalar.size O * (v.len + 1))) / Scalar.size T)⟩
      else none := by
  have h8 : (leBytes 8 v.len).length = 8 := by simp
  have hk : (encodeAll v.offsets).length = Scalar.size O * (v.len + 1) := by rw [encodeAll_length, ho, Nat.mul_comm]
  have h1 : (leBytes 8 v.len ++ encodeAll v.offsets).length = 8 + Scalar.size O * (v.len + 1) := by
    rw [List.length_append, h8, hk]
  split
  · next hc =>
    rw [VarVec.bytes, List.take_append, List.take_of_length_le (by omega), h1]
    obtain ⟨rest, e1, e2⟩ := encodeAll_take v.data (n - (8 + Scalar.size O * (v.len + 1)))
    rw [e1, ← List.append_assoc]
    exact VarRepr.fromBytes_bytes_of v.len hn v.offsets ho _ rest e2
  · next hc =>
    rw [VarVec.bytes, List.take_append_of_le_length (by omega), VarVec.fromBytes]
    by_cases hn8 : 8 ≤ n
    · have e1 : (leBytes 8 v.len ++ encodeAll v.offsets).take n = leBytes 8 v.len ++ (encodeAll v.offsets).take (n - 8) := by
        rw [List.take_append, List.take_of_length_le (by omega), h8]
      rw [e1, if_pos (by simp)]
      simp only
      rw [List.take_left' h8, List.drop_left' h8, leNat_leBytes_of_lt (by omega), if_neg]
      rw [List.length_take, hk]
      have : (1 + v.len) * Scalar.size O = Scalar.size O * (v.len + 1) := by rw [Nat.mul_comm, Nat.add_comm]
      omega
    · rw [if_neg]
      rw [List.length_take]; omega

omit [Scalar T] in
theorem VarVec.get_take {v : VarVec T O} {c i : Nat} :
    (∀ l, (⟨v.offsets, v.data.take c⟩ : VarVec T O).get i = some l → v.get i = some l) ∧
    ((∀ o, v.offsets[i + 1]? = some o → OffsetInt.toNat o ≤ c) →
      (⟨v.offsets, v.data.take c⟩ : VarVec T O).get i = v.get i) := by
  have key : ∀ b e : Nat, e ≤ c → VarVec.slice (v.data.take c) b e = VarVec.slice v.data b e := by
    intro b e hec
    unfold VarVec.slice
    by_cases hb : b ≤ e ∧ e ≤ v.data.length
    · rw [if_pos hb, if_pos ⟨hb.1, by rw [List.length_take]; omega⟩, List.drop_take, List.take_take]
      congr 2; omega
    · rw [if_neg hb, if_neg]
      rw [List.length_take]; omega
  constructor
  · intro l hl
    unfold VarVec.get at hl ⊢
    simp only at hl
    split at hl
    · next b e hb he =>
      rw [← key]
      · exact hl
      · unfold VarVec.slice at hl
        split at hl
        · next hc => rw [List.length_take] at hc; omega
        · cases hl
    · cases hl
  · intro h
    unfold VarVec.get
    simp only
    split
    · next b e hb he => exact key _ _ (h e he)
    · rfl

end Granne
