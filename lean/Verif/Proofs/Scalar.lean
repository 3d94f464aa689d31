import Verif.Model.Scalar
import Mathlib.Data.List.Basic

namespace Granne
variable {T : Type} [Scalar T]

theorem encodeAll_cons (x : T) (t : List T) : encodeAll (x :: t) = Scalar.enc x ++ encodeAll t := rfl

theorem encodeAll_append (a b : List T) : encodeAll (a ++ b) = encodeAll a ++ encodeAll b := by
  simp [encodeAll]

theorem encodeAll_length (l : List T) : (encodeAll l).length = l.length * Scalar.size T := by
  induction l with
  | nil => simp [encodeAll]
  | cons x t ih => rw [encodeAll_cons, List.length_append, ih, Scalar.enc_length, List.length_cons, Nat.succ_mul]; omega

theorem decodeN_append (l : List T) (b : Bytes) : decodeN l.length (encodeAll l ++ b) = l := by
  induction l with
  | nil => rfl
  | cons x t ih =>
    rw [encodeAll_cons, List.length_cons, decodeN, List.append_assoc]
    rw [List.take_append_of_le_length (by rw [Scalar.enc_length]), List.take_of_length_le (by rw [Scalar.enc_length]),
      List.drop_append_of_le_length (by rw [Scalar.enc_length]),
      List.drop_eq_nil_of_le (by rw [Scalar.enc_length]), Scalar.dec_enc, List.nil_append, ih]

theorem loadBytesAs_encodeAll (l : List T) (b : Bytes) (hb : b.length < Scalar.size T) :
    loadBytesAs T (encodeAll l ++ b) = l := by
  have hpos := Scalar.size_pos (T := T)
  have : (encodeAll l ++ b).length / Scalar.size T = l.length := by
    rw [List.length_append, encodeAll_length, Nat.mul_comm, Nat.mul_add_div hpos, Nat.div_eq_of_lt hb, Nat.add_zero]
  rw [loadBytesAs, this, decodeN_append]

theorem loadBytesAs_encodeAll' (l : List T) : loadBytesAs T (encodeAll l) = l := by
  have := loadBytesAs_encodeAll l [] (Scalar.size_pos (T := T))
  simpa using this

theorem decodeN_length (n : Nat) (b : Bytes) : (decodeN n b : List T).length = n := by
  induction n generalizing b with
  | zero => rfl
  | succ n ih => rw [decodeN, List.length_cons, ih]

theorem loadBytesAs_length (b : Bytes) : (loadBytesAs T b).length = b.length / Scalar.size T := decodeN_length _ _

theorem encodeAll_decodeN (n : Nat) (b : Bytes) (h : b.length = n * Scalar.size T) :
    encodeAll (decodeN n b : List T) = b := by
  induction n generalizing b with
  | zero => obtain rfl : b = [] := by simpa using h
            rfl
  | succ n ih =>
    rw [Nat.succ_mul] at h
    rw [decodeN, encodeAll_cons, ih _ (by rw [List.length_drop]; omega),
      Scalar.enc_dec _ (by rw [List.length_take]; omega), List.take_append_drop]

theorem encodeAll_loadBytesAs (b : Bytes) (h : b.length % Scalar.size T = 0) : encodeAll (loadBytesAs T b) = b := by
  apply encodeAll_decodeN
  have := Nat.div_add_mod b.length (Scalar.size T)
  rw [h, Nat.mul_comm] at this
  omega

end Granne
