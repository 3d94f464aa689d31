import Verif.Model.VarWidth
import Verif.Proofs.Scalar
import Mathlib.Data.List.Basic

namespace Granne
variable {T O : Type} [OffsetInt O]

theorem seqOpt_some {α : Type} {l : List (Option α)} {r : List α} (h : l = r.map some) : seqOpt l = some r := by
  subst h
  induction r with
  | nil => rfl
  | cons a t ih => simp [seqOpt, ih]

theorem seqOpt_none {α : Type} {l : List (Option α)} (h : none ∈ l) : seqOpt l = none := by
  induction l with
  | nil => simp at h
  | cons a t ih =>
    cases a with
    | none => rfl
    | some a =>
      have := ih (by simpa using h)
      simp [seqOpt, this]

/-- Number of values in the first `i` rows. -/
def upto (rows : List (List T)) (i : Nat) : Nat := (rows.take i).flatten.length

theorem upto_mono (rows : List (List T)) {i j : Nat} (h : i ≤ j) : upto rows i ≤ upto rows j := by
  unfold upto
  have e : rows.take j = rows.take i ++ (rows.drop i).take (j - i) := by
    rw [← List.take_add]; congr 1; omega
  rw [e, List.flatten_append, List.length_append]; omega

theorem upto_ge (rows : List (List T)) {i : Nat} (h : rows.length ≤ i) : upto rows i = rows.flatten.length := by
  rw [upto, List.take_of_length_le h]

theorem upto_le (rows : List (List T)) (i : Nat) : upto rows i ≤ rows.flatten.length := by
  rcases Nat.le_total i rows.length with h | h
  · have := upto_mono rows h
    rwa [upto_ge rows (Nat.le_refl _)] at this
  · rw [upto_ge rows h]

/-- `v` stores `rows` one after the other, with the offsets between them. -/
structure VarRepr (v : VarVec T O) (rows : List (List T)) : Prop where
  data : v.data = rows.flatten
  olen : v.offsets.length = rows.length + 1
  offs : ∀ (i : Nat) (o : O), v.offsets[i]? = some o → OffsetInt.toNat o = upto rows i

theorem VarRepr.new : ∃ v : VarVec T O, VarVec.new = some v ∧ VarRepr v ([] : List (List T)) := by
  have h := OffsetInt.ofNat?_isSome (O := O) 0
  simp only [OffsetInt.limit_pos, decide_true] at h
  obtain ⟨z, hz⟩ := Option.isSome_iff_exists.1 h
  refine ⟨⟨[z], []⟩, by rw [VarVec.new, hz], by simp, by simp, ?_⟩
  intro i o ho
  cases i with
  | zero =>
    obtain rfl : z = o := by simpa using ho
    rw [OffsetInt.toNat_ofNat? 0 z hz]; simp [upto]
  | succ i => simp at ho

namespace VarRepr
variable {v w : VarVec T O} {rows rows' : List (List T)}

theorem off (h : VarRepr v rows) {i : Nat} (hi : i ≤ rows.length) :
    ∃ o, v.offsets[i]? = some o ∧ OffsetInt.toNat o = upto rows i := by
  have hlt : i < v.offsets.length := by rw [h.olen]; omega
  exact ⟨_, List.getElem?_eq_getElem hlt, h.offs i _ (List.getElem?_eq_getElem hlt)⟩

theorem len_eq (h : VarRepr v rows) : v.len = rows.length := by rw [VarVec.len, h.olen]; omega

theorem slice_eq (h : VarRepr v rows) {i j : Nat} (hij : i ≤ j) (_ : j ≤ rows.length) :
    VarVec.slice v.data (upto rows i) (upto rows j) = some ((rows.drop i).take (j - i)).flatten := by
  have h1 : upto rows j ≤ v.data.length := by rw [h.data]; exact upto_le rows j
  rw [VarVec.slice, if_pos ⟨upto_mono rows hij, h1⟩]
  congr 1
  have e : rows.take j = rows.take i ++ (rows.drop i).take (j - i) := by
    rw [← List.take_add]; congr 1; omega
  have e2 : rows.flatten = (rows.take i).flatten ++ (((rows.drop i).take (j - i)).flatten ++ (rows.drop j).flatten) := by
    conv_lhs => rw [← List.take_append_drop j rows, e]
    simp
  have e3 : upto rows j - upto rows i = ((rows.drop i).take (j - i)).flatten.length := by
    unfold upto
    rw [e, List.flatten_append, List.length_append]; omega
  rw [h.data, e3, e2, upto, List.drop_left, List.take_left]

theorem get_eq (h : VarRepr v rows) (i : Nat) : v.get i = rows[i]? := by
  unfold VarVec.get
  by_cases hi : i < rows.length
  · obtain ⟨o, ho, ho'⟩ := h.off (i := i) (by omega)
    obtain ⟨o2, ho2, ho2'⟩ := h.off (i := i + 1) (by omega)
    simp only [ho, ho2, ho', ho2', h.slice_eq (Nat.le_succ i) hi, List.getElem?_eq_getElem hi]
    congr 1
    rw [List.drop_eq_getElem_cons hi, Nat.succ_eq_add_one, Nat.add_sub_cancel_left]
    simp only [List.take_succ_cons, List.take_zero, List.flatten_cons, List.flatten_nil, List.append_nil]
  · have : v.offsets[i + 1]? = none := List.getElem?_eq_none (by rw [h.olen]; omega)
    rw [this, List.getElem?_eq_none (Nat.le_of_not_lt hi)]
    split
    · simp_all
    · rfl

theorem ofNat?_eq {n : Nat} (h : n < OffsetInt.limit O) : ∃ o : O, OffsetInt.ofNat? n = some o ∧ OffsetInt.toNat o = n := by
  have h1 := OffsetInt.ofNat?_isSome (O := O) n
  simp only [h, decide_true] at h1
  obtain ⟨z, hz⟩ := Option.isSome_iff_exists.1 h1
  exact ⟨z, hz, OffsetInt.toNat_ofNat? n z hz⟩

theorem ofNat?_none {n : Nat} (h : OffsetInt.limit O ≤ n) : (OffsetInt.ofNat? n : Option O) = none := by
  have h1 := OffsetInt.ofNat?_isSome (O := O) n
  simpa [Nat.not_lt.2 h] using h1

theorem push (h : VarRepr v rows) (x : List T) (hx : rows.flatten.length + x.length < OffsetInt.limit O) :
    ∃ v', v.push x = some v' ∧ VarRepr v' (rows ++ [x]) := by
  obtain ⟨o, ho, ho'⟩ := ofNat?_eq (O := O) hx
  refine ⟨⟨v.offsets ++ [o], v.data ++ x⟩, ?_, by simp [h.data], by simp [h.olen], ?_⟩
  · rw [VarVec.push, h.data, ho]
  · intro i o1 ho1
    have hlt : i < (v.offsets ++ [o]).length := (List.getElem?_eq_some_iff.1 ho1).1
    rw [List.length_append, h.olen] at hlt
    simp only [List.length_singleton] at hlt
    by_cases hi : i < v.offsets.length
    · rw [List.getElem?_append_left hi] at ho1
      rw [h.offs i o1 ho1, upto, upto, List.take_append_of_le_length (by rw [h.olen] at hi; omega)]
    · have hi' : i = v.offsets.length := by rw [h.olen] at hi ⊢; omega
      rw [hi', List.getElem?_append_right (Nat.le_refl _)] at ho1
      simp at ho1
      subst ho1
      rw [ho', upto_ge _ (by rw [hi', h.olen]; simp)]
      simp

theorem push_none (h : VarRepr v rows) (x : List T) (hx : OffsetInt.limit O ≤ rows.flatten.length + x.length) :
    v.push x = none := by
  rw [VarVec.push, h.data, ofNat?_none hx]

theorem pushAll (h : VarRepr v rows) (xs : List (List T)) (hx : (rows ++ xs).flatten.length < OffsetInt.limit O) :
    ∃ v', v.pushAll xs = some v' ∧ VarRepr v' (rows ++ xs) := by
  induction xs generalizing v rows with
  | nil => exact ⟨v, rfl, by simpa using h⟩
  | cons x t ih =>
    obtain ⟨v1, e1, r1⟩ := h.push x (by simp at hx ⊢; omega)
    obtain ⟨v2, e2, r2⟩ := ih r1 (by simpa using hx)
    exact ⟨v2, by rw [VarVec.pushAll, e1]; exact e2, by simpa using r2⟩

theorem pushAll_none (h : VarRepr v rows) (xs : List (List T)) (hr : rows.flatten.length < OffsetInt.limit O)
    (hx : OffsetInt.limit O ≤ (rows ++ xs).flatten.length) : v.pushAll xs = none := by
  induction xs generalizing v rows with
  | nil => simp at hx hr; omega
  | cons x t ih =>
    by_cases hlt : rows.flatten.length + x.length < OffsetInt.limit O
    · obtain ⟨v1, e1, r1⟩ := h.push x hlt
      rw [VarVec.pushAll, e1]
      exact ih r1 (by simpa using hlt) (by simpa using hx)
    · rw [VarVec.pushAll, h.push_none x (by omega)]

theorem getLast (h : VarRepr v rows) : ∃ l, v.offsets.getLast? = some l ∧ OffsetInt.toNat l = rows.flatten.length := by
  obtain ⟨o, ho, ho'⟩ := h.off (Nat.le_refl rows.length)
  refine ⟨o, ?_, by rw [ho', upto_ge _ (Nat.le_refl _)]⟩
  rw [List.getLast?_eq_getElem?, h.olen]
  exact ho

theorem extend (h : VarRepr v rows) (h' : VarRepr w rows')
    (hx : (rows ++ rows').flatten.length < OffsetInt.limit O) :
    ∃ v', v.extend w = some v' ∧ VarRepr v' (rows ++ rows') := by
  obtain ⟨l, hl, hl'⟩ := h.getLast
  -- the new offsets
  have hex : ∀ i : Nat, ∃ o : O, i ≤ rows'.length →
      OffsetInt.ofNat? (rows.flatten.length + upto rows' i) = some o ∧
        OffsetInt.toNat o = rows.flatten.length + upto rows' i := by
    intro i
    have := upto_le rows' i
    obtain ⟨o, h1, h2⟩ := ofNat?_eq (O := O) (n := rows.flatten.length + upto rows' i) (by simp at hx ⊢ this; omega)
    exact ⟨o, fun _ => ⟨h1, h2⟩⟩
  choose f hf using hex
  have hseq : seqOpt ((w.offsets.drop 1).map fun x =>
      (OffsetInt.ofNat? (OffsetInt.toNat l + OffsetInt.toNat x) : Option O)) =
      some ((List.range rows'.length).map fun i => f (i + 1)) := by
    apply seqOpt_some
    apply List.ext_getElem?
    intro i
    simp only [List.getElem?_map, List.getElem?_drop]
    by_cases hi : i < rows'.length
    · obtain ⟨o, ho, ho'⟩ := h'.off (i := i + 1) (by omega)
      rw [Nat.add_comm 1 i, ho, List.getElem?_range hi]
      simp only [Option.map_some]
      rw [hl', ho', (hf (i + 1) (by omega)).1]
    · have e : w.offsets[1 + i]? = none := List.getElem?_eq_none (by rw [h'.olen]; omega)
      rw [e, List.getElem?_eq_none (l := List.range _) (by simp; omega)]
      rfl
  refine ⟨⟨v.offsets ++ (List.range rows'.length).map fun i => f (i + 1), v.data ++ w.data⟩, ?_, ?_, ?_, ?_⟩
  · simp only [VarVec.extend, hl, hseq]
  · simp [h.data, h'.data]
  · simp [h.olen]; omega
  · intro i o ho
    by_cases hi : i < v.offsets.length
    · rw [List.getElem?_append_left hi] at ho
      rw [h.offs i o ho, upto, upto, List.take_append_of_le_length (by rw [h.olen] at hi; omega)]
    · rw [List.getElem?_append_right (by omega), List.getElem?_map] at ho
      obtain ⟨j, hj, hjo⟩ := Option.map_eq_some_iff.1 ho
      have hj' := List.getElem?_eq_some_iff.1 hj
      obtain ⟨hjl, hje⟩ := hj'
      rw [List.getElem_range] at hje
      rw [List.length_range] at hjl
      subst hjo
      rw [(hf (j + 1) (by omega)).2, upto, upto, List.take_append, List.flatten_append, List.length_append]
      have e1 : i - rows.length = j + 1 := by rw [h.olen] at hi hje; omega
      rw [e1, List.take_of_length_le (l := rows) (by rw [h.olen] at hi; omega)]

theorem extend_none (h : VarRepr v rows) (h' : VarRepr w rows') (hne : rows' ≠ [])
    (hx : OffsetInt.limit O ≤ (rows ++ rows').flatten.length) : v.extend w = none := by
  obtain ⟨l, hl, hl'⟩ := h.getLast
  obtain ⟨m, hm, hm'⟩ := h'.off (Nat.le_refl rows'.length)
  have hpos : 0 < rows'.length := List.length_pos_iff.2 hne
  have : seqOpt ((w.offsets.drop 1).map fun x =>
      (OffsetInt.ofNat? (OffsetInt.toNat l + OffsetInt.toNat x) : Option O)) = none := by
    apply seqOpt_none
    rw [List.mem_map]
    refine ⟨m, List.mem_of_getElem? (i := rows'.length - 1) ?_, ?_⟩
    · rw [List.getElem?_drop, show 1 + (rows'.length - 1) = rows'.length by omega]; exact hm
    · rw [hl', hm', upto_ge _ (Nat.le_refl _)]
      exact ofNat?_none (by simpa using hx)
  simp only [VarVec.extend, hl, this]

theorem iter_eq (h : VarRepr v rows) : v.iter = some rows := by
  apply seqOpt_some
  apply List.ext_getElem?
  intro i
  simp only [List.getElem?_map]
  by_cases hi : i < rows.length
  · obtain ⟨o, ho, ho'⟩ := h.off (i := i) (by omega)
    obtain ⟨o2, ho2, ho2'⟩ := h.off (i := i + 1) (by omega)
    have hz : (v.offsets.zip (v.offsets.drop 1))[i]? = some (o, o2) := by
      rw [List.getElem?_zip_eq_some]
      exact ⟨ho, by rw [List.getElem?_drop, Nat.add_comm]; exact ho2⟩
    rw [hz, List.getElem?_eq_getElem hi]
    simp only [Option.map_some, ho', ho2', h.slice_eq (Nat.le_succ i) hi]
    rw [List.drop_eq_getElem_cons hi, Nat.succ_eq_add_one, Nat.add_sub_cancel_left]
    simp only [List.take_succ_cons, List.take_zero, List.flatten_cons, List.flatten_nil, List.append_nil]
  · rw [List.getElem?_eq_none (by simp [h.olen]; omega), List.getElem?_eq_none (by omega)]
    rfl

variable [Scalar T]

theorem fromBytes_bytes_of (n : Nat) (hn : n < 2 ^ 64) (os : List O) (hos : os.length = n + 1) (d : List T) (rest : Bytes)
    (hr : rest.length < Scalar.size T) :
    (VarVec.fromBytes (leBytes 8 n ++ encodeAll os ++ encodeAll d ++ rest) : Option (VarVec T O)) = some ⟨os, d⟩ := by
  have h8 : (leBytes 8 n).length = 8 := by simp
  have hb : leBytes 8 n ++ encodeAll os ++ encodeAll d ++ rest = leBytes 8 n ++ (encodeAll os ++ (encodeAll d ++ rest)) := by
    simp
  have ht : (leBytes 8 n ++ (encodeAll os ++ (encodeAll d ++ rest))).take 8 = leBytes 8 n := by
    rw [List.take_append_of_le_length (by simp), List.take_of_length_le (by simp)]
  have hd : (leBytes 8 n ++ (encodeAll os ++ (encodeAll d ++ rest))).drop 8 = encodeAll os ++ (encodeAll d ++ rest) := by
    rw [List.drop_append_of_le_length (by simp), List.drop_eq_nil_of_le (by simp), List.nil_append]
  have hk : (1 + n) * Scalar.size O = (encodeAll os).length := by
    rw [encodeAll_length, hos, Nat.add_comm]
  rw [hb, VarVec.fromBytes, if_pos (by simp)]
  simp only [ht, hd]
  rw [leNat_leBytes_of_lt (by omega), hk, if_pos (by simp), List.take_left, List.drop_left, loadBytesAs_encodeAll',
    loadBytesAs_encodeAll d rest hr]

theorem fromBytes_bytes (h : VarRepr v rows) (hn : rows.length < 2 ^ 64) : VarVec.fromBytes v.bytes = some v := by
  have := fromBytes_bytes_of v.len (by rw [h.len_eq]; exact hn) v.offsets (by rw [h.olen, h.len_eq]) v.data []
    (Scalar.size_pos (T := T))
  rw [VarVec.bytes]
  simpa using this

theorem writeRange_eq (h : VarRepr v rows) {b e : Nat} (hbe : b ≤ e) (he : e ≤ rows.length) :
    ∃ (w : VarVec T O), VarRepr w ((rows.drop b).take (e - b)) ∧
      v.writeRange b e = some (w.bytes, w.data.length * Scalar.size T) := by
  obtain ⟨ob, hob, hob'⟩ := h.off (i := b) (by omega)
  obtain ⟨oe, hoe, hoe'⟩ := h.off (i := e) he
  set sub := (rows.drop b).take (e - b) with hsub
  have hsl : sub.length = e - b := by rw [hsub, List.length_take, List.length_drop]; omega
  have hup : ∀ i, i ≤ e - b → upto rows (b + i) = upto rows b + upto sub i := by
    intro i hi
    unfold upto
    have e1 : rows.take (b + i) = rows.take b ++ sub.take i := by
      rw [List.take_add, hsub, List.take_take, Nat.min_eq_left hi]
    rw [e1, List.flatten_append, List.length_append]
  have hlim : ∀ i, i ≤ e - b → upto sub i < OffsetInt.limit O := by
    intro i hi
    obtain ⟨o, _, ho'⟩ := h.off (i := b + i) (by omega)
    have := OffsetInt.toNat_lt o
    rw [ho', hup i hi] at this
    omega
  have hex : ∀ i : Nat, ∃ o : O, i ≤ e - b → OffsetInt.ofNat? (upto sub i) = some o ∧ OffsetInt.toNat o = upto sub i := by
    intro i
    by_cases hi : i ≤ e - b
    · obtain ⟨o, h1, h2⟩ := ofNat?_eq (O := O) (hlim i hi)
      exact ⟨o, fun _ => ⟨h1, h2⟩⟩
    · exact ⟨ob, fun hc => absurd hc hi⟩
  choose f hf using hex
  have hseq : seqOpt (((v.offsets.drop b).take (e + 1 - b)).map fun o =>
          if OffsetInt.toNat ob ≤ OffsetInt.toNat o then
            (OffsetInt.ofNat? (OffsetInt.toNat o - OffsetInt.toNat ob) : Option O) else none) =
      some ((List.range (e - b + 1)).map f) := by
    apply seqOpt_some
    apply List.ext_getElem?
    intro i
    simp only [List.getElem?_map, List.getElem?_take, List.getElem?_drop]
    by_cases hi : i < e - b + 1
    · obtain ⟨o, ho, ho'⟩ := h.off (i := b + i) (by omega)
      rw [if_pos (by omega), ho, List.getElem?_range hi]
      simp only [Option.map_some]
      rw [hob', ho', hup i (by omega), if_pos (by omega), Nat.add_sub_cancel_left, (hf i (by omega)).1]
    · rw [if_neg (by omega), List.getElem?_eq_none (l := List.range _) (by simp; omega)]
      rfl
  refine ⟨⟨(List.range (e - b + 1)).map f, sub.flatten⟩, ⟨rfl, by simp [hsl], ?_⟩, ?_⟩
  · intro i o ho
    rw [List.getElem?_map] at ho
    obtain ⟨j, hj, hjo⟩ := Option.map_eq_some_iff.1 ho
    obtain ⟨hjl, hje⟩ := List.getElem?_eq_some_iff.1 hj
    rw [List.getElem_range] at hje
    rw [List.length_range] at hjl
    subst hje hjo
    exact (hf i (by omega)).2
  · have hmono : OffsetInt.toNat ob ≤ OffsetInt.toNat oe := by rw [hob', hoe']; exact upto_mono rows hbe
    rw [VarVec.writeRange, if_pos ⟨hbe, by rw [h.len_eq]; omega, by rw [h.len_eq]; exact he⟩]
    simp only [hob, hoe]
    rw [if_pos hmono, hseq]
    simp only [hob', hoe', h.slice_eq hbe he]
    rw [VarVec.bytes, VarVec.len, ← hsub]
    simp

end VarRepr
end Granne
