import Verif.Model.FixedWidth
import Mathlib.Data.List.Basic

namespace Granne
variable {T : Type}

/-- The rows stored one after the other. -/
structure FixRepr (v : FixVec T) (d : Nat) (rows : List (List T)) : Prop where
  pos : 0 < d
  width : v.width = d
  data : v.data = rows.flatten
  len : ∀ r ∈ rows, r.length = d

theorem flatten_length_const {rows : List (List T)} {d : Nat} (h : ∀ r ∈ rows, r.length = d) :
    rows.flatten.length = rows.length * d := by
  induction rows with
  | nil => simp
  | cons a t ih =>
    rw [List.flatten_cons, List.length_append, ih (fun r hr => h r (by simp [hr])), h a (by simp), List.length_cons]
    ring

theorem take_flatten {rows : List (List T)} {d : Nat} (h : ∀ r ∈ rows, r.length = d) (i : Nat) :
    rows.flatten.take (i * d) = (rows.take i).flatten := by
  induction i generalizing rows with
  | zero => simp
  | succ i ih =>
    cases rows with
    | nil => simp
    | cons a t =>
      have ha := h a (by simp)
      rw [List.flatten_cons, List.take_succ_cons, List.flatten_cons, List.take_append, ha, ← ih (fun r hr => h r (by simp [hr]))]
      have e1 : (i + 1) * d - d = i * d := by rw [Nat.add_mul]; omega
      rw [e1, List.take_of_length_le]
      rw [ha, Nat.add_mul]; omega

theorem drop_flatten {rows : List (List T)} {d : Nat} (h : ∀ r ∈ rows, r.length = d) (i : Nat) :
    rows.flatten.drop (i * d) = (rows.drop i).flatten := by
  induction i generalizing rows with
  | zero => simp
  | succ i ih =>
    cases rows with
    | nil => simp
    | cons a t =>
      have ha := h a (by simp)
      rw [List.flatten_cons, List.drop_succ_cons, List.drop_append, ha, ← ih (fun r hr => h r (by simp [hr]))]
      have e1 : (i + 1) * d - d = i * d := by rw [Nat.add_mul]; omega
      rw [e1, List.drop_eq_nil_of_le (by rw [ha, Nat.add_mul]; omega)]
      rfl

/-- Cutting a list into rows of `d` values. -/
def rowsOf (d : Nat) : Nat → List T → List (List T)
  | 0, _ => []
  | n + 1, l => l.take d :: rowsOf d n (l.drop d)

theorem rowsOf_length (d n : Nat) (l : List T) : (rowsOf d n l).length = n := by
  induction n generalizing l with
  | zero => rfl
  | succ n ih => simp [rowsOf, ih]

theorem rowsOf_spec (d n : Nat) (l : List T) (h : l.length = n * d) :
    (rowsOf d n l).flatten = l ∧ ∀ r ∈ rowsOf d n l, r.length = d := by
  induction n generalizing l with
  | zero =>
    obtain rfl : l = [] := by simpa using h
    simp [rowsOf]
  | succ n ih =>
    have hl : (l.drop d).length = n * d := by rw [List.length_drop, h, Nat.add_mul]; omega
    obtain ⟨h1, h2⟩ := ih (l.drop d) hl
    constructor
    · rw [rowsOf, List.flatten_cons, h1, List.take_append_drop]
    · intro r hr
      rw [rowsOf, List.mem_cons] at hr
      rcases hr with rfl | hr
      · rw [List.length_take, h, Nat.add_mul]; omega
      · exact h2 r hr

theorem flatten_inj {d : Nat} (hd : 0 < d) {a b : List (List T)} (ha : ∀ r ∈ a, r.length = d) (hb : ∀ r ∈ b, r.length = d)
    (h : a.flatten = b.flatten) : a = b := by
  have hl : a.length = b.length := by
    have := congrArg List.length h
    rw [flatten_length_const ha, flatten_length_const hb] at this
    exact Nat.eq_of_mul_eq_mul_right hd this
  induction a generalizing b with
  | nil => cases b with
    | nil => rfl
    | cons _ _ => simp at hl
  | cons x t ih => cases b with
    | nil => simp at hl
    | cons y u =>
      rw [List.flatten_cons, List.flatten_cons] at h
      have hx := ha x (by simp)
      have hy := hb y (by simp)
      obtain ⟨h1, h2⟩ := List.append_inj h (by rw [hx, hy])
      rw [h1, ih (fun r hr => ha r (by simp [hr])) (fun r hr => hb r (by simp [hr])) h2 (by simpa using hl)]

namespace FixRepr
variable {v o : FixVec T} {d : Nat} {rows rows' : List (List T)}

theorem length (h : FixRepr v d rows) : v.data.length = rows.length * d := by
  rw [h.data, flatten_length_const h.len]

theorem len_eq (h : FixRepr v d rows) : v.len = rows.length := by
  have := h.pos
  rw [FixVec.len, h.width, if_pos h.pos, h.length, Nat.mul_div_cancel _ h.pos]

theorem get_eq (h : FixRepr v d rows) (i : Nat) : v.get i = rows[i]? := by
  rw [FixVec.get, h.width, h.length]
  by_cases hi : i < rows.length
  · rw [if_pos (Nat.mul_le_mul_right _ hi), h.data, drop_flatten h.len, List.getElem?_eq_getElem hi]
    congr 1
    have hr := h.len _ (List.getElem_mem hi)
    rw [List.drop_eq_getElem_cons hi, List.flatten_cons, List.take_append_of_le_length (by omega),
      List.take_of_length_le (by omega)]
  · have hnot : ¬ (i + 1) * d ≤ rows.length * d := by
      intro hc
      have := Nat.le_of_mul_le_mul_right hc h.pos
      omega
    rw [if_neg hnot, List.getElem?_eq_none (by omega)]

theorem ofData (data : List T) (w : Nat) (hw : 0 < w) (hd : data.length % w = 0) :
    FixRepr ⟨data, w⟩ w (rowsOf w (data.length / w) data) := by
  have hl : data.length = data.length / w * w := by
    have := Nat.div_add_mod data.length w
    rw [hd, Nat.mul_comm] at this
    omega
  obtain ⟨h1, h2⟩ := rowsOf_spec w (data.length / w) data hl
  exact ⟨hw, rfl, h1.symm, h2⟩

theorem push (h : FixRepr v d rows) {x : List T} (hx : x.length = d) :
    ∃ v', v.push x = some v' ∧ FixRepr v' d (rows ++ [x]) := by
  have := h.pos
  refine ⟨⟨v.data ++ x, d⟩, ?_, h.pos, rfl, by simp [h.data], ?_⟩
  · simp only [FixVec.push, h.width, if_neg (Nat.ne_of_gt this)]
    rw [if_pos hx.symm]
  · intro r hr
    rcases List.mem_append.1 hr with hr | hr
    · exact h.len r hr
    · rw [List.mem_singleton.1 hr]; exact hx

theorem push_none (h : FixRepr v d rows) {x : List T} (hx : x.length ≠ d) : v.push x = none := by
  have := h.pos
  simp only [FixVec.push, h.width, if_neg (Nat.ne_of_gt this)]
  rw [if_neg (fun hc => hx hc.symm)]

theorem push_new {x : List T} (hx : 0 < x.length) :
    ∃ v', (FixVec.new : FixVec T).push x = some v' ∧ FixRepr v' x.length [x] := by
  refine ⟨⟨x, x.length⟩, ?_, hx, rfl, by simp, by simp⟩
  simp [FixVec.push, FixVec.new]

theorem pushAll (h : FixRepr v d rows) {xs : List (List T)} (hx : ∀ x ∈ xs, x.length = d) :
    ∃ v', v.pushAll xs = some v' ∧ FixRepr v' d (rows ++ xs) := by
  induction xs generalizing v rows with
  | nil => exact ⟨v, rfl, by simpa using h⟩
  | cons x t ih =>
    obtain ⟨v1, e1, r1⟩ := h.push (hx x (by simp))
    obtain ⟨v2, e2, r2⟩ := ih r1 (fun y hy => hx y (by simp [hy]))
    exact ⟨v2, by rw [FixVec.pushAll, e1]; exact e2, by simpa using r2⟩

theorem pushAll_none (h : FixRepr v d rows) {xs : List (List T)} (hx : ∃ x ∈ xs, x.length ≠ d) :
    v.pushAll xs = none := by
  induction xs generalizing v rows with
  | nil => simp at hx
  | cons x t ih =>
    by_cases hxd : x.length = d
    · obtain ⟨v1, e1, r1⟩ := h.push hxd
      rw [FixVec.pushAll, e1]
      exact ih r1 (by
        obtain ⟨y, hy, hyd⟩ := hx
        rcases List.mem_cons.1 hy with rfl | hy
        · exact absurd hxd hyd
        · exact ⟨y, hy, hyd⟩)
    · rw [FixVec.pushAll, h.push_none hxd]

theorem extend (h : FixRepr v d rows) (h' : FixRepr o d rows') :
    ∃ v', v.extend o = some v' ∧ FixRepr v' d (rows ++ rows') := by
  have := h.pos
  refine ⟨⟨v.data ++ o.data, d⟩, ?_, h.pos, rfl, by simp [h.data, h'.data], ?_⟩
  · simp only [FixVec.extend, h.width, h'.width, ite_self, if_true]
  · intro r hr
    rcases List.mem_append.1 hr with hr | hr
    · exact h.len r hr
    · exact h'.len r hr

theorem extend_none (h : FixRepr v d rows) (ho : o.width ≠ d) : v.extend o = none := by
  have := h.pos
  simp only [FixVec.extend, h.width, if_neg (Nat.ne_of_gt this)]
  rw [if_neg (fun hc => ho hc.symm)]

theorem extend_new (h' : FixRepr o d rows') :
    ∃ v', (FixVec.new : FixVec T).extend o = some v' ∧ FixRepr v' d rows' := by
  refine ⟨⟨o.data, d⟩, ?_, h'.pos, rfl, h'.data, h'.len⟩
  simp [FixVec.extend, FixVec.new, h'.width]

theorem subslice (h : FixRepr v d rows) {b e : Nat} (hbe : b ≤ e) (he : e ≤ rows.length) :
    ∃ v', v.subslice b e = some v' ∧ FixRepr v' d ((rows.drop b).take (e - b)) := by
  have hl : ∀ r ∈ rows.drop b, r.length = d := fun r hr => h.len r (List.mem_of_mem_drop hr)
  have hl' : ∀ r ∈ (rows.drop b).take (e - b), r.length = d := fun r hr => hl r (List.mem_of_mem_take hr)
  have hdata : (v.data.drop (b * d)).take (e * d - b * d) = ((rows.drop b).take (e - b)).flatten := by
    rw [h.data, drop_flatten h.len, ← Nat.sub_mul, take_flatten hl]
  refine ⟨⟨((rows.drop b).take (e - b)).flatten, d⟩, ?_, h.pos, rfl, rfl, hl'⟩
  have hm : ((rows.drop b).take (e - b)).flatten.length % d = 0 := by rw [flatten_length_const hl', Nat.mul_mod_left]
  rw [FixVec.subslice, h.width, if_pos ⟨Nat.mul_le_mul_right _ hbe, by rw [h.length]; exact Nat.mul_le_mul_right _ he⟩,
    hdata, FixVec.withData, if_pos ⟨h.pos, hm⟩]

theorem resize (h : FixRepr v d rows) (n : Nat) (x : T) :
    FixRepr (v.resize n x) d (rows.take n ++ List.replicate (n - rows.length) (List.replicate d x)) := by
  refine ⟨h.pos, h.width, ?_, ?_⟩
  · rw [FixVec.resize, h.width, h.length]
    rw [h.data, take_flatten h.len, List.flatten_append, List.flatten_replicate_replicate, Nat.sub_mul]
  · intro r hr
    rcases List.mem_append.1 hr with hr | hr
    · exact h.len r (List.mem_of_mem_take hr)
    · rw [List.eq_of_mem_replicate hr]; simp

theorem patch_rows (h : FixRepr v d rows) {i : Nat} (hi : i < rows.length) {row : List T} (hr : row.length = d) :
    FixRepr ⟨patch v.data (i * d) row, d⟩ d (rows.set i row) := by
  refine ⟨h.pos, rfl, ?_, ?_⟩
  · have e : i * d + row.length = (i + 1) * d := by rw [hr, Nat.add_mul]; omega
    simp only [patch]
    rw [e, h.data, take_flatten h.len, drop_flatten h.len, List.set_eq_take_append_cons_drop, if_pos hi]
    simp
  · intro r hr'
    rcases List.mem_or_eq_of_mem_set hr' with h1 | rfl
    · exact h.len r h1
    · exact hr

theorem setRow (h : FixRepr v d rows) {i : Nat} (hi : i < rows.length) {row : List T} (hr : row.length = d) :
    ∃ v', v.setRow i row = some v' ∧ FixRepr v' d (rows.set i row) := by
  refine ⟨_, ?_, h.patch_rows hi hr⟩
  have hb : i * d + d ≤ v.data.length := by
    rw [h.length, ← Nat.succ_mul]
    exact Nat.mul_le_mul_right _ hi
  rw [FixVec.setRow, h.width, if_pos ⟨hb, hr⟩]

theorem copyRow (h : FixRepr v d rows) {dst src : Nat} (hd : dst < rows.length) (hs : src < rows.length)
    (hne : dst ≠ src) :
    ∃ v', v.copyRow dst src = some v' ∧ FixRepr v' d (rows.set dst rows[src]) := by
  have hrow : (v.data.drop (src * d)).take d = rows[src] := by
    have := h.get_eq src
    rw [FixVec.get, h.width, h.length, if_pos (Nat.mul_le_mul_right _ hs), List.getElem?_eq_getElem hs] at this
    exact Option.some.inj this
  refine ⟨_, ?_, h.patch_rows hd (h.len _ (List.getElem_mem hs))⟩
  rw [FixVec.copyRow, if_neg hne, h.width, hrow, if_pos]
  have hm : max dst src < rows.length := by omega
  have := Nat.mul_le_mul_right d (Nat.succ_le_of_lt hm)
  rw [Nat.succ_mul, ← h.length] at this
  omega

theorem data_eq (h : FixRepr v d rows) : v = ⟨rows.flatten, d⟩ := by
  have h1 := h.data
  have h2 := h.width
  cases v
  simp only at h1 h2
  rw [h1, h2]

end FixRepr
end Granne
