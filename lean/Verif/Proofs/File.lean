import Verif.Model.File
import Mathlib.Data.List.Induction

/-! Effects of writes on a file. -/
namespace Granne

theorem writeAt_nil (f : Bytes) (p : Nat) : writeAt f p [] = f := by simp [writeAt]

theorem writeAt_length {f b : Bytes} {p : Nat} (hb : b ≠ []) : (writeAt f p b).length = max f.length (p + b.length) := by
  unfold writeAt
  rw [if_neg hb]
  simp only [List.length_append, List.length_take, List.length_replicate, List.length_drop]
  omega

theorem writeAt_getElem? {f b : Bytes} {p : Nat} (hb : b ≠ []) (i : Nat) :
    (writeAt f p b)[i]? =
      if i < p then (if i < f.length then f[i]? else some 0)
      else if i < p + b.length then b[i - p]? else f[i]? := by
  unfold writeAt
  rw [if_neg hb]
  by_cases h1 : i < p
  · rw [if_pos h1, List.append_assoc, List.append_assoc]
    by_cases h2 : i < f.length
    · rw [if_pos h2, List.getElem?_append_left (by simp; omega), List.getElem?_take_of_lt h1]
    · rw [if_neg h2, List.getElem?_append_right (by simp; omega), List.getElem?_append_left (by simp; omega),
        List.getElem?_replicate, if_pos (by simp; omega)]
  · rw [if_neg h1]
    have hl : (List.take p f ++ List.replicate (p - f.length) 0).length = p := by simp; omega
    by_cases h2 : i < p + b.length
    · rw [if_pos h2, List.getElem?_append_left (by rw [List.length_append, hl]; omega),
        List.getElem?_append_right (by omega), hl]
    · rw [if_neg h2, List.getElem?_append_right (by rw [List.length_append, hl]; omega), List.getElem?_drop,
        List.length_append, hl]
      congr 1; omega

/-- Writing on from where the last write stopped. -/
theorem writeAt_append (f a b : Bytes) (p : Nat) : writeAt (writeAt f p a) (p + a.length) b = writeAt f p (a ++ b) := by
  by_cases ha : a = []
  · subst ha; simp [writeAt_nil]
  by_cases hb : b = []
  · subst hb; simp [writeAt_nil]
  have hab : a ++ b ≠ [] := by simp [ha]
  apply List.ext_getElem?
  intro i
  have hal := List.length_pos_iff.2 ha
  rw [writeAt_getElem? hb, writeAt_getElem? ha, writeAt_getElem? hab, writeAt_length ha, List.length_append]
  by_cases h1 : i < p
  · rw [if_pos (by omega), if_pos (by omega), if_pos h1, if_pos h1]
  · by_cases h2 : i < p + a.length
    · rw [if_pos h2, if_pos (by omega), if_neg h1, if_pos h2, if_neg h1, if_pos (by omega),
        List.getElem?_append_left (by omega)]
    · rw [if_neg h2, if_neg h1, if_neg h1]
      by_cases h3 : i < p + (a.length + b.length)
      · rw [if_pos (by omega), if_pos h3, List.getElem?_append_right (by omega)]
        congr 1; omega
      · rw [if_neg (by omega), if_neg h3, if_neg h2]

/-- Filling in what is in front of an earlier write. -/
theorem writeAt_backfill (f a b : Bytes) (p : Nat) (hb : b ≠ []) :
    writeAt (writeAt f (p + b.length) a) p b = writeAt f p (b ++ a) := by
  by_cases ha : a = []
  · subst ha; simp [writeAt_nil]
  have hab : b ++ a ≠ [] := by simp [hb]
  apply List.ext_getElem?
  intro i
  have hal := List.length_pos_iff.2 ha
  rw [writeAt_getElem? hb, writeAt_getElem? ha, writeAt_getElem? hab, writeAt_length ha, List.length_append]
  by_cases h1 : i < p
  · rw [if_pos h1, if_pos (by omega), if_pos (by omega), if_pos h1]
  · rw [if_neg h1, if_neg h1]
    by_cases h2 : i < p + b.length
    · rw [if_pos h2, if_pos (by omega), List.getElem?_append_left (by omega)]
    · rw [if_neg h2, if_neg h2]
      by_cases h3 : i < p + b.length + a.length
      · rw [if_pos h3, if_pos (by omega), List.getElem?_append_right (by omega)]
        congr 1; omega
      · rw [if_neg h3, if_neg (by omega)]

/-- Reading back what was written, from its position on. -/
theorem drop_writeAt (f b : Bytes) (p : Nat) : b ≠ [] → (writeAt f p b).drop p = b ++ f.drop (p + b.length) := by
  intro hb
  unfold writeAt
  rw [if_neg hb, List.append_assoc, List.drop_left' (by simp; omega)]

theorem take_writeAt (f b : Bytes) (p : Nat) (hp : p ≤ f.length) : (writeAt f p b).take p = f.take p := by
  by_cases hb : b = []
  · subst hb; simp [writeAt_nil]
  unfold writeAt
  rw [if_neg hb, List.append_assoc, List.append_assoc, List.take_left' (by simp; omega)]

theorem runOps_append (a b : List IoOp) (fp : Bytes × Nat) : runOps (a ++ b) fp = runOps b (runOps a fp) := by
  induction a generalizing fp with
  | nil => rfl
  | cons o t ih => cases o <;> exact ih _

/-- The program `m`, started at position `p`, performs `ops`, ends at `p'` and returns `r` (`none`: panics). -/
def Runs {α : Type} (m : Wr α) (p p' : Nat) (ops : List IoOp) (r : Option α) : Prop :=
  ∀ o, m ⟨p, o⟩ = (⟨p', o ++ ops⟩, r)

namespace Runs
variable {α β : Type} {m : Wr α} {k : α → Wr β} {p p1 p2 : Nat} {ops ops' : List IoOp} {a : α} {r : Option β}

theorem bind (h1 : Runs m p p1 ops (some a)) (h2 : Runs (k a) p1 p2 ops' r) :
    Runs (Wr.bind m k) p p2 (ops ++ ops') r := by
  intro o
  simp only [Wr.bind, h1 o, h2 (o ++ ops), List.append_assoc]

theorem bind_none (h1 : Runs m p p1 ops none) : Runs (Wr.bind m k) p p1 ops (none : Option β) := by
  intro o
  simp only [Wr.bind, h1 o]

theorem pure (a : α) (p : Nat) : Runs (Wr.pure a) p p [] (some a) := by intro o; simp [Wr.pure]
theorem panic (p : Nat) : Runs (Wr.panic : Wr α) p p [] none := by intro o; simp [Wr.panic]
theorem write (b : Bytes) (p : Nat) : Runs (Wr.write b) p (p + b.length) [.write b] (some ()) := fun _ => rfl
theorem seekTo (q p : Nat) : Runs (Wr.seekTo q) p q [.seek q] (some ()) := fun _ => rfl
theorem tell (p : Nat) : Runs Wr.tell p p [.seek p] (some p) := fun _ => rfl
theorem assert {b : Bool} (h : b = true) (p : Nat) : Runs (Wr.assert b) p p [] (some ()) := by
  subst h; exact pure () p
theorem assert_false {b : Bool} (h : b = false) (p : Nat) : Runs (Wr.assert b) p p [] (none : Option Unit) := by
  subst h; exact panic p
theorem ofOption {x : Option α} (h : x = some a) (p : Nat) : Runs (Wr.ofOption x) p p [] (some a) := by
  subst h; exact pure a p
theorem ofOption_none {x : Option α} (h : x = none) (p : Nat) : Runs (Wr.ofOption x) p p [] (none : Option α) := by
  subst h; exact panic p

end Runs

theorem byteEffects_append (a b : List IoOp) (p : Nat) (f : Bytes) :
    byteEffects (a ++ b) p = byteEffects a p ++ byteEffects b (runOps a (f, p)).2 := by
  induction a generalizing p f with
  | nil => rfl
  | cons o t ih =>
    cases o with
    | write c => simp only [List.cons_append, byteEffects, runOps, List.append_assoc]; rw [ih]
    | seek q => simp only [List.cons_append, byteEffects, runOps]; rw [ih]

theorem applyBytes_append (f : Bytes) (a b : List (Nat × UInt8)) :
    applyBytes f (a ++ b) = applyBytes (applyBytes f a) b := by simp [applyBytes]

theorem applyBytes_write (b : Bytes) (f : Bytes) (p : Nat) :
    applyBytes f ((List.range b.length).map fun i => (p + i, b.getD i 0)) = writeAt f p b := by
  induction b using List.reverseRecOn with
  | nil => simp [applyBytes, writeAt_nil]
  | append_singleton t x ih =>
    rw [List.length_append, List.length_singleton, List.range_succ, List.map_append, applyBytes_append]
    have : (List.range t.length).map (fun i => (p + i, (t ++ [x]).getD i 0)) =
        (List.range t.length).map fun i => (p + i, t.getD i 0) := by
      apply List.map_congr_left
      intro i hi
      have := List.mem_range.1 hi
      simp [List.getElem?_append_left this]
    rw [this, ih]
    simp only [List.map_cons, List.map_nil, applyBytes, List.foldl_cons, List.foldl_nil]
    rw [← writeAt_append]
    simp

/-- The single-byte writes have the effect of the operations. -/
theorem applyBytes_byteEffects (ops : List IoOp) (f : Bytes) (p : Nat) :
    applyBytes f (byteEffects ops p) = (runOps ops (f, p)).1 := by
  induction ops generalizing f p with
  | nil => rfl
  | cons o t ih =>
    cases o with
    | write b => rw [byteEffects, applyBytes_append, applyBytes_write, runOps, ih]
    | seek q => rw [byteEffects, runOps, ih]

/-- `m`, started at `p`, writes the bytes `img` from `p` on (in whatever order), stops behind them and returns `a`. -/
def Emits {α : Type} (m : Wr α) (p : Nat) (img : Bytes) (a : α) : Prop :=
  ∃ ops, Runs m p (p + img.length) ops (some a) ∧
    (∀ f, runOps ops (f, p) = (writeAt f p img, p + img.length)) ∧ ∀ e ∈ byteEffects ops p, p ≤ e.1

theorem byteEffects_write_ge (b : Bytes) (p : Nat) :
    ∀ e ∈ (List.range b.length).map (fun i => (p + i, b.getD i 0)), p ≤ e.1 := by
  intro e he
  obtain ⟨i, _, rfl⟩ := List.mem_map.1 he
  exact Nat.le_add_right _ _

end Granne
