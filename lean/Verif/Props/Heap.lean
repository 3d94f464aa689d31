import Verif.Model.Heap
import Mathlib.Data.List.Count
import Mathlib.Order.Nat

/-! C80: the bounded heap in which a search collects its results. -/
namespace Granne
open List

variable {T : Type} [LinearOrder T]

/-- Pushing elements one after the other, and what the pushes return. `none`: one of them panics. -/
def heapPushAll (h : MaxSizeHeap T) : List T → Option (MaxSizeHeap T × List Bool)
  | [] => some (h, [])
  | x :: xs => (h.push x).bind fun (h', b) => (heapPushAll h' xs).map fun (h'', bs) => (h'', b :: bs)

/-- What a heap of size `k` holds after `seen` was pushed: the `k` smallest (all, if there are at most `k`), in ascending order. -/
def HoldsSmallest (k : Nat) (seen : List T) (kept : List T) : Prop :=
  kept.Pairwise (· ≤ ·) ∧ kept.length = min k seen.length ∧
    ∃ rest, (kept ++ rest).Perm seen ∧ ∀ a ∈ kept, ∀ b ∈ rest, a ≤ b

theorem heapPush_perm (x : T) (h : List T) : (heapPush x h).Perm (x :: h) := List.perm_orderedInsert _ x h

theorem heapPush_pairwise {x : T} {h : List T} (hs : h.Pairwise (· ≤ ·)) : (heapPush x h).Pairwise (· ≤ ·) :=
  List.Pairwise.orderedInsert x h hs

theorem push_holds {k : Nat} (hk : 1 ≤ k) {seen : List T} {h : MaxSizeHeap T} (hm : h.maxSize = k)
    (hh : HoldsSmallest k seen h.heap) (x : T) :
    ∃ h', h.push x = some (h', decide (seen.countP (· ≤ x) < k)) ∧ h'.maxSize = k ∧ HoldsSmallest k (seen ++ [x]) h'.heap := by
  obtain ⟨hs, hl, rest, hp, hr⟩ := hh
  have hlen : h.heap.length + rest.length = seen.length := by simpa using hp.length_eq
  have hcount : seen.countP (· ≤ x) = h.heap.countP (· ≤ x) + rest.countP (· ≤ x) := by
    rw [← hp.countP_eq, List.countP_append]
  unfold MaxSizeHeap.push
  by_cases hf : h.maxSize ≤ h.heap.length
  · have hfull : h.isFull = true := by simpa [MaxSizeHeap.isFull] using hf
    have hkl : h.heap.length = k := by omega
    have hne : h.heap ≠ [] := by intro e; rw [e] at hkl; simp at hkl; omega
    obtain ⟨init, top, he⟩ : ∃ init top, h.heap = init ++ [top] :=
      ⟨h.heap.dropLast, h.heap.getLast hne, (List.dropLast_append_getLast hne).symm⟩
    have hpeek : h.peek = some top := by rw [MaxSizeHeap.peek, he]; simp
    have hle : ∀ a ∈ init, a ≤ top := by
      rw [he] at hs
      exact fun a ha => (List.pairwise_append.1 hs).2.2 a ha top (by simp)
    simp only [hfull, Bool.not_true, Bool.false_eq_true, if_false, hpeek]
    by_cases hx : x < top
    · rw [if_pos hx, if_pos hf, he, List.dropLast_concat]
      refine ⟨{ h with heap := heapPush x init }, ?_, hm, ?_⟩
      · have h1 : rest.countP (· ≤ x) = 0 := by
          rw [List.countP_eq_zero]
          intro b hb hb'
          have h2 := hr top (by rw [he]; simp) b hb
          exact absurd (lt_of_le_of_lt (of_decide_eq_true hb') (lt_of_lt_of_le hx h2)) (lt_irrefl _)
        have h3 : h.heap.countP (· ≤ x) ≤ init.length := by
          rw [he, List.countP_append]
          have h4 : [top].countP (· ≤ x) = 0 := by
            rw [List.countP_eq_zero]
            intro b hb hb'
            rw [List.mem_singleton.1 hb] at hb'
            exact absurd (lt_of_le_of_lt (of_decide_eq_true hb') hx) (lt_irrefl _)
          rw [h4]
          exact List.countP_le_length
        have h5 : init.length + 1 = k := by rw [← hkl, he]; simp
        rw [decide_eq_true (by omega)]
      · refine ⟨heapPush_pairwise (by rw [he] at hs; exact (List.pairwise_append.1 hs).1), ?_, top :: rest, ?_, ?_⟩
        · have h5 : init.length + 1 = k := by rw [← hkl, he]; simp
          rw [(heapPush_perm x init).length_eq]
          simp only [List.length_cons, List.length_append, List.length_nil]
          omega
        · refine ((heapPush_perm x init).append_right _).trans ?_
          have h6 : (x :: (h.heap ++ rest)).Perm (seen ++ [x]) := (hp.cons x).trans (List.perm_append_singleton x seen).symm
          rw [he, List.append_assoc] at h6
          exact h6
        · intro a ha b hb
          rcases List.mem_cons.1 ((heapPush_perm x init).subset ha) with rfl | ha
          · rcases List.mem_cons.1 hb with rfl | hb
            · exact hx.le
            · exact hx.le.trans (hr top (by rw [he]; simp) b hb)
          · rcases List.mem_cons.1 hb with rfl | hb
            · exact hle a ha
            · exact hr a (by rw [he]; simp [ha]) b hb
    · rw [if_neg hx]
      refine ⟨h, ?_, hm, hs, ?_, x :: rest, ?_, ?_⟩
      · have h1 : h.heap.countP (· ≤ x) = h.heap.length := by
          rw [List.countP_eq_length]
          intro a ha
          rw [he] at ha
          rcases List.mem_append.1 ha with ha | ha
          · exact decide_eq_true ((hle a ha).trans (not_lt.1 hx))
          · rw [List.mem_singleton.1 ha]; exact decide_eq_true (not_lt.1 hx)
        rw [decide_eq_false (by omega)]
      · simp only [List.length_append, List.length_cons, List.length_nil]
        omega
      · exact List.perm_middle.trans ((hp.cons x).trans (List.perm_append_singleton x seen).symm)
      · intro a ha b hb
        rcases List.mem_cons.1 hb with rfl | hb
        · rw [he] at ha
          rcases List.mem_append.1 ha with ha | ha
          · exact (hle a ha).trans (not_lt.1 hx)
          · rw [List.mem_singleton.1 ha]; exact not_lt.1 hx
        · exact hr a ha b hb
  · have hfull : h.isFull = false := by simpa [MaxSizeHeap.isFull] using hf
    have hrest : rest = [] := List.length_eq_zero_iff.1 (by omega)
    subst hrest
    rw [List.append_nil] at hp
    simp only [hfull, Bool.not_false, if_true]
    refine ⟨{ h with heap := heapPush x h.heap }, ?_, hm, heapPush_pairwise hs, ?_, [], ?_, ?_⟩
    · have h1 := List.countP_le_length (p := fun a => decide (a ≤ x)) (l := seen)
      rw [decide_eq_true (by omega)]
    · rw [(heapPush_perm x h.heap).length_eq]
      simp only [List.length_cons, List.length_append, List.length_nil]
      omega
    · rw [List.append_nil]
      exact (heapPush_perm x h.heap).trans ((hp.cons x).trans (List.perm_append_singleton x seen).symm)
    · intro a _ b hb
      simp at hb

/-- C80. After any pushes into a heap with room for `k` elements (at least one) it holds the `k` smallest of them, with their
multiplicity, and gives them in ascending order. A push returns true, and its element enters the heap, exactly if fewer than `k` of
the elements pushed before are at most as large. -/
theorem C80_keeps_smallest (k : Nat) (hk : 1 ≤ k) (xs : List T) :
    ∃ h flags, heapPushAll (MaxSizeHeap.new T k) xs = some (h, flags) ∧ HoldsSmallest k xs h.intoSortedVec ∧
      flags.length = xs.length ∧
      ∀ (i : Nat) (x : T), xs[i]? = some x → flags[i]? = some (decide ((xs.take i).countP (· ≤ x) < k)) := by
  have key : ∀ (xs seen : List T) (h : MaxSizeHeap T), h.maxSize = k → HoldsSmallest k seen h.heap →
      ∃ h' flags, heapPushAll h xs = some (h', flags) ∧ HoldsSmallest k (seen ++ xs) h'.heap ∧ flags.length = xs.length ∧
        ∀ (i : Nat) (x : T), xs[i]? = some x →
          flags[i]? = some (decide ((seen ++ xs.take i).countP (· ≤ x) < k)) := by
    intro xs
    induction xs with
    | nil => intro seen h _ hh; exact ⟨h, [], rfl, by simpa using hh, rfl, by simp⟩
    | cons x xs ih =>
      intro seen h hm hh
      obtain ⟨h1, e1, m1, k1⟩ := push_holds hk hm hh x
      obtain ⟨h2, flags, e2, k2, l2, f2⟩ := ih (seen ++ [x]) h1 m1 k1
      refine ⟨h2, decide (seen.countP (· ≤ x) < k) :: flags, ?_, by simpa using k2, by simp [l2], ?_⟩
      · rw [heapPushAll, e1, Option.bind_some]
        simp only [e2, Option.map_some]
      · intro i y hi
        cases i with
        | zero =>
          simp only [List.getElem?_cons_zero, Option.some.injEq] at hi
          subst hi
          simp
        | succ i =>
          rw [List.getElem?_cons_succ] at hi ⊢
          rw [f2 i y hi]
          simp [List.take_succ_cons]
  obtain ⟨h, flags, e, hh, hl, hf⟩ := key xs [] (MaxSizeHeap.new T k) rfl
    ⟨List.Pairwise.nil, by simp [MaxSizeHeap.new], [], by simp [MaxSizeHeap.new], by simp⟩
  exact ⟨h, flags, e, by simpa [MaxSizeHeap.intoSortedVec] using hh, hl, by simpa using hf⟩

/-- C80. Whether it is full and what its largest element is: the answers on which a search decides whether to go on. -/
theorem C80_full_and_peek (k : Nat) (hk : 1 ≤ k) (xs : List T) (h : MaxSizeHeap T) (flags : List Bool)
    (hp : heapPushAll (MaxSizeHeap.new T k) xs = some (h, flags)) :
    (h.isFull = true ↔ k ≤ xs.length) ∧ (h.peek = none ↔ xs = []) ∧
      ∀ m, h.peek = some m ↔ m ∈ h.intoSortedVec ∧ ∀ a ∈ h.intoSortedVec, a ≤ m := by
  obtain ⟨h', flags', e, ⟨hs, hl, _, _, _⟩, _, _⟩ := C80_keeps_smallest k hk xs
  obtain ⟨rfl, rfl⟩ := Prod.mk.inj (Option.some.inj (hp.symm.trans e))
  have hmax : h.maxSize = k := by
    have key : ∀ (xs : List T) (h0 h1 : MaxSizeHeap T) (fl : List Bool), heapPushAll h0 xs = some (h1, fl) → h1.maxSize = h0.maxSize := by
      intro xs
      induction xs with
      | nil => intro h0 h1 fl he; cases he; rfl
      | cons x xs ih =>
        intro h0 h1 fl he
        rw [heapPushAll] at he
        cases hpx : h0.push x with
        | none => rw [hpx] at he; cases he
        | some r =>
          obtain ⟨h2, b⟩ := r
          rw [hpx, Option.bind_some] at he
          cases hpa : heapPushAll h2 xs with
          | none => simp [hpa] at he
          | some r =>
            obtain ⟨h3, bs⟩ := r
            simp only [hpa, Option.map_some, Option.some.injEq, Prod.mk.injEq] at he
            rw [← he.1, ih _ _ _ hpa]
            unfold MaxSizeHeap.push at hpx
            split at hpx
            · cases hpx; rfl
            · split at hpx
              · cases hpx
              · split at hpx <;> cases hpx <;> rfl
    exact key _ _ _ _ hp
  unfold MaxSizeHeap.intoSortedVec at *
  refine ⟨?_, ?_, ?_⟩
  · rw [MaxSizeHeap.isFull, decide_eq_true_eq, hmax, hl]
    omega
  · rw [MaxSizeHeap.peek, List.getLast?_eq_none_iff, ← List.length_eq_zero_iff, hl, ← List.length_eq_zero_iff]
    omega
  · intro m
    unfold MaxSizeHeap.peek
    constructor
    · intro he
      obtain ⟨l', hl'⟩ := List.getLast?_eq_some_iff.1 he
      rw [hl'] at hs ⊢
      refine ⟨by simp, fun a ha => ?_⟩
      rcases List.mem_append.1 ha with ha | ha
      · exact (List.pairwise_append.1 hs).2.2 a ha m (by simp)
      · rw [List.mem_singleton.1 ha]
    · rintro ⟨h1, h2⟩
      have hne : h.heap ≠ [] := List.ne_nil_of_mem h1
      rw [List.getLast?_eq_some_getLast hne]
      have h3 := h2 _ (List.getLast_mem hne)
      congr 1
      refine le_antisymm h3 ?_
      have h4 := List.dropLast_append_getLast hne
      rw [← h4] at h1 hs
      rcases List.mem_append.1 h1 with h1 | h1
      · exact (List.pairwise_append.1 hs).2.2 m h1 _ (by simp)
      · rw [List.mem_singleton.1 h1]

/-- C80. A heap without room panics at the first push. -/
theorem C80_no_room (x : T) (xs : List T) : heapPushAll (MaxSizeHeap.new T 0) (x :: xs) = none := rfl

/-- Non-vacuity: five pushes into a heap for two elements. An element equal to the largest one does not enter. -/
example : (heapPushAll (MaxSizeHeap.new Nat 2) [5, 3, 5, 1, 3]).map (fun p => (p.1.intoSortedVec, p.2)) =
    some ([1, 3], [true, true, false, true, false]) := by decide

end Granne
