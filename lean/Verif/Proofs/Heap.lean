import Verif.Model.Heap

namespace Granne
open List

variable {D : Type} [LinearOrder D]

theorem Cand.lt_iff (a b : Cand D) : a < b ↔ a.d < b.d ∨ (a.d = b.d ∧ a.id < b.id) := by
  have : a < b ↔ toLex (a.d, a.id) < toLex (b.d, b.id) := Iff.rfl
  rw [this, Prod.Lex.toLex_lt_toLex]

theorem Cand.le_iff (a b : Cand D) : a ≤ b ↔ a.d < b.d ∨ (a.d = b.d ∧ a.id ≤ b.id) := by
  have : a ≤ b ↔ toLex (a.d, a.id) ≤ toLex (b.d, b.id) := Iff.rfl
  rw [this, Prod.Lex.toLex_le_toLex]

theorem Cand.d_le {a b : Cand D} (h : a ≤ b) : a.d ≤ b.d := by
  rcases (Cand.le_iff a b).1 h with h | h
  · exact h.le
  · exact h.1.le

variable {T : Type} [LinearOrder T]

@[simp] theorem mem_heapPush {x y : T} {h : List T} : y ∈ heapPush x h ↔ y = x ∨ y ∈ h := by
  simp [heapPush, List.mem_orderedInsert]

@[simp] theorem length_heapPush {x : T} {h : List T} : (heapPush x h).length = h.length + 1 := by
  simp [heapPush, List.orderedInsert_length]

theorem heapPush_sorted {x : T} {h : List T} (hs : h.Pairwise (· < ·)) (hx : x ∉ h) :
    (heapPush x h).Pairwise (· < ·) := by
  induction h with
  | nil => simp [heapPush]
  | cons a t ih =>
    simp only [heapPush, List.orderedInsert_cons]
    rw [List.pairwise_cons] at hs
    have hxa : x ≠ a := fun e => hx (by simp [e])
    have hxt : x ∉ t := fun e => hx (by simp [e])
    split
    · rename_i hle
      have hlt : x < a := lt_of_le_of_ne hle hxa
      refine List.pairwise_cons.2 ⟨?_, List.pairwise_cons.2 hs⟩
      intro b hb
      rcases List.mem_cons.1 hb with rfl | hb
      · exact hlt
      · exact hlt.trans (hs.1 b hb)
    · rename_i hle
      have hlt : a < x := lt_of_not_ge hle
      refine List.pairwise_cons.2 ⟨?_, ih hs.2 hxt⟩
      intro b hb
      rcases (mem_heapPush (x := x)).1 hb with rfl | hb
      · exact hlt
      · exact hs.1 b hb

/-- In an ascending list the last element is the maximum. -/
theorem le_of_getLast? {l : List T} (hs : l.Pairwise (· < ·)) {m : T} (hm : l.getLast? = some m) :
    ∀ x ∈ l, x ≤ m := by
  intro x hx
  obtain ⟨l', rfl⟩ := List.getLast?_eq_some_iff.1 hm
  rcases List.mem_append.1 hx with hx | hx
  · exact ((List.pairwise_append.1 hs).2.2 x hx m (by simp)).le
  · simp at hx; exact hx.le

theorem eq_of_sorted_of_mem_iff {l₁ l₂ : List T} (h₁ : l₁.Pairwise (· < ·)) (h₂ : l₂.Pairwise (· < ·))
    (h : ∀ x, x ∈ l₁ ↔ x ∈ l₂) : l₁ = l₂ := by
  have n₁ : l₁.Nodup := h₁.imp (fun hab => ne_of_lt hab)
  have n₂ : l₂.Nodup := h₂.imp (fun hab => ne_of_lt hab)
  have hp : l₁ ~ l₂ := (List.perm_ext_iff_of_nodup n₁ n₂).2 h
  exact hp.eq_of_pairwise (fun a b _ _ hab hba => absurd (hab.trans hba) (lt_irrefl _)) h₁ h₂

/-- What `MaxSizeHeap.push` does to the set of elements, in one statement. -/
theorem MaxSizeHeap.push_spec {h h' : MaxSizeHeap T} {x : T} {b : Bool}
    (hs : h.heap.Pairwise (· < ·)) (hx : x ∉ h.heap) (hlen : h.heap.length ≤ h.maxSize)
    (hp : h.push x = some (h', b)) :
    h'.maxSize = h.maxSize ∧ h'.heap.Pairwise (· < ·) ∧ h'.heap.length ≤ h.maxSize ∧
    (∀ y ∈ h'.heap, y = x ∨ y ∈ h.heap) ∧
    (∀ y, y = x ∨ y ∈ h.heap → y ∈ h'.heap ∨ (h.maxSize ≤ h'.heap.length ∧ ∀ r ∈ h'.heap, r ≤ y)) ∧
    (h.maxSize ≤ h.heap.length → h.maxSize ≤ h'.heap.length ∧
        ∀ y ∈ h.heap, (∀ z ∈ h.heap, z ≤ y) → ∀ r ∈ h'.heap, r ≤ y) ∧
    0 < h'.heap.length := by
  unfold MaxSizeHeap.push at hp
  by_cases hf : h.isFull
  · have hfull : h.maxSize ≤ h.heap.length := by simpa [MaxSizeHeap.isFull] using hf
    simp only [hf, Bool.not_true, Bool.false_eq_true, if_false] at hp
    cases htop : h.peek with
    | none => simp [htop] at hp
    | some top =>
      have hmax := le_of_getLast? hs (m := top) htop
      obtain ⟨l', hl'⟩ := List.getLast?_eq_some_iff.1 htop
      have htm : top ∈ h.heap := by rw [hl']; simp
      simp only [htop] at hp
      split at hp
      · rename_i hlt
        simp only [Option.some.injEq, Prod.mk.injEq] at hp
        obtain ⟨rfl, _⟩ := hp
        have hdl : h.heap.dropLast = l' := by rw [hl']; simp
        simp only [hdl]
        rw [hl'] at hs hx hlen hfull hmax htm
        have hs' := (List.pairwise_append.1 hs).1
        have hxl : x ∉ l' := fun e => hx (by simp [e])
        have hlast : ∀ a ∈ l', a < top := fun a ha => (List.pairwise_append.1 hs).2.2 a ha top (by simp)
        simp only [List.length_append, List.length_cons, List.length_nil] at hlen hfull
        refine ⟨trivial, heapPush_sorted hs' hxl, by simpa using hlen, ?_, ?_, ?_, by simp⟩
        · intro y hy
          rcases mem_heapPush.1 hy with h1 | h1
          · exact Or.inl h1
          · right; rw [hl']; simp [h1]
        · intro y hy
          rw [hl'] at hy
          rcases hy with rfl | hy
          · left; simp
          · rcases List.mem_append.1 hy with hy | hy
            · left; simp [hy]
            · right
              simp at hy; subst hy
              refine ⟨by simpa using hfull, ?_⟩
              intro r hr
              rcases mem_heapPush.1 hr with rfl | hr
              · exact hlt.le
              · exact (hlast r hr).le
        · intro _
          refine ⟨by simpa using hfull, ?_⟩
          intro y hy hymax r hr
          have : top ≤ y := hymax top (by rw [hl']; simp)
          rcases mem_heapPush.1 hr with rfl | hr
          · exact hlt.le.trans this
          · exact (hlast r hr).le.trans this
      · rename_i hlt
        simp only [Option.some.injEq, Prod.mk.injEq] at hp
        obtain ⟨rfl, _⟩ := hp
        refine ⟨rfl, hs, hlen, fun y hy => Or.inr hy, ?_, ?_, ?_⟩
        · intro y hy
          rcases hy with rfl | hy
          · right; exact ⟨hfull, fun r hr => (hmax r hr).trans (not_lt.1 hlt)⟩
          · left; exact hy
        · intro _; exact ⟨hfull, fun y hy hm r hr => hm r hr⟩
        · rw [hl']; simp
  · have hfull : h.heap.length < h.maxSize := by
      simpa [MaxSizeHeap.isFull] using hf
    simp only [Bool.not_eq_true] at hf
    simp only [hf, Bool.not_false, if_true, Option.some.injEq, Prod.mk.injEq] at hp
    obtain ⟨rfl, _⟩ := hp
    refine ⟨rfl, heapPush_sorted hs hx, by simp; omega, fun y hy => mem_heapPush.1 hy,
      fun y hy => Or.inl (mem_heapPush.2 hy), fun hc => absurd hc (by omega), by simp⟩

/-- `push` does not panic as long as the heap may hold at least one element. -/
theorem MaxSizeHeap.push_isSome {h : MaxSizeHeap T} (hms : 0 < h.maxSize) (x : T) :
    ∃ r, h.push x = some r := by
  unfold MaxSizeHeap.push
  by_cases hf : h.isFull
  · simp only [hf, Bool.not_true, Bool.false_eq_true, if_false]
    have hne : h.heap ≠ [] := by
      intro e
      simp [MaxSizeHeap.isFull, e] at hf
      omega
    have : h.peek = some (h.heap.getLast hne) := by
      simp [MaxSizeHeap.peek, List.getLast?_eq_getLast_of_ne_nil hne]
    simp only [this]
    split <;> exact ⟨_, rfl⟩
  · simp [hf]

omit [LinearOrder T] in
theorem MaxSizeHeap.peek_isSome {h : MaxSizeHeap T} (hms : 0 < h.maxSize) (hf : h.isFull = true) :
    ∃ t, h.peek = some t := by
  have hne : h.heap ≠ [] := by
    intro e
    simp [MaxSizeHeap.isFull, e] at hf
    omega
  exact ⟨_, by simp [MaxSizeHeap.peek, List.getLast?_eq_getLast_of_ne_nil hne]; rfl⟩

end Granne
