import Verif.Model.Search
import Verif.Proofs.Heap

namespace Granne
open List

variable {D : Type} [LinearOrder D]

/-- A newly seen node at distance `d` is queued. -/
def Accept (res : MaxSizeHeap (Cand D)) (d : D) : Prop :=
  res.isFull = false ∨ ∃ top, res.peek = some top ∧ d < top.d

/-- Everything a successful scan does. -/
theorem scan_spec (dq : Nat → Option D) (res : MaxSizeHeap (Cand D)) (ns : List Nat) :
    ∀ (pq : List (Cand D)) (vis : List Nat) (pq' : List (Cand D)) (vis' : List Nat),
      pq.Pairwise (· < ·) → (∀ c ∈ pq, c.id ∈ vis) →
      scanNeighbors dq res ns pq vis = some (pq', vis') →
      pq'.Pairwise (· < ·) ∧ (∀ i, i ∈ vis' ↔ i ∈ vis ∨ i ∈ ns) ∧
      (∀ c, c ∈ pq' ↔ c ∈ pq ∨ (c.id ∈ ns ∧ c.id ∉ vis ∧ dq c.id = some c.d ∧ Accept res c.d)) ∧
      (∀ n ∈ ns, n ∉ vis → ∃ d, dq n = some d ∧
        (Accept res d ∨ (res.isFull = true ∧ ∃ top, res.peek = some top ∧ top.d ≤ d))) := by
  induction ns with
  | nil =>
    intro pq vis pq' vis' hs _ h
    simp only [scanNeighbors, Option.some.injEq, Prod.mk.injEq] at h
    obtain ⟨rfl, rfl⟩ := h
    simp [hs]
  | cons n ns ih =>
    intro pq vis pq' vis' hs hv h
    rw [scanNeighbors] at h
    by_cases hn : n ∈ vis
    · rw [if_pos hn] at h
      obtain ⟨h1, h2, h3, h4⟩ := ih pq vis pq' vis' hs hv h
      refine ⟨h1, ?_, ?_, ?_⟩
      · intro i; rw [h2, List.mem_cons]
        constructor
        · rintro (h | h)
          · exact Or.inl h
          · exact Or.inr (Or.inr h)
        · rintro (h | rfl | h)
          · exact Or.inl h
          · exact Or.inl hn
          · exact Or.inr h
      · intro c; rw [h3, List.mem_cons]
        constructor
        · rintro (h | ⟨a, b⟩)
          · exact Or.inl h
          · exact Or.inr ⟨Or.inr a, b⟩
        · rintro (h | ⟨rfl | a, b⟩)
          · exact Or.inl h
          · exact absurd hn b.1
          · exact Or.inr ⟨a, b⟩
      · intro m hm hmv
        rcases List.mem_cons.1 hm with rfl | hm
        · exact absurd hn hmv
        · exact h4 m hm hmv
    · rw [if_neg hn] at h
      cases hd : dq n with
      | none => simp [hd] at h
      | some d =>
        simp only [hd] at h
        have hnpq : (⟨d, n⟩ : Cand D) ∉ pq := fun hc => hn (hv _ hc)
        -- the queue after a push
        have push : Accept res d →
            scanNeighbors dq res ns (heapPush ⟨d, n⟩ pq) (n :: vis) = some (pq', vis') → _ :=
          fun _ hsc => ih (heapPush ⟨d, n⟩ pq) (n :: vis) pq' vis'
            (heapPush_sorted hs hnpq) (by
              intro c hc
              rcases mem_heapPush.1 hc with rfl | hc
              · simp
              · simp [hv c hc]) hsc
        have visEq : ∀ i, (i ∈ n :: vis ∨ i ∈ ns) ↔ (i ∈ vis ∨ i ∈ n :: ns) := by
          intro i; simp only [List.mem_cons]; tauto
        have goalPush : Accept res d →
            scanNeighbors dq res ns (heapPush ⟨d, n⟩ pq) (n :: vis) = some (pq', vis') →
            pq'.Pairwise (· < ·) ∧ (∀ i, i ∈ vis' ↔ i ∈ vis ∨ i ∈ n :: ns) ∧
            (∀ c, c ∈ pq' ↔ c ∈ pq ∨
              (c.id ∈ n :: ns ∧ c.id ∉ vis ∧ dq c.id = some c.d ∧ Accept res c.d)) ∧
            (∀ m ∈ n :: ns, m ∉ vis → ∃ d, dq m = some d ∧
              (Accept res d ∨ (res.isFull = true ∧ ∃ top, res.peek = some top ∧ top.d ≤ d))) := by
          intro ha hsc
          obtain ⟨h1, h2, h3, h4⟩ := push ha hsc
          refine ⟨h1, fun i => (h2 i).trans (visEq i), ?_, ?_⟩
          · intro c
            rw [h3, mem_heapPush]
            constructor
            · rintro ((rfl | h) | ⟨a, b, c', e⟩)
              · exact Or.inr ⟨by simp, hn, hd, ha⟩
              · exact Or.inl h
              · exact Or.inr ⟨by simp [a], fun hb => b (by simp [hb]), c', e⟩
            · rintro (h | ⟨a, b, c', e⟩)
              · exact Or.inl (Or.inr h)
              · by_cases hcn : c.id = n
                · left; left
                  rw [hcn, hd] at c'
                  cases c; simp_all
                · right
                  refine ⟨?_, ?_, c', e⟩
                  · rcases List.mem_cons.1 a with h | h
                    · exact absurd h hcn
                    · exact h
                  · simp [hcn, b]
          · intro m hm hmv
            by_cases hmn : m = n
            · subst hmn; exact ⟨d, hd, Or.inl ha⟩
            · refine h4 m ?_ (by simp [hmn, hmv])
              rcases List.mem_cons.1 hm with h | h
              · exact absurd h hmn
              · exact h
        by_cases hf : res.isFull
        · simp only [hf, Bool.not_true, Bool.false_eq_true, if_false] at h
          rcases Option.eq_none_or_eq_some res.peek with ht | ⟨top, ht⟩
          · simp [ht] at h
          · simp only [ht] at h
            by_cases hlt : d < top.d
            · rw [if_pos hlt] at h
              exact goalPush (Or.inr ⟨top, ht, hlt⟩) h
            · rw [if_neg hlt] at h
              have hna : ¬ Accept res d := by
                rintro (h | ⟨t, h1, h2⟩)
                · simp [hf] at h
                · rw [ht] at h1; cases h1; exact hlt h2
              obtain ⟨h1, h2, h3, h4⟩ := ih pq (n :: vis) pq' vis' hs
                (fun c hc => by simp [hv c hc]) h
              refine ⟨h1, fun i => (h2 i).trans (visEq i), ?_, ?_⟩
              · intro c
                rw [h3]
                constructor
                · rintro (h | ⟨a, b, c', e⟩)
                  · exact Or.inl h
                  · exact Or.inr ⟨by simp [a], fun hb => b (by simp [hb]), c', e⟩
                · rintro (h | ⟨a, b, c', e⟩)
                  · exact Or.inl h
                  · by_cases hcn : c.id = n
                    · rw [hcn, hd] at c'
                      simp only [Option.some.injEq] at c'
                      rw [← c'] at e
                      exact absurd e hna
                    · right
                      refine ⟨?_, ?_, c', e⟩
                      · rcases List.mem_cons.1 a with h | h
                        · exact absurd h hcn
                        · exact h
                      · simp [hcn, b]
              · intro m hm hmv
                by_cases hmn : m = n
                · subst hmn; exact ⟨d, hd, Or.inr ⟨hf, top, ht, not_lt.1 hlt⟩⟩
                · refine h4 m ?_ (by simp [hmn, hmv])
                  rcases List.mem_cons.1 hm with h | h
                  · exact absurd h hmn
                  · exact h
        · simp only [Bool.not_eq_true] at hf
          simp only [hf, Bool.not_false, if_true] at h
          exact goalPush (Or.inl hf) h

/-- A scan panics only because of an id without a distance or an empty full heap. -/
theorem scan_isSome (dq : Nat → Option D) (res : MaxSizeHeap (Cand D)) (ns : List Nat) :
    ∀ (pq : List (Cand D)) (vis : List Nat),
      (∀ n ∈ ns, n ∉ vis → (dq n).isSome ∧ (res.isFull = true → (res.peek).isSome)) →
      ∃ r, scanNeighbors dq res ns pq vis = some r := by
  induction ns with
  | nil => intro pq vis _; exact ⟨_, rfl⟩
  | cons n ns ih =>
    intro pq vis h
    rw [scanNeighbors]
    by_cases hn : n ∈ vis
    · rw [if_pos hn]
      exact ih pq vis fun m hm => h m (by simp [hm])
    · rw [if_neg hn]
      obtain ⟨hd, hp⟩ := h n (by simp) hn
      have hrec : ∀ pq, ∃ r, scanNeighbors dq res ns pq (n :: vis) = some r := fun pq =>
        ih pq (n :: vis) fun m hm hmv => h m (by simp [hm]) (fun hc => hmv (by simp [hc]))
      cases hd' : dq n with
      | none => simp [hd'] at hd
      | some d =>
        simp only
        by_cases hf : res.isFull
        · simp only [hf, Bool.not_true, Bool.false_eq_true, if_false]
          have := hp hf
          cases ht : res.peek with
          | none => simp [ht] at this
          | some top => simp only; split <;> exact hrec _
        · simp only [Bool.not_eq_true] at hf
          simp only [hf, Bool.not_false, if_true]
          exact hrec _

/-- Conversely a successful scan has met only nodes with a distance. -/
theorem scan_none_iff (dq : Nat → Option D) (res : MaxSizeHeap (Cand D)) (ns : List Nat)
    (pq : List (Cand D)) (vis : List Nat) (hs : pq.Pairwise (· < ·)) (hv : ∀ c ∈ pq, c.id ∈ vis) :
    (∃ r, scanNeighbors dq res ns pq vis = some r) ↔
      (∀ n ∈ ns, n ∉ vis → (dq n).isSome ∧ (res.isFull = true → (res.peek).isSome)) := by
  constructor
  · rintro ⟨⟨pq', vis'⟩, h⟩ n hn hnv
    obtain ⟨d, hd, h4⟩ := (scan_spec dq res ns pq vis pq' vis' hs hv h).2.2.2 n hn hnv
    refine ⟨by simp [hd], fun hf => ?_⟩
    rcases h4 with (h | ⟨t, ht, _⟩) | ⟨_, t, ht, _⟩
    · simp [hf] at h
    · simp [ht]
    · simp [ht]
  · exact scan_isSome dq res ns pq vis

end Granne
