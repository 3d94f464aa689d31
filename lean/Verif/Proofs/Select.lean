import Verif.Model.Build

namespace Granne
open List

variable {E D : Type} [LinearOrder D]

theorem allFarther_true {es : Elements E D} {e : E} {d : D} :
    ∀ {l : List (Nat × D)}, allFarther es e d l = some true →
      ∀ p ∈ l, ∃ dn, es.distTo e p.1 = some dn ∧ d ≤ dn := by
  intro l
  induction l with
  | nil => simp
  | cons a t ih =>
    intro h p hp
    obtain ⟨n, x⟩ := a
    rw [allFarther] at h
    cases hd : es.distTo e n with
    | none => simp [hd] at h
    | some dn =>
      simp only [hd] at h
      split at h
      · rename_i hle
        rcases List.mem_cons.1 hp with rfl | hp
        · exact ⟨dn, hd, hle⟩
        · exact ih h p hp
      · simp at h

theorem allFarther_false {es : Elements E D} {e : E} {d : D} :
    ∀ {l : List (Nat × D)}, allFarther es e d l = some false →
      ∃ p ∈ l, ∃ dn, es.distTo e p.1 = some dn ∧ dn < d := by
  intro l
  induction l with
  | nil => simp [allFarther]
  | cons a t ih =>
    intro h
    obtain ⟨n, x⟩ := a
    rw [allFarther] at h
    cases hd : es.distTo e n with
    | none => simp [hd] at h
    | some dn =>
      simp only [hd] at h
      split at h
      · obtain ⟨p, hp, r⟩ := ih h
        exact ⟨p, by simp [hp], r⟩
      · rename_i hle
        exact ⟨(n, x), by simp, dn, hd, lt_of_not_ge hle⟩

theorem allFarther_isSome {es : Elements E D} {e : E} {d : D} :
    ∀ {l : List (Nat × D)}, (∀ p ∈ l, p.1 < es.data.length) → ∃ b, allFarther es e d l = some b := by
  intro l
  induction l with
  | nil => intro _; exact ⟨true, rfl⟩
  | cons a t ih =>
    intro h
    obtain ⟨n, x⟩ := a
    have hn : n < es.data.length := h (n, x) (by simp)
    obtain ⟨b, hb⟩ := ih fun p hp => h p (by simp [hp])
    simp only [allFarther, Elements.distTo, List.getElem?_eq_getElem hn, Option.map_some]
    split
    · exact ⟨b, hb⟩
    · exact ⟨false, rfl⟩

theorem selectLoop_isSome {es : Elements E D} {m : Nat} :
    ∀ (cands acc : List (Nat × D)), (∀ p ∈ cands, p.1 < es.data.length) →
      (∀ p ∈ acc, p.1 < es.data.length) → ∃ r, selectLoop es m cands acc = some r := by
  intro cands
  induction cands with
  | nil => intro acc _ _; exact ⟨acc, rfl⟩
  | cons a t ih =>
    intro acc h1 h2
    obtain ⟨j, d⟩ := a
    rw [selectLoop]
    split
    · exact ⟨_, rfl⟩
    · have hj : j < es.data.length := h1 (j, d) (by simp)
      simp only [List.getElem?_eq_getElem hj]
      obtain ⟨b, hb⟩ := allFarther_isSome (es := es) (e := es.data[j]) (d := d) h2
      simp only [hb]
      have ht : ∀ p ∈ t, p.1 < es.data.length := fun p hp => h1 p (by simp [hp])
      cases b with
      | true =>
        refine ih _ ht ?_
        intro p hp
        rcases List.mem_append.1 hp with hp | hp
        · exact h2 p hp
        · simp at hp; subst hp; exact hj
      | false => exact ih _ ht h2

/-- What the selection loop does, relative to the neighbors `acc` already kept. -/
theorem selectLoop_spec {es : Elements E D} {m : Nat} :
    ∀ (cands acc sel : List (Nat × D)), selectLoop es m cands acc = some sel →
      ∃ added, sel = acc ++ added ∧ added.Sublist cands ∧ (acc.length ≤ m → sel.length ≤ m) ∧
        (∀ a₁ c a₂, added = a₁ ++ c :: a₂ → ∀ p ∈ acc ++ a₁,
          ∃ x, es.dist? p.1 c.1 = some x ∧ c.2 ≤ x) ∧
        (∀ pre c post, cands = pre ++ c :: post →
          ∃ a₁ a₂, added = a₁ ++ a₂ ∧ a₁.Sublist pre ∧
            ((a₂.Sublist post ∧ ((acc ++ a₁).length ≥ m ∨
              ∃ p ∈ acc ++ a₁, ∃ x, es.dist? p.1 c.1 = some x ∧ x < c.2)) ∨
             ∃ a₃, a₂ = c :: a₃ ∧ a₃.Sublist post)) := by
  intro cands
  induction cands with
  | nil =>
    intro acc sel h
    simp only [selectLoop, Option.some.injEq] at h
    subst h
    refine ⟨[], by simp, by simp, fun h => h, by simp, by simp⟩
  | cons a t ih =>
    intro acc sel h
    obtain ⟨j, d⟩ := a
    rw [selectLoop] at h
    split at h
    · rename_i hfull
      simp only [Option.some.injEq] at h
      subst h
      refine ⟨[], by simp, by simp, fun h => h, by simp, ?_⟩
      intro pre c post _
      refine ⟨[], [], rfl, by simp, Or.inl ⟨by simp, Or.inl (by simpa using hfull)⟩⟩
    · rename_i hnf
      cases hj : es.data[j]? with
      | none => simp [hj] at h
      | some e =>
        simp only [hj] at h
        cases hall : allFarther es e d acc with
        | none => simp [hall] at h
        | some b =>
          cases b with
          | true =>
            simp only [hall] at h
            obtain ⟨added, rfl, h2, h3, h4, h5⟩ := ih _ _ h
            refine ⟨(j, d) :: added, by simp, h2.cons_cons _, fun _ => h3 (by simp; omega), ?_, ?_⟩
            · intro a₁ c a₂ heq p hp
              cases a₁ with
              | nil =>
                simp only [List.nil_append, List.cons.injEq] at heq
                obtain ⟨rfl, _⟩ := heq
                rw [List.append_nil] at hp
                obtain ⟨dn, hdn, hle⟩ := allFarther_true hall p hp
                exact ⟨dn, by simp [Elements.dist?, hj, hdn], hle⟩
              | cons a a₁ =>
                simp only [List.cons_append, List.cons.injEq] at heq
                obtain ⟨rfl, rfl⟩ := heq
                exact h4 a₁ c a₂ rfl p (by simpa using hp)
            · intro pre c post heq
              cases pre with
              | nil =>
                simp only [List.nil_append, List.cons.injEq] at heq
                obtain ⟨rfl, rfl⟩ := heq
                exact ⟨[], (j, d) :: added, rfl, by simp, Or.inr ⟨added, rfl, h2⟩⟩
              | cons b pre =>
                simp only [List.cons_append, List.cons.injEq] at heq
                obtain ⟨rfl, rfl⟩ := heq
                obtain ⟨a₁, a₂, rfl, hs, hcase⟩ := h5 pre c post rfl
                refine ⟨(j, d) :: a₁, a₂, by simp, hs.cons_cons _, ?_⟩
                simpa using hcase
          | false =>
            simp only [hall] at h
            obtain ⟨added, rfl, h2, h3, h4, h5⟩ := ih _ _ h
            refine ⟨added, rfl, h2.cons _, h3, h4, ?_⟩
            intro pre c post heq
            cases pre with
            | nil =>
              simp only [List.nil_append, List.cons.injEq] at heq
              obtain ⟨rfl, rfl⟩ := heq
              refine ⟨[], added, rfl, by simp, Or.inl ⟨h2, Or.inr ?_⟩⟩
              obtain ⟨p, hp, dn, hdn, hlt⟩ := allFarther_false hall
              exact ⟨p, by simpa using hp, dn, by simp [Elements.dist?, hj, hdn], hlt⟩
            | cons b pre =>
              simp only [List.cons_append, List.cons.injEq] at heq
              obtain ⟨rfl, rfl⟩ := heq
              obtain ⟨a₁, a₂, rfl, hs, hcase⟩ := h5 pre c post rfl
              exact ⟨a₁, a₂, rfl, hs.cons _, hcase⟩

/-- The first candidate is always kept. -/
theorem selectLoop_head {es : Elements E D} {m : Nat} (hm : 1 ≤ m) (c : Nat × D) (t sel : List (Nat × D))
    (h : selectLoop es m (c :: t) [] = some sel) : ∃ t', sel = c :: t' := by
  obtain ⟨j, d⟩ := c
  rw [selectLoop] at h
  rw [if_neg (by simp; omega)] at h
  cases hj : es.data[j]? with
  | none => simp [hj] at h
  | some e =>
    simp only [hj, allFarther, List.nil_append] at h
    obtain ⟨added, rfl, _⟩ := selectLoop_spec _ _ _ h
    exact ⟨added, rfl⟩

theorem selectNeighbors_isSome {es : Elements E D} {m : Nat} {cands : List (Nat × D)}
    (h : ∀ p ∈ cands, p.1 < es.data.length) (hs : cands.Pairwise fun a b => a.2 ≤ b.2) :
    ∃ r, selectNeighbors es cands m = some r := by
  unfold selectNeighbors
  rw [if_pos hs]
  split
  · exact ⟨_, rfl⟩
  · exact selectLoop_isSome _ _ h (by simp)

theorem selectNeighbors_sublist {es : Elements E D} {m : Nat} {cands sel : List (Nat × D)}
    (h : selectNeighbors es cands m = some sel) : sel.Sublist cands ∧ sel.length ≤ m := by
  unfold selectNeighbors at h
  split at h
  · rename_i hle
    simp only [Option.some.injEq] at h
    subst h
    exact ⟨List.Sublist.refl _, hle⟩
  split at h
  · obtain ⟨added, rfl, h2, h3, _⟩ := selectLoop_spec _ _ _ h
    exact ⟨by simpa using h2, h3 (by simp)⟩
  · cases h

theorem selectNeighbors_ne_nil {es : Elements E D} {m : Nat} (hm : 1 ≤ m) {cands sel : List (Nat × D)}
    (h : selectNeighbors es cands m = some sel) (hne : cands ≠ []) : sel ≠ [] := by
  unfold selectNeighbors at h
  split at h
  · simp only [Option.some.injEq] at h
    rwa [← h]
  split at h
  · cases cands with
    | nil => exact absurd rfl hne
    | cons c t =>
      obtain ⟨t', rfl⟩ := selectLoop_head hm c t sel h
      simp
  · cases h

end Granne
