import Verif.Model.Build
import Mathlib.Order.WellFounded

/-! A rely/guarantee logic for `Prog`, and its soundness for all interleavings. -/
namespace Granne
open List

/-- `p` started in a state that evolved from `R` under interference `Rely` never panics, keeps `Inv`, does
only steps allowed by `Guar`, and ends in a state satisfying `Q`. -/
def Prog.Safe {α : Type} (Inv : Rows → Prop) (Rely Guar : Rows → Rows → Prop) (Q : Rows → α → Prop) :
    Prog α → Rows → Prop
  | .ret a, R => ∀ R', Rely R R' → Inv R' → Q R' a
  | .fail, _ => False
  | .nbrs i k, R => ∀ R', Rely R R' → Inv R' →
      ∃ row, R'[i]? = some row ∧ (k (visible row)).Safe Inv Rely Guar Q R'
  | .unused i k, R => ∀ R', Rely R R' → Inv R' →
      ∃ x row, R'[i]? = some (x :: row) ∧ (k (x == UNUSED)).Safe Inv Rely Guar Q R'
  | .upd i f k, R => ∀ R', Rely R R' → Inv R' →
      ∃ row row', R'[i]? = some row ∧ f row = some row' ∧ Inv (R'.set i row') ∧
        Guar R' (R'.set i row') ∧ k.Safe Inv Rely Guar Q (R'.set i row')

variable {α β : Type} {Inv : Rows → Prop} {Rely Guar : Rows → Rows → Prop}

theorem Prog.Safe.mono (htrans : ∀ a b c, Rely a b → Rely b c → Rely a c) {Q : Rows → α → Prop} :
    ∀ {p : Prog α} {R R' : Rows}, p.Safe Inv Rely Guar Q R → Rely R R' → p.Safe Inv Rely Guar Q R' := by
  intro p
  cases p with
  | ret a => intro R R' h hr R'' hr'; exact h R'' (htrans _ _ _ hr hr')
  | fail => intro R R' h; exact h.elim
  | nbrs i k => intro R R' h hr R'' hr'; exact h R'' (htrans _ _ _ hr hr')
  | unused i k => intro R R' h hr R'' hr'; exact h R'' (htrans _ _ _ hr hr')
  | upd i f k => intro R R' h hr R'' hr'; exact h R'' (htrans _ _ _ hr hr')

theorem Prog.Safe.bind (hrefl : ∀ a, Rely a a)
    {Q : Rows → α → Prop} {Q' : Rows → β → Prop} {f : α → Prog β} :
    ∀ {p : Prog α} {R : Rows}, p.Safe Inv Rely Guar Q R → Inv R →
      (∀ R a, Inv R → Q R a → (f a).Safe Inv Rely Guar Q' R) →
      (p.bind f).Safe Inv Rely Guar Q' R := by
  intro p
  induction p with
  | ret a =>
    intro R h hinv hf
    exact hf R a hinv (h R (hrefl R) hinv)
  | fail => intro R h; exact h.elim
  | nbrs i k ih =>
    intro R h hinv hf R' hr hi
    obtain ⟨row, h1, h2⟩ := h R' hr hi
    exact ⟨row, h1, ih _ h2 hi hf⟩
  | unused i k ih =>
    intro R h hinv hf R' hr hi
    obtain ⟨x, row, h1, h2⟩ := h R' hr hi
    exact ⟨x, row, h1, ih _ h2 hi hf⟩
  | upd i g k ih =>
    intro R h hinv hf R' hr hi
    obtain ⟨row, row', h1, h2, h3, h4, h5⟩ := h R' hr hi
    exact ⟨row, row', h1, h2, h3, h4, ih h5 h3 hf⟩

theorem Prog.Safe.weaken {Q Q' : Rows → α → Prop} (hq : ∀ R a, Q R a → Q' R a) :
    ∀ {p : Prog α} {R : Rows}, p.Safe Inv Rely Guar Q R → p.Safe Inv Rely Guar Q' R := by
  intro p
  induction p with
  | ret a => intro R h R' hr hi; exact hq _ _ (h R' hr hi)
  | fail => intro R h; exact h
  | nbrs i k ih =>
    intro R h R' hr hi
    obtain ⟨row, h1, h2⟩ := h R' hr hi
    exact ⟨row, h1, ih _ h2⟩
  | unused i k ih =>
    intro R h R' hr hi
    obtain ⟨x, row, h1, h2⟩ := h R' hr hi
    exact ⟨x, row, h1, ih _ h2⟩
  | upd i g k ih =>
    intro R h R' hr hi
    obtain ⟨row, row', h1, h2, h3, h4, h5⟩ := h R' hr hi
    exact ⟨row, row', h1, h2, h3, h4, ih h5⟩

/-! ### Soundness -/

/-- One step of a safe thread from an `Inv` state. -/
theorem Prog.Safe.step (hrefl : ∀ a, Rely a a) (hgrefl : ∀ a, Guar a a) {Q : Rows → α → Prop}
    {p p' : Prog α} {R R' : Rows}
    (h : p.Safe Inv Rely Guar Q R) (hinv : Inv R) (hs : p.step R = some (R', p')) :
    Inv R' ∧ Guar R R' ∧ p'.Safe Inv Rely Guar Q R' := by
  cases p with
  | ret a => simp [Prog.step] at hs
  | fail => exact h.elim
  | nbrs i k =>
    obtain ⟨row, h1, h2⟩ := h R (hrefl R) hinv
    simp only [Prog.step, h1, Option.some.injEq, Prod.mk.injEq] at hs
    obtain ⟨rfl, rfl⟩ := hs
    exact ⟨hinv, hgrefl _, h2⟩
  | unused i k =>
    obtain ⟨x, row, h1, h2⟩ := h R (hrefl R) hinv
    simp only [Prog.step, h1, Option.some.injEq, Prod.mk.injEq] at hs
    obtain ⟨rfl, rfl⟩ := hs
    exact ⟨hinv, hgrefl _, h2⟩
  | upd i f k =>
    obtain ⟨row, row', h1, h2, h3, h4, h5⟩ := h R (hrefl R) hinv
    simp only [Prog.step, h1, h2, Option.some.injEq, Prod.mk.injEq] at hs
    obtain ⟨rfl, rfl⟩ := hs
    exact ⟨h3, h4, h5⟩

/-- A system of safe threads: thread `t` works for the element `own t`; its steps are allowed
interference for all threads working for other elements. -/
structure ParSafe (Inv : Rows → Prop) (Rely : Nat → Rows → Rows → Prop) (own : Nat → Nat) (s : Par) :
    Prop where
  inv : Inv s.rows
  threads : ∀ (t : Nat) (p : Prog Unit), s.threads[t]? = some p →
    p.Safe Inv (Rely (own t)) (fun a b => ∀ j, j ≠ own t → Rely j a b) (fun _ _ => True) s.rows

theorem ParSafe.step {Rely : Nat → Rows → Rows → Prop} {own : Nat → Nat}
    (hrefl : ∀ i a, Rely i a a) (htrans : ∀ i a b c, Rely i a b → Rely i b c → Rely i a c)
    {s s' : Par} (hinj : ∀ t t', t < s.threads.length → t' < s.threads.length → own t = own t' → t = t')
    (h : ParSafe Inv Rely own s) (hs : Par.Step s s') : ParSafe Inv Rely own s' := by
  cases hs with
  | mk t p p' rows' ht hstep =>
    have hp := h.threads t p ht
    obtain ⟨h1, h2, h3⟩ := hp.step (hrefl _) (fun a j _ => hrefl j a) h.inv hstep
    refine ⟨h1, ?_⟩
    intro t' q hq
    simp only at hq ⊢
    have htl : t < s.threads.length := (List.getElem?_eq_some_iff.1 ht).1
    by_cases he : t = t'
    · subst he
      rw [List.getElem?_set_self htl] at hq
      simp only [Option.some.injEq] at hq
      subst hq
      exact h3
    · rw [List.getElem?_set_ne he] at hq
      have htl' : t' < s.threads.length := (List.getElem?_eq_some_iff.1 hq).1
      exact (h.threads t' q hq).mono (htrans _) (h2 _ fun e => he (hinj _ _ htl htl' e.symm))

theorem Par.Step.length {s s' : Par} (h : Par.Step s s') : s'.threads.length = s.threads.length := by
  cases h; simp

theorem Par.Steps.length {s s' : Par} (h : Par.Steps s s') : s'.threads.length = s.threads.length := by
  induction h with
  | refl => rfl
  | tail _ hs ih => rw [hs.length, ih]

theorem ParSafe.steps {Rely : Nat → Rows → Rows → Prop} {own : Nat → Nat}
    (hrefl : ∀ i a, Rely i a a) (htrans : ∀ i a b c, Rely i a b → Rely i b c → Rely i a c)
    {s s' : Par} (hinj : ∀ t t', t < s.threads.length → t' < s.threads.length → own t = own t' → t = t')
    (h : ParSafe Inv Rely own s) (hs : Par.Steps s s') : ParSafe Inv Rely own s' := by
  induction hs with
  | refl => exact h
  | tail h1 h2 ih => exact ih.step hrefl htrans (by rw [h1.length]; exact hinj) h2

/-- No reachable state has a panicked task. -/
theorem ParSafe.not_panicked {Rely : Nat → Rows → Rows → Prop} {own : Nat → Nat} {s : Par}
    (h : ParSafe Inv Rely own s) : ¬ s.Panicked := by
  rintro ⟨p, hp, rfl⟩
  obtain ⟨t, ht, he⟩ := List.getElem_of_mem hp
  exact h.threads t Prog.fail (by rw [List.getElem?_eq_getElem ht, he])

/-- Every state without a panicked task is finished or can take a step (no deadlock). -/
theorem Par.progress {s : Par} (h : ¬ s.Panicked) : s.Done ∨ ∃ s', Par.Step s s' := by
  by_cases hd : s.Done
  · exact Or.inl hd
  · right
    simp only [Par.Done, not_forall] at hd
    obtain ⟨p, hp, hne⟩ := hd
    obtain ⟨t, ht, he⟩ := List.getElem_of_mem hp
    have ht' : s.threads[t]? = some p := by rw [List.getElem?_eq_getElem ht, he]
    cases p with
    | ret a => exact absurd rfl hne
    | fail => exact absurd ⟨_, hp, rfl⟩ h
    | nbrs i k => exact ⟨_, .mk s t _ _ _ ht' rfl⟩
    | unused i k => exact ⟨_, .mk s t _ _ _ ht' rfl⟩
    | upd i f k =>
      have : ∃ r, (Prog.upd i f k).step s.rows = some r := by
        simp only [Prog.step]
        split
        · exact ⟨_, rfl⟩
        · split <;> exact ⟨_, rfl⟩
      obtain ⟨⟨r, p'⟩, hr⟩ := this
      exact ⟨_, .mk s t _ _ _ ht' hr⟩

/-! ### Every schedule is finite -/

/-- `p'` is what remains of `p` after one step, for some contents of the rows. -/
def Prog.Next {α : Type} (p' p : Prog α) : Prop := ∃ R R', p.step R = some (R', p')

theorem Prog.next_acc {α : Type} (p : Prog α) : Acc Prog.Next p := by
  have hfail : Acc Prog.Next (Prog.fail : Prog α) :=
    ⟨_, by rintro q ⟨R, R', h⟩; simp [Prog.step] at h⟩
  induction p with
  | ret a => exact ⟨_, by rintro q ⟨R, R', h⟩; simp [Prog.step] at h⟩
  | fail => exact hfail
  | nbrs i k ih =>
    refine ⟨_, ?_⟩
    rintro q ⟨R, R', h⟩
    simp only [Prog.step, Option.some.injEq, Prod.mk.injEq] at h
    obtain ⟨_, rfl⟩ := h
    split
    · exact ih _
    · exact hfail
  | unused i k ih =>
    refine ⟨_, ?_⟩
    rintro q ⟨R, R', h⟩
    simp only [Prog.step, Option.some.injEq, Prod.mk.injEq] at h
    obtain ⟨_, rfl⟩ := h
    split
    · exact ih _
    · exact hfail
  | upd i f k ih =>
    refine ⟨_, ?_⟩
    rintro q ⟨R, R', h⟩
    simp only [Prog.step] at h
    split at h
    · simp only [Option.some.injEq, Prod.mk.injEq] at h
      rw [← h.2]; exact hfail
    · split at h
      · simp only [Option.some.injEq, Prod.mk.injEq] at h
        rw [← h.2]; exact hfail
      · simp only [Option.some.injEq, Prod.mk.injEq] at h
        rw [← h.2]; exact ih

/-- One component of a list of programs takes a step. -/
def NextList (l' l : List (Prog Unit)) : Prop :=
  ∃ t p p', l[t]? = some p ∧ Prog.Next p' p ∧ l' = l.set t p'

theorem nextList_acc_cons (p : Prog Unit) (hp : Acc Prog.Next p) :
    ∀ l, Acc NextList l → Acc NextList (p :: l) := by
  induction hp with
  | intro p _ ihp =>
    intro l hl
    induction hl with
    | intro l hl ihl =>
      refine ⟨_, ?_⟩
      rintro m ⟨t, q, q', ht, hq, rfl⟩
      cases t with
      | zero =>
        simp only [List.getElem?_cons_zero, Option.some.injEq] at ht
        subst ht
        simp only [List.set_cons_zero]
        exact ihp q' hq l ⟨_, hl⟩
      | succ t =>
        simp only [List.getElem?_cons_succ] at ht
        simp only [List.set_cons_succ]
        exact ihl _ ⟨t, q, q', ht, hq, rfl⟩

theorem nextList_acc (l : List (Prog Unit)) : Acc NextList l := by
  induction l with
  | nil => exact ⟨_, by rintro m ⟨t, p, p', h, _⟩; simp at h⟩
  | cons p l ih => exact nextList_acc_cons p (Prog.next_acc p) l ih

/-- The step relation is well-founded: there is no infinite schedule. -/
theorem Par.step_wellFounded : WellFounded (fun s' s : Par => Par.Step s s') := by
  refine ⟨fun s => ?_⟩
  have : ∀ l, Acc NextList l → ∀ s : Par, s.threads = l → Acc (fun s' s : Par => Par.Step s s') s := by
    intro l hl
    induction hl with
    | intro l _ ih =>
      rintro s rfl
      refine ⟨_, ?_⟩
      intro s' hs
      cases hs with
      | mk t p p' rows' ht hstep =>
        exact ih _ ⟨t, p, p', ht, ⟨_, _, hstep⟩, rfl⟩ _ rfl
  exact this _ (nextList_acc _) s rfl

end Granne
