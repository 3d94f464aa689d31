import Verif.Proofs.RwProgress

/-! Every execution of the concurrent builder is finite. -/
namespace Granne
open List Spec

variable {E D : Type} [LinearOrder D] {srt : List (Nat × D) → List (Nat × D)}

/-! ### Lists of which one element gets smaller -/

/-- One element of a list is replaced by a smaller one. -/
def ListStep {α : Type} (r : α → α → Prop) (l' l : List α) : Prop :=
  ∃ (t : Nat) (p p' : α), l[t]? = some p ∧ r p' p ∧ l' = l.set t p'

theorem listStep_acc_cons {α : Type} {r : α → α → Prop} (p : α) (hp : Acc r p) :
    ∀ l, Acc (ListStep r) l → Acc (ListStep r) (p :: l) := by
  induction hp with
  | intro p _ ihp =>
    intro l hl
    induction hl with
    | intro l hl ihl =>
      refine ⟨_, ?_⟩
      rintro m ⟨t, q, q', ht, hq, rfl⟩
      cases t with
      | zero =>
        simp only [List.getElem?_cons_zero, Option.some.injEq] at ht
        subst ht
        simp only [List.set_cons_zero]
        exact ihp q' hq l ⟨_, hl⟩
      | succ t =>
        simp only [List.getElem?_cons_succ] at ht
        simp only [List.set_cons_succ]
        exact ihl _ ⟨t, q, q', ht, hq, rfl⟩

theorem listStep_acc {α : Type} {r : α → α → Prop} (hr : WellFounded r) (l : List α) : Acc (ListStep r) l := by
  induction l with
  | nil => exact ⟨_, by rintro m ⟨t, p, p', h, _⟩; simp at h⟩
  | cons p l ih => exact listStep_acc_cons p (hr.apply p) l ih

/-! ### One thread -/

/-- How far a call is from returning or, with elements left to insert and room for them, from trying to insert them;
`mx` is the capacity, `n` the number of elements. -/
def RwThread.rank (mx n : Nat) : RwThread E D → Nat
  | insCheck f => f.outer + if f.todo = [] then 20 else if n < mx then 18 else 11
  | insWantW f => f.outer + if f.todo = [] then 19 else if n < mx then 17 else 20
  | insWantE f q => f.outer + (if q then 0 else 1) + if f.todo = [] then 16 else if n < mx then 14 else 17
  | insWantL f q => f.outer + (if q then 0 else 1) + if f.todo = [] then 14 else if n < mx then 12 else 15
  | insCrit f => f.outer + if f.todo = [] then 13 else if n < mx then 11 else 14
  | insIndex f _ => f.outer + if f.todo = [] then 12 else if n < mx then 20 else 13
  | insHoldL f => f.outer + if f.todo = [] then 11 else if n < mx then 19 else 12
  | insReturn f => f.outer + 1
  | inserted _ => 0
  | wrWantW q => n + (if q then 8 else 9)
  | wrWantE => n + 7
  | wrWantL => n + 6
  | wrElems => n + 5
  | wrRows _ rows => (n - rows.length) + 4
  | wrDropL _ _ => 3
  | wrDropE _ _ => 2
  | wrDropW _ _ => 1
  | wrote _ _ => 0
  | seWantE _ _ _ => 6
  | seWantL _ _ _ => 5
  | seRun _ _ _ _ => 4
  | seDropL _ _ _ _ => 3
  | seDropE _ _ _ _ => 2
  | found _ _ _ _ => 1
  | loWantE _ => 7
  | loHold _ _ => 6
  | looked _ => 0
  | panicked => 0

/-- The tasks of an insert, or a search, have got further. -/
def RwThread.Further : RwThread E D → RwThread E D → Prop
  | insIndex _ tasks', insIndex _ tasks => ListStep Prog.Next tasks' tasks
  | seRun _ _ _ p', seRun _ _ _ p => Prog.Next p' p
  | _, _ => False

omit [LinearOrder D] in
theorem RwThread.further_acc (th : RwThread E D) : Acc RwThread.Further th := by
  have hnext : WellFounded (Prog.Next (α := Unit)) := ⟨Prog.next_acc⟩
  cases th with
  | insIndex f tasks =>
    have := listStep_acc hnext tasks
    induction this generalizing f with
    | intro tasks _ ih =>
      refine ⟨_, fun th' h => ?_⟩
      cases th' <;> simp only [RwThread.Further] at h
      exact ih _ h _
  | seRun q ms k p =>
    have := Prog.next_acc p
    induction this generalizing q ms k with
    | intro p _ ih =>
      refine ⟨_, fun th' h => ?_⟩
      cases th' <;> simp only [RwThread.Further] at h
      exact ih _ h _ _ _
  | _ => exact ⟨_, fun th' h => by cases th' <;> simp only [RwThread.Further] at h⟩

/-- A thread gets closer to its end. -/
def RwThread.Closer (mx n : Nat) (th' th : RwThread E D) : Prop :=
  th'.rank mx n < th.rank mx n ∨ (th'.rank mx n = th.rank mx n ∧ th'.Further th)

omit [LinearOrder D] in
theorem RwThread.closer_wf (mx n : Nat) : WellFounded (RwThread.Closer (E := E) (D := D) mx n) := by
  have hwf : WellFounded (RwThread.Further (E := E) (D := D)) := ⟨RwThread.further_acc⟩
  have := (WellFounded.prod_lex (Nat.lt_wfRel.wf) hwf)
  refine Subrelation.wf ?_ (InvImage.wf (fun th : RwThread E D => (th.rank mx n, th)) this)
  intro a b h
  rcases h with h | ⟨h1, h2⟩
  · exact Prod.Lex.left _ _ h
  · show Prod.Lex _ _ (a.rank mx n, a) (b.rank mx n, b)
    rw [h1]
    exact Prod.Lex.right _ h2

/-! ### The system -/

/-- The number of elements a call still has to insert. -/
def RwThread.left : RwThread E D → Nat
  | insCheck f | insWantW f | insWantE f _ | insWantL f _ | insCrit f | insIndex f _ | insHoldL f | insReturn f
  | inserted f => f.todo.length
  | _ => 0

/-- All that is left to insert. -/
def Rw.left (s : Rw E D) : Nat := (s.threads.map RwThread.left).sum

theorem sum_set {α : Type} (g : α → Nat) : ∀ (l : List α) (t : Nat) (x y : α), l[t]? = some x →
    ((l.set t y).map g).sum + g x = (l.map g).sum + g y := by
  intro l
  induction l with
  | nil => intro t x y h; simp at h
  | cons a l ih =>
    intro t x y h
    cases t with
    | zero =>
      simp only [List.getElem?_cons_zero, Option.some.injEq] at h
      subst h
      simp only [List.set_cons_zero, List.map_cons, List.sum_cons]
      omega
    | succ t =>
      simp only [List.getElem?_cons_succ] at h
      have := ih t x y h
      simp only [List.set_cons_succ, List.map_cons, List.sum_cons]
      omega

/-- A step leaves less to insert, or adds a layer of those still missing, or brings one call closer to its end. -/
theorem RwSys.closer (hsrt : IsSortByDist srt) {n₀ i₀ : Nat} {s : Rw E D} (h : RwSys n₀ s)
    (hi₀ : ∀ i, i₀ ≤ i → s.data.config.schedule s.data.maxElements i = s.data.maxElements)
    {t : Nat} {th th' : RwThread E D} {d' : RwData E D} (ht : s.threads[t]? = some th)
    (hl : Rw.Local srt s t th d' th') :
    th'.left < th.left ∨
    (th'.left = th.left ∧ i₀ - d'.prev.length < i₀ - s.data.prev.length) ∨
    (th'.left = th.left ∧ d'.prev.length = s.data.prev.length ∧ d'.len = s.data.len ∧
      th'.Closer s.data.maxElements s.data.len th) ∨
    (th'.left = th.left ∧ i₀ ≤ s.data.prev.length ∧ i₀ ≤ d'.prev.length ∧ d'.len = s.data.len ∧
      th'.Closer s.data.maxElements s.data.len th) := by
  have hok := hl.ok hsrt h ht
  have hinv := h.thr t th ht
  cases hl with
  | assertFails => exact hok.thr.elim
  | taskPanics => exact hok.thr.elim
  | wrRowPanics => exact hok.thr.elim
  | seEntryPanics => exact hok.thr.elim
  | sePanics => exact hok.thr.elim
  | full f _ _ hm =>
    refine Or.inr (Or.inr (Or.inl ⟨rfl, rfl, rfl, Or.inl ?_⟩))
    simp only [RwThread.rank, RwData.len]
    rw [if_neg (show ¬ s.data.elements.data.length < s.data.maxElements by omega)]
    split <;> omega
  | room f _ _ hm =>
    refine Or.inr (Or.inr (Or.inl ⟨rfl, rfl, rfl, Or.inl ?_⟩))
    simp only [RwThread.rank, RwData.len]
    rw [if_pos hm, if_pos hm]
    split <;> omega
  | takeW f =>
    refine Or.inr (Or.inr (Or.inl ⟨rfl, rfl, rfl, Or.inl ?_⟩))
    simp only [RwThread.rank]
    simp only [Bool.false_eq_true, if_false]
    split
    · omega
    · split <;> omega
  | queueE f =>
    refine Or.inr (Or.inr (Or.inl ⟨rfl, rfl, rfl, Or.inl ?_⟩))
    simp only [RwThread.rank]
    simp
  | takeE f =>
    refine Or.inr (Or.inr (Or.inl ⟨rfl, rfl, rfl, Or.inl ?_⟩))
    simp only [RwThread.rank, Bool.false_eq_true, if_false, if_true]
    split
    · omega
    · split <;> omega
  | queueL f =>
    refine Or.inr (Or.inr (Or.inl ⟨rfl, rfl, rfl, Or.inl ?_⟩))
    simp only [RwThread.rank]
    simp
  | takeL f =>
    refine Or.inr (Or.inr (Or.inl ⟨rfl, rfl, rfl, Or.inl ?_⟩))
    simp only [RwThread.rank, if_true]
    split
    · omega
    · split <;> omega
  | reserve f hle =>
    obtain ⟨hg, e1, e2, e3⟩ := h.data.grow hinv.2
    set m := min f.todo.length (s.data.grow.current.length - s.data.grow.elements.data.length) with hm
    have hdrop : (s.data.grow.append f.todo).2.2 = f.todo.drop m := rfl
    have hlen : (s.data.grow.append f.todo).1.len = s.data.len + m := by
      simp only [RwData.append, RwData.len, List.length_append, List.length_take, e1]
      rw [e1] at hm
      omega
    have hprev : (s.data.grow.append f.todo).1.prev = s.data.grow.prev := rfl
    rcases Nat.eq_zero_or_pos m with hm0 | hm0
    · have htodo : f.todo.drop m = f.todo := by rw [hm0]; rfl
      have hleft : (RwThread.insIndex (D := D) { f with
            got := f.got ++ (s.data.grow.append f.todo).2.1
            todo := (s.data.grow.append f.todo).2.2 }
          ((s.data.grow.append f.todo).1.tasks srt (s.data.grow.append f.todo).2.1)).left =
          (RwThread.insCrit (D := D) f).left := by
        simp only [RwThread.left, hdrop, htodo]
      have hrank : f.todo = [] ∨ s.data.maxElements ≤ s.data.len →
          (RwThread.insIndex (D := D) { f with
            got := f.got ++ (s.data.grow.append f.todo).2.1
            todo := (s.data.grow.append f.todo).2.2 }
          ((s.data.grow.append f.todo).1.tasks srt (s.data.grow.append f.todo).2.1)).Closer
            s.data.maxElements s.data.len (RwThread.insCrit f) := by
        intro hc
        left
        simp only [RwThread.rank, hdrop, htodo]
        split
        · omega
        · next hne =>
          rcases hc with hc | hc
          · exact absurd hc hne
          · rw [if_neg (by omega), if_neg (by omega)]; omega
      by_cases hgrow : s.data.current.length ≤ s.data.elements.data.length
      · have hp : s.data.grow.prev.length = s.data.prev.length + 1 := by
          unfold RwData.grow
          rw [if_pos hgrow]; simp
        by_cases hi : s.data.prev.length < i₀
        · exact Or.inr (Or.inl ⟨hleft, by rw [hprev, hp]; omega⟩)
        · refine Or.inr (Or.inr (Or.inr ⟨hleft, by omega, by rw [hprev, hp]; omega, by omega, hrank ?_⟩))
          by_cases hne : f.todo = []
          · exact Or.inl hne
          right
          have hcur : s.data.grow.current.length = s.data.maxElements := by
            obtain ⟨_, hnext⟩ := h.data.next hinv.2
            unfold RwData.grow
            rw [if_pos hgrow]
            simp only
            rw [hi₀ _ (by omega)] at hnext ⊢
            rw [resizeRows_grow hnext]
            simp; omega
          have : 0 < f.todo.length := List.length_pos_iff.2 hne
          rw [hcur, e1] at hm
          simp only [RwData.len]
          omega
      · have hp : s.data.grow = s.data := by
          unfold RwData.grow
          rw [if_neg hgrow]
        refine Or.inr (Or.inr (Or.inl ⟨hleft, by rw [hprev, hp], by omega, hrank ?_⟩))
        left
        rw [hp] at hm
        by_contra hne
        have : 0 < f.todo.length := List.length_pos_iff.2 hne
        omega
    · left
      simp only [RwThread.left, hdrop, List.length_drop]
      omega
  | task f tasks i p p' rows' hi hstep =>
    exact Or.inr (Or.inr (Or.inl ⟨rfl, rfl, rfl, Or.inr ⟨rfl, i, p, p', hi, ⟨_, _, hstep⟩, rfl⟩⟩))
  | dropE f tasks _ =>
    refine Or.inr (Or.inr (Or.inl ⟨rfl, rfl, rfl, Or.inl ?_⟩))
    simp only [RwThread.rank]
    split
    · omega
    · split <;> omega
  | rest f hne =>
    refine Or.inr (Or.inr (Or.inl ⟨rfl, rfl, rfl, Or.inl ?_⟩))
    simp only [RwThread.rank]
    rw [if_neg hne, if_neg hne]
    split <;> omega
  | noRest f he =>
    refine Or.inr (Or.inr (Or.inl ⟨rfl, rfl, rfl, Or.inl ?_⟩))
    simp only [RwThread.rank]
    rw [if_pos he]
    omega
  | dropW f k hk =>
    refine Or.inr (Or.inr (Or.inl ⟨rfl, rfl, rfl, Or.inl ?_⟩))
    simp only [RwThread.rank]
    omega
  | wrRow els rows row hlt _ =>
    refine Or.inr (Or.inr (Or.inl ⟨rfl, rfl, rfl, Or.inl ?_⟩))
    simp only [RwThread.rank, List.length_append, List.length_singleton, RwData.len]
    omega
  | wrElements =>
    refine Or.inr (Or.inr (Or.inl ⟨rfl, rfl, rfl, Or.inl ?_⟩))
    simp [RwThread.rank]
  | seStep q ms k p p' rows' hstep =>
    exact Or.inr (Or.inr (Or.inl ⟨rfl, rfl, rfl, Or.inr ⟨rfl, _, _, hstep⟩⟩))
  | _ =>
    refine Or.inr (Or.inr (Or.inl ⟨rfl, rfl, rfl, Or.inl ?_⟩))
    simp only [RwThread.rank]
    first | omega | simp

/-- There is no infinite execution. -/
theorem RwSys.acc (hsrt : IsSortByDist srt) {n₀ : Nat} {s : Rw E D} (h : RwSys n₀ s) :
    Acc (fun s' s : Rw E D => Rw.Step srt s s') s := by
  obtain ⟨i₀, hi₀⟩ := h.data.sched.all s.data.maxElements
  generalize hc : s.data.config = c at hi₀
  generalize hx : s.data.maxElements = mx at hi₀
  -- outer induction: what is left to insert, then the layers still missing
  have key : ∀ (a b : Nat) (s : Rw E D), s.left = a → i₀ - s.data.prev.length = b → s.data.config = c →
      s.data.maxElements = mx → RwSys n₀ s → Acc (fun s' s : Rw E D => Rw.Step srt s s') s := by
    intro a
    induction a using Nat.strong_induction_on with
    | _ a iha =>
    intro b
    induction b using Nat.strong_induction_on with
    | _ b ihb =>
    -- inner induction: the threads
    have inner : ∀ (n : Nat) (l : List (RwThread E D)), Acc (ListStep (RwThread.Closer mx n)) l → ∀ s : Rw E D,
        s.threads = l → s.data.len = n → s.left = a → i₀ - s.data.prev.length = b → s.data.config = c →
        s.data.maxElements = mx → RwSys n₀ s → Acc (fun s' s : Rw E D => Rw.Step srt s s') s := by
      intro n l hl
      induction hl with
      | intro l _ ih =>
        intro s hsl hn ha hb hc hx h
        subst hsl
        refine ⟨_, fun s' hs => ?_⟩
        obtain ⟨hsys', hext⟩ := h.step hsrt hs
        have hc' : s'.data.config = c := hext.config.trans hc
        have hx' : s'.data.maxElements = mx := hext.maxElements.trans hx
        cases hs with
        | mk t th th' d' ht hl =>
          have hsum := sum_set RwThread.left s.threads t th th' ht
          have hcl := h.closer hsrt (i₀ := i₀) (by rw [hc, hx]; exact hi₀) ht hl
          rw [hx, hn] at hcl
          change _ = Rw.left s + _ at hsum
          change Rw.left (⟨d', s.threads.set t th'⟩ : Rw E D) + _ = _ at hsum
          rcases hcl with h1 | ⟨h1, h2⟩ | ⟨h1, h2, h3, h4⟩ | ⟨h1, h2, h3, h4, h5⟩
          · exact iha _ (by omega) _ _ rfl rfl hc' hx' hsys'
          · exact ihb _ (by simp only at *; omega) ⟨d', s.threads.set t th'⟩ (by omega) rfl hc' hx' hsys'
          · exact ih _ ⟨t, th, th', ht, h4, rfl⟩ _ rfl (by simp only [RwData.len] at *; omega) (by omega)
              (by simp only; omega) hc' hx' hsys'
          · exact ih _ ⟨t, th, th', ht, h5, rfl⟩ _ rfl (by simp only [RwData.len] at *; omega) (by omega)
              (by simp only; omega) hc' hx' hsys'
    intro s ha hb hc hx h
    exact inner s.data.len s.threads (listStep_acc (RwThread.closer_wf mx _) _) s rfl rfl ha hb hc hx h
  exact key _ _ s rfl rfl hc hx h

end Granne
