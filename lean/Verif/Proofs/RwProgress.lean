import Verif.Proofs.RwTrace

/-! Deadlocks and termination of the concurrent builder. -/
namespace Granne
open List Spec

variable {E D : Type} [LinearOrder D] {srt : List (Nat × D) → List (Nat × D)}

/-- Thread `t` cannot take a step. -/
def Rw.Blocked (srt : List (Nat × D) → List (Nat × D)) (s : Rw E D) (t : Nat) : Prop :=
  ∀ th d' th', s.threads[t]? = some th → ¬ Rw.Local srt s t th d' th'

theorem Prog.stuck {α : Type} (p : Prog α) (R : Rows) : (∃ a, p = .ret a) ∨ p = .fail ∨ ∃ x, p.step R = some x := by
  cases p with
  | ret a => exact Or.inl ⟨a, rfl⟩
  | fail => exact Or.inr (Or.inl rfl)
  | nbrs i k => exact Or.inr (Or.inr ⟨_, rfl⟩)
  | unused i k => exact Or.inr (Or.inr ⟨_, rfl⟩)
  | upd i f k =>
    refine Or.inr (Or.inr ?_)
    simp only [Prog.step]
    split
    · exact ⟨_, rfl⟩
    · split <;> exact ⟨_, rfl⟩

/-- The states in which a thread may have to wait. -/
def RwThread.waits : RwThread E D → Prop
  | insCheck _ | insWantW _ | wrWantE | wrWantL | seWantE _ _ _ | seWantL _ _ _ | loWantE _ => True
  | insWantE _ q | insWantL _ q | wrWantW q => q = true
  | loHold next _ => next ≠ none
  | _ => False

/-- A thread that cannot take a step has finished or waits for a lock. -/
theorem RwSys.blocked {n₀ t : Nat} {s : Rw E D} (h : RwSys n₀ s) {th : RwThread E D} (ht : s.threads[t]? = some th)
    (hb : s.Blocked srt t) : th.finished ∨ th.waits := by
  have hno : ∀ d' th', ¬ Rw.Local srt s t th d' th' := fun d' th' => hb th d' th' ht
  cases th with
  | insCheck | insWantW | wrWantE | wrWantL | seWantE | seWantL | loWantE => exact Or.inr trivial
  | inserted | wrote | found | looked | panicked => exact Or.inl trivial
  | loHold next els => cases next with
    | none => exact absurd (.loDrop els) (hno _ _)
    | some x => exact Or.inr (by simp [RwThread.waits])
  | insWantE f q => cases q with
    | true => exact Or.inr rfl
    | false => exact absurd (.queueE f) (hno _ _)
  | insWantL f q => cases q with
    | true => exact Or.inr rfl
    | false => exact absurd (.queueL f) (hno _ _)
  | wrWantW q => cases q with
    | true => exact Or.inr rfl
    | false => exact absurd .wrQueue (hno _ _)
  | insCrit f =>
    rcases Nat.lt_or_ge s.data.grow.current.length s.data.grow.elements.data.length with h1 | h1
    · exact absurd (.assertFails f h1) (hno _ _)
    · exact absurd (.reserve f h1) (hno _ _)
  | insIndex f tasks =>
    by_cases h1 : ∀ p ∈ tasks, p = Prog.ret ()
    · exact absurd (.dropE f tasks h1) (hno _ _)
    · push Not at h1
      obtain ⟨p, hp, hne⟩ := h1
      obtain ⟨i, hi, rfl⟩ := List.getElem_of_mem hp
      rcases Prog.stuck tasks[i] s.data.current with ⟨⟨⟩, h2⟩ | h2 | ⟨⟨rows', p'⟩, h2⟩
      · exact absurd h2 hne
      · exact absurd (.taskPanics f tasks (h2 ▸ hp)) (hno _ _)
      · exact absurd (.task f tasks i _ p' rows' (List.getElem?_eq_getElem hi) h2) (hno _ _)
  | insHoldL f =>
    by_cases h1 : f.todo = []
    · exact absurd (.noRest f h1) (hno _ _)
    · exact absurd (.rest f h1) (hno _ _)
  | insReturn f =>
    rcases Nat.eq_zero_or_pos f.outer with h1 | h1
    · exact absurd (.done f h1) (hno _ _)
    · exact absurd (.dropW f (f.outer - 1) (by omega)) (hno _ _)
  | wrElems => exact absurd .wrElements (hno _ _)
  | wrRows els rows =>
    obtain ⟨_, _, h3⟩ := h.thr t _ ht
    rcases Nat.lt_or_ge rows.length s.data.elements.data.length with h1 | h1
    · rcases Option.eq_none_or_eq_some s.data.current[rows.length]? with h2 | ⟨row, h2⟩
      · exact absurd (.wrRowPanics els rows h1 h2) (hno _ _)
      · exact absurd (.wrRow els rows row h1 h2) (hno _ _)
    · exact absurd (.wrIndex els rows (le_antisymm h3 h1)) (hno _ _)
  | wrDropL els layers => exact absurd (.wrDropL els layers) (hno _ _)
  | wrDropE els layers => exact absurd (.wrDropE els layers) (hno _ _)
  | wrDropW els layers => exact absurd (.wrDropW els layers) (hno _ _)
  | seRun q ms k p =>
    rcases Prog.stuck p s.data.current with ⟨r, rfl⟩ | rfl | ⟨⟨rows', p'⟩, h2⟩
    · exact absurd (.seResult q ms k r) (hno _ _)
    · exact absurd (.sePanics q ms k) (hno _ _)
    · exact absurd (.seStep q ms k p p' rows' h2) (hno _ _)
  | seDropL q ms k r => exact absurd (.seDropL q ms k r) (hno _ _)
  | seDropE q ms k r => exact absurd (.seDropE q ms k r) (hno _ _)

/-- If nothing moves, then everything has finished, or an insert that already holds the write lock waits for it again
behind a queued save, or a search by a caller that holds a guard of the elements waits for them behind a queued insert. -/
theorem RwSys.stuck {n₀ : Nat} {s : Rw E D} (h : RwSys n₀ s) (hst : ∀ s', ¬ Rw.Step srt s s') :
    (∀ th ∈ s.threads, th.finished) ∨
      ((∃ f : Ins E, .insWantW f ∈ s.threads ∧ 0 < f.outer) ∧ .wrWantW true ∈ s.threads ∧
        ∀ th ∈ s.threads, th.finished ∨ (∃ f : Ins E, th = .insWantW f) ∨ th = .wrWantW true) ∨
      ((∃ q ms k els, .loHold (some (q, ms, k)) els ∈ s.threads) ∧ ∃ f : Ins E, .insWantE f true ∈ s.threads) := by
  have hb : ∀ t, s.Blocked srt t := fun t th d' th' ht hl => hst _ (.mk s t th th' d' ht hl)
  have hw : ∀ {t : Nat} {th : RwThread E D}, s.threads[t]? = some th → th.finished ∨ th.waits :=
    fun ht => h.blocked ht (hb _)
  -- nobody holds `layers`
  have l1 : ∀ t, s.NoOther t RwThread.lExcl := by
    intro t u th _ hu hl
    have := hw hu
    cases th <;> simp [RwThread.lExcl, RwThread.finished, RwThread.waits] at hl this
  have l2 : ∀ t, s.NoOther t RwThread.lShared := by
    intro t u th _ hu hl
    have := hw hu
    cases th <;> simp [RwThread.lShared, RwThread.finished, RwThread.waits] at hl this
  have w1 : ∀ {t : Nat} {f : Ins E} {q : Bool}, s.threads[t]? ≠ some (.insWantL f q) := by
    intro t f q ht
    rcases hw ht with h1 | h1
    · exact h1
    · simp only [RwThread.waits] at h1
      subst h1
      exact hb t _ _ _ ht (.takeL f (l1 t) (l2 t))
  have l3 : ∀ t, s.NoOther t RwThread.lQueued := by
    intro t u th _ hu hl
    cases th <;> simp only [RwThread.lQueued] at hl
    exact w1 hu
  have w2 : ∀ {t : Nat}, s.threads[t]? ≠ some .wrWantL := fun ht => hb _ _ _ _ ht (.wrTakeL (l1 _) (l3 _))
  have w3 : ∀ {t : Nat} {q : E} {ms k : Nat}, s.threads[t]? ≠ some (.seWantL q ms k) := by
    intro t q ms k ht
    rcases Option.eq_none_or_eq_some (s.data.entry q) with h1 | ⟨r, h1⟩
    · exact hb t _ _ _ ht (.seEntryPanics q ms k (l1 t) (l3 t) h1)
    · cases r with
      | none => exact hb t _ _ _ ht (.seNothing q ms k (l1 t) (l3 t) h1)
      | some e => exact hb t _ _ _ ht (.seTakeL q ms k e (l1 t) (l3 t) h1)
  -- nobody holds `elements`
  have e1 : ∀ t, s.NoOther t RwThread.eExcl := by
    intro t u th _ hu hl
    have := hw hu
    cases th <;> simp [RwThread.eExcl, RwThread.finished, RwThread.waits] at hl this
    exact w1 hu
  by_cases hguard : ∃ (t : Nat) (q : E) (ms k : Nat) (els : List E), s.threads[t]? = some (.loHold (some (q, ms, k)) els)
  · right; right
    obtain ⟨t, q, ms, k, els, ht⟩ := hguard
    refine ⟨⟨q, ms, k, els, List.mem_of_getElem? ht⟩, ?_⟩
    by_contra hno
    refine hb t _ _ _ ht (.loSearch q ms k els (e1 t) ?_)
    intro u th _ hu hl
    cases th <;> simp only [RwThread.eQueued] at hl
    subst hl
    exact hno ⟨_, List.mem_of_getElem? hu⟩
  have e2 : ∀ t, s.NoOther t RwThread.eShared := by
    intro t u th _ hu hl
    have := hw hu
    cases th <;> simp [RwThread.eShared, RwThread.finished, RwThread.waits] at hl this
    · exact w2 hu
    · exact w3 hu
    · next next els =>
      cases next with
      | none => exact this rfl
      | some x => exact hguard ⟨u, x.1, x.2.1, x.2.2, els, hu⟩
  have w4 : ∀ {t : Nat} {f : Ins E} {q : Bool}, s.threads[t]? ≠ some (.insWantE f q) := by
    intro t f q ht
    rcases hw ht with h1 | h1
    · exact h1
    · simp only [RwThread.waits] at h1
      subst h1
      exact hb t _ _ _ ht (.takeE f (e1 t) (e2 t))
  have e3 : ∀ t, s.NoOther t RwThread.eQueued := by
    intro t u th _ hu hl
    cases th <;> simp only [RwThread.eQueued] at hl
    exact w4 hu
  have w5 : ∀ {t : Nat}, s.threads[t]? ≠ some .wrWantE := fun ht => hb _ _ _ _ ht (.wrTakeE (e1 _) (e3 _))
  have w6 : ∀ {t : Nat} {q : E} {ms k : Nat}, s.threads[t]? ≠ some (.seWantE q ms k) :=
    fun ht => hb _ _ _ _ ht (.seTakeE _ _ _ (e1 _) (e3 _))
  have w10 : ∀ {t : Nat} {next}, s.threads[t]? ≠ some (.loWantE next) :=
    fun ht => hb _ _ _ _ ht (.loTake _ (e1 _) (e3 _))
  have w7 : ∀ {t : Nat} {f : Ins E}, s.threads[t]? ≠ some (.insCheck f) := by
    intro t f ht
    rcases Nat.lt_or_ge s.data.elements.data.length s.data.maxElements with h1 | h1
    · exact hb t _ _ _ ht (.room f (e1 t) (e3 t) h1)
    · exact hb t _ _ _ ht (.full f (e1 t) (e3 t) h1)
  -- nobody holds `write_lock` exclusively
  have v1 : ∀ t, s.NoOther t RwThread.wExcl := by
    intro t u th _ hu hl
    have := hw hu
    cases th <;> simp [RwThread.wExcl, RwThread.finished, RwThread.waits] at hl this
    · exact w5 hu
    · exact w2 hu
  by_cases hrec : ∃ f : Ins E, .insWantW f ∈ s.threads ∧ 0 < f.outer
  · by_cases hq : .wrWantW true ∈ s.threads
    · refine Or.inr (Or.inl ⟨hrec, hq, fun th hth => ?_⟩)
      obtain ⟨t, ht⟩ := List.getElem?_of_mem hth
      rcases hw ht with h1 | h1
      · exact Or.inl h1
      right
      cases th <;> simp only [RwThread.waits] at h1
      · exact (w7 ht).elim
      · exact Or.inl ⟨_, rfl⟩
      · exact (w4 ht).elim
      · exact (w1 ht).elim
      · exact Or.inr (by rw [h1])
      · exact (w5 ht).elim
      · exact (w2 ht).elim
      · exact (w6 ht).elim
      · exact (w3 ht).elim
      · exact (w10 ht).elim
      · next next els =>
        cases next with
        | none => exact (h1 rfl).elim
        | some x => exact (hguard ⟨t, x.1, x.2.1, x.2.2, els, ht⟩).elim
    · exfalso
      obtain ⟨f, hf, _⟩ := hrec
      obtain ⟨t, ht⟩ := List.getElem?_of_mem hf
      refine hb t _ _ _ ht (.takeW f (v1 t) ?_)
      intro u th _ hu hl
      cases th <;> simp only [RwThread.wQueued] at hl
      subst hl
      exact hq (List.mem_of_getElem? hu)
  · left
    have v2 : ∀ t, s.NoOther t RwThread.wShared := by
      intro t u th _ hu hl
      have := hw hu
      cases th <;> simp [RwThread.wShared, RwThread.finished, RwThread.waits] at hl this
      · exact w7 hu
      · exact hrec ⟨_, List.mem_of_getElem? hu, hl⟩
      · exact w4 hu
      · exact w1 hu
    have w8 : ∀ {t : Nat} {q : Bool}, s.threads[t]? ≠ some (.wrWantW q) := by
      intro t q ht
      rcases hw ht with h1 | h1
      · exact h1
      · simp only [RwThread.waits] at h1
        subst h1
        exact hb t _ _ _ ht (.wrTakeW (v1 t) (v2 t))
    have v3 : ∀ t, s.NoOther t RwThread.wQueued := by
      intro t u th _ hu hl
      cases th <;> simp only [RwThread.wQueued] at hl
      exact w8 hu
    have w9 : ∀ {t : Nat} {f : Ins E}, s.threads[t]? ≠ some (.insWantW f) :=
      fun ht => hb _ _ _ _ ht (.takeW _ (v1 _) (v3 _))
    intro th hth
    obtain ⟨t, ht⟩ := List.getElem?_of_mem hth
    rcases hw ht with h1 | h1
    · exact h1
    · exfalso
      cases th <;> simp only [RwThread.waits] at h1
      · exact w7 ht
      · exact w9 ht
      · exact w4 ht
      · exact w1 ht
      · exact w8 ht
      · exact w5 ht
      · exact w2 ht
      · exact w6 ht
      · exact w3 ht
      · exact w10 ht
      · next next els =>
        cases next with
        | none => exact h1 rfl
        | some x => exact hguard ⟨t, x.1, x.2.1, x.2.2, els, ht⟩

end Granne
