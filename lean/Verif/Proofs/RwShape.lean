import Verif.Proofs.RwTrace

/-! A concurrent builder that starts without elements: the sizes of its layers; searches while there is only one layer;
inserts of single elements. -/
namespace Granne
open List Spec

variable {E D : Type} [LinearOrder D] {srt : List (Nat × D) → List (Nat × D)}

/-- All layers have their planned size. -/
structure Shape (d : RwData E D) : Prop where
  current : d.current.length = d.config.schedule d.maxElements d.prev.length
  prev : ∀ (i : Nat) (R : Rows), d.prev[i]? = some R → R.length = d.config.schedule d.maxElements i

theorem resizeRows_length (w num : Nat) (R : Rows) : (resizeRows w num R).length = num := by
  simp [resizeRows]; omega

omit [LinearOrder D] in
theorem Shape.grow {d : RwData E D} (h : Shape d) : Shape d.grow := by
  unfold RwData.grow
  split
  · refine ⟨?_, ?_⟩
    · simp [resizeRows_length]
    · intro i R hi
      simp only at hi ⊢
      by_cases hlt : i < d.prev.length
      · rw [List.getElem?_append_left hlt] at hi
        exact h.prev i R hi
      · have := (List.getElem?_eq_some_iff.1 hi).1
        simp only [List.length_append, List.length_singleton] at this
        obtain rfl : i = d.prev.length := by omega
        simp only [List.getElem?_concat_length, Option.some.injEq] at hi
        subst hi
        exact h.current
  · exact h

theorem Shape.step {s : Rw E D} {t : Nat} {th th' : RwThread E D} {d' : RwData E D} (h : Shape s.data)
    (hl : Rw.Local srt s t th d' th') : Shape d' := by
  cases hl with
  | assertFails => exact h.grow
  | reserve => exact ⟨h.grow.current, h.grow.prev⟩
  | task f tasks i p p' rows' _ hst => exact ⟨(Prog.step_length hst).trans h.current, h.prev⟩
  | seStep q ms k p p' rows' hst => exact ⟨(Prog.step_length hst).trans h.current, h.prev⟩
  | _ => exact h

theorem Shape.steps {s s' : Rw E D} (h : Shape s.data) (hs : Rw.Steps srt s s') : Shape s'.data := by
  induction hs with
  | refl => exact h
  | tail _ h2 ih =>
    cases h2 with
    | mk t th th' d' _ hl => exact ih.step hl

/-- The start without elements. -/
theorem Shape.new (hsrt : IsSortByDist srt) {b : Builder E D} (hc : GoodConfig b.config) (hb : BuilderInv b) {mx : Nat}
    (h0 : b.elements.data = []) {d : RwData E D} (h : RwNew srt b mx (some d)) : Shape d := by
  cases h with
  | ok b' h =>
    have hc' : GoodConfig (withExpected b mx).config := ⟨hc.neighbors, hc.search, hc.schedule⟩
    obtain ⟨b'', e, hinv, hel, _, _⟩ := (build_ok hsrt hc' (hb.withExpected mx)).2 _ h
    cases e
    have hz : b'.layers = [] := by
      by_contra hne
      obtain ⟨l, hl⟩ := List.exists_mem_of_ne_nil _ hne
      have := (hinv.stack.layer l.rows (List.mem_map_of_mem hl)).2
      rw [hel] at this
      simp only [h0, List.length_nil] at this
      omega
    refine ⟨?_, ?_⟩
    · simp [RwData.ofBuilder, hz, resizeRows_length]
    · intro i R hi
      simp [RwData.ofBuilder, hz] at hi

/-! ### Only one layer -/

/-- While there is only the layer under construction, searches find nothing. -/
def FindsNone (d : RwData E D) : RwThread E D → Prop
  | .seRun _ _ _ _ => d.prev ≠ []
  | .seDropL _ _ _ r | .seDropE _ _ _ r | .found _ _ _ r => d.prev = [] → r = []
  | _ => True

theorem FindsNone.step {s : Rw E D} {t : Nat} {th th' : RwThread E D} {d' : RwData E D}
    (hl : Rw.Local srt s t th d' th') (hp : FindsNone s.data th) : FindsNone d' th' := by
  cases hl with
  | seTakeL q ms k entry _ _ he =>
    intro hn
    simp only [RwData.entry, hn, List.map_nil, search, searchInternal, List.getLast?_nil,
      List.head?_nil, Option.map_none, Option.some.injEq, reduceCtorEq] at he
  | seNothing q ms k => intro _; rfl
  | seStep => exact hp
  | seResult q ms k r => exact fun hn => absurd hn hp
  | seDropL => exact hp
  | seDropE => exact hp
  | _ => trivial

omit [LinearOrder D] in
theorem FindsNone.mono {d d' : RwData E D} {th : RwThread E D} (h : FindsNone d th)
    (hd : ∃ more, d'.prev = d.prev ++ more) : FindsNone d' th := by
  obtain ⟨more, hd⟩ := hd
  have : d'.prev = [] → d.prev = [] := fun h' => by rw [h'] at hd; exact (List.append_eq_nil_iff.1 hd.symm).1
  cases th <;> simp only [FindsNone] at h ⊢
  · exact fun h' => h (this h')
  · exact fun h' => h (this h')
  · exact fun h' => h (this h')
  · exact fun h' => h (this h')

/-! ### Single elements -/

/-- An insert of a single element that goes round again finds the builder full. -/
def SingleOk (d : RwData E D) : RwThread E D → Prop
  | .insCheck f => f.todo.length ≤ 1 ∧ (0 < f.outer → d.maxElements ≤ d.len)
  | .insWantW f => f.todo.length ≤ 1 ∧ f.outer = 0
  | .insWantE f _ | .insWantL f _ | .insCrit f => f.todo.length ≤ 1
  | .insIndex f _ | .insHoldL f => f.todo.length ≤ 1 ∧ (f.todo ≠ [] → d.maxElements ≤ d.len)
  | _ => True

omit [LinearOrder D] in
theorem SingleOk.mono {d d' : RwData E D} {th : RwThread E D} (h : SingleOk d th) (he : Extends d d') :
    SingleOk d' th := by
  have h1 := he.len_le
  have h2 := he.maxElements
  cases th <;> simp only [SingleOk] at h ⊢ <;>
    first | trivial | exact h | exact ⟨h.1, fun x => by have := h.2 x; omega⟩

theorem SingleOk.step (hsrt : IsSortByDist srt) {n₀ t : Nat} {s : Rw E D} {th th' : RwThread E D} {d' : RwData E D}
    (hsys : RwSys n₀ s) (hsh : Shape s.data)
    (hstrict : ∀ i, s.data.config.schedule s.data.maxElements i < s.data.config.schedule s.data.maxElements (i + 1) ∨
      s.data.config.schedule s.data.maxElements i = s.data.maxElements)
    (ht : s.threads[t]? = some th) (hl : Rw.Local srt s t th d' th') (hp : SingleOk s.data th) : SingleOk d' th' := by
  have hext := (hl.ok hsrt hsys ht).ext
  cases hl with
  | room f _ _ hr =>
    refine ⟨hp.1, ?_⟩
    by_contra h0
    have := hp.2 (by omega)
    simp only [RwData.len] at this
    omega
  | takeW f => exact hp.1
  | queueE f => exact hp
  | takeE f => exact hp
  | queueL f => exact hp
  | takeL f => exact hp
  | reserve f hle =>
    simp only [SingleOk] at hp
    refine ⟨?_, fun hne => ?_⟩
    · simp only [RwData.append, List.length_drop]; omega
    · have hlen := hext.len_le
      simp only [RwData.append, ne_eq, List.drop_eq_nil_iff, not_le] at hne
      -- nothing fitted, although a new layer was started
      have hroom : s.data.grow.current.length ≤ s.data.len := by
        have : s.data.grow.elements = s.data.elements := by unfold RwData.grow; split <;> rfl
        rw [this] at hne
        simp only [RwData.len]
        omega
      have hmax : (s.data.grow.append f.todo).1.maxElements = s.data.maxElements := by
        show s.data.grow.maxElements = _
        unfold RwData.grow; split <;> rfl
      rw [hmax]
      refine le_trans ?_ hlen
      by_cases hfull : s.data.current.length ≤ s.data.elements.data.length
      · have h1 := hsys.data.rows.len
        have h2 := hsh.current
        have h3 := hsh.grow.current
        simp only [RwData.grow, if_pos hfull] at h3 hroom
        rw [h3] at hroom
        simp only [List.length_append, List.length_singleton] at hroom
        simp only [RwData.len] at h1 hroom ⊢
        rcases hstrict s.data.prev.length with h4 | h4 <;> omega
      · simp only [RwData.grow, if_neg hfull, RwData.len] at hroom
        exact absurd hroom hfull
  | task => exact hp
  | dropE => exact hp
  | rest f hne => exact ⟨hp.1, fun _ => hp.2 hne⟩
  | _ => trivial

end Granne
