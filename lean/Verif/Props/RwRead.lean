import Verif.Props.Rw

/-!
C76. Looking at the elements of a concurrent builder (`get_elements`, `get_element`, `len`) while others insert, search and save: a
reader sees the elements as they are at one moment, later readers see at least as much, and elements never change or move. (And the
second kind of deadlock of C43.)
-/
namespace Granne
open List Spec

variable {E D : Type} [LinearOrder D] {srt : List (Nat × D) → List (Nat × D)}

omit [LinearOrder D] in
theorem result_seen {s : Rw E D} {t : Nat} {els : List E} (h : result s t = some (.seen els)) :
    s.threads[t]? = some (.looked els) := by
  unfold result at h
  split at h <;> simp_all

/-- What a thread has seen is at least `base`. -/
def SeesFrom (base : List E) (d : RwData E D) : RwThread E D → Prop
  | .loHold _ els | .looked els => base <+: els ∧ base <+: d.elements.data
  | _ => base <+: d.elements.data

omit [LinearOrder D] in
theorem SeesFrom.data {base : List E} {d : RwData E D} {th : RwThread E D} (h : SeesFrom base d th) :
    base <+: d.elements.data := by
  cases th <;> simp only [SeesFrom] at h <;> first | exact h | exact h.2

omit [LinearOrder D] in
theorem SeesFrom.mono {base : List E} {d d' : RwData E D} {th : RwThread E D} (h : SeesFrom base d th)
    (hd : d.elements.data <+: d'.elements.data) : SeesFrom base d' th := by
  cases th <;> simp only [SeesFrom] at h ⊢ <;> first | exact h.trans hd | exact ⟨h.1, h.2.trans hd⟩

/-- From a state whose elements are `base` on, a reader that has not looked yet sees at least `base`. -/
theorem sees_from (hsrt : IsSortByDist srt) {n₀ t : Nat} {s s' : Rw E D} (h : RwSys n₀ s) (hs : Rw.Steps srt s s')
    (h0 : s.threads[t]? = some (RwCall.look none).start) {els : List E} (hr : result s' t = some (.seen els)) :
    s.data.elements.data <+: els := by
  have hext : ∀ {s : Rw E D} {u : Nat} {ub ub' : RwThread E D} {d'}, RwSys n₀ s → s.threads[u]? = some ub →
      Rw.Local srt s u ub d' ub' → s.data.elements.data <+: d'.elements.data := by
    intro s u ub ub' d' hsys hu hl
    obtain ⟨m, hm⟩ := (hl.ok hsrt hsys hu).ext.data
    exact ⟨m, hm.symm⟩
  obtain ⟨th, ht, hp⟩ := h.track hsrt (P := SeesFrom s.data.elements.data)
    (fun s₁ th d' th' hsys ht hl hp => by
      have hd := hext hsys ht hl
      have hb := hp.data
      cases hl with
      | loTake next => exact ⟨hb, hb⟩
      | loDrop els => exact hp
      | _ => exact hb.trans hd)
    (fun s₁ th u ub d' ub' _ hsys _ hu hl hp => hp.mono (hext hsys hu hl)) hs h0
    (show s.data.elements.data <+: s.data.elements.data from List.prefix_refl _)
  rw [result_seen hr] at ht
  cases ht
  exact hp.1

/-- C76. What a reader has seen are the first elements of what is there, among them all elements present at the start. -/
theorem C76_seen (hsrt : IsSortByDist srt) (b : Builder E D) (mx : Nat) (calls : List (RwCall E)) (s : Rw E D)
    (h : RwRun srt b mx calls s) (t : Nat) (els : List E) (hr : result s t = some (.seen els)) :
    els <+: s.data.elements.data ∧ b.elements.data <+: els := by
  obtain ⟨hsys, _, _, ⟨more, hmore⟩, _, _, d, h3, h4, hnew⟩ := h.sys hsrt
  have ht := result_seen hr
  obtain ⟨m, hm⟩ : ∃ more, s.data.elements.data = els ++ more := hsys.thr t _ ht
  refine ⟨⟨m, hm.symm⟩, ?_⟩
  obtain ⟨d', e, _, hel, _⟩ := (h.setup.new_ok hsrt).2 _ hnew
  cases e
  have hc : calls[t]? = some (.look none) := by
    obtain ⟨c, hc, hcall⟩ := h3.call' hsrt h4 ht
    have hne : ∀ x, c ≠ .look (some x) := by
      rintro ⟨q, ms, k⟩ rfl
      simp [RwThread.call, RwCall.plain] at hcall
    cases c with
    | look next => cases next with
      | none => exact hc
      | some x => exact absurd rfl (hne x)
    | _ => simp [RwThread.call, RwCall.plain] at hcall
  have := sees_from hsrt h3 h4 (by simp only [Rw.start, List.getElem?_map, hc, Option.map_some]) hr
  simpa only [Rw.start, hel] using this

/-- C76. Of two readers, one has seen an initial part of what the other has seen: elements never change or move. -/
theorem C76_comparable (hsrt : IsSortByDist srt) (b : Builder E D) (mx : Nat) (calls : List (RwCall E)) (s : Rw E D)
    (h : RwRun srt b mx calls s) (t u : Nat) (els els' : List E) (hr : result s t = some (.seen els))
    (hr' : result s u = some (.seen els')) : els <+: els' ∨ els' <+: els :=
  List.prefix_or_prefix_of_prefix (C76_seen hsrt b mx calls s h t els hr).1 (C76_seen hsrt b mx calls s h u els' hr').1

/-- C76. A reader that starts after another one has returned sees at least as much: `len()` does not decrease and `get_element(i)`
does not change. -/
theorem C76_monotone (hsrt : IsSortByDist srt) (b : Builder E D) (mx : Nat) (calls : List (RwCall E)) (s s' : Rw E D)
    (h : RwRun srt b mx calls s) (hs : Rw.Steps srt s s') (t u : Nat) (els els' : List E)
    (hr : result s t = some (.seen els)) (h0 : s.threads[u]? = some (RwCall.look none).start)
    (hr' : result s' u = some (.seen els')) : els <+: els' :=
  (C76_seen hsrt b mx calls s h t els hr).1.trans (sees_from hsrt (h.sys hsrt).1 hs h0 hr')

/-- C76. A reader that starts after an insert has returned sees the inserted elements under the ids that were returned. -/
theorem C76_sees_inserted (hsrt : IsSortByDist srt) (b : Builder E D) (mx : Nat) (calls : List (RwCall E)) (s s' : Rw E D)
    (h : RwRun srt b mx calls s) (hs : Rw.Steps srt s s') (t u : Nat) (batch : List E)
    (hc : calls[t]? = some (.insert batch)) (ids : List Nat) (hr : result s t = some (.ids ids))
    (h0 : s.threads[u]? = some (RwCall.look none).start) (els : List E) (hr' : result s' u = some (.seen els)) :
    ∀ (k i : Nat), ids[k]? = some i → i < els.length ∧ els[i]? = batch[k]? := by
  intro k i hk
  obtain ⟨_, _, h1, _⟩ := C41_insert_result hsrt b mx calls s h t batch hc ids hr
  obtain ⟨_, h2, h3⟩ := h1 k i hk
  obtain ⟨more, hm⟩ := sees_from hsrt (h.sys hsrt).1 hs h0 hr'
  simp only [numElements] at h2
  rw [← hm, List.length_append, List.getElem?_append_left h2, h3]
  exact ⟨by omega, rfl⟩

/-- C76. While a caller holds the guard, the elements do not change, whatever else is going on. -/
theorem C76_guard (hsrt : IsSortByDist srt) (b : Builder E D) (mx : Nat) (calls : List (RwCall E)) (s : Rw E D)
    (h : RwRun srt b mx calls s) (t : Nat) (next : Option (E × Nat × Nat)) (els : List E)
    (ht : s.threads[t]? = some (.loHold next els)) : s.data.elements.data = els :=
  (((h.sys hsrt).1.thr t _ ht).2 : els = _).symm

/-- C76: unlike saves (C42), readers can see a part of a batch: 10 and 7 are inserted by one call, a reader sees only 10. -/
theorem C76_part_of_batch : ∃ (b : Builder Int Nat) (s : Rw Int Nat), RwRun exSort b 2 [.insert [10, 7], .look none] s ∧
    result s 0 = some (.ids [0, 1]) ∧ result s 1 = some (.seen [10]) := by
  have hb : ∀ b : RwThread Int Nat, b = .loWantE none ∨ b = .looked [10] → ¬ b.eExcl ∧ ¬ b.eQueued ∧ ¬ b.eShared ∧ ¬ b.wExcl ∧
      ¬ b.wQueued ∧ ¬ b.lExcl ∧ ¬ b.lShared := by
    rintro b (rfl | rfl) <;>
    simp [RwThread.eExcl, RwThread.eQueued, RwThread.eShared, RwThread.wExcl, RwThread.wQueued, RwThread.lExcl,
      RwThread.lShared]
  have h1 := Rw.Steps.round (srt := exSort) (rows := [[UNUSED, UNUSED]]) (hb _ (Or.inl rfl)) (by decide)
    (by decide) (by decide +kernel) (.refl (Rw.start rwStart [.insert [10, 7], .look none]))
  have h2 := (h1.snd (.loTake _ (noOther1 (by simp [RwThread.eExcl])) (noOther1 (by simp [RwThread.eQueued])))).snd (.loDrop _)
  have h3 := h2.fst (.rest _ (by decide))
  have h4 := Rw.Steps.round (srt := exSort) (rows := [[1, UNUSED], [0, UNUSED]]) (hb _ (Or.inr rfl)) (by decide)
    (by decide) (by decide +kernel) h3
  have h5 := (((h4.fst (.noRest _ (by decide))).fst (.dropW _ 1 rfl)).fst (.dropW _ 0 rfl)).fst (.done _ rfl)
  exact ⟨rwBuilder, _, ⟨rwSetup 2 (by decide), by simp, rwStart, rwStart_new, h5⟩, rfl, rfl⟩

/-- Non-vacuity of C76: after both elements have been inserted, a reader that starts then sees both. -/
example : ∃ s s' : Rw Int Nat, RwRun exSort rwBuilder 2 [.insert [10, 7], .look none] s ∧ Rw.Steps exSort s s' ∧
    result s 0 = some (.ids [0, 1]) ∧ s.threads[1]? = some (RwCall.look none).start ∧ result s' 1 = some (.seen [10, 7]) := by
  have hb : ∀ b : RwThread Int Nat, b = .loWantE none → ¬ b.eExcl ∧ ¬ b.eQueued ∧ ¬ b.eShared ∧ ¬ b.wExcl ∧
      ¬ b.wQueued ∧ ¬ b.lExcl ∧ ¬ b.lShared := by
    rintro b rfl
    simp [RwThread.eExcl, RwThread.eQueued, RwThread.eShared, RwThread.wExcl, RwThread.wQueued, RwThread.lExcl,
      RwThread.lShared]
  have h1 := Rw.Steps.round (srt := exSort) (rows := [[UNUSED, UNUSED]]) (hb _ rfl) (by decide)
    (by decide) (by decide +kernel) (.refl (Rw.start rwStart [.insert [10, 7], .look none]))
  have h2 := h1.fst (.rest _ (by decide))
  have h3 := Rw.Steps.round (srt := exSort) (rows := [[1, UNUSED], [0, UNUSED]]) (hb _ rfl) (by decide)
    (by decide) (by decide +kernel) h2
  have h4 := (((h3.fst (.noRest _ (by decide))).fst (.dropW _ 1 rfl)).fst (.dropW _ 0 rfl)).fst (.done _ rfl)
  exact ⟨_, _, ⟨rwSetup 2 (by decide), by simp, rwStart, rwStart_new, h4⟩,
    ((Rw.Steps.refl _).snd (.loTake _ (noOther1 (by simp [RwThread.eExcl])) (noOther1 (by simp [RwThread.eQueued])))).snd
      (.loDrop _), rfl, rfl, rfl⟩

/-- C43 is violated in a second way: a caller that searches while it holds the guard returned by `get_elements()`, and an insert that
arrives in between, wait for each other for ever. -/
theorem C43_violated_guard : ∃ (b : Builder Int Nat) (s : Rw Int Nat),
    RwRun exSort b 2 [.insert [10], .look (some (7, 3, 1))] s ∧ Halted exSort s ∧ result s 0 = none ∧ result s 1 = none := by
  have h0 := (Rw.Steps.refl (srt := exSort) (Rw.start rwStart [.insert [10], .look (some (7, 3, 1))])).fst
    (.room _ (noOther0 (by simp [RwCall.start, RwThread.eExcl])) (noOther0 (by simp [RwCall.start, RwThread.eQueued])) (by decide))
  have h1 := h0.fst (.takeW _ (noOther0 (by simp [RwCall.start, RwThread.wExcl])) (noOther0 (by simp [RwCall.start, RwThread.wQueued])))
  have h2 := h1.snd (.loTake _ (noOther1 (by simp [RwThread.eExcl])) (noOther1 (by simp [RwThread.eQueued])))
  have h3 := h2.fst (.queueE _)
  refine ⟨rwBuilder, _, ⟨rwSetup 2 (by decide), by intro q ms k hm; simp at hm; omega, rwStart, rwStart_new, h3⟩, ?_, rfl, rfl⟩
  intro s' hs
  cases hs with
  | mk t th th' d' ht hl =>
    match t with
    | 0 =>
      cases ht
      cases hl with
      | takeE f h1 h2 => exact h2 1 _ (by decide) rfl trivial
    | 1 =>
      cases ht
      cases hl with
      | loSearch q ms k els h1 h2 => exact h2 0 _ (by decide) rfl rfl
    | n + 2 => cases ht

/-- And a caller that inserts while it holds the guard would wait for itself: an insert cannot take the elements while anybody holds
the guard. -/
theorem C76_insert_waits (s s' : Rw E D) (t u : Nat) (next : Option (E × Nat × Nat)) (els : List E) (f : Ins E) (htu : t ≠ u)
    (ht : s.threads[t]? = some (.loHold next els)) (hu : s.threads[u]? = some (.insWantE f true)) (hs : Rw.Step srt s s') : s'.threads[u]? = some (.insWantE f true) := by
  cases hs with
  | mk v th th' d' hv hl =>
    by_cases hvu : v = u
    · subst hvu
      rw [hu] at hv
      cases hv
      cases hl with
      | takeE f h1 h2 => exact absurd trivial (h2 t _ htu ht)
    · simp only [List.getElem?_set_ne hvu]
      exact hu

end Granne
