import Verif.Proofs.RwNew

/-! Following one call of the concurrent builder through a run. -/
namespace Granne
open List Spec

variable {E D : Type} [LinearOrder D] {srt : List (Nat × D) → List (Nat × D)}

/-- A property of the data and of thread `t` that every step keeps. -/
theorem RwSys.track (hsrt : IsSortByDist srt) {n₀ t : Nat} {P : RwData E D → RwThread E D → Prop}
    (hown : ∀ (s : Rw E D) th d' th', RwSys n₀ s → s.threads[t]? = some th → Rw.Local srt s t th d' th' →
      P s.data th → P d' th')
    (hother : ∀ (s : Rw E D) th u ub d' ub', u ≠ t → RwSys n₀ s → s.threads[t]? = some th →
      s.threads[u]? = some ub → Rw.Local srt s u ub d' ub' → P s.data th → P d' th)
    {s s' : Rw E D} (h : RwSys n₀ s) (hs : Rw.Steps srt s s') {th : RwThread E D} (ht : s.threads[t]? = some th)
    (hp : P s.data th) : ∃ th', s'.threads[t]? = some th' ∧ P s'.data th' := by
  induction hs with
  | refl => exact ⟨th, ht, hp⟩
  | @tail s₂ s₃ h1 h2 ih =>
    obtain ⟨th₂, ht₂, hp₂⟩ := ih
    have hsys := (h.steps hsrt h1).1
    cases h2 with
    | mk u ub ub' d' hu hl =>
      by_cases hut : u = t
      · subst hut
        rw [ht₂] at hu
        cases hu
        refine ⟨ub', ?_, hown _ _ _ _ hsys ht₂ hl hp₂⟩
        simp only [List.getElem?_set_self (List.getElem?_eq_some_iff.1 ht₂).1]
      · refine ⟨th₂, ?_, hother _ _ u ub _ _ hut hsys ht₂ hu hl hp₂⟩
        simp only [List.getElem?_set_ne hut]
        exact ht₂

/-! ### The call -/

/-- The call a thread is executing. -/
def RwThread.call : RwThread E D → Option (RwCall E)
  | insCheck f | insWantW f | insWantE f _ | insWantL f _ | insCrit f | insIndex f _ | insHoldL f | insReturn f
  | inserted f => some (.insert f.batch)
  | wrWantW _ | wrWantE | wrWantL | wrElems | wrRows _ _ | wrDropL _ _ | wrDropE _ _ | wrDropW _ _ | wrote _ _ => some .write
  | seWantE q ms k | seWantL q ms k | seRun q ms k _ | seDropL q ms k _ | seDropE q ms k _ | found q ms k _ =>
    some (.search q ms k)
  | loWantE (some (q, ms, k)) | loHold (some (q, ms, k)) _ => some (.search q ms k)
  | loWantE none | loHold none _ | looked _ => some (.look none)
  | panicked => none

/-- A search by a caller that holds a guard is a search. -/
def RwCall.plain : RwCall E → RwCall E
  | look (some (q, ms, k)) => search q ms k
  | c => c

theorem Rw.Local.call {s : Rw E D} {t : Nat} {th th' : RwThread E D} {d' : RwData E D}
    (h : Rw.Local srt s t th d' th') : th' = .panicked ∨ th'.call = th.call := by
  cases h with
  | loTake next => cases next <;> simp [RwThread.call]
  | _ => simp [RwThread.call]

omit [LinearOrder D] in
theorem RwCall.start_call (c : RwCall E) : (c.start : RwThread E D).call = some c.plain := by
  cases c with
  | look next => cases next <;> rfl
  | _ => rfl

/-- Every call is still there, in the form of some state of its execution. -/
theorem RwSys.call (hsrt : IsSortByDist srt) {n₀ t : Nat} {d : RwData E D} {calls : List (RwCall E)}
    (h : RwSys n₀ (Rw.start d calls)) {s : Rw E D} (hs : Rw.Steps srt (Rw.start d calls) s) {c : RwCall E}
    (hc : calls[t]? = some c) : ∃ th, s.threads[t]? = some th ∧ th.call = some c.plain := by
  obtain ⟨th, ht, hp⟩ := h.track hsrt (t := t) (P := fun _ th => th = .panicked ∨ th.call = some c.plain)
    (th := c.start)
    (fun s th d' th' _ _ hl hp => by
      rcases hp with rfl | hp
      · cases hl
      · rcases hl.call with h | h
        · exact Or.inl h
        · exact Or.inr (h.trans hp))
    (fun _ _ _ _ _ _ _ _ _ _ _ hp => hp) hs
    (by simp only [Rw.start, List.getElem?_map, hc, Option.map_some]) (Or.inr c.start_call)
  refine ⟨th, ht, ?_⟩
  rcases hp with rfl | hp
  · exact ((h.steps hsrt hs).1.thr t _ ht).elim
  · exact hp

theorem Rw.Steps.length {s s' : Rw E D} (h : Rw.Steps srt s s') : s'.threads.length = s.threads.length := by
  induction h with
  | refl => rfl
  | tail _ h2 ih => cases h2; simpa using ih

/-- A thread of a run is one of the calls. -/
theorem RwSys.call' (hsrt : IsSortByDist srt) {n₀ t : Nat} {d : RwData E D} {calls : List (RwCall E)}
    (h : RwSys n₀ (Rw.start d calls)) {s : Rw E D} (hs : Rw.Steps srt (Rw.start d calls) s) {th : RwThread E D}
    (ht : s.threads[t]? = some th) : ∃ c, calls[t]? = some c ∧ th.call = some c.plain := by
  have hlt := (List.getElem?_eq_some_iff.1 ht).1
  rw [hs.length] at hlt
  simp only [Rw.start, List.length_map] at hlt
  refine ⟨calls[t], List.getElem?_eq_getElem hlt, ?_⟩
  obtain ⟨th', ht', hc⟩ := h.call hsrt hs (List.getElem?_eq_getElem hlt)
  rw [ht] at ht'
  cases ht'
  exact hc

/-! ### What a save contains -/

/-- Nothing less than the first `n` elements has been or will be saved. -/
def SavesFrom (n : Nat) (d : RwData E D) : RwThread E D → Prop
  | .wrRows els _ | .wrDropL els _ | .wrDropE els _ | .wrDropW els _ | .wrote els _ => n ≤ d.len ∧ n ≤ els.length
  | _ => n ≤ d.len

omit [LinearOrder D] in
theorem SavesFrom.le {n : Nat} {d : RwData E D} {th : RwThread E D} (h : SavesFrom n d th) : n ≤ d.len := by
  cases th <;> simp only [SavesFrom] at h <;> first | exact h | exact h.1

omit [LinearOrder D] in
theorem SavesFrom.mono {n : Nat} {d d' : RwData E D} {th : RwThread E D} (h : SavesFrom n d th)
    (hd : d.len ≤ d'.len) : SavesFrom n d' th := by
  cases th <;> simp only [SavesFrom] at h ⊢ <;> omega

theorem SavesFrom.step (hsrt : IsSortByDist srt) {n₀ n t : Nat} {s : Rw E D} {th th' : RwThread E D} {d' : RwData E D}
    (h : RwSys n₀ s) (ht : s.threads[t]? = some th) (hl : Rw.Local srt s t th d' th') (hp : SavesFrom n s.data th) :
    SavesFrom n d' th' := by
  have hd := (hl.ok hsrt h ht).ext.len_le
  have hle := hp.le
  cases hl <;> simp only [SavesFrom] at hp ⊢ <;> first | exact hp | (simp only [RwData.len] at *; omega)

/-! ### Layers are only added -/

theorem Rw.Local.prev {s : Rw E D} {t : Nat} {th th' : RwThread E D} {d' : RwData E D}
    (h : Rw.Local srt s t th d' th') : ∃ more, d'.prev = s.data.prev ++ more := by
  have hg : ∃ more, s.data.grow.prev = s.data.prev ++ more := by
    unfold RwData.grow
    split
    · exact ⟨[s.data.current], rfl⟩
    · exact ⟨[], by simp⟩
  cases h with
  | assertFails => exact hg
  | reserve => exact hg
  | _ => exact ⟨[], by simp⟩

theorem entry_none {n₀ : Nat} {d : RwData E D} (h : RwInv n₀ d) {q : E} (he : d.entry q = some none) : d.prev = [] := by
  by_contra hp
  obtain ⟨R, hR⟩ := List.exists_mem_of_ne_nil _ hp
  have hpos : 0 < d.len := lt_of_lt_of_le (h.stack.layer R hR).2.1 (h.above R hR).1
  have hne : (d.prev.map graphOf) ≠ [] := by simpa using hp
  obtain ⟨init, last, hl⟩ : ∃ init last, d.prev.map graphOf = init ++ [last] :=
    ⟨_, _, (List.dropLast_append_getLast hne).symm⟩
  have hwf := h.stack.wf
  rw [hl] at hwf
  have hdq : ∀ i < d.len, (d.elements.distTo q i).isSome := fun i hi => distTo_isSome _ _ hi
  obtain ⟨e, h1, h2⟩ := findEntrypoint_total (bottom := last) hwf hdq (by simp)
  have hb := hwf.bounded last (by simp)
  obtain ⟨r, hr⟩ := searchForNeighbors_total (ms := 1) (n := last.length) (by omega) (hwf.inside last (by simp))
    (fun i hi => hdq i (by omega)) h2 le_rfl
  obtain ⟨l, rfl, hpost⟩ := searchForNeighbors_post hr
  have hlne : l ≠ [] := hpost.ne_nil (by omega)
  simp only [List.dropLast_concat] at h1
  simp only [RwData.entry, search, searchInternal, hl, List.getLast?_append, List.getLast?_singleton, Option.some_or,
    List.dropLast_concat, h1, hr] at he
  cases l with
  | nil => exact absurd rfl hlne
  | cons a l => simp at he

/-- The search finds something. -/
def FindsSome (d : RwData E D) : RwThread E D → Prop
  | .seDropL _ _ k r | .seDropE _ _ k r | .found _ _ k r => d.prev ≠ [] ∧ (1 ≤ k → r ≠ [])
  | _ => d.prev ≠ []

omit [LinearOrder D] in
theorem FindsSome.ne {d : RwData E D} {th : RwThread E D} (h : FindsSome d th) : d.prev ≠ [] := by
  cases th <;> simp only [FindsSome] at h <;> first | exact h | exact h.1

omit [LinearOrder D] in
theorem FindsSome.mono {d d' : RwData E D} {th : RwThread E D} (h : FindsSome d th)
    (hd : d.prev ≠ [] → d'.prev ≠ []) : FindsSome d' th := by
  cases th <;> simp only [FindsSome] at h ⊢ <;> first | exact hd h | exact ⟨hd h.1, h.2⟩

theorem FindsSome.step {n₀ t : Nat} {s : Rw E D} {th th' : RwThread E D} {d' : RwData E D}
    (h : RwSys n₀ s) (ht : s.threads[t]? = some th) (hl : Rw.Local srt s t th d' th') (hp : FindsSome s.data th) :
    FindsSome d' th' := by
  obtain ⟨more, hprev⟩ := hl.prev
  have hne : d'.prev ≠ [] := by rw [hprev]; simp [hp.ne]
  cases hl with
  | seNothing q ms k _ _ he => exact absurd (entry_none h.data he) hp.ne
  | seResult q ms k r =>
    refine ⟨hne, fun hk => ?_⟩
    have := (h.thr t _ ht).2 s.data.current (RelyOn.refl 0 _) ⟨h.data.rows, fun j hj => by
      obtain ⟨row, hr, _⟩ := hj; simp at hr⟩
    intro h0
    rw [List.take_eq_nil_iff] at h0
    rcases h0 with h0 | h0
    · omega
    · exact this.2 h0
  | seDropL q ms k r => exact hp
  | seDropE q ms k r => exact hp
  | _ => exact hne

/-! ### Searching while nothing is inserted -/

/-- No insert is in progress. -/
def Rw.Quiet (s : Rw E D) : Prop :=
  ∀ th ∈ s.threads, ∀ batch, th.call = some (.insert batch) → th.finished

theorem RwSys.searchReads {n₀ t : Nat} {s : Rw E D} (h : RwSys n₀ s) {q : E} {ms k : Nat}
    {p p' : Prog (List (Nat × D))} {rows' : Rows} (ht : s.threads[t]? = some (.seRun q ms k p))
    (hstep : p.step s.data.current = some (rows', p')) : rows' = s.data.current := by
  obtain ⟨_, g2, _⟩ := (h.thr t _ ht).2.step (RelyOn.refl 0) (fun _ => rfl) ⟨h.data.rows, fun j hj => by
    obtain ⟨row, hr, _⟩ := hj; simp at hr⟩ hstep
  exact g2.symm

theorem Rw.Quiet.step {n₀ : Nat} {s s' : Rw E D} (h : s.Quiet) (hsys : RwSys n₀ s) (hs : Rw.Step srt s s') :
    s'.Quiet ∧ s'.data = s.data := by
  cases hs with
  | mk t th th' d' ht hl =>
    have hq := h th (List.mem_of_getElem? ht)
    have hth : ∀ batch, th.call ≠ some (.insert batch) := by
      intro batch hc
      have := hq batch hc
      cases hl <;> simp [RwThread.finished] at this hc
    refine ⟨?_, ?_⟩
    · intro x hx batch hc
      rcases List.mem_or_eq_of_mem_set hx with h1 | h1
      · exact h x h1 batch hc
      · subst h1
        rcases hl.call with h2 | h2
        · rw [h2] at hc; simp [RwThread.call] at hc
        · rw [h2] at hc; exact absurd hc (hth batch)
    · cases hl with
      | seStep q ms k p p' rows' hstep => simp only; rw [hsys.searchReads ht hstep]
      | _ => first | rfl | (exfalso; exact hth _ rfl)

theorem findEntrypointFrom_append {dq : Nat → Option D} : ∀ (a b : List Graph) (e : Nat),
    findEntrypointFrom dq (a ++ b) e = (findEntrypointFrom dq a e).bind (findEntrypointFrom dq b) := by
  intro a
  induction a with
  | nil => intro b e; rfl
  | cons g a ih =>
    intro b e
    simp only [List.cons_append, findEntrypointFrom]
    split
    · rfl
    · rfl
    · exact ih b _

omit [LinearOrder D] in
theorem Prog.runRO_append {α : Type} (g ext : Graph) : ∀ (p : Prog α) (r : α), p.runRO g = some r →
    p.runRO (g ++ ext) = some r := by
  intro p
  induction p with
  | ret a => intro r h; exact h
  | fail => intro r h; exact h
  | nbrs i k ih =>
    intro r h
    simp only [Prog.runRO] at h ⊢
    rcases Option.eq_none_or_eq_some g[i]? with h1 | ⟨l, h1⟩
    · rw [h1] at h; cases h
    · rw [h1] at h
      rw [List.getElem?_append_left (List.getElem?_eq_some_iff.1 h1).1, h1]
      exact ih l r h
  | unused => intro r h; cases h
  | upd => intro r h; cases h

omit [LinearOrder D] in
/-- A step of a search does not change what it will return if the rows stay the same. -/
theorem Prog.runRO_step {α : Type} {R R' : Rows} {p p' : Prog α} (h : p.step R = some (R', p'))
    {r : α} (hr : p.runRO (graphOf R) = some r) : p'.runRO (graphOf R) = some r := by
  cases p with
  | ret a => cases h
  | fail => cases h
  | nbrs i k =>
    simp only [Prog.step, Option.some.injEq, Prod.mk.injEq] at h
    obtain ⟨_, rfl⟩ := h
    simp only [Prog.runRO, graphOf, List.getElem?_map] at hr
    rcases Option.eq_none_or_eq_some R[i]? with h1 | ⟨l, h1⟩
    · rw [h1] at hr; cases hr
    · rw [h1] at hr ⊢
      exact hr
  | unused => cases hr
  | upd => cases hr

/-- The entry point into the current layer is the one a search of the saved index uses. -/
theorem entry_findEntrypoint {d : RwData E D} {q : E} {e : Nat} (h : d.entry q = some (some e)) :
    findEntrypoint (d.prev.map graphOf) (d.elements.distTo q) = some e := by
  unfold RwData.entry search searchInternal at h
  rcases List.eq_nil_or_concat (d.prev.map graphOf) with hn | ⟨init, last, hl⟩
  · rw [hn] at h; simp at h
  · rw [List.concat_eq_append] at hl
    rw [hl] at h ⊢
    simp only [List.getLast?_append, List.getLast?_singleton, Option.some_or, List.dropLast_concat] at h
    unfold findEntrypoint at h ⊢
    rw [findEntrypointFrom_append]
    rcases Option.eq_none_or_eq_some (findEntrypointFrom (d.elements.distTo q) init 0) with h1 | ⟨e0, h1⟩
    · rw [h1] at h; simp at h
    · rw [h1] at h ⊢
      simp only [Option.bind_some, findEntrypointFrom] at h ⊢
      rcases Option.eq_none_or_eq_some ((searchForNeighbors last.length e0 (d.elements.distTo q) 1).runRO last) with
        h2 | ⟨r, h2⟩
      · rw [h2] at h; simp at h
      · rw [h2] at h ⊢
        cases r with
        | nil => simp at h
        | cons a r => simpa using h

/-- Searching the saved index is searching the current layer. -/
theorem search_saved {n₀ : Nat} {d : RwData E D} (h : RwInv n₀ d) {q : E} {e ms : Nat} (hms : 1 ≤ ms)
    (he : d.entry q = some (some e)) (k : Nat) :
    ∃ r, (searchForNeighbors d.current.length e (d.elements.distTo q) ms).runRO (graphOf d.current) = some r ∧
      search ((d.savedLayers (d.current.take d.len)).map graphOf) d.elements q ms k = some (r.take k) := by
  have hpub : Pub d.len d.Z d.current e := by
    obtain ⟨r, h1, h2⟩ := entry_ok h q
    rw [he] at h1; cases h1
    exact h2 e rfl
  have hlen : e < d.len := hpub.1
  have hsave : d.savedLayers (d.current.take d.len) = d.prev ++ [d.current.take d.len] := by
    unfold RwData.savedLayers
    rw [if_neg (by simp only [RwData.len] at hlen; omega)]
  have htl : (d.current.take d.len).length = d.len := by simp [h.rows.len]
  have hwf := (SnapOk.saved h).wf.wf
  rw [hsave, List.map_append, List.map_cons, List.map_nil] at hwf
  have hgl : (graphOf (d.current.take d.len)).length = d.len := by rw [graphOf_length, htl]
  obtain ⟨r, hr⟩ := searchForNeighbors_total (ms := ms) (dq := d.elements.distTo q) (entry := e)
    (n := d.current.length) (by omega) (hwf.inside (graphOf (d.current.take d.len)) (by simp))
    (fun i hi => distTo_isSome _ _ (by rw [hgl] at hi; exact hi)) (by rw [hgl]; exact hlen)
    (by rw [hgl]; exact h.rows.len)
  refine ⟨r, ?_, ?_⟩
  · have := Prog.runRO_append _ (graphOf (d.current.drop d.len)) _ _ hr
    rwa [graphOf, graphOf, ← List.map_append, List.take_append_drop] at this
  · rw [searchForNeighbors_fuel (m := (graphOf (d.current.take d.len)).length) (by rw [hgl]; exact h.rows.len) le_rfl] at hr
    simp only [search, searchInternal, hsave, List.map_append, List.map_cons, List.map_nil, List.getLast?_append,
      List.getLast?_singleton, Option.some_or, List.dropLast_concat, entry_findEntrypoint he, hr]

/-- A search returns what a search of the index saved in state `d` returns. -/
def SearchesSaved (d : RwData E D) : RwThread E D → Prop
  | .seRun q ms k p => ∃ r, p.runRO (graphOf d.current) = some r ∧
      search ((d.savedLayers (d.current.take d.len)).map graphOf) d.elements q ms k = some (r.take k)
  | .seDropL q ms k r | .seDropE q ms k r | .found q ms k r =>
      search ((d.savedLayers (d.current.take d.len)).map graphOf) d.elements q ms k = some r
  | _ => True

theorem SearchesSaved.step {n₀ t : Nat} {s : Rw E D} {th th' : RwThread E D} {d' : RwData E D}
    (h : RwSys n₀ s) (ht : s.threads[t]? = some th) (hl : Rw.Local srt s t th d' th') (hne : s.data.prev ≠ [])
    (hd : d' = s.data) (hp : SearchesSaved s.data th) : SearchesSaved s.data th' := by
  cases hl with
  | seTakeL q ms k entry _ _ he => exact search_saved h.data (h.thr t _ ht) he k
  | seNothing q ms k _ _ he => exact absurd (entry_none h.data he) hne
  | seStep q ms k p p' rows' hstep =>
    obtain ⟨r, h1, h2⟩ := hp
    exact ⟨r, Prog.runRO_step hstep h1, h2⟩
  | seResult q ms k r =>
    obtain ⟨r', h1, h2⟩ := hp
    simp only [Prog.runRO, Option.some.injEq] at h1
    subst h1
    exact h2
  | seDropL q ms k r => exact hp
  | seDropE q ms k r => exact hp
  | _ => trivial

theorem Rw.Quiet.search (hsrt : IsSortByDist srt) {n₀ t : Nat} {s s' : Rw E D} (hq : s.Quiet) (h : RwSys n₀ s)
    (hne : s.data.prev ≠ []) (hs : Rw.Steps srt s s') {th : RwThread E D} (ht : s.threads[t]? = some th)
    (hp : SearchesSaved s.data th) :
    s'.Quiet ∧ s'.data = s.data ∧ ∃ th', s'.threads[t]? = some th' ∧ SearchesSaved s.data th' := by
  induction hs with
  | refl => exact ⟨hq, rfl, th, ht, hp⟩
  | @tail s₂ s₃ h1 h2 ih =>
    obtain ⟨hq₂, hd₂, th₂, ht₂, hp₂⟩ := ih
    have hsys := (h.steps hsrt h1).1
    obtain ⟨hq₃, hd₃⟩ := hq₂.step hsys h2
    refine ⟨hq₃, hd₃.trans hd₂, ?_⟩
    cases h2 with
    | mk u ub ub' d' hu hl =>
      by_cases hut : u = t
      · subst hut
        rw [ht₂] at hu
        cases hu
        refine ⟨ub', by simp only [List.getElem?_set_self (List.getElem?_eq_some_iff.1 ht₂).1], ?_⟩
        rw [← hd₂] at hp₂ ⊢
        exact hp₂.step hsys ht₂ hl (by rw [hd₂]; exact hne) hd₃
      · exact ⟨th₂, by simp only [List.getElem?_set_ne hut]; exact ht₂, hp₂⟩

end Granne
