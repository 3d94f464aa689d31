import Verif.Proofs.Scan
import Verif.Spec.Graph

namespace Granne
open List Spec

variable {D : Type} [LinearOrder D]

/-- Loop invariant of `search_for_neighbors` on an immutable graph. `popped` is a ghost list of the
nodes whose neighbors were read. -/
structure SInv (g : Graph) (dq : Nat → Option D) (ms entry : Nat) (res : MaxSizeHeap (Cand D))
    (pq : List (Cand D)) (vis popped : List Nat) : Prop where
  maxSize : res.maxSize = ms
  resSorted : res.heap.Pairwise (· < ·)
  pqSorted : pq.Pairwise (· < ·)
  resLen : res.heap.length ≤ ms
  resPop : ∀ c ∈ res.heap, c.id ∈ popped ∧ dq c.id = some c.d
  pqVis : ∀ c ∈ pq, c.id ∈ vis ∧ dq c.id = some c.d
  popVis : ∀ i ∈ popped, i ∈ vis
  popPq : ∀ c ∈ pq, c.id ∉ popped
  popNodup : popped.Nodup
  popLt : ∀ i ∈ popped, i < g.length
  visReach : ∀ i ∈ vis, Reach g entry i
  entryVis : entry ∈ vis
  visDone : ∀ i ∈ vis, ∃ d, dq i = some d ∧ (⟨d, i⟩ ∈ res.heap ∨ ⟨d, i⟩ ∈ pq ∨
    (ms ≤ res.heap.length ∧ ∀ r ∈ res.heap, r.d ≤ d))
  closed : ∀ i ∈ popped, ∀ j, Edge g i j → j ∈ vis

/-- What is known about the kept candidates `h` (ascending) when the search returns. -/
structure SPost (g : Graph) (dq : Nat → Option D) (ms entry : Nat) (h : List (Cand D)) : Prop where
  sorted : h.Pairwise (· < ·)
  len : h.length ≤ ms
  mem : ∀ c ∈ h, dq c.id = some c.d ∧ c.id < g.length ∧ Reach g entry c.id
  entry : ∃ d, dq entry = some d ∧ (⟨d, entry⟩ ∈ h ∨ (ms ≤ h.length ∧ ∀ r ∈ h, r.d ≤ d))
  localOpt : ∀ c ∈ h, ∀ j, Edge g c.id j →
    ∃ d, dq j = some d ∧ (⟨d, j⟩ ∈ h ∨ (ms ≤ h.length ∧ ∀ r ∈ h, r.d ≤ d))

theorem SInv.init {g : Graph} {dq : Nat → Option D} {ms entry : Nat} {d : D}
    (hd : dq entry = some d) :
    SInv g dq ms entry (MaxSizeHeap.new _ ms) [⟨d, entry⟩] [entry] [] := by
  constructor <;> simp [MaxSizeHeap.new, hd]
  · exact Reach.refl

theorem SInv.post {g : Graph} {dq : Nat → Option D} {ms entry : Nat} {res : MaxSizeHeap (Cand D)}
    {pq : List (Cand D)} {vis popped : List Nat} (hi : SInv g dq ms entry res pq vis popped)
    (hpq : ∀ c ∈ pq, ms ≤ res.heap.length ∧ ∀ r ∈ res.heap, r.d ≤ c.d) :
    SPost g dq ms entry res.heap := by
  have key : ∀ i ∈ vis, ∃ d, dq i = some d ∧ (⟨d, i⟩ ∈ res.heap ∨
      (ms ≤ res.heap.length ∧ ∀ r ∈ res.heap, r.d ≤ d)) := by
    intro i hvi
    obtain ⟨d, hd, h | h | h⟩ := hi.visDone i hvi
    · exact ⟨d, hd, Or.inl h⟩
    · exact ⟨d, hd, Or.inr (hpq _ h)⟩
    · exact ⟨d, hd, Or.inr h⟩
  refine ⟨hi.resSorted, hi.resLen, ?_, key _ hi.entryVis, ?_⟩
  · intro c hc
    obtain ⟨h1, h2⟩ := hi.resPop c hc
    exact ⟨h2, hi.popLt _ h1, hi.visReach _ (hi.popVis _ h1)⟩
  · intro c hc j hj
    exact key j (hi.closed _ (hi.resPop c hc).1 j hj)

/-- One iteration preserves the invariant. -/
theorem SInv.step {g : Graph} {dq : Nat → Option D} {ms entry : Nat} {res res' : MaxSizeHeap (Cand D)}
    {pq pq' : List (Cand D)} {vis vis' popped : List Nat} {d : D} {idx : Nat} {b : Bool} {ns : List Nat}
    (hi : SInv g dq ms entry res (⟨d, idx⟩ :: pq) vis popped)
    (hpush : res.push ⟨d, idx⟩ = some (res', b)) (hns : g[idx]? = some ns)
    (hscan : scanNeighbors dq res' ns pq vis = some (pq', vis')) :
    SInv g dq ms entry res' pq' vis' (idx :: popped) := by
  have hpqs := (List.pairwise_cons.1 hi.pqSorted).2
  have hidx : idx ∈ vis ∧ dq idx = some d := hi.pqVis ⟨d, idx⟩ (by simp)
  have hidxp : idx ∉ popped := hi.popPq ⟨d, idx⟩ (by simp)
  have hnot : (⟨d, idx⟩ : Cand D) ∉ res.heap := fun h => hidxp (hi.resPop _ h).1
  have hpv : ∀ c ∈ pq, c.id ∈ vis := fun c hc => (hi.pqVis c (by simp [hc])).1
  obtain ⟨p1, p2, p3, p4, p5, p6, p7⟩ := MaxSizeHeap.push_spec hi.resSorted hnot
    (by rw [hi.maxSize]; exact hi.resLen) hpush
  obtain ⟨s1, s2, s3, s4⟩ := scan_spec dq res' ns pq vis pq' vis' hpqs hpv hscan
  rw [hi.maxSize] at p1 p3 p5 p6
  refine
    { maxSize := p1, resSorted := p2, pqSorted := s1, resLen := p3, resPop := ?_, pqVis := ?_,
      popVis := ?_, popPq := ?_, popNodup := List.nodup_cons.2 ⟨hidxp, hi.popNodup⟩, popLt := ?_,
      visReach := ?_, entryVis := (s2 _).2 (Or.inl hi.entryVis), visDone := ?_, closed := ?_ }
  · intro c hc
    rcases p4 c hc with rfl | hc
    · exact ⟨by simp, hidx.2⟩
    · have := hi.resPop c hc
      exact ⟨by simp [this.1], this.2⟩
  · intro c hc
    rcases (s3 c).1 hc with hc | ⟨a, _, b, _⟩
    · exact ⟨(s2 _).2 (Or.inl (hpv c hc)), (hi.pqVis c (by simp [hc])).2⟩
    · exact ⟨(s2 _).2 (Or.inr a), b⟩
  · intro i h
    rcases List.mem_cons.1 h with rfl | h
    · exact (s2 _).2 (Or.inl hidx.1)
    · exact (s2 _).2 (Or.inl (hi.popVis _ h))
  · intro c hc hmem
    rcases List.mem_cons.1 hmem with he | hmem
    · rcases (s3 c).1 hc with hc' | ⟨_, h, _⟩
      · have h1 := (hi.pqVis c (by simp [hc'])).2
        rw [he, hidx.2] at h1
        have : c = ⟨d, idx⟩ := by cases c; simp_all
        have hlt := (List.pairwise_cons.1 hi.pqSorted).1 c hc'
        rw [this] at hlt
        exact lt_irrefl _ hlt
      · exact h (he ▸ hidx.1)
    · rcases (s3 c).1 hc with hc' | ⟨_, h, _⟩
      · exact hi.popPq c (by simp [hc']) hmem
      · exact h (hi.popVis _ hmem)
  · intro i h
    rcases List.mem_cons.1 h with rfl | h
    · exact (List.getElem?_eq_some_iff.1 hns).1
    · exact hi.popLt _ h
  · intro i h
    rcases (s2 _).1 h with h | h
    · exact hi.visReach _ h
    · exact (hi.visReach _ hidx.1).step ⟨ns, hns, h⟩
  · -- every visited node is kept, queued or no better than the kept ones
    -- the worst kept candidate only improves once the heap is full
    have mono : ∀ d', (ms ≤ res.heap.length ∧ ∀ r ∈ res.heap, r.d ≤ d') →
        (ms ≤ res'.heap.length ∧ ∀ r ∈ res'.heap, r.d ≤ d') := by
      rintro d' ⟨hfull, hw⟩
      obtain ⟨q1, q2⟩ := p6 hfull
      refine ⟨q1, ?_⟩
      rcases List.eq_nil_or_concat res.heap with he | ⟨l', m, hm⟩
      · -- a full empty heap cannot be pushed to
        simp only [he, List.length_nil, Nat.le_zero_eq] at hfull
        have : res'.heap.length = 0 := by omega
        omega
      · have hlast : res.heap.getLast? = some m := by rw [hm]; simp
        have hmm : m ∈ res.heap := by rw [hm]; simp
        have hmax := le_of_getLast? hi.resSorted hlast
        intro r hr
        exact (Cand.d_le (q2 m hmm hmax r hr)).trans (hw m hmm)
    intro i hvi
    rcases (s2 i).1 hvi with h | h
    · obtain ⟨e, he, h1 | h1 | h1⟩ := hi.visDone i h
      · refine ⟨e, he, ?_⟩
        rcases p5 ⟨e, i⟩ (Or.inr h1) with h2 | ⟨h2, h3⟩
        · exact Or.inl h2
        · exact Or.inr (Or.inr ⟨h2, fun r hr => Cand.d_le (h3 r hr)⟩)
      · refine ⟨e, he, ?_⟩
        rcases List.mem_cons.1 h1 with h1 | h1
        · rcases p5 ⟨e, i⟩ (Or.inl h1) with h2 | ⟨h2, h3⟩
          · exact Or.inl h2
          · exact Or.inr (Or.inr ⟨h2, fun r hr => Cand.d_le (h3 r hr)⟩)
        · exact Or.inr (Or.inl ((s3 _).2 (Or.inl h1)))
      · exact ⟨e, he, Or.inr (Or.inr (mono e h1))⟩
    · by_cases hv : i ∈ vis
      · obtain ⟨e, he, h1 | h1 | h1⟩ := hi.visDone i hv
        · refine ⟨e, he, ?_⟩
          rcases p5 ⟨e, i⟩ (Or.inr h1) with h2 | ⟨h2, h3⟩
          · exact Or.inl h2
          · exact Or.inr (Or.inr ⟨h2, fun r hr => Cand.d_le (h3 r hr)⟩)
        · refine ⟨e, he, ?_⟩
          rcases List.mem_cons.1 h1 with h1 | h1
          · rcases p5 ⟨e, i⟩ (Or.inl h1) with h2 | ⟨h2, h3⟩
            · exact Or.inl h2
            · exact Or.inr (Or.inr ⟨h2, fun r hr => Cand.d_le (h3 r hr)⟩)
          · exact Or.inr (Or.inl ((s3 _).2 (Or.inl h1)))
        · exact ⟨e, he, Or.inr (Or.inr (mono e h1))⟩
      · obtain ⟨e, he, ha | ⟨hf, top, ht, hle⟩⟩ := s4 i h hv
        · exact ⟨e, he, Or.inr (Or.inl ((s3 _).2 (Or.inr ⟨h, hv, he, ha⟩)))⟩
        · refine ⟨e, he, Or.inr (Or.inr ⟨?_, ?_⟩)⟩
          · simpa [MaxSizeHeap.isFull, p1] using hf
          · intro r hr
            exact (Cand.d_le (le_of_getLast? p2 ht r hr)).trans hle
  · intro i h j hj
    rcases List.mem_cons.1 h with rfl | h
    · obtain ⟨l, hl, hm⟩ := hj
      rw [hns] at hl
      cases hl
      exact (s2 _).2 (Or.inr hm)
    · exact (s2 _).2 (Or.inl (hi.closed _ h j hj))

/-- Partial correctness of the loop. -/
theorem searchLoop_post {g : Graph} {dq : Nat → Option D} {ms entry : Nat} :
    ∀ (fuel : Nat) (res : MaxSizeHeap (Cand D)) (pq : List (Cand D)) (vis popped : List Nat)
      (r : List (Nat × D)),
      SInv g dq ms entry res pq vis popped →
      (searchLoop dq fuel res pq vis).runRO g = some r →
      ∃ h, r = h.map (fun c => (c.id, c.d)) ∧ SPost g dq ms entry h := by
  intro fuel
  induction fuel with
  | zero => intro res pq vis popped r _ h; simp [searchLoop, Prog.runRO] at h
  | succ fuel ih =>
    intro res pq vis popped r hi h
    cases pq with
    | nil =>
      simp only [searchLoop, Prog.runRO, Option.some.injEq] at h
      exact ⟨res.heap, h.symm, hi.post (by simp)⟩
    | cons c pq =>
      obtain ⟨d, idx⟩ := c
      rw [searchLoop] at h
      cases hst : shouldStop res d with
      | none => simp [hst, Prog.runRO] at h
      | some b =>
        cases b with
        | true =>
          simp only [hst, Prog.runRO, Option.some.injEq] at h
          refine ⟨res.heap, h.symm, hi.post ?_⟩
          unfold shouldStop at hst
          by_cases hf : res.isFull
          · simp only [hf, if_true] at hst
            cases ht : res.peek with
            | none => simp [ht] at hst
            | some top =>
              simp only [ht, Option.some.injEq, decide_eq_true_eq] at hst
              intro c hc
              refine ⟨by simpa [MaxSizeHeap.isFull, hi.maxSize] using hf, fun r hr => ?_⟩
              have h1 := Cand.d_le (le_of_getLast? hi.resSorted ht r hr)
              have h2 : d ≤ c.d := by
                rcases List.mem_cons.1 hc with rfl | hc
                · exact le_rfl
                · exact Cand.d_le (a := ⟨d, idx⟩) ((List.pairwise_cons.1 hi.pqSorted).1 c hc).le
              exact h1.trans (hst.le.trans h2)
          · simp [hf] at hst
        | false =>
          simp only [hst] at h
          cases hp : res.push ⟨d, idx⟩ with
          | none => simp [hp, Prog.runRO] at h
          | some rb =>
            obtain ⟨res', b⟩ := rb
            simp only [hp, Prog.runRO] at h
            cases hg : g[idx]? with
            | none => simp [hg] at h
            | some ns =>
              simp only [hg] at h
              cases hsc : scanNeighbors dq res' ns pq vis with
              | none => simp [hsc, Prog.runRO] at h
              | some pv =>
                obtain ⟨pq', vis'⟩ := pv
                simp only [hsc] at h
                exact ih res' pq' vis' (idx :: popped) r (hi.step hp hg hsc) h

/-- Totality of the loop: no panic, and the fuel suffices. -/
theorem searchLoop_total {g : Graph} {dq : Nat → Option D} {ms entry : Nat} (hms : 0 < ms)
    (hg : EdgesInside g) (hdq : ∀ i < g.length, (dq i).isSome) :
    ∀ (fuel : Nat) (res : MaxSizeHeap (Cand D)) (pq : List (Cand D)) (vis popped : List Nat),
      SInv g dq ms entry res pq vis popped → (∀ c ∈ pq, c.id < g.length) →
      g.length + 1 ≤ popped.length + fuel →
      ∃ r, (searchLoop dq fuel res pq vis).runRO g = some r := by
  intro fuel
  induction fuel with
  | zero =>
    intro res pq vis popped hi _ hfuel
    exfalso
    have : popped ⊆ List.range g.length := fun i h => List.mem_range.2 (hi.popLt i h)
    have := (List.subperm_of_subset hi.popNodup this).length_le
    simp at this; omega
  | succ fuel ih =>
    intro res pq vis popped hi hpq hfuel
    cases pq with
    | nil => exact ⟨_, by rw [searchLoop, Prog.runRO]⟩
    | cons c pq =>
      obtain ⟨d, idx⟩ := c
      have hidx : idx < g.length := hpq ⟨d, idx⟩ (by simp)
      have hmsr : 0 < res.maxSize := by rw [hi.maxSize]; exact hms
      have hst : ∃ b, shouldStop res d = some b := by
        unfold shouldStop
        by_cases hf : res.isFull
        · obtain ⟨t, ht⟩ := MaxSizeHeap.peek_isSome hmsr hf
          simp [hf, ht]
        · simp [hf]
      obtain ⟨b, hst⟩ := hst
      rw [searchLoop]
      cases b with
      | true => simp only [hst]; exact ⟨_, rfl⟩
      | false =>
        obtain ⟨⟨res', b⟩, hp⟩ := MaxSizeHeap.push_isSome hmsr (⟨d, idx⟩ : Cand D)
        have hns : g[idx]? = some g[idx] := List.getElem?_eq_getElem hidx
        have hedge : ∀ j ∈ g[idx], j < g.length := fun j hj => hg idx j ⟨_, hns, hj⟩
        have hres' : res'.maxSize = res.maxSize := by
          have hnot : (⟨d, idx⟩ : Cand D) ∉ res.heap := fun h =>
            hi.popPq ⟨d, idx⟩ (by simp) (hi.resPop _ h).1
          exact (MaxSizeHeap.push_spec hi.resSorted hnot
            (by rw [hi.maxSize]; exact hi.resLen) hp).1
        obtain ⟨⟨pq', vis'⟩, hsc⟩ := scan_isSome dq res' g[idx] pq vis (by
          intro n hn _
          refine ⟨hdq n (hedge n hn), fun hf => ?_⟩
          obtain ⟨t, ht⟩ := MaxSizeHeap.peek_isSome (by rw [hres']; exact hmsr) hf
          simp [ht])
        simp only [hst, hp, Prog.runRO, hns, hsc]
        refine ih res' pq' vis' (idx :: popped) (hi.step hp hns hsc) ?_ ?_
        · intro c hc
          have hpqs := (List.pairwise_cons.1 hi.pqSorted).2
          have hpv : ∀ c ∈ pq, c.id ∈ vis := fun c hc => (hi.pqVis c (by simp [hc])).1
          rcases ((scan_spec dq res' g[idx] pq vis pq' vis' hpqs hpv hsc).2.2.1 c).1 hc with h | h
          · exact hpq c (by simp [h])
          · exact hedge _ h.1
        · simp; omega

theorem searchForNeighbors_post {g : Graph} {dq : Nat → Option D} {ms entry n : Nat}
    {r : List (Nat × D)} (h : (searchForNeighbors n entry dq ms).runRO g = some r) :
    ∃ l, r = l.map (fun c => (c.id, c.d)) ∧ SPost g dq ms entry l := by
  unfold searchForNeighbors at h
  cases hd : dq entry with
  | none => simp [hd, Prog.runRO] at h
  | some d =>
    simp only [hd] at h
    exact searchLoop_post _ _ _ _ [] r (SInv.init hd) h

theorem searchForNeighbors_total {g : Graph} {dq : Nat → Option D} {ms entry n : Nat} (hms : 0 < ms)
    (hg : EdgesInside g) (hdq : ∀ i < g.length, (dq i).isSome) (he : entry < g.length)
    (hn : g.length ≤ n) :
    ∃ r, (searchForNeighbors n entry dq ms).runRO g = some r := by
  unfold searchForNeighbors
  have := hdq entry he
  cases hd : dq entry with
  | none => simp [hd] at this
  | some d =>
    simp only
    refine searchLoop_total (entry := entry) hms hg hdq _ _ _ _ [] (SInv.init hd) (by simpa using he) ?_
    simp; exact hn

theorem SPost.ne_nil {g : Graph} {dq : Nat → Option D} {ms entry : Nat} {h : List (Cand D)}
    (hp : SPost g dq ms entry h) (hms : 0 < ms) : h ≠ [] := by
  rintro rfl
  obtain ⟨d, _, h | h⟩ := hp.entry
  · simp at h
  · simp at h; omega

/-- If the heap did not fill up, everything reachable was kept. -/
theorem SPost.reach_of_not_full {g : Graph} {dq : Nat → Option D} {ms entry : Nat} {h : List (Cand D)}
    (hp : SPost g dq ms entry h) (hlen : h.length < ms) {j : Nat} (hj : Reach g entry j) :
    ∃ d, dq j = some d ∧ ⟨d, j⟩ ∈ h := by
  induction hj with
  | refl =>
    obtain ⟨d, hd, h1 | h1⟩ := hp.entry
    · exact ⟨d, hd, h1⟩
    · omega
  | step _ hedge ih =>
    obtain ⟨d, _, hm⟩ := ih
    obtain ⟨d', hd', h1 | h1⟩ := hp.localOpt _ hm _ hedge
    · exact ⟨d', hd', h1⟩
    · omega

theorem SPost.ids_nodup {g : Graph} {dq : Nat → Option D} {ms entry : Nat} {h : List (Cand D)}
    (hp : SPost g dq ms entry h) : (h.map Cand.id).Nodup := by
  refine List.Pairwise.map _ (fun a b hab => ?_) (List.Pairwise.and_mem.1 hp.sorted)
  obtain ⟨ha, hb, hlt⟩ := hab
  intro e
  have h1 := (hp.mem a ha).1
  have h2 := (hp.mem b hb).1
  rw [e, h2] at h1
  have : a = b := by cases a; cases b; simp_all
  exact absurd hlt (by rw [this]; exact lt_irrefl _)

/-- With room for every reachable node, exactly the reachable nodes are kept. -/
theorem SPost.exact {g : Graph} {dq : Nat → Option D} {ms entry : Nat} {h : List (Cand D)}
    (hp : SPost g dq ms entry h) (R : List Nat)
    (hR : ∀ j, j ∈ R ↔ Reach g entry j) (hcard : R.length ≤ ms) (j : Nat) :
    j ∈ h.map Cand.id ↔ Reach g entry j := by
  constructor
  · intro hj
    obtain ⟨c, hc, rfl⟩ := List.mem_map.1 hj
    exact (hp.mem c hc).2.2
  · intro hj
    by_cases hlen : h.length < ms
    · obtain ⟨d, _, hm⟩ := hp.reach_of_not_full hlen hj
      exact List.mem_map.2 ⟨_, hm, rfl⟩
    · have hsub : h.map Cand.id ⊆ R := by
        intro i hi
        obtain ⟨c, hc, rfl⟩ := List.mem_map.1 hi
        exact (hR _).2 (hp.mem c hc).2.2
      have hsp := List.subperm_of_subset hp.ids_nodup hsub
      have hperm := hsp.perm_of_length_le (by simp; omega)
      exact hperm.mem_iff.2 ((hR j).2 hj)

end Granne
