import Verif.Proofs.SearchIndex

/-! A search with a larger `max_search` runs through the same nodes first, as long as no two distances are equal. -/
namespace Granne
open List Spec

variable {D : Type} [LinearOrder D]

/-- The end of a run: the invariant still holds and nothing popped is forgotten. -/
theorem searchLoop_final {g : Graph} {dq : Nat → Option D} {ms entry : Nat} :
    ∀ (fuel : Nat) (res : MaxSizeHeap (Cand D)) (pq : List (Cand D)) (vis popped : List Nat)
      (r : List (Nat × D)),
      SInv g dq ms entry res pq vis popped → (searchLoop dq fuel res pq vis).runRO g = some r →
      ∃ (res' : MaxSizeHeap (Cand D)) (pq' : List (Cand D)) (vis' popped' : List Nat),
        r = res'.heap.map (fun c => (c.id, c.d)) ∧ SInv g dq ms entry res' pq' vis' popped' ∧
        ∀ i ∈ popped, i ∈ popped' := by
  intro fuel
  induction fuel with
  | zero => intro res pq vis popped r _ h; simp [searchLoop, Prog.runRO] at h
  | succ fuel ih =>
    intro res pq vis popped r hi h
    cases pq with
    | nil =>
      simp only [searchLoop, Prog.runRO, Option.some.injEq] at h
      exact ⟨res, [], vis, popped, h.symm, hi, fun _ h => h⟩
    | cons c pq =>
      obtain ⟨d, idx⟩ := c
      rw [searchLoop] at h
      cases hst : shouldStop res d with
      | none => simp [hst, Prog.runRO] at h
      | some b =>
        cases b with
        | true =>
          simp only [hst, Prog.runRO, Option.some.injEq] at h
          exact ⟨res, _, vis, popped, h.symm, hi, fun _ h => h⟩
        | false =>
          simp only [hst] at h
          cases hp : res.push ⟨d, idx⟩ with
          | none => simp [hp, Prog.runRO] at h
          | some rb =>
            obtain ⟨res', b⟩ := rb
            simp only [hp, Prog.runRO] at h
            cases hg : g[idx]? with
            | none => simp [hg] at h
            | some ns =>
              simp only [hg] at h
              cases hsc : scanNeighbors dq res' ns pq vis with
              | none => simp [hsc, Prog.runRO] at h
              | some pv =>
                obtain ⟨pq', vis'⟩ := pv
                simp only [hsc] at h
                obtain ⟨a, b, c, e, h1, h2, h3⟩ := ih res' pq' vis' (idx :: popped) r (hi.step hp hg hsc) h
                exact ⟨a, b, c, e, h1, h2, fun i hi => h3 i (by simp [hi])⟩

/-- A popped node was kept, or enough kept ones are at least as close. -/
theorem SInv.popDone {g : Graph} {dq : Nat → Option D} {ms entry : Nat} {res : MaxSizeHeap (Cand D)}
    {pq : List (Cand D)} {vis popped : List Nat} (hi : SInv g dq ms entry res pq vis popped) {i : Nat} (h : i ∈ popped)
    {d : D} (hd : dq i = some d) :
    ⟨d, i⟩ ∈ res.heap ∨ (ms ≤ res.heap.length ∧ ∀ r ∈ res.heap, r.d ≤ d) := by
  obtain ⟨d', hd', h1 | h1 | h1⟩ := hi.visDone i (hi.popVis i h)
  · rw [hd] at hd'; cases hd'; exact Or.inl h1
  · exact absurd h (hi.popPq _ h1)
  · rw [hd] at hd'; cases hd'; exact Or.inr h1

theorem heap_nodup {T : Type} [LinearOrder T] {l : List T} (h : l.Pairwise (· < ·)) : l.Nodup := h.imp fun h => ne_of_lt h

/-- If the larger heap is full of nodes at most `x` away, so is the smaller one. -/
theorem SInv.worst_le {g : Graph} {dq : Nat → Option D} {m m' entry : Nat} {res res' : MaxSizeHeap (Cand D)}
    {pq pq' : List (Cand D)} {vis vis' popped popped' : List Nat}
    (hi : SInv g dq m entry res pq vis popped) (hi' : SInv g dq m' entry res' pq' vis' popped')
    (hsub : ∀ i ∈ popped', i ∈ popped) (hm : m ≤ m') {x : D}
    (h : m' ≤ res'.heap.length ∧ ∀ r ∈ res'.heap, r.d ≤ x) : m ≤ res.heap.length ∧ ∀ r ∈ res.heap, r.d ≤ x := by
  by_cases hall : ∀ c ∈ res'.heap, c ∈ res.heap
  · have hsp := List.subperm_of_subset (heap_nodup hi'.resSorted) hall
    have hperm := hsp.perm_of_length_le (by have := hi.resLen; omega)
    exact ⟨by have := hperm.length_eq; omega, fun r hr => h.2 r (hperm.mem_iff.2 hr)⟩
  · push Not at hall
    obtain ⟨c, hc, hn⟩ := hall
    obtain ⟨h1, h2⟩ := hi'.resPop c hc
    rcases hi.popDone (hsub _ h1) h2 with h3 | ⟨h3, h4⟩
    · exact absurd h3 hn
    · exact ⟨h3, fun r hr => (h4 r hr).trans (h.2 c hc)⟩

/-- The larger heap is at least as good, place by place. -/
theorem SInv.dominates {g : Graph} {dq : Nat → Option D} {m m' entry : Nat} {res res' : MaxSizeHeap (Cand D)}
    {pq pq' : List (Cand D)} {vis vis' popped popped' : List Nat}
    (hi : SInv g dq m entry res pq vis popped) (hi' : SInv g dq m' entry res' pq' vis' popped')
    (hsub : ∀ i ∈ popped, i ∈ popped') (hm : m ≤ m') (i : Nat) (c : Cand D) (hc : res.heap[i]? = some c) :
    ∃ c', res'.heap[i]? = some c' ∧ c'.d ≤ c.d := by
  obtain ⟨hlt, hc'⟩ := List.getElem?_eq_some_iff.1 hc
  have hle : ∀ x ∈ res.heap.take (i + 1), x ≤ c := by
    intro x hx
    obtain ⟨j, hj, rfl⟩ := List.mem_iff_getElem.1 hx
    rw [List.length_take] at hj
    rw [List.getElem_take]
    rcases Nat.lt_or_ge j i with h | h
    · rw [← hc']
      exact ((List.pairwise_iff_getElem.1 hi.resSorted) j i (by omega) hlt h).le
    · have : j = i := by omega
      subst this
      rw [hc']
  by_cases hall : ∀ x ∈ res.heap.take (i + 1), x ∈ res'.heap
  · have hnd : (res.heap.take (i + 1)).Nodup := (heap_nodup hi.resSorted).sublist (List.take_sublist _ _)
    have hlen := (List.subperm_of_subset hnd hall).length_le
    rw [List.length_take] at hlen
    have hlt' : i < res'.heap.length := by omega
    refine ⟨res'.heap[i], List.getElem?_eq_getElem hlt', ?_⟩
    by_contra hgt
    have hgt' : c < res'.heap[i] := (Cand.lt_iff _ _).2 (Or.inl (not_le.1 hgt))
    have hall' : ∀ x ∈ res.heap.take (i + 1), x ∈ res'.heap.take i := by
      intro x hx
      obtain ⟨j, hj, hjx⟩ := List.mem_iff_getElem.1 (hall x hx)
      have : j < i := by
        by_contra hji
        have hji := not_lt.1 hji
        have h1 : res'.heap[i] ≤ x := by
          rw [← hjx]
          rcases Nat.eq_or_lt_of_le hji with h | h
          · subst h; exact le_rfl
          · exact ((List.pairwise_iff_getElem.1 hi'.resSorted) i j hlt' hj h).le
        exact absurd ((hle x hx).trans_lt hgt') (not_lt.2 h1)
      rw [← hjx]
      exact List.mem_iff_getElem.2 ⟨j, by rw [List.length_take]; omega, List.getElem_take⟩
    have := (List.subperm_of_subset hnd hall').length_le
    rw [List.length_take, List.length_take] at this
    omega
  · push Not at hall
    obtain ⟨x, hx, hn⟩ := hall
    obtain ⟨h1, h2⟩ := hi.resPop x (List.mem_of_mem_take hx)
    rcases hi'.popDone (hsub _ h1) h2 with h3 | ⟨h3, h4⟩
    · exact absurd h3 hn
    · have hlt' : i < res'.heap.length := by have := hi.resLen; omega
      exact ⟨res'.heap[i], List.getElem?_eq_getElem hlt', (h4 _ (List.getElem_mem _)).trans (Cand.d_le (hle x hx))⟩

/-- The two runs in lockstep. -/
structure Lock (g : Graph) (dq : Nat → Option D) (m m' entry : Nat) (res res' : MaxSizeHeap (Cand D))
    (pq pq' : List (Cand D)) (vis vis' popped : List Nat) : Prop where
  inv : SInv g dq m entry res pq vis popped
  inv' : SInv g dq m' entry res' pq' vis' popped
  vis : ∀ i, i ∈ vis ↔ i ∈ vis'
  sub : ∀ c ∈ pq, c ∈ pq'
  extra : ∀ c ∈ pq', c ∉ pq → m ≤ res.heap.length ∧ ∀ r ∈ res.heap, r.d < c.d

theorem not_accept {res : MaxSizeHeap (Cand D)} {d : D} :
    Accept res d → ¬ (res.maxSize ≤ res.heap.length ∧ ∀ r ∈ res.heap, r.d ≤ d) := by
  rintro (h | ⟨top, h1, h2⟩) ⟨h3, h4⟩
  · simp [MaxSizeHeap.isFull] at h
    omega
  · exact absurd (h4 top (List.mem_of_getLast? h1)) (not_le.2 h2)

theorem accept_of {res : MaxSizeHeap (Cand D)} (hs : res.heap.Pairwise (· < ·)) (hpos : 0 < res.heap.length) {d : D}
    (h : ¬ (res.maxSize ≤ res.heap.length ∧ ∀ r ∈ res.heap, r.d ≤ d)) : Accept res d := by
  by_cases hf : res.isFull = false
  · exact Or.inl hf
  · right
    have hne : res.heap ≠ [] := by intro e; simp [e] at hpos
    refine ⟨res.heap.getLast hne, by simp [MaxSizeHeap.peek, List.getLast?_eq_getLast_of_ne_nil hne], ?_⟩
    by_contra hc
    have hc := not_lt.1 hc
    apply h
    refine ⟨by simpa [MaxSizeHeap.isFull] using hf, fun r hr => ?_⟩
    exact (Cand.d_le (le_of_getLast? hs (List.getLast?_eq_getLast_of_ne_nil hne) r hr)).trans hc

/-- A search that does not stop at `d` does not have enough nodes closer than `d`. -/
theorem shouldStop_false {res : MaxSizeHeap (Cand D)} {d : D}
    (h : shouldStop res d = some false) (hpos : 0 < res.maxSize) :
    ¬ (res.maxSize ≤ res.heap.length ∧ ∀ r ∈ res.heap, r.d < d) := by
  rintro ⟨h1, h2⟩
  have hf : res.isFull = true := by simpa [MaxSizeHeap.isFull] using h1
  obtain ⟨t, ht⟩ := MaxSizeHeap.peek_isSome hpos hf
  simp only [shouldStop, hf, if_true, ht, Option.some.injEq, decide_eq_false_iff_not] at h
  exact h (h2 t (List.mem_of_getLast? ht))

theorem searchLoop_mono {g : Graph} {dq : Nat → Option D} {m m' entry : Nat} (hm0 : 0 < m) (hm : m ≤ m')
    (hties : ∀ i j : Nat, Reach g entry i → Reach g entry j → (dq i).isSome → dq i = dq j → i = j) :
    ∀ (fuel : Nat) (res res' : MaxSizeHeap (Cand D)) (pq pq' : List (Cand D)) (vis vis' popped : List Nat)
      (r r' : List (Nat × D)),
      Lock g dq m m' entry res res' pq pq' vis vis' popped →
      (searchLoop dq fuel res pq vis).runRO g = some r → (searchLoop dq fuel res' pq' vis').runRO g = some r' →
      ∀ (i : Nat) (p : Nat × D), r[i]? = some p → ∃ p', r'[i]? = some p' ∧ p'.2 ≤ p.2 := by
  intro fuel
  induction fuel with
  | zero => intro res res' pq pq' vis vis' popped r r' _ h; simp [searchLoop, Prog.runRO] at h
  | succ fuel ih =>
    intro res res' pq pq' vis vis' popped r r' hl h h'
    have fin : r = res.heap.map (fun c => (c.id, c.d)) →
        ∀ (i : Nat) (p : Nat × D), r[i]? = some p → ∃ p', r'[i]? = some p' ∧ p'.2 ≤ p.2 := by
      rintro rfl i p hp
      obtain ⟨res2, pq2, vis2, popped2, rfl, hi2, hs2⟩ := searchLoop_final _ _ _ _ _ _ hl.inv' h'
      rw [List.getElem?_map, Option.map_eq_some_iff] at hp
      obtain ⟨c, hc, rfl⟩ := hp
      obtain ⟨c', hc', hle⟩ := hl.inv.dominates hi2 hs2 hm i c hc
      exact ⟨(c'.id, c'.d), by rw [List.getElem?_map, hc']; rfl, hle⟩
    cases pq with
    | nil =>
      simp only [searchLoop, Prog.runRO, Option.some.injEq] at h
      exact fin h.symm
    | cons c pq =>
      obtain ⟨d, idx⟩ := c
      rw [searchLoop] at h
      cases hst : shouldStop res d with
      | none => simp [hst, Prog.runRO] at h
      | some b =>
        cases b with
        | true =>
          simp only [hst, Prog.runRO, Option.some.injEq] at h
          exact fin h.symm
        | false =>
          simp only [hst] at h
          have hnb := shouldStop_false hst (by rw [hl.inv.maxSize]; exact hm0)
          rw [hl.inv.maxSize] at hnb
          -- the other queue has the same first node
          have hmin : ∀ c2 ∈ pq', (⟨d, idx⟩ : Cand D) ≤ c2 := by
            intro c2 h2
            by_cases h3 : c2 ∈ (⟨d, idx⟩ :: pq : List (Cand D))
            · rcases List.mem_cons.1 h3 with h4 | h4
              · exact h4.symm.le
              · exact ((List.pairwise_cons.1 hl.inv.pqSorted).1 c2 h4).le
            · obtain ⟨h4, h5⟩ := hl.extra c2 h2 h3
              by_contra hc
              have hc' : c2.d ≤ d := Cand.d_le (b := ⟨d, idx⟩) (le_of_lt (not_le.1 hc))
              exact hnb ⟨h4, fun r hr => (h5 r hr).trans_le hc'⟩
          have hmem := hl.sub ⟨d, idx⟩ (by simp)
          obtain ⟨pq1, rfl⟩ : ∃ pq1, pq' = ⟨d, idx⟩ :: pq1 := by
            cases pq' with
            | nil => simp at hmem
            | cons c2 pq1 =>
              rcases List.mem_cons.1 hmem with h | h
              · exact ⟨pq1, by rw [h]⟩
              · exact absurd ((List.pairwise_cons.1 hl.inv'.pqSorted).1 _ h) (not_lt.2 (hmin c2 (by simp)))
          rw [searchLoop] at h'
          cases hst' : shouldStop res' d with
          | none => simp [hst', Prog.runRO] at h'
          | some b =>
            cases b with
            | true =>
              exfalso
              unfold shouldStop at hst'
              by_cases hf : res'.isFull
              · simp only [hf, if_true] at hst'
                cases ht : res'.peek with
                | none => simp [ht] at hst'
                | some top =>
                  simp only [ht, Option.some.injEq, decide_eq_true_eq] at hst'
                  have hw := hl.inv.worst_le hl.inv' (fun _ h => h) hm (x := top.d)
                    ⟨by simpa [MaxSizeHeap.isFull, hl.inv'.maxSize] using hf,
                      fun r hr => Cand.d_le (le_of_getLast? hl.inv'.resSorted ht r hr)⟩
                  exact hnb ⟨hw.1, fun r hr => (hw.2 r hr).trans_lt hst'⟩
              · simp [hf] at hst'
            | false =>
              simp only [hst'] at h'
              cases hp : res.push ⟨d, idx⟩ with
              | none => simp [hp, Prog.runRO] at h
              | some rb =>
                obtain ⟨resA, b⟩ := rb
                simp only [hp, Prog.runRO] at h
                cases hp' : res'.push ⟨d, idx⟩ with
                | none => simp [hp', Prog.runRO] at h'
                | some rb' =>
                  obtain ⟨resB, b'⟩ := rb'
                  simp only [hp', Prog.runRO] at h'
                  cases hg : g[idx]? with
                  | none => simp [hg] at h
                  | some ns =>
                    simp only [hg] at h h'
                    cases hsc : scanNeighbors dq resA ns pq vis with
                    | none => simp [hsc, Prog.runRO] at h
                    | some pv =>
                      obtain ⟨pqA, visA⟩ := pv
                      cases hsc' : scanNeighbors dq resB ns pq1 vis' with
                      | none => simp [hsc', Prog.runRO] at h'
                      | some pv' =>
                        obtain ⟨pqB, visB⟩ := pv'
                        simp only [hsc] at h
                        simp only [hsc'] at h'
                        refine ih resA resB pqA pqB visA visB (idx :: popped) r r' ?_ h h'
                        have iA := hl.inv.step hp hg hsc
                        have iB := hl.inv'.step hp' hg hsc'
                        have hidxp : idx ∉ popped := hl.inv.popPq ⟨d, idx⟩ (by simp)
                        have hnot : (⟨d, idx⟩ : Cand D) ∉ res.heap := fun h => hidxp (hl.inv.resPop _ h).1
                        have hnot' : (⟨d, idx⟩ : Cand D) ∉ res'.heap := fun h => hidxp (hl.inv'.resPop _ h).1
                        obtain ⟨p1, p2, p3, p4, p5, p6, p7⟩ := MaxSizeHeap.push_spec hl.inv.resSorted hnot
                          (by rw [hl.inv.maxSize]; exact hl.inv.resLen) hp
                        obtain ⟨_, p2', _, _, _, _, p7'⟩ := MaxSizeHeap.push_spec hl.inv'.resSorted hnot'
                          (by rw [hl.inv'.maxSize]; exact hl.inv'.resLen) hp'
                        rw [hl.inv.maxSize] at p6
                        obtain ⟨s1, s2, s3, s4⟩ := scan_spec dq resA ns pq vis pqA visA
                          (List.pairwise_cons.1 hl.inv.pqSorted).2 (fun c hc => (hl.inv.pqVis c (by simp [hc])).1) hsc
                        obtain ⟨s1', s2', s3', s4'⟩ := scan_spec dq resB ns pq1 vis' pqB visB
                          (List.pairwise_cons.1 hl.inv'.pqSorted).2 (fun c hc => (hl.inv'.pqVis c (by simp [hc])).1) hsc'
                        refine ⟨iA, iB, fun i => by rw [s2, s2', hl.vis], ?_, ?_⟩
                        · intro c hc
                          rcases (s3 c).1 hc with hc | ⟨a1, a2, a3, a4⟩
                          · refine (s3' c).2 (Or.inl ?_)
                            rcases List.mem_cons.1 (hl.sub c (by simp [hc])) with h1 | h1
                            · exact absurd ((List.pairwise_cons.1 hl.inv.pqSorted).1 c hc) (by rw [h1]; exact lt_irrefl _)
                            · exact h1
                          · refine (s3' c).2 (Or.inr ⟨a1, fun h => a2 ((hl.vis _).2 h), a3, ?_⟩)
                            refine accept_of p2' p7' fun hw => not_accept a4 ?_
                            rw [iB.maxSize] at hw
                            rw [iA.maxSize]
                            exact iA.worst_le iB (fun _ h => h) hm hw
                        · intro c hc hcn
                          rcases (s3' c).1 hc with hc' | ⟨a1, a2, a3, a4⟩
                          · have hcpq : c ∉ (⟨d, idx⟩ :: pq : List (Cand D)) := by
                              intro h1
                              rcases List.mem_cons.1 h1 with h2 | h2
                              · exact absurd ((List.pairwise_cons.1 hl.inv'.pqSorted).1 c hc') (by rw [h2]; exact lt_irrefl _)
                              · exact hcn ((s3 c).2 (Or.inl h2))
                            obtain ⟨h4, h5⟩ := hl.extra c (by simp [hc']) hcpq
                            obtain ⟨q1, q2⟩ := p6 h4
                            refine ⟨q1, fun r hr => ?_⟩
                            have hne : res.heap ≠ [] := by intro e; simp [e] at h4; omega
                            have hlast := List.getLast?_eq_getLast_of_ne_nil hne
                            have hmm := List.mem_of_getLast? hlast
                            exact (Cand.d_le (q2 _ hmm (le_of_getLast? hl.inv.resSorted hlast) r hr)).trans_lt (h5 _ hmm)
                          · have hnv : c.id ∉ vis := fun h => a2 ((hl.vis _).1 h)
                            have hna : ¬ Accept resA c.d := fun h => hcn ((s3 c).2 (Or.inr ⟨a1, hnv, a3, h⟩))
                            have hw : resA.maxSize ≤ resA.heap.length ∧ ∀ r ∈ resA.heap, r.d ≤ c.d := by
                              by_contra hw
                              exact hna (accept_of p2 p7 hw)
                            rw [iA.maxSize] at hw
                            refine ⟨hw.1, fun r hr => lt_of_le_of_ne (hw.2 r hr) fun e => ?_⟩
                            obtain ⟨b1, b2⟩ := iA.resPop r hr
                            have hid : r.id = c.id := hties _ _ (iA.visReach _ (iA.popVis _ b1))
                              (iA.visReach _ ((s2 _).2 (Or.inr a1))) (by rw [b2]; rfl) (by rw [b2, a3, e])
                            rcases List.mem_cons.1 b1 with b1 | b1
                            · exact hnv (by rw [← hid, b1]; exact (hl.inv.pqVis ⟨d, idx⟩ (by simp)).1)
                            · exact hnv (by rw [← hid]; exact hl.inv.popVis _ b1)

theorem searchForNeighbors_mono {g : Graph} {dq : Nat → Option D} {m m' entry n : Nat} (hm : m ≤ m')
    (hties : ∀ i j : Nat, Reach g entry i → Reach g entry j → (dq i).isSome → dq i = dq j → i = j)
    {r r' : List (Nat × D)} (h : (searchForNeighbors n entry dq m).runRO g = some r)
    (h' : (searchForNeighbors n entry dq m').runRO g = some r') :
    ∀ (i : Nat) (p : Nat × D), r[i]? = some p → ∃ p', r'[i]? = some p' ∧ p'.2 ≤ p.2 := by
  by_cases hm0 : 0 < m
  · unfold searchForNeighbors at h h'
    cases hd : dq entry with
    | none => simp [hd, Prog.runRO] at h
    | some d =>
      simp only [hd] at h h'
      refine searchLoop_mono hm0 hm hties _ _ _ _ _ _ _ [] r r' ⟨SInv.init hd, SInv.init hd, fun _ => Iff.rfl, fun _ h => h, ?_⟩ h h'
      intro c hc hn
      exact absurd hc hn
  · obtain ⟨l, rfl, hp⟩ := searchForNeighbors_post h
    have : l = [] := List.length_eq_zero_iff.1 (by have := hp.len; omega)
    subst this
    intro i p hp
    simp at hp

end Granne
