import Verif.Model.Cost
import Verif.Proofs.SearchIndex

/-! The recorded search does what the search does, and computes no distance twice. -/
namespace Granne
open List Spec

variable {D : Type} [LinearOrder D]

theorem scanTraced_erase (dq : Nat → Option D) (res : MaxSizeHeap (Cand D)) : ∀ (ns : List Nat)
    (pq : List (Cand D)) (vis : List Nat),
    (scanTraced dq res ns pq vis).map (fun x => (x.1, x.2.1)) = scanNeighbors dq res ns pq vis
  | [], pq, vis => rfl
  | n :: ns, pq, vis => by
    rw [scanTraced, scanNeighbors]
    split
    · exact scanTraced_erase dq res ns pq vis
    · cases hd : dq n with
      | none => rfl
      | some d =>
        simp only
        cases hf : res.isFull with
        | false =>
          simp only [Bool.not_false, if_true]
          rw [← scanTraced_erase dq res ns]
          simp [Function.comp_def]
        | true =>
          simp only [Bool.not_true]
          cases hp : res.peek with
          | none => rfl
          | some top =>
            by_cases hlt : d < top.d
            · have := scanTraced_erase dq res ns (heapPush ⟨d, n⟩ pq) (n :: vis)
              simp [Function.comp_def, hlt, ← this]
            · have := scanTraced_erase dq res ns pq (n :: vis)
              simp [Function.comp_def, hlt, ← this]

theorem scanTraced_erase_some {dq : Nat → Option D} {res : MaxSizeHeap (Cand D)} {ns : List Nat}
    {pq pq' : List (Cand D)} {vis vis' ids : List Nat} (h : scanTraced dq res ns pq vis = some (pq', vis', ids)) :
    scanNeighbors dq res ns pq vis = some (pq', vis') := by
  rw [← scanTraced_erase, h]; rfl

/-- The ids whose distances are computed: the new ones among the neighbors, each once. -/
theorem scanTraced_ids (dq : Nat → Option D) (res : MaxSizeHeap (Cand D)) : ∀ (ns : List Nat)
    (pq pq' : List (Cand D)) (vis vis' ids : List Nat), scanTraced dq res ns pq vis = some (pq', vis', ids) →
    ids.Nodup ∧ ids <+ ns ∧ (∀ i ∈ ids, i ∉ vis) ∧ (∀ i, i ∈ vis' ↔ i ∈ vis ∨ i ∈ ids) ∧
    (∀ c ∈ pq', c ∈ pq ∨ c.id ∈ ids)
  | [], pq, pq', vis, vis', ids, h => by
    simp only [scanTraced, Option.some.injEq, Prod.mk.injEq] at h
    obtain ⟨rfl, rfl, rfl⟩ := h
    simp
  | n :: ns, pq, pq', vis, vis', ids, h => by
    rw [scanTraced] at h
    split at h
    · next hn =>
      obtain ⟨h1, h2, h3, h4, h5⟩ := scanTraced_ids dq res ns pq pq' vis vis' ids h
      exact ⟨h1, h2.cons n, h3, h4, h5⟩
    · next hn =>
      cases hd : dq n with
      | none => simp [hd] at h
      | some d =>
        simp only [hd] at h
        generalize (if res.isFull = true then res.peek.map fun top => decide (d < top.d) else some true) = kp at h
        cases kp with
        | none => simp at h
        | some keep =>
          simp only at h
          obtain ⟨⟨p, v, is⟩, h', he⟩ := Option.map_eq_some_iff.1 h
          simp only [Prod.mk.injEq] at he
          obtain ⟨rfl, rfl, rfl⟩ := he
          obtain ⟨h1, h2, h3, h4, h5⟩ := scanTraced_ids dq res ns _ p (n :: vis) v is h'
          refine ⟨List.nodup_cons.2 ⟨fun hm => h3 n hm (by simp), h1⟩, h2.cons_cons n, ?_, ?_, ?_⟩
          · intro i hi hv
            rcases List.mem_cons.1 hi with rfl | hi
            · exact hn hv
            · exact h3 i hi (by simp [hv])
          · intro i
            rw [h4 i]; simp; tauto
          · intro c hc
            rcases h5 c hc with hc | hc
            · by_cases hk : keep = true
              · rw [if_pos hk] at hc
                rcases mem_heapPush.1 hc with rfl | hc
                · right; simp
                · exact Or.inl hc
              · rw [if_neg hk] at hc; exact Or.inl hc
            · right; simp [hc]

theorem searchLoopTraced_erase (g : Graph) (dq : Nat → Option D) : ∀ (fuel : Nat) (res : MaxSizeHeap (Cand D))
    (pq : List (Cand D)) (vis : List Nat),
    (searchLoopTraced g dq fuel res pq vis).map Prod.fst = (searchLoop dq fuel res pq vis).runRO g
  | 0, _, _, _ => rfl
  | fuel + 1, res, [], vis => rfl
  | fuel + 1, res, ⟨d, idx⟩ :: pq, vis => by
    rw [searchLoopTraced, searchLoop]
    cases shouldStop res d with
    | none => rfl
    | some b =>
      cases b with
      | true => rfl
      | false =>
        simp only
        cases res.push ⟨d, idx⟩ with
        | none => rfl
        | some rb =>
          obtain ⟨res', b⟩ := rb
          simp only [Prog.runRO]
          cases g[idx]? with
          | none => rfl
          | some ns =>
            simp only
            rw [← scanTraced_erase]
            cases scanTraced dq res' ns pq vis with
            | none => rfl
            | some x =>
              obtain ⟨pq', vis', ids⟩ := x
              simp only [Option.map_some]
              rw [← searchLoopTraced_erase g dq fuel]
              simp [Function.comp_def]

theorem searchForNeighborsTraced_erase (g : Graph) (entry : Nat) (dq : Nat → Option D) (ms : Nat) :
    (searchForNeighborsTraced g entry dq ms).map Prod.fst = (searchForNeighbors g.length entry dq ms).runRO g := by
  unfold searchForNeighborsTraced searchForNeighbors
  cases dq entry with
  | none => rfl
  | some d =>
    simp only
    rw [← searchLoopTraced_erase]
    simp [Function.comp_def]

theorem findEntrypointTraced_erase (dq : Nat → Option D) : ∀ (layers : List Graph) (entry : Nat),
    (findEntrypointTraced dq layers entry).map Prod.fst = findEntrypointFrom dq layers entry
  | [], entry => rfl
  | g :: gs, entry => by
    rw [findEntrypointTraced, findEntrypointFrom, ← searchForNeighborsTraced_erase]
    rcases Option.eq_none_or_eq_some (searchForNeighborsTraced g entry dq 1) with h | ⟨⟨r, t⟩, h⟩
    · rw [h]; rfl
    · rw [h]
      cases r with
      | nil => rfl
      | cons p r =>
        obtain ⟨i, d⟩ := p
        simp only [Option.map_some]
        rw [← findEntrypointTraced_erase dq gs i]
        simp [Function.comp_def]

/-- The record of one layer is sensible. -/
structure LayerCost (g : Graph) (t : Trace) : Prop where
  distsOnce : t.dists.Nodup
  readsOnce : t.reads.Nodup
  readsKnown : t.reads ⊆ t.dists
  inside : ∀ i ∈ t.reads, i < g.length
  bound : t.dists.length ≤ 1 + (t.reads.map fun i => (g[i]?.getD []).length).sum
  linked : ∀ i ∈ t.dists.tail, ∃ j ∈ t.reads, Edge g j i

/-- The loop: what it computes is new, what it reads was waiting. -/
theorem searchLoopTraced_cost (g : Graph) (dq : Nat → Option D) : ∀ (fuel : Nat) (res : MaxSizeHeap (Cand D))
    (pq : List (Cand D)) (vis popped : List Nat) (r : List (Nat × D)) (t : Trace),
    (pq.map Cand.id).Nodup → (∀ c ∈ pq, c.id ∈ vis) → (∀ i ∈ popped, i ∈ vis) → (∀ c ∈ pq, c.id ∉ popped) →
    searchLoopTraced g dq fuel res pq vis = some (r, t) →
    t.dists.Nodup ∧ (∀ i ∈ t.dists, i ∉ vis) ∧ t.reads.Nodup ∧ (∀ i ∈ t.reads, i ∉ popped) ∧
    (∀ i ∈ t.reads, i ∈ pq.map Cand.id ∨ i ∈ t.dists) ∧ (∀ i ∈ t.reads, i < g.length) ∧
    t.dists.length ≤ (t.reads.map fun i => (g[i]?.getD []).length).sum ∧
    (∀ i ∈ t.dists, ∃ j ∈ t.reads, Edge g j i)
  | 0, _, _, _, _, r, t, _, _, _, _, h => by simp [searchLoopTraced] at h
  | fuel + 1, res, [], vis, popped, r, t, _, _, _, _, h => by
    simp only [searchLoopTraced, Option.some.injEq, Prod.mk.injEq] at h
    obtain ⟨_, rfl⟩ := h
    simp
  | fuel + 1, res, ⟨d, idx⟩ :: pq, vis, popped, r, t, hnd, hpv, hpop, hpp, h => by
    rw [searchLoopTraced] at h
    cases hs : shouldStop res d with
    | none => simp [hs] at h
    | some b =>
      cases b with
      | true =>
        simp only [hs, Option.some.injEq, Prod.mk.injEq] at h
        obtain ⟨_, rfl⟩ := h
        simp
      | false =>
        simp only [hs] at h
        cases hp : res.push ⟨d, idx⟩ with
        | none => simp [hp] at h
        | some rb =>
          obtain ⟨res', b⟩ := rb
          simp only [hp] at h
          cases hg : g[idx]? with
          | none => simp [hg] at h
          | some ns =>
            simp only [hg] at h
            cases hsc : scanTraced dq res' ns pq vis with
            | none => simp [hsc] at h
            | some x =>
              obtain ⟨pq', vis', ids⟩ := x
              simp only [hsc] at h
              obtain ⟨⟨r', t'⟩, h', he⟩ := Option.map_eq_some_iff.1 h
              simp only [Prod.mk.injEq] at he
              obtain ⟨_, rfl⟩ := he
              obtain ⟨i1, i2, i3, i4, i5⟩ := scanTraced_ids dq res' ns pq pq' vis vis' ids hsc
              simp only [List.map_cons, List.nodup_cons] at hnd
              have hpq' : (pq'.map Cand.id).Nodup := scanTraced_nodup hnd.2 (fun c hc => hpv c (by simp [hc])) hsc
              have hidx : idx ∈ vis := hpv ⟨d, idx⟩ (by simp)
              have hidxpq : idx ∉ pq.map Cand.id := hnd.1
              obtain ⟨c1, c2, c3, c4, c5, c6, c7, c8⟩ := searchLoopTraced_cost g dq fuel res' pq' vis' (idx :: popped)
                r' t' hpq' (by
                  intro c hc
                  rw [i4]
                  rcases i5 c hc with h | h
                  · exact Or.inl (hpv c (by simp [h]))
                  · exact Or.inr h)
                (by
                  intro i hi
                  rw [i4]
                  rcases List.mem_cons.1 hi with rfl | hi
                  · exact Or.inl hidx
                  · exact Or.inl (hpop i hi))
                (by
                  intro c hc hm
                  rcases i5 c hc with h | h
                  · rcases List.mem_cons.1 hm with h' | h'
                    · exact hidxpq (h' ▸ List.mem_map.2 ⟨c, h, rfl⟩)
                    · exact hpp c (by simp [h]) h'
                  · rcases List.mem_cons.1 hm with h' | h'
                    · exact i3 _ h (h' ▸ hidx)
                    · exact i3 _ h (hpop _ h'))
                h'
              refine ⟨?_, ?_, ?_, ?_, ?_, ?_, ?_, ?_⟩
              · refine List.nodup_append.2 ⟨i1, c1, fun a ha b hb hab => ?_⟩
                exact c2 b hb ((i4 b).2 (Or.inr (hab ▸ ha)))
              · intro i hi hv
                rcases List.mem_append.1 hi with hi | hi
                · exact i3 i hi hv
                · exact c2 i hi ((i4 i).2 (Or.inl hv))
              · exact List.nodup_cons.2 ⟨fun hm => c4 idx hm (by simp), c3⟩
              · intro i hi hm
                rcases List.mem_cons.1 hi with rfl | hi
                · exact hpp ⟨d, i⟩ (by simp) hm
                · exact c4 i hi (by simp [hm])
              · intro i hi
                rcases List.mem_cons.1 hi with rfl | hi
                · left; simp
                · rcases c5 i hi with h | h
                  · obtain ⟨c, hc, rfl⟩ := List.mem_map.1 h
                    rcases i5 c hc with h | h
                    · left; simp only [List.map_cons, List.mem_cons]; exact Or.inr (List.mem_map.2 ⟨c, h, rfl⟩)
                    · right; simp [h]
                  · right; simp [h]
              · intro i hi
                rcases List.mem_cons.1 hi with rfl | hi
                · exact (List.getElem?_eq_some_iff.1 hg).1
                · exact c6 i hi
              · have := i2.length_le
                simp only [List.length_append, List.map_cons, List.sum_cons, hg, Option.getD_some]
                omega
              · intro i hi
                rcases List.mem_append.1 hi with hi | hi
                · exact ⟨idx, by simp, ns, hg, i2.subset hi⟩
                · obtain ⟨j, hj, he⟩ := c8 i hi
                  exact ⟨j, by simp [hj], he⟩
where
  scanTraced_nodup {dq : Nat → Option D} {res : MaxSizeHeap (Cand D)} {ns : List Nat} {pq pq' : List (Cand D)}
      {vis vis' ids : List Nat} (hnd : (pq.map Cand.id).Nodup) (hpv : ∀ c ∈ pq, c.id ∈ vis)
      (h : scanTraced dq res ns pq vis = some (pq', vis', ids)) : (pq'.map Cand.id).Nodup := by
    induction ns generalizing pq vis ids with
    | nil =>
      simp only [scanTraced, Option.some.injEq, Prod.mk.injEq] at h
      obtain ⟨rfl, rfl, rfl⟩ := h
      exact hnd
    | cons n ns ih =>
      rw [scanTraced] at h
      split at h
      · exact ih hnd hpv h
      · next hn =>
        cases hd : dq n with
        | none => simp [hd] at h
        | some d =>
          simp only [hd] at h
          generalize (if res.isFull = true then res.peek.map fun top => decide (d < top.d) else some true) = kp at h
          cases kp with
          | none => simp at h
          | some keep =>
            simp only at h
            obtain ⟨⟨p, v, is⟩, h', he⟩ := Option.map_eq_some_iff.1 h
            simp only [Prod.mk.injEq] at he
            obtain ⟨rfl, rfl, rfl⟩ := he
            refine ih ?_ ?_ h'
            · by_cases hk : keep = true
              · rw [if_pos hk]
                have hp : (heapPush (⟨d, n⟩ : Cand D) pq).Perm (⟨d, n⟩ :: pq) := List.perm_orderedInsert _ _ _
                rw [(hp.map Cand.id).nodup_iff]
                refine List.nodup_cons.2 ⟨?_, hnd⟩
                intro hm
                obtain ⟨c, hc, he⟩ := List.mem_map.1 hm
                have he' : c.id = n := he
                exact hn (he' ▸ hpv c hc)
              · rw [if_neg hk]; exact hnd
            · intro c hc
              by_cases hk : keep = true
              · rw [if_pos hk] at hc
                rcases mem_heapPush.1 hc with rfl | hc
                · simp
                · simp [hpv c hc]
              · rw [if_neg hk] at hc; simp [hpv c hc]

theorem searchForNeighborsTraced_cost {g : Graph} {entry : Nat} {dq : Nat → Option D} {ms : Nat}
    {r : List (Nat × D)} {t : Trace} (h : searchForNeighborsTraced g entry dq ms = some (r, t)) :
    LayerCost g t ∧ t.dists.head? = some entry ∧ ∀ i ∈ t.dists, Reach g entry i := by
  unfold searchForNeighborsTraced at h
  cases hd : dq entry with
  | none => simp [hd] at h
  | some d =>
    simp only [hd] at h
    obtain ⟨⟨r', t'⟩, h', he⟩ := Option.map_eq_some_iff.1 h
    simp only [Prod.mk.injEq] at he
    obtain ⟨rfl, rfl⟩ := he
    obtain ⟨c1, c2, c3, c4, c5, c6, c7, c8⟩ := searchLoopTraced_cost g dq _ _ _ _ [] r' t' (by simp) (by simp)
      (by simp) (by simp) h'
    refine ⟨⟨List.nodup_cons.2 ⟨fun hm => c2 entry hm (by simp), c1⟩, c3, ?_, c6, ?_, ?_⟩, rfl, ?_⟩
    · intro i hi
      rcases c5 i hi with h | h
      · simp at h; simp [h]
      · simp [h]
    · simp; omega
    · simpa using c8
    · exact searchLoopTraced_reach g dq _ _ _ _ r' t' entry (by simp; exact Reach.refl) h'
where
  searchLoopTraced_reach (g : Graph) (dq : Nat → Option D) : ∀ (fuel : Nat) (res : MaxSizeHeap (Cand D))
      (pq : List (Cand D)) (vis : List Nat) (r : List (Nat × D)) (t : Trace) (entry : Nat),
      (∀ c ∈ pq, Reach g entry c.id) → searchLoopTraced g dq fuel res pq vis = some (r, t) →
      ∀ i ∈ entry :: t.dists, Reach g entry i
    | 0, _, _, _, r, t, _, _, h => by simp [searchLoopTraced] at h
    | fuel + 1, res, [], vis, r, t, entry, _, h => by
      simp only [searchLoopTraced, Option.some.injEq, Prod.mk.injEq] at h
      obtain ⟨_, rfl⟩ := h
      simp; exact Reach.refl
    | fuel + 1, res, ⟨d, idx⟩ :: pq, vis, r, t, entry, hr, h => by
      rw [searchLoopTraced] at h
      cases hs : shouldStop res d with
      | none => simp [hs] at h
      | some b =>
        cases b with
        | true =>
          simp only [hs, Option.some.injEq, Prod.mk.injEq] at h
          obtain ⟨_, rfl⟩ := h
          simp; exact Reach.refl
        | false =>
          simp only [hs] at h
          cases hp : res.push ⟨d, idx⟩ with
          | none => simp [hp] at h
          | some rb =>
            obtain ⟨res', b⟩ := rb
            simp only [hp] at h
            cases hg : g[idx]? with
            | none => simp [hg] at h
            | some ns =>
              simp only [hg] at h
              cases hsc : scanTraced dq res' ns pq vis with
              | none => simp [hsc] at h
              | some x =>
                obtain ⟨pq', vis', ids⟩ := x
                simp only [hsc] at h
                obtain ⟨⟨r', t'⟩, h', he⟩ := Option.map_eq_some_iff.1 h
                simp only [Prod.mk.injEq] at he
                obtain ⟨_, rfl⟩ := he
                obtain ⟨_, i2, _, _, i5⟩ := scanTraced_ids dq res' ns pq pq' vis vis' ids hsc
                have hids : ∀ i ∈ ids, Reach g entry i := fun i hi =>
                  (hr ⟨d, idx⟩ (by simp)).step ⟨ns, hg, i2.subset hi⟩
                have := searchLoopTraced_reach g dq fuel res' pq' vis' r' t' entry (by
                  intro c hc
                  rcases i5 c hc with h | h
                  · exact hr c (by simp [h])
                  · exact hids _ h) h'
                intro i hi
                simp only [List.mem_cons, List.mem_append] at hi
                rcases hi with rfl | hi | hi
                · exact Reach.refl
                · exact hids i hi
                · exact this i (by simp [hi])

end Granne
