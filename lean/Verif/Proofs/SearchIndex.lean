import Verif.Proofs.SearchSim

namespace Granne
open List Spec

variable {D : Type} [LinearOrder D]

/-- The amount of fuel does not matter once it exceeds the number of nodes: the loop of the code, which
has no bound, behaves like the bounded one. No assumption on the graph. -/
theorem searchLoop_fuel {g : Graph} {dq : Nat → Option D} {ms entry : Nat} :
    ∀ (f₁ f₂ : Nat) (res : MaxSizeHeap (Cand D)) (pq : List (Cand D)) (vis popped : List Nat),
      SInv g dq ms entry res pq vis popped →
      g.length + 1 ≤ popped.length + f₁ → g.length + 1 ≤ popped.length + f₂ →
      (searchLoop dq f₁ res pq vis).runRO g = (searchLoop dq f₂ res pq vis).runRO g := by
  intro f₁
  induction f₁ with
  | zero =>
    intro f₂ res pq vis popped hi h1 _
    exfalso
    have : popped ⊆ List.range g.length := fun i h => List.mem_range.2 (hi.popLt i h)
    have := (List.subperm_of_subset hi.popNodup this).length_le
    simp at this; omega
  | succ f₁ ih =>
    intro f₂ res pq vis popped hi h1 h2
    cases f₂ with
    | zero =>
      exfalso
      have : popped ⊆ List.range g.length := fun i h => List.mem_range.2 (hi.popLt i h)
      have := (List.subperm_of_subset hi.popNodup this).length_le
      simp at this; omega
    | succ f₂ =>
      cases pq with
      | nil => simp [searchLoop, Prog.runRO]
      | cons c pq =>
        obtain ⟨d, idx⟩ := c
        rw [searchLoop, searchLoop]
        cases hst : shouldStop res d with
        | none => rfl
        | some b =>
          cases b with
          | true => rfl
          | false =>
            simp only
            cases hp : res.push ⟨d, idx⟩ with
            | none => rfl
            | some rb =>
              obtain ⟨res', b⟩ := rb
              simp only [Prog.runRO]
              cases hg : g[idx]? with
              | none => rfl
              | some ns =>
                simp only
                cases hsc : scanNeighbors dq res' ns pq vis with
                | none => rfl
                | some pv =>
                  obtain ⟨pq', vis'⟩ := pv
                  exact ih f₂ res' pq' vis' (idx :: popped) (hi.step hp hg hsc)
                    (by simp; omega) (by simp; omega)

theorem searchForNeighbors_fuel {g : Graph} {dq : Nat → Option D} {ms entry : Nat} {n m : Nat}
    (hn : g.length ≤ n) (hm : g.length ≤ m) :
    (searchForNeighbors n entry dq ms).runRO g = (searchForNeighbors m entry dq ms).runRO g := by
  unfold searchForNeighbors
  cases hd : dq entry with
  | none => rfl
  | some d =>
    exact searchLoop_fuel _ _ _ _ _ [] (SInv.init (g := g) (ms := ms) hd) (by simp; exact hn) (by simp; exact hm)

/-- The descent through the upper layers succeeds and never gets farther from the query. -/
theorem findEntrypointFrom_total {dq : Nat → Option D} {n : Nat} (hdq : ∀ i < n, (dq i).isSome) :
    ∀ (layers : List Graph) (entry : Nat),
      (∀ g ∈ layers, EdgesInside g) → layers.Pairwise (fun a b => a.length ≤ b.length) →
      (∀ g ∈ layers, g.length ≤ n) → (∀ g ∈ layers, entry < g.length) → entry < n →
      ∃ e, findEntrypointFrom dq layers entry = some e ∧
        (∀ m, (∀ g ∈ layers, g.length ≤ m) → entry < m → e < m) := by
  intro layers
  induction layers with
  | nil => intro entry _ _ _ _ _; exact ⟨entry, rfl, fun m _ h => h⟩
  | cons g layers ih =>
    intro entry hin hnest hbd he hen
    obtain ⟨r, hr⟩ := searchForNeighbors_total (ms := 1) (n := g.length) (entry := entry) (by omega) (hin g (by simp))
      (fun i hi => hdq i (lt_of_lt_of_le hi (hbd g (by simp)))) (he g (by simp)) le_rfl
    obtain ⟨l, hl, hpost⟩ := searchForNeighbors_post hr
    cases l with
    | nil => exact absurd rfl (hpost.ne_nil (by omega))
    | cons c l =>
      have hc := hpost.mem c (by simp)
      obtain ⟨h1, h2⟩ := List.pairwise_cons.1 hnest
      obtain ⟨e, he', hlt⟩ := ih c.id (fun g' h => hin g' (by simp [h])) h2
        (fun g' h => hbd g' (by simp [h])) (fun g' h => lt_of_lt_of_le hc.2.1 (h1 g' h))
        (lt_of_lt_of_le hc.2.1 (hbd g (by simp)))
      refine ⟨e, ?_, ?_⟩
      · simp only [findEntrypointFrom, hr, hl, List.map_cons, he']
      · intro m hm hem
        exact hlt m (fun g' h => hm g' (by simp [h])) (lt_of_lt_of_le hc.2.1 (hm g (by simp)))

/-- The entry point found is no farther from the query than the start of the descent. -/
theorem findEntrypointFrom_closer {dq : Nat → Option D} :
    ∀ (layers : List Graph) (entry e : Nat) (d₀ : D), dq entry = some d₀ →
      findEntrypointFrom dq layers entry = some e → ∃ d, dq e = some d ∧ d ≤ d₀ := by
  intro layers
  induction layers with
  | nil =>
    intro entry e d₀ h0 h
    simp only [findEntrypointFrom, Option.some.injEq] at h
    subst h; exact ⟨d₀, h0, le_rfl⟩
  | cons g layers ih =>
    intro entry e d₀ h0 h
    rw [findEntrypointFrom] at h
    cases hr : (searchForNeighbors g.length entry dq 1).runRO g with
    | none => simp [hr] at h
    | some r =>
      obtain ⟨l, hl, hpost⟩ := searchForNeighbors_post hr
      cases l with
      | nil => exact absurd rfl (hpost.ne_nil (by omega))
      | cons c l =>
        simp only [hr, hl, List.map_cons] at h
        obtain ⟨d, hd, hle⟩ := ih c.id e c.d (hpost.mem c (by simp)).1 h
        refine ⟨d, hd, hle.trans ?_⟩
        obtain ⟨d', hd', hcase⟩ := hpost.entry
        rw [h0] at hd'
        cases hd'
        rcases hcase with hm | ⟨_, hm⟩
        · rcases List.mem_cons.1 hm with hm | hm
          · rw [← hm]
          · exact (Cand.d_le ((List.pairwise_cons.1 hpost.sorted).1 _ hm).le)
        · exact hm c (by simp)

/-- Decomposition of a successful search on a non-empty index. -/
theorem searchInternal_some {layers : List Graph} {dq : Nat → Option D} {ms k : Nat} {r : List (Nat × D)}
    {bottom : Graph} (hb : layers.getLast? = some bottom) (h : searchInternal layers dq ms k = some r) :
    ∃ e l, findEntrypoint layers.dropLast dq = some e ∧ SPost bottom dq ms e l ∧
      r = (l.map fun c => (c.id, c.d)).take k ∧
      (searchForNeighbors bottom.length e dq ms).runRO bottom = some (l.map fun c => (c.id, c.d)) := by
  simp only [searchInternal, hb] at h
  cases he : findEntrypoint layers.dropLast dq with
  | none => simp [he] at h
  | some e =>
    simp only [he] at h
    cases hs : (searchForNeighbors bottom.length e dq ms).runRO bottom with
    | none => simp [hs] at h
    | some r' =>
      simp only [hs, Option.some.injEq] at h
      obtain ⟨l, hl, hpost⟩ := searchForNeighbors_post hs
      refine ⟨e, l, rfl, hpost, ?_, ?_⟩
      · rw [← h, hl]
      · rw [hs, hl]

omit [LinearOrder D] in
theorem distTo_isSome {E : Type} (es : Elements E D) (q : E) {i : Nat} (h : i < es.data.length) :
    (es.distTo q i).isSome := by
  simp [Elements.distTo, List.getElem?_eq_getElem h]

omit [LinearOrder D] in
theorem distTo_eq {E : Type} {es : Elements E D} {q : E} {i : Nat} {d : D} (h : es.distTo q i = some d) :
    ∃ e, es.data[i]? = some e ∧ d = es.dist e q := by
  simp only [Elements.distTo, Option.map_eq_some_iff] at h
  obtain ⟨e, h1, h2⟩ := h
  exact ⟨e, h1, h2.symm⟩

theorem pairwise_dropLast {α : Type} {R : α → α → Prop} {l : List α} (h : l.Pairwise R) :
    l.dropLast.Pairwise R := h.sublist (List.dropLast_sublist l)

/-- The descent on a well-formed index gives a node of the bottom layer. -/
theorem findEntrypoint_total {layers : List Graph} {n : Nat} {dq : Nat → Option D} {bottom : Graph}
    (hwf : WellFormedIndex layers n) (hdq : ∀ i < n, (dq i).isSome)
    (hb : layers.getLast? = some bottom) :
    ∃ e, findEntrypoint layers.dropLast dq = some e ∧ e < bottom.length := by
  obtain ⟨top, rfl⟩ := List.getLast?_eq_some_iff.1 hb
  simp only [List.dropLast_concat]
  have hn : 0 < n := by
    have h1 := hwf.nonempty bottom (by simp)
    have h2 := hwf.bounded bottom (by simp)
    have : bottom.length ≠ 0 := fun h => h1 (List.length_eq_zero_iff.1 h)
    omega
  have hp := List.pairwise_append.1 hwf.nested
  obtain ⟨e, he, hlt⟩ := findEntrypointFrom_total (n := n) hdq top 0
    (fun g hg => hwf.inside g (by simp [hg])) hp.1 (fun g hg => hwf.bounded g (by simp [hg]))
    (fun g hg => by
      have h1 := hwf.nonempty g (by simp [hg])
      exact Nat.pos_of_ne_zero (fun h => h1 (List.length_eq_zero_iff.1 h))) hn
  refine ⟨e, he, hlt _ (fun g hg => hp.2.2 g hg bottom (by simp)) ?_⟩
  have h1 := hwf.nonempty bottom (by simp)
  exact Nat.pos_of_ne_zero (fun h => h1 (List.length_eq_zero_iff.1 h))

end Granne
