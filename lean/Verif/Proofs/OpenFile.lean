import Verif.Model.OpenFile
import Verif.Proofs.SearchIndex

/-! Searching with neighbor lists read on demand. -/
namespace Granne
variable {D : Type} [LinearOrder D]

theorem runWith_mono {α : Type} {get get' : Nat → Option (List Nat)} (h : ∀ i l, get i = some l → get' i = some l) (p : Prog α) {a : α}
    (ha : p.runWith get = some a) : p.runWith get' = some a := by
  induction p with
  | ret b => exact ha
  | fail => cases ha
  | nbrs i k ih =>
    simp only [Prog.runWith] at ha ⊢
    cases hg : get i with
    | none => rw [hg] at ha; cases ha
    | some l =>
      rw [hg] at ha
      rw [h i l hg]
      exact ih l ha
  | unused i k ih => cases ha
  | upd i f k ih => cases ha

theorem runRO_eq_runWith {α : Type} (g : Graph) (p : Prog α) : p.runRO g = p.runWith fun i => g[i]? := by
  induction p with
  | ret b => rfl
  | fail => rfl
  | nbrs i k ih =>
    simp only [Prog.runRO, Prog.runWith]
    cases g[i]? with
    | none => rfl
    | some l => exact ih l
  | unused i k ih => rfl
  | upd i f k ih => rfl

/-- A layer of `n` nodes that behaves like `get` in a search among `n` elements: a node that cannot be read has the neighbor `n`, which
does not exist. -/
def padGraph (n : Nat) (get : Nat → Option (List Nat)) : Graph := (List.range n).map fun i => (get i).getD [n]

theorem padGraph_length (n : Nat) (get : Nat → Option (List Nat)) : (padGraph n get).length = n := by simp [padGraph]

theorem scan_defined {dq : Nat → Option D} {res : MaxSizeHeap (Cand D)} :
    ∀ (ns : List Nat) (pq : List (Cand D)) (vis : List Nat) (pq' : List (Cand D)) (vis' : List Nat),
      scanNeighbors dq res ns pq vis = some (pq', vis') → (∀ c ∈ pq, (dq c.id).isSome) → (∀ i ∈ vis, (dq i).isSome) →
      (∀ c ∈ pq', (dq c.id).isSome) ∧ ∀ i ∈ vis', (dq i).isSome := by
  intro ns
  induction ns with
  | nil =>
    intro pq vis pq' vis' h h1 h2
    simp only [scanNeighbors, Option.some.injEq, Prod.mk.injEq] at h
    obtain ⟨rfl, rfl⟩ := h
    exact ⟨h1, h2⟩
  | cons n ns ih =>
    intro pq vis pq' vis' h h1 h2
    simp only [scanNeighbors] at h
    split at h
    · exact ih _ _ _ _ h h1 h2
    · cases hd : dq n with
      | none => rw [hd] at h; cases h
      | some d =>
        rw [hd] at h
        have hv : ∀ i ∈ n :: vis, (dq i).isSome := by
          intro i hi
          rcases List.mem_cons.1 hi with rfl | hi
          · rw [hd]; rfl
          · exact h2 i hi
        have hp : ∀ c ∈ heapPush ⟨d, n⟩ pq, (dq c.id).isSome := by
          intro c hc
          rcases mem_heapPush.1 hc with rfl | hc
          · rw [show (Cand.mk d n).id = n from rfl, hd]; rfl
          · exact h1 c hc
        simp only at h
        split at h
        · exact ih _ _ _ _ h hp hv
        · split at h
          · cases h
          · split at h
            · exact ih _ _ _ _ h hp hv
            · exact ih _ _ _ _ h h1 hv

theorem searchLoop_pad {dq : Nat → Option D} {n : Nat} (hdq : ∀ i, (dq i).isSome → i < n) (get : Nat → Option (List Nat)) :
    ∀ (fuel : Nat) (res : MaxSizeHeap (Cand D)) (pq : List (Cand D)) (vis : List Nat),
      (∀ c ∈ pq, (dq c.id).isSome) → (∀ i ∈ vis, (dq i).isSome) →
      (searchLoop dq fuel res pq vis).runWith get = (searchLoop dq fuel res pq vis).runRO (padGraph n get) := by
  intro fuel
  induction fuel with
  | zero => intro res pq vis _ _; rfl
  | succ fuel ih =>
    intro res pq vis h1 h2
    cases pq with
    | nil => rfl
    | cons c pq =>
      obtain ⟨d, idx⟩ := c
      simp only [searchLoop]
      split
      · rfl
      · rfl
      · split
        · rfl
        · next res' _ hpush =>
          have hlt : idx < n := hdq idx (h1 ⟨d, idx⟩ List.mem_cons_self)
          simp only [Prog.runWith, Prog.runRO]
          have hg : (padGraph n get)[idx]? = some ((get idx).getD [n]) := by simp [padGraph, hlt]
          rw [hg]
          cases hl : get idx with
          | none =>
            have hn : n ∉ vis := fun hm => Nat.lt_irrefl _ (hdq n (h2 n hm))
            have hd : dq n = none := by
              cases h : dq n with
              | none => rfl
              | some x => exact absurd (hdq n (by rw [h]; rfl)) (Nat.lt_irrefl _)
            simp [scanNeighbors, hn, hd, Prog.runRO]
          | some l =>
            simp only [Option.getD_some]
            rcases hs : scanNeighbors dq res' l pq vis with _ | ⟨pq', vis'⟩
            · rfl
            · have := scan_defined l pq vis pq' vis' hs (fun c hc => h1 c (List.mem_cons_of_mem _ hc)) h2
              exact ih res' pq' vis' this.1 this.2

theorem searchForNeighbors_pad {dq : Nat → Option D} {n : Nat} (hdq : ∀ i, (dq i).isSome → i < n) (get : Nat → Option (List Nat))
    {fuel : Nat} (hf : n ≤ fuel) (entry ms : Nat) :
    (searchForNeighbors fuel entry dq ms).runWith get = (searchForNeighbors n entry dq ms).runRO (padGraph n get) := by
  have hp : (searchForNeighbors fuel entry dq ms).runWith get = (searchForNeighbors fuel entry dq ms).runRO (padGraph n get) := by
    unfold searchForNeighbors
    cases hd : dq entry with
    | none => rfl
    | some d =>
      refine searchLoop_pad hdq get _ _ _ _ ?_ ?_
      · intro c hc
        rw [List.mem_singleton.1 hc]
        change (dq entry).isSome = true
        rw [hd]; rfl
      · intro i hi
        rw [List.mem_singleton.1 hi, hd]; rfl
  rw [hp]
  exact searchForNeighbors_fuel (by rw [padGraph_length]; exact hf) (by rw [padGraph_length])

theorem findEntrypointWith_pad {dq : Nat → Option D} {n : Nat} (hdq : ∀ i, (dq i).isSome → i < n) {fuel : Nat} (hf : n ≤ fuel) :
    ∀ (readers : List (Nat → Option (List Nat))) (entry : Nat),
      findEntrypointWith fuel dq readers entry = findEntrypointFrom dq (readers.map (padGraph n)) entry := by
  intro readers
  induction readers with
  | nil => intro entry; rfl
  | cons get t ih =>
    intro entry
    simp only [findEntrypointWith, List.map_cons, findEntrypointFrom, padGraph_length]
    rw [searchForNeighbors_pad hdq get hf]
    generalize (searchForNeighbors n entry dq 1).runRO (padGraph n get) = x
    rcases x with _ | _ | ⟨⟨i, d⟩, r⟩
    · rfl
    · rfl
    · exact ih i

theorem searchWith_pad {dq : Nat → Option D} {n : Nat} (hdq : ∀ i, (dq i).isSome → i < n) {fuel : Nat} (hf : n ≤ fuel)
    (readers : List (Nat → Option (List Nat))) (ms k : Nat) :
    searchWith fuel readers dq ms k = searchInternal (readers.map (padGraph n)) dq ms k := by
  unfold searchWith searchInternal findEntrypoint
  rw [List.getLast?_map, ← List.map_dropLast, findEntrypointWith_pad hdq hf]
  cases readers.getLast? with
  | none => rfl
  | some get =>
    simp only [Option.map_some, padGraph_length]
    cases findEntrypointFrom dq (readers.dropLast.map (padGraph n)) 0 with
    | none => rfl
    | some e =>
      simp only
      rw [searchForNeighbors_pad hdq get hf]
      rfl

theorem findEntrypointWith_mono {dq : Nat → Option D} (n : Nat) :
    ∀ (rs rs' : List (Nat → Option (List Nat))),
      List.Forall₂ (fun get get' => ∀ i l, get i = some l → get' i = some l) rs rs' → ∀ (entry e : Nat),
      findEntrypointWith n dq rs entry = some e → findEntrypointWith n dq rs' entry = some e := by
  intro rs rs' h
  induction h with
  | nil => intro entry e he; exact he
  | cons hab _ ih =>
    intro entry e he
    simp only [findEntrypointWith] at he ⊢
    split at he
    · cases he
    · cases he
    · next i d r hr =>
      rw [runWith_mono hab _ hr]
      exact ih i e he

theorem forall₂_getLast?_some {α β : Type} {R : α → β → Prop} {l : List α} {m : List β} (h : List.Forall₂ R l m) {a : α}
    (ha : l.getLast? = some a) : ∃ b, m.getLast? = some b ∧ R a b := by
  induction h with
  | nil => cases ha
  | @cons x y l m hxy ht ih =>
    cases ht with
    | nil => simp at ha; subst ha; exact ⟨y, by simp, hxy⟩
    | cons h1 h2 =>
      rw [List.getLast?_cons_cons] at ha ⊢
      exact ih ha

theorem forall₂_dropLast {α β : Type} {R : α → β → Prop} {l : List α} {m : List β} (h : List.Forall₂ R l m) :
    List.Forall₂ R l.dropLast m.dropLast := by
  induction h with
  | nil => exact .nil
  | @cons x y l m hxy ht ih =>
    cases ht with
    | nil => exact .nil
    | cons h1 h2 =>
      rw [List.dropLast_cons_cons, List.dropLast_cons_cons]
      exact .cons hxy ih

theorem searchWith_mono {dq : Nat → Option D} {n : Nat} {rs rs' : List (Nat → Option (List Nat))}
    (h : List.Forall₂ (fun get get' => ∀ i l, get i = some l → get' i = some l) rs rs') {ms k : Nat} {r : List (Nat × D)}
    (hr : searchWith n rs dq ms k = some r) : searchWith n rs' dq ms k = some r := by
  unfold searchWith at hr ⊢
  cases hb : rs.getLast? with
  | none =>
    rw [hb] at hr
    have h0 := List.getLast?_eq_none_iff.1 hb
    subst h0
    cases h
    exact hr
  | some get =>
    obtain ⟨get', hb', hg⟩ := forall₂_getLast?_some h hb
    rw [hb] at hr
    rw [hb']
    simp only at hr ⊢
    split at hr
    · cases hr
    · next e he =>
      rw [findEntrypointWith_mono n _ _ (forall₂_dropLast h) 0 e he]
      simp only
      split at hr
      · cases hr
      · next x hx =>
        rw [runWith_mono hg _ hx]
        exact hr

theorem findEntrypointFrom_with {dq : Nat → Option D} {fuel : Nat} :
    ∀ (gs : List Graph), (∀ g ∈ gs, g.length ≤ fuel) → ∀ (entry : Nat),
      findEntrypointFrom dq gs entry = findEntrypointWith fuel dq (gs.map fun g i => g[i]?) entry := by
  intro gs
  induction gs with
  | nil => intro _ entry; rfl
  | cons g t ih =>
    intro h entry
    simp only [findEntrypointFrom, List.map_cons, findEntrypointWith]
    rw [searchForNeighbors_fuel (g := g) (n := g.length) (m := fuel) le_rfl (h g List.mem_cons_self), runRO_eq_runWith]
    split
    · next h => rw [h]
    · next h => rw [h]
    · next i d r h' =>
      rw [h']
      exact ih (fun g hg => h g (List.mem_cons_of_mem _ hg)) i

theorem searchInternal_with {dq : Nat → Option D} {fuel : Nat} (gs : List Graph) (h : ∀ g ∈ gs, g.length ≤ fuel) (ms k : Nat) :
    searchInternal gs dq ms k = searchWith fuel (gs.map fun g i => g[i]?) dq ms k := by
  unfold searchWith searchInternal findEntrypoint
  rw [List.getLast?_map, ← List.map_dropLast,
    findEntrypointFrom_with (fuel := fuel) gs.dropLast fun g hg => h g ((List.dropLast_sublist _).subset hg)]
  cases hb : gs.getLast? with
  | none => rfl
  | some g =>
    simp only [Option.map_some]
    cases findEntrypointWith fuel dq (gs.dropLast.map fun g i => g[i]?) 0 with
    | none => rfl
    | some e =>
      simp only
      rw [searchForNeighbors_fuel (g := g) (n := g.length) (m := fuel) le_rfl (h g (List.mem_of_getLast? hb)), runRO_eq_runWith]
      rfl

end Granne
