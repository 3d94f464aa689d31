import Verif.Proofs.Search

/-! Two searches on isomorphic graphs run in lockstep. -/
namespace Granne
open List Spec

variable {D : Type} [LinearOrder D]

/-- `σ` renames the nodes of `g₁` to those of `g₂`, respecting distances to the query, neighbor sets and
the order among equally distant nodes. -/
structure SearchIso (g₁ g₂ : Graph) (dq₁ dq₂ : Nat → Option D) (σ : Nat → Nat) : Prop where
  inj : ∀ a b, σ a = σ b → a = b
  dq : ∀ i, dq₂ (σ i) = dq₁ i
  rows : ∀ i, (g₁[i]? = none ∧ g₂[σ i]? = none) ∨
    ∃ l₁ l₂, g₁[i]? = some l₁ ∧ g₂[σ i]? = some l₂ ∧ ∀ j, j ∈ l₂ ↔ ∃ i' ∈ l₁, σ i' = j
  ties : ∀ a b d, dq₁ a = some d → dq₁ b = some d → (a ≤ b ↔ σ a ≤ σ b)

def Cand.rename (σ : Nat → Nat) (c : Cand D) : Cand D := ⟨c.d, σ c.id⟩

section
variable {dq₁ : Nat → Option D} {σ : Nat → Nat}

def Cand.Valid (dq : Nat → Option D) (c : Cand D) : Prop := dq c.id = some c.d

theorem rename_le (ties : ∀ a b d, dq₁ a = some d → dq₁ b = some d → (a ≤ b ↔ σ a ≤ σ b))
    {a b : Cand D} (ha : a.Valid dq₁) (hb : b.Valid dq₁) :
    a.rename σ ≤ b.rename σ ↔ a ≤ b := by
  rw [Cand.le_iff, Cand.le_iff]
  simp only [Cand.rename]
  constructor
  · rintro (h | ⟨h1, h2⟩)
    · exact Or.inl h
    · exact Or.inr ⟨h1, (ties a.id b.id a.d ha (by rw [h1]; exact hb)).2 h2⟩
  · rintro (h | ⟨h1, h2⟩)
    · exact Or.inl h
    · exact Or.inr ⟨h1, (ties a.id b.id a.d ha (by rw [h1]; exact hb)).1 h2⟩

theorem rename_lt (ties : ∀ a b d, dq₁ a = some d → dq₁ b = some d → (a ≤ b ↔ σ a ≤ σ b))
    {a b : Cand D} (ha : a.Valid dq₁) (hb : b.Valid dq₁) :
    a.rename σ < b.rename σ ↔ a < b := by
  rw [← not_le, ← not_le, rename_le ties hb ha]

theorem heapPush_rename (ties : ∀ a b d, dq₁ a = some d → dq₁ b = some d → (a ≤ b ↔ σ a ≤ σ b))
    {x : Cand D} (hx : x.Valid dq₁) (l : List (Cand D)) (hl : ∀ c ∈ l, c.Valid dq₁) :
    heapPush (x.rename σ) (l.map (Cand.rename σ)) = (heapPush x l).map (Cand.rename σ) := by
  induction l with
  | nil => simp [heapPush]
  | cons a t ih =>
    have ha : a.Valid dq₁ := hl a (by simp)
    have iht := ih fun c hc => hl c (by simp [hc])
    simp only [heapPush] at iht
    simp only [heapPush, List.map_cons, List.orderedInsert_cons, rename_le ties hx ha]
    split
    · simp
    · simp [iht]

theorem push_rename (ties : ∀ a b d, dq₁ a = some d → dq₁ b = some d → (a ≤ b ↔ σ a ≤ σ b))
    {x : Cand D} (hx : x.Valid dq₁) (h : MaxSizeHeap (Cand D)) (hl : ∀ c ∈ h.heap, c.Valid dq₁) :
    (⟨h.heap.map (Cand.rename σ), h.maxSize⟩ : MaxSizeHeap (Cand D)).push (x.rename σ) =
      (h.push x).map fun r => (⟨r.1.heap.map (Cand.rename σ), r.1.maxSize⟩, r.2) := by
  unfold MaxSizeHeap.push
  by_cases hf : h.isFull
  · have hf2 : (⟨h.heap.map (Cand.rename σ), h.maxSize⟩ : MaxSizeHeap (Cand D)).isFull = true := by
      simpa [MaxSizeHeap.isFull] using hf
    simp only [hf, hf2, Bool.not_true, Bool.false_eq_true, if_false]
    have hp : (⟨h.heap.map (Cand.rename σ), h.maxSize⟩ : MaxSizeHeap (Cand D)).peek
        = h.peek.map (Cand.rename σ) := by simp [MaxSizeHeap.peek]
    rw [hp]
    cases ht : h.peek with
    | none => simp
    | some top =>
      have htm : top ∈ h.heap := List.mem_of_getLast? ht
      simp only [Option.map_some, rename_lt ties hx (hl top htm)]
      split
      · simp only [List.length_map, Option.map_some]
        congr 3
        have : ∀ c ∈ (if h.maxSize ≤ h.heap.length then h.heap.dropLast else h.heap), c.Valid dq₁ := by
          split
          · exact fun c hc => hl c (List.dropLast_subset _ hc)
          · exact hl
        rw [← heapPush_rename ties hx _ this]
        congr 1
        split <;> simp [List.map_dropLast]
      · simp
  · have hf2 : (⟨h.heap.map (Cand.rename σ), h.maxSize⟩ : MaxSizeHeap (Cand D)).isFull = false := by
      simpa [MaxSizeHeap.isFull] using hf
    simp only [Bool.not_eq_true] at hf
    simp only [hf, hf2, Bool.not_false, if_true, Option.map_some, heapPush_rename ties hx _ hl]

theorem accept_rename (h : MaxSizeHeap (Cand D)) (d : D) :
    Accept (⟨h.heap.map (Cand.rename σ), h.maxSize⟩ : MaxSizeHeap (Cand D)) d ↔ Accept h d := by
  have hp : (⟨h.heap.map (Cand.rename σ), h.maxSize⟩ : MaxSizeHeap (Cand D)).peek
      = h.peek.map (Cand.rename σ) := by simp [MaxSizeHeap.peek]
  unfold Accept
  rw [hp]
  simp [MaxSizeHeap.isFull, Cand.rename]

theorem shouldStop_rename (h : MaxSizeHeap (Cand D)) (d : D) :
    shouldStop (⟨h.heap.map (Cand.rename σ), h.maxSize⟩ : MaxSizeHeap (Cand D)) d = shouldStop h d := by
  have hp : (⟨h.heap.map (Cand.rename σ), h.maxSize⟩ : MaxSizeHeap (Cand D)).peek
      = h.peek.map (Cand.rename σ) := by simp [MaxSizeHeap.peek]
  have hf : (⟨h.heap.map (Cand.rename σ), h.maxSize⟩ : MaxSizeHeap (Cand D)).isFull = h.isFull := by
    simp [MaxSizeHeap.isFull]
  unfold shouldStop
  rw [hp, hf]
  cases h.peek <;> simp [Cand.rename]

end

theorem searchLoop_sim {g₁ g₂ : Graph} {dq₁ dq₂ : Nat → Option D} {σ : Nat → Nat} {ms entry : Nat}
    (iso : SearchIso g₁ g₂ dq₁ dq₂ σ) :
    ∀ (fuel : Nat) (res : MaxSizeHeap (Cand D)) (pq : List (Cand D)) (vis vis₂ popped : List Nat),
      SInv g₁ dq₁ ms entry res pq vis popped →
      (∀ j, j ∈ vis₂ ↔ ∃ i ∈ vis, σ i = j) →
      (searchLoop dq₂ fuel ⟨res.heap.map (Cand.rename σ), res.maxSize⟩
        (pq.map (Cand.rename σ)) vis₂).runRO g₂ =
      ((searchLoop dq₁ fuel res pq vis).runRO g₁).map (List.map fun r => (σ r.1, r.2)) := by
  intro fuel
  induction fuel with
  | zero => intros; simp [searchLoop, Prog.runRO]
  | succ fuel ih =>
    intro res pq vis vis₂ popped hi hvis
    cases pq with
    | nil =>
      simp [searchLoop, Prog.runRO, MaxSizeHeap.intoSortedVec, Cand.rename, Function.comp_def]
    | cons c pq =>
      obtain ⟨d, idx⟩ := c
      have hidx : (⟨d, idx⟩ : Cand D).Valid dq₁ := (hi.pqVis ⟨d, idx⟩ (by simp)).2
      have hresV : ∀ c ∈ res.heap, c.Valid dq₁ := fun c hc => (hi.resPop c hc).2
      have hpqV : ∀ c ∈ pq, c.Valid dq₁ := fun c hc => (hi.pqVis c (by simp [hc])).2
      have hpqI : ∀ c ∈ pq, c.id ∈ vis := fun c hc => (hi.pqVis c (by simp [hc])).1
      have hpqs := (List.pairwise_cons.1 hi.pqSorted).2
      rw [List.map_cons]
      conv_lhs => rw [show (Cand.rename σ ⟨d, idx⟩ : Cand D) = ⟨d, σ idx⟩ from rfl, searchLoop]
      conv_rhs => rw [searchLoop]
      rw [shouldStop_rename]
      cases shouldStop res d with
      | none => simp [Prog.runRO]
      | some b =>
        cases b with
        | true =>
          simp [Prog.runRO, MaxSizeHeap.intoSortedVec, Cand.rename, Function.comp_def]
        | false =>
          simp only
          have hp := push_rename iso.ties hidx res hresV
          rw [show (Cand.rename σ ⟨d, idx⟩ : Cand D) = ⟨d, σ idx⟩ from rfl] at hp
          rw [hp]
          cases hpu : res.push ⟨d, idx⟩ with
          | none => simp [Prog.runRO]
          | some rb =>
            obtain ⟨res', b⟩ := rb
            simp only [Option.map_some, Prog.runRO]
            rcases iso.rows idx with ⟨h1, h2⟩ | ⟨l₁, l₂, h1, h2, hl⟩
            · simp [h1, h2]
            · simp only [h1, h2]
              have hpq2s : (pq.map (Cand.rename σ)).Pairwise (· < ·) := by
                refine List.Pairwise.map _ (fun a b hab => ?_) (List.Pairwise.and_mem.1 hpqs)
                exact (rename_lt iso.ties (hpqV a hab.1) (hpqV b hab.2.1)).2 hab.2.2
              have hpq2I : ∀ c ∈ pq.map (Cand.rename σ), c.id ∈ vis₂ := by
                intro c hc
                obtain ⟨c', hc', rfl⟩ := List.mem_map.1 hc
                exact (hvis _).2 ⟨_, hpqI _ hc', rfl⟩
              have hvis1 : ∀ i, σ i ∈ vis₂ ↔ i ∈ vis := by
                intro i
                rw [hvis]
                exact ⟨fun ⟨j, hj, e⟩ => iso.inj _ _ e ▸ hj, fun h => ⟨i, h, rfl⟩⟩
              set res₂ : MaxSizeHeap (Cand D) := ⟨res'.heap.map (Cand.rename σ), res'.maxSize⟩
              have hfull : res₂.isFull = res'.isFull := by simp [res₂, MaxSizeHeap.isFull]
              have hpeek : res₂.peek = res'.peek.map (Cand.rename σ) := by
                simp [res₂, MaxSizeHeap.peek]
              have hsome : (∃ r, scanNeighbors dq₂ res₂ l₂ (pq.map (Cand.rename σ)) vis₂ = some r) ↔
                  (∃ r, scanNeighbors dq₁ res' l₁ pq vis = some r) := by
                rw [scan_none_iff _ _ _ _ _ hpq2s hpq2I, scan_none_iff _ _ _ _ _ hpqs hpqI, hfull, hpeek]
                simp only [Option.isSome_map]
                constructor
                · intro h n hn hnv
                  have := h (σ n) ((hl _).2 ⟨n, hn, rfl⟩) (by rwa [hvis1])
                  rwa [iso.dq] at this
                · intro h n hn hnv
                  obtain ⟨n', hn', rfl⟩ := (hl _).1 hn
                  rw [iso.dq]
                  exact h n' hn' (by rwa [hvis1] at hnv)
              cases hsc : scanNeighbors dq₁ res' l₁ pq vis with
              | none =>
                cases hsc2 : scanNeighbors dq₂ res₂ l₂ (pq.map (Cand.rename σ)) vis₂ with
                | none => simp [Prog.runRO]
                | some r =>
                  have := hsome.1 ⟨r, hsc2⟩
                  simp [hsc] at this
              | some pv =>
                obtain ⟨pq', vis'⟩ := pv
                obtain ⟨⟨pq₂', vis₂'⟩, hsc2⟩ := hsome.2 ⟨_, hsc⟩
                simp only [hsc2]
                obtain ⟨s1, s2, s3, _⟩ := scan_spec _ _ _ _ _ _ _ hpqs hpqI hsc
                obtain ⟨t1, t2, t3, _⟩ := scan_spec _ _ _ _ _ _ _ hpq2s hpq2I hsc2
                have hi' := hi.step hpu h1 hsc
                have hpq'V : ∀ c ∈ pq', c.Valid dq₁ := fun c hc => (hi'.pqVis c hc).2
                have heq : pq₂' = pq'.map (Cand.rename σ) := by
                  apply eq_of_sorted_of_mem_iff t1
                  · refine List.Pairwise.map _ (fun a b hab => ?_) (List.Pairwise.and_mem.1 s1)
                    exact (rename_lt iso.ties (hpq'V a hab.1) (hpq'V b hab.2.1)).2 hab.2.2
                  · intro c
                    rw [t3, List.mem_map, List.mem_map]
                    constructor
                    · rintro (⟨c', hc', rfl⟩ | ⟨a, b, e, f⟩)
                      · exact ⟨c', (s3 _).2 (Or.inl hc'), rfl⟩
                      · obtain ⟨i, hi1, hi2⟩ := (hl _).1 a
                        refine ⟨⟨c.d, i⟩, (s3 _).2 (Or.inr ⟨hi1, ?_, ?_, ?_⟩), ?_⟩
                        · simp only; rw [← hvis1, hi2]; exact b
                        · simp only; rw [← iso.dq, hi2]; exact e
                        · exact (accept_rename (σ := σ) res' c.d).1 f
                        · simp [Cand.rename, hi2]
                    · rintro ⟨c', hc', rfl⟩
                      rcases (s3 _).1 hc' with h | ⟨a, b, e, f⟩
                      · exact Or.inl ⟨c', h, rfl⟩
                      · right
                        refine ⟨(hl _).2 ⟨_, a, rfl⟩, ?_, ?_, ?_⟩
                        · simpa only [Cand.rename, hvis1] using b
                        · simpa only [Cand.rename, iso.dq] using e
                        · exact (accept_rename (σ := σ) res' _).2 f
                rw [heq]
                refine ih res' pq' vis' vis₂' (idx :: popped) hi' ?_
                intro j
                rw [t2, hvis]
                constructor
                · rintro (⟨i, h, e⟩ | h)
                  · exact ⟨i, (s2 _).2 (Or.inl h), e⟩
                  · obtain ⟨i, h, e⟩ := (hl _).1 h
                    exact ⟨i, (s2 _).2 (Or.inr h), e⟩
                · rintro ⟨i, h, e⟩
                  rcases (s2 _).1 h with h | h
                  · exact Or.inl ⟨i, h, e⟩
                  · exact Or.inr ((hl _).2 ⟨i, h, e⟩)

/-- `search_for_neighbors` commutes with renaming. -/
theorem searchForNeighbors_sim {g₁ g₂ : Graph} {dq₁ dq₂ : Nat → Option D} {σ : Nat → Nat}
    (iso : SearchIso g₁ g₂ dq₁ dq₂ σ) (n entry ms : Nat) :
    (searchForNeighbors n (σ entry) dq₂ ms).runRO g₂ =
      ((searchForNeighbors n entry dq₁ ms).runRO g₁).map (List.map fun r => (σ r.1, r.2)) := by
  unfold searchForNeighbors
  rw [iso.dq]
  cases hd : dq₁ entry with
  | none => simp [Prog.runRO]
  | some d =>
    exact searchLoop_sim (ms := ms) (entry := entry) iso (n + 1) (MaxSizeHeap.new _ ms) [⟨d, entry⟩] [entry] [σ entry] []
      (SInv.init hd) (by intro j; simp [eq_comm])

theorem findEntrypointFrom_sim {dq₁ dq₂ : Nat → Option D} {σ : Nat → Nat} :
    ∀ (ls₁ ls₂ : List Graph) (entry : Nat),
      List.Forall₂ (fun g₁ g₂ => g₁.length = g₂.length ∧ SearchIso g₁ g₂ dq₁ dq₂ σ) ls₁ ls₂ →
      findEntrypointFrom dq₂ ls₂ (σ entry) = (findEntrypointFrom dq₁ ls₁ entry).map σ := by
  intro ls₁
  induction ls₁ with
  | nil => intro ls₂ entry h; cases h; simp [findEntrypointFrom]
  | cons g₁ ls₁ ih =>
    intro ls₂ entry h
    cases h with
    | cons hg hrest =>
      rename_i g₂ ls₂
      simp only [findEntrypointFrom]
      rw [← hg.1, searchForNeighbors_sim hg.2]
      cases (searchForNeighbors g₁.length entry dq₁ 1).runRO g₁ with
      | none => simp
      | some r =>
        cases r with
        | nil => simp
        | cons a t => simp [ih ls₂ a.1 hrest]

theorem forall₂_append_singleton {α β : Type} {R : α → β → Prop} :
    ∀ {t : List α} {b : α} {l : List β}, List.Forall₂ R (t ++ [b]) l →
      ∃ t' b', l = t' ++ [b'] ∧ List.Forall₂ R t t' ∧ R b b' := by
  intro t
  induction t with
  | nil =>
    intro b l h
    cases h with
    | cons h1 h2 => cases h2; exact ⟨[], _, rfl, List.Forall₂.nil, h1⟩
  | cons a t ih =>
    intro b l h
    rw [List.cons_append] at h
    cases h with
    | cons h1 h2 =>
      obtain ⟨t', b', rfl, h3, h4⟩ := ih h2
      exact ⟨_ :: t', b', rfl, List.Forall₂.cons h1 h3, h4⟩

/-- The whole search commutes with renaming when the entry point keeps its id. -/
theorem searchInternal_sim {dq₁ dq₂ : Nat → Option D} {σ : Nat → Nat} (ls₁ ls₂ : List Graph)
    (h : List.Forall₂ (fun g₁ g₂ => g₁.length = g₂.length ∧ SearchIso g₁ g₂ dq₁ dq₂ σ) ls₁ ls₂)
    (h0 : σ 0 = 0) (ms k : Nat) :
    searchInternal ls₂ dq₂ ms k = (searchInternal ls₁ dq₁ ms k).map (List.map fun r => (σ r.1, r.2)) := by
  rcases List.eq_nil_or_concat ls₁ with rfl | ⟨t₁, b₁, rfl⟩
  · cases h; simp [searchInternal]
  · rw [List.concat_eq_append] at h
    obtain ⟨t₂, b₂, rfl, ht, hb⟩ := forall₂_append_singleton h
    · have he := findEntrypointFrom_sim t₁ t₂ 0 ht
      rw [h0] at he
      simp only [searchInternal, List.concat_eq_append, List.getLast?_append, List.getLast?_singleton, Option.some_or,
        List.dropLast_concat, findEntrypoint, he]
      cases findEntrypointFrom dq₁ t₁ 0 with
      | none => simp
      | some e =>
        simp only [Option.map_some]
        rw [← hb.1, searchForNeighbors_sim hb.2]
        cases (searchForNeighbors b₁.length e dq₁ ms).runRO b₁ with
        | none => simp
        | some r => simp [List.map_take]

end Granne
