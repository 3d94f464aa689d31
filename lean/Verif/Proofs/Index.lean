import Verif.Proofs.Safe
import Verif.Proofs.Rows
import Verif.Proofs.SearchIndex

/-! `index_element` is safe under interference by all other tasks. -/
namespace Granne
open List Spec

variable {E D : Type} [LinearOrder D]

/-- Node `j` has at least one neighbor. -/
def NE (R : Rows) (j : Nat) : Prop := ∃ row, R[j]? = some row ∧ visible row ≠ []

/-- Invariant of a layer with `n` nodes and `w` slots per node, valid after every single step:
rows are well formed, and every listed node other than 0 has a non-empty row itself. -/
structure LayerInv (n w : Nat) (Z : Nat → Prop) (R : Rows) : Prop where
  len : R.length = n
  rows : ∀ (i : Nat) (row : Row), R[i]? = some row → RowOk n w Z i row
  pub : ∀ (i : Nat) (row : Row), R[i]? = some row → ∀ j ∈ visible row, j ≠ 0 → NE R j

/-- The same for a layer that has room for more than the `n` elements present (src/index/rw/mod.rs). -/
structure RowsInv (n w : Nat) (Z : Nat → Prop) (R : Rows) : Prop where
  len : n ≤ R.length
  rows : ∀ (i : Nat) (row : Row), R[i]? = some row → RowOk n w Z i row
  pub : ∀ (i : Nat) (row : Row), R[i]? = some row → ∀ j ∈ visible row, j ≠ 0 → NE R j

theorem LayerInv.roomy {n w : Nat} {Z : Nat → Prop} {R : Rows} (h : LayerInv n w Z R) : RowsInv n w Z R :=
  ⟨h.len.ge, h.rows, h.pub⟩

theorem RowsInv.exact {n w : Nat} {Z : Nat → Prop} {R : Rows} (h : RowsInv n w Z R) (hl : R.length = n) :
    LayerInv n w Z R := ⟨hl, h.rows, h.pub⟩

/-- The interference the task of element `idx` has to expect from the others: non-empty nodes stay
non-empty, and its own node, unless it is node 0, is not filled while empty. -/
structure RelyOn (idx : Nat) (R R' : Rows) : Prop where
  len : R'.length = R.length
  ne : ∀ j, NE R j → NE R' j
  own : idx ≠ 0 → ¬ NE R idx → ¬ NE R' idx

theorem RelyOn.refl (idx : Nat) (R : Rows) : RelyOn idx R R := ⟨rfl, fun _ h => h, fun _ h => h⟩

theorem RelyOn.trans (idx : Nat) (a b c : Rows) (h1 : RelyOn idx a b) (h2 : RelyOn idx b c) :
    RelyOn idx a c :=
  ⟨h2.len.trans h1.len, fun j h => h2.ne j (h1.ne j h), fun h0 h => h2.own h0 (h1.own h0 h)⟩

theorem NE_set {R : Rows} {i : Nat} {row' : Row} (hi : i < R.length) (j : Nat) :
    NE (R.set i row') j ↔ (if j = i then visible row' ≠ [] else NE R j) := by
  unfold NE
  by_cases h : j = i
  · subst h
    simp [List.getElem?_set_self hi]
  · simp [h, List.getElem?_set_ne (Ne.symm h)]

/-- The invariant together with the history fact that nodes that were non-empty in `R₀` still are. -/
def InvFrom (n w : Nat) (Z : Nat → Prop) (R₀ R : Rows) : Prop :=
  RowsInv n w Z R ∧ ∀ j, NE R₀ j → NE R j

/-- Replacing a row by a well-formed non-empty one with published ids. -/
theorem update_ok {n w : Nat} {Z : Nat → Prop} {R₀ R : Rows} {idx i : Nat} {row' : Row}
    (h : InvFrom n w Z R₀ R) (hi : i < n) (hrow' : RowOk n w Z i row')
    (hne : visible row' ≠ []) (hpub : ∀ j ∈ visible row', j ≠ 0 → NE R j)
    (hown : i = 0 ∨ NE R i ∨ i = idx) :
    InvFrom n w Z R₀ (R.set i row') ∧ (∀ k, k ≠ idx → RelyOn k R (R.set i row')) ∧
      (∀ j, NE R j → NE (R.set i row') j) ∧ NE (R.set i row') i := by
  have hiR : i < R.length := lt_of_lt_of_le hi h.1.len
  have hmono : ∀ j, NE R j → NE (R.set i row') j := by
    intro j hj
    rw [NE_set hiR]
    split
    · exact hne
    · exact hj
  have hnei : NE (R.set i row') i := by rw [NE_set hiR]; simpa using hne
  refine ⟨⟨⟨by simp [h.1.len], ?_, ?_⟩, fun j hj => hmono j (h.2 j hj)⟩, ?_, hmono, hnei⟩
  · intro k row hk
    by_cases he : i = k
    · subst he
      rw [List.getElem?_set_self hiR] at hk
      simp only [Option.some.injEq] at hk
      subst hk; exact hrow'
    · rw [List.getElem?_set_ne he] at hk
      exact h.1.rows k row hk
  · intro k row hk j hj hj0
    by_cases he : i = k
    · subst he
      rw [List.getElem?_set_self hiR] at hk
      simp only [Option.some.injEq] at hk
      subst hk
      exact hmono j (hpub j hj hj0)
    · rw [List.getElem?_set_ne he] at hk
      exact hmono j (h.1.pub k row hk j hj hj0)
  · intro k hk
    refine ⟨by simp, hmono, ?_⟩
    intro hk0 hkn
    rw [NE_set hiR]
    split
    · rename_i hki
      rcases hown with h0 | h0 | h0
      · exact absurd (hki.trans h0) hk0
      · exact absurd h0 (hki ▸ hkn)
      · exact absurd (hki.trans h0) hk
    · exact hkn

/-- Leaving a row as it is. -/
theorem update_same {R : Rows} {i : Nat} {row : Row} (h : R[i]? = some row) : R.set i row = R := by
  obtain ⟨hlt, he⟩ := List.getElem?_eq_some_iff.1 h
  rw [← he]; exact List.set_getElem_self hlt

/-! ### The search inside a layer under construction -/

/-- Loop invariant used by concurrent searches (a part of `SInv`, without reference to a graph). -/
structure CInv (dq : Nat → Option D) (ms : Nat) (res : MaxSizeHeap (Cand D)) (pq : List (Cand D))
    (vis popped : List Nat) : Prop where
  maxSize : res.maxSize = ms
  resSorted : res.heap.Pairwise (· < ·)
  pqSorted : pq.Pairwise (· < ·)
  resLen : res.heap.length ≤ ms
  resPop : ∀ c ∈ res.heap, c.id ∈ popped ∧ dq c.id = some c.d
  pqVis : ∀ c ∈ pq, c.id ∈ vis ∧ dq c.id = some c.d
  popVis : ∀ i ∈ popped, i ∈ vis
  popPq : ∀ c ∈ pq, c.id ∉ popped
  popNodup : popped.Nodup

theorem CInv.init {dq : Nat → Option D} {ms entry : Nat} {d : D} (hd : dq entry = some d) :
    CInv dq ms (MaxSizeHeap.new _ ms) [⟨d, entry⟩] [entry] [] := by
  constructor <;> simp [MaxSizeHeap.new, hd]

theorem CInv.step {dq : Nat → Option D} {ms : Nat} {res res' : MaxSizeHeap (Cand D)}
    {pq pq' : List (Cand D)} {vis vis' popped : List Nat} {d : D} {idx : Nat} {b : Bool} {ns : List Nat}
    (hi : CInv dq ms res (⟨d, idx⟩ :: pq) vis popped)
    (hpush : res.push ⟨d, idx⟩ = some (res', b))
    (hscan : scanNeighbors dq res' ns pq vis = some (pq', vis')) :
    CInv dq ms res' pq' vis' (idx :: popped) ∧ (∀ i, i ∈ vis' ↔ i ∈ vis ∨ i ∈ ns) := by
  have hpqs := (List.pairwise_cons.1 hi.pqSorted).2
  have hidx : idx ∈ vis ∧ dq idx = some d := hi.pqVis ⟨d, idx⟩ (by simp)
  have hidxp : idx ∉ popped := hi.popPq ⟨d, idx⟩ (by simp)
  have hnot : (⟨d, idx⟩ : Cand D) ∉ res.heap := fun h => hidxp (hi.resPop _ h).1
  have hpv : ∀ c ∈ pq, c.id ∈ vis := fun c hc => (hi.pqVis c (by simp [hc])).1
  obtain ⟨p1, p2, p3, p4, _, _, _⟩ := MaxSizeHeap.push_spec hi.resSorted hnot
    (by rw [hi.maxSize]; exact hi.resLen) hpush
  obtain ⟨s1, s2, s3, s4⟩ := scan_spec dq res' ns pq vis pq' vis' hpqs hpv hscan
  rw [hi.maxSize] at p1 p3
  refine ⟨
    { maxSize := p1, resSorted := p2, pqSorted := s1, resLen := p3, resPop := ?_, pqVis := ?_,
      popVis := ?_, popPq := ?_, popNodup := List.nodup_cons.2 ⟨hidxp, hi.popNodup⟩ }, s2⟩
  · intro c hc
    rcases p4 c hc with rfl | hc
    · exact ⟨by simp, hidx.2⟩
    · have := hi.resPop c hc
      exact ⟨by simp [this.1], this.2⟩
  · intro c hc
    rcases (s3 c).1 hc with hc | ⟨a, _, b, _⟩
    · exact ⟨(s2 _).2 (Or.inl (hpv c hc)), (hi.pqVis c (by simp [hc])).2⟩
    · exact ⟨(s2 _).2 (Or.inr a), b⟩
  · intro i h
    rcases List.mem_cons.1 h with rfl | h
    · exact (s2 _).2 (Or.inl hidx.1)
    · exact (s2 _).2 (Or.inl (hi.popVis _ h))
  · intro c hc hmem
    rcases List.mem_cons.1 hmem with he | hmem
    · rcases (s3 c).1 hc with hc' | ⟨_, h, _⟩
      · have h1 := (hi.pqVis c (by simp [hc'])).2
        rw [he, hidx.2] at h1
        have : c = ⟨d, idx⟩ := by cases c; simp_all
        have hlt := (List.pairwise_cons.1 hi.pqSorted).1 c hc'
        rw [this] at hlt
        exact lt_irrefl _ hlt
      · exact h (he ▸ hidx.1)
    · rcases (s3 c).1 hc with hc' | ⟨_, h, _⟩
      · exact hi.popPq c (by simp [hc']) hmem
      · exact h (hi.popVis _ hmem)

/-- An id a task may know: a node of the layer that is 0 or published and not excluded. -/
def Pub (n : Nat) (Z : Nat → Prop) (R : Rows) (j : Nat) : Prop := j < n ∧ (j ≠ 0 → NE R j ∧ ¬ Z j)

theorem Pub.mono {n : Nat} {Z : Nat → Prop} {R R' : Rows} {j : Nat} (hm : ∀ j, NE R j → NE R' j)
    (h : Pub n Z R j) : Pub n Z R' j := ⟨h.1, fun h0 => ⟨hm j (h.2 h0).1, (h.2 h0).2⟩⟩

/-- What a concurrent search delivers. -/
structure Found (n : Nat) (Z : Nat → Prop) (dq : Nat → Option D) (ms entry : Nat) (R : Rows)
    (found : List (Nat × D)) : Prop where
  pub : ∀ p ∈ found, Pub n Z R p.1
  nodup : (found.map Prod.fst).Nodup
  dist : ∀ p ∈ found, dq p.1 = some p.2
  sorted : found.Pairwise fun a b => a.2 ≤ b.2
  zero : entry = 0 → ¬ NE R 0 → ∀ p ∈ found, p.1 = 0
  len : found.length ≤ ms
  best : ∃ p ∈ found, ∃ d, dq entry = some d ∧ p.2 ≤ d

/-- Before the first round only the entry point is known; afterwards the results contain something at least as good. -/
def BestInv (dq : Nat → Option D) (entry : Nat) (res : MaxSizeHeap (Cand D)) (pq : List (Cand D)) : Prop :=
  (res.heap = [] ∧ ∃ d, dq entry = some d ∧ pq = [⟨d, entry⟩]) ∨
    ∃ c ∈ res.heap, ∃ d, dq entry = some d ∧ c.d ≤ d

theorem BestInv.push {dq : Nat → Option D} {ms entry : Nat} {res res' : MaxSizeHeap (Cand D)} {c : Cand D}
    {pq pq' : List (Cand D)} {vis popped : List Nat} {b : Bool} (h : BestInv dq entry res (c :: pq))
    (hi : CInv dq ms res (c :: pq) vis popped) (hp : res.push c = some (res', b)) : BestInv dq entry res' pq' := by
  have hnot : c ∉ res.heap := fun hc => hi.popPq c (by simp) (hi.resPop _ hc).1
  obtain ⟨_, _, _, _, h5, _, h7⟩ := MaxSizeHeap.push_spec hi.resSorted hnot (by rw [hi.maxSize]; exact hi.resLen) hp
  have key : ∀ y, y = c ∨ y ∈ res.heap → ∀ d, y.d ≤ d → ∃ x ∈ res'.heap, x.d ≤ d := by
    intro y hy d hd
    rcases h5 y hy with h1 | ⟨_, h1⟩
    · exact ⟨y, h1, hd⟩
    · obtain ⟨x, hx⟩ := List.exists_mem_of_length_pos h7
      exact ⟨x, hx, (Cand.d_le (h1 x hx)).trans hd⟩
  right
  rcases h with ⟨_, d, hd, hpq⟩ | ⟨y, hy, d, hd, hle⟩
  · simp only [List.cons.injEq] at hpq
    obtain ⟨x, hx, hxd⟩ := key c (Or.inl rfl) d (by rw [hpq.1])
    exact ⟨x, hx, d, hd, hxd⟩
  · obtain ⟨x, hx, hxd⟩ := key y (Or.inr hy) d hle
    exact ⟨x, hx, d, hd, hxd⟩

theorem CInv.found {n : Nat} {Z : Nat → Prop} {dq : Nat → Option D} {ms entry : Nat}
    {res : MaxSizeHeap (Cand D)} {pq : List (Cand D)} {vis popped : List Nat} {R : Rows}
    (hi : CInv dq ms res pq vis popped) (hpub : ∀ i ∈ vis, Pub n Z R i)
    (hzero : entry = 0 → ¬ NE R 0 → ∀ i ∈ vis, i = 0)
    (hbest : ∃ c ∈ res.heap, ∃ d, dq entry = some d ∧ c.d ≤ d) :
    Found n Z dq ms entry R (res.intoSortedVec.map fun c => (c.id, c.d)) := by
  have hvis : ∀ c ∈ res.heap, c.id ∈ vis := fun c hc => hi.popVis _ (hi.resPop c hc).1
  refine ⟨?_, ?_, ?_, ?_, ?_, ?_, ?_⟩
  · intro p hp
    obtain ⟨c, hc, rfl⟩ := List.mem_map.1 hp
    exact hpub _ (hvis c hc)
  · rw [List.map_map]
    refine List.Pairwise.map _ (fun a b hab => ?_) (List.Pairwise.and_mem.1 hi.resSorted)
    obtain ⟨ha, hb, hlt⟩ := hab
    intro e
    simp only [Function.comp_apply] at e
    have h1 := (hi.resPop a ha).2
    have h2 := (hi.resPop b hb).2
    rw [e, h2] at h1
    have : a = b := by cases a; cases b; simp_all
    exact absurd hlt (by rw [this]; exact lt_irrefl _)
  · intro p hp
    obtain ⟨c, hc, rfl⟩ := List.mem_map.1 hp
    exact (hi.resPop c hc).2
  · exact List.Pairwise.map _ (fun a b hab => Cand.d_le hab.le) hi.resSorted
  · intro h0 hn p hp
    obtain ⟨c, hc, rfl⟩ := List.mem_map.1 hp
    exact hzero h0 hn _ (hvis c hc)
  · simpa [MaxSizeHeap.intoSortedVec] using hi.resLen
  · obtain ⟨c, hc, h⟩ := hbest
    exact ⟨_, List.mem_map.2 ⟨c, hc, rfl⟩, h⟩

theorem searchLoop_safe {n w : Nat} {Z : Nat → Prop} {R₀ : Rows} {idx : Nat} {Guar : Rows → Rows → Prop}
    {dq : Nat → Option D} {ms entry : Nat} (hms : 0 < ms) (hdq : ∀ i < n, (dq i).isSome) :
    ∀ (fuel : Nat) (res : MaxSizeHeap (Cand D)) (pq : List (Cand D)) (vis popped : List Nat) (R : Rows),
      CInv dq ms res pq vis popped → (∀ i ∈ vis, Pub n Z R i) →
      (entry = 0 → ¬ NE R 0 → ∀ i ∈ vis, i = 0) → n + 1 ≤ popped.length + fuel → BestInv dq entry res pq →
      (searchLoop dq fuel res pq vis).Safe (InvFrom n w Z R₀) (RelyOn idx) Guar
        (Found n Z dq ms entry) R := by
  intro fuel
  induction fuel with
  | zero =>
    intro res pq vis popped R hi hpub _ hfuel _
    exfalso
    have : popped ⊆ List.range n := fun i h => List.mem_range.2 (hpub i (hi.popVis i h)).1
    have := (List.subperm_of_subset hi.popNodup this).length_le
    simp at this; omega
  | succ fuel ih =>
    intro res pq vis popped R hi hpub hzero hfuel hbest
    have hret : (∃ c ∈ res.heap, ∃ d, dq entry = some d ∧ c.d ≤ d) → (Prog.ret (res.intoSortedVec.map fun c => (c.id, c.d))).Safe (InvFrom n w Z R₀)
        (RelyOn idx) Guar (Found n Z dq ms entry) R := by
      intro hb R' hr hinv
      exact hi.found (fun i h => (hpub i h).mono hr.ne) (fun h0 hn => hzero h0 fun h => hn (hr.ne _ h)) hb
    cases pq with
    | nil =>
      rw [searchLoop]
      refine hret ?_
      rcases hbest with ⟨_, _, _, h⟩ | h
      · cases h
      · exact h
    | cons c pq =>
      obtain ⟨d, i⟩ := c
      have hiv : i ∈ vis := (hi.pqVis ⟨d, i⟩ (by simp)).1
      have hmsr : 0 < res.maxSize := by rw [hi.maxSize]; exact hms
      have hst : ∃ b, shouldStop res d = some b := by
        unfold shouldStop
        by_cases hf : res.isFull
        · obtain ⟨t, ht⟩ := MaxSizeHeap.peek_isSome hmsr hf
          simp [hf, ht]
        · simp [hf]
      obtain ⟨b, hst⟩ := hst
      rw [searchLoop]
      cases b with
      | true =>
        simp only [hst]
        refine hret ?_
        rcases hbest with ⟨h, _⟩ | h
        · have : res.isFull = false := by
            simp only [MaxSizeHeap.isFull, h, List.length_nil, decide_eq_false_iff_not]
            omega
          simp [shouldStop, this] at hst
        · exact h
      | false =>
        obtain ⟨⟨res', b⟩, hp⟩ := MaxSizeHeap.push_isSome hmsr (⟨d, i⟩ : Cand D)
        simp only [hst, hp]
        intro R' hr hinv
        have hin : i < n := (hpub i hiv).1
        have hiR : i < R'.length := lt_of_lt_of_le hin hinv.1.len
        have hrow : R'[i]? = some R'[i] := List.getElem?_eq_getElem hiR
        refine ⟨R'[i], hrow, ?_⟩
        have hrowok := hinv.1.rows i _ hrow
        have hres' : res'.maxSize = res.maxSize := by
          have hnot : (⟨d, i⟩ : Cand D) ∉ res.heap := fun h =>
            hi.popPq ⟨d, i⟩ (by simp) (hi.resPop _ h).1
          exact (MaxSizeHeap.push_spec hi.resSorted hnot
            (by rw [hi.maxSize]; exact hi.resLen) hp).1
        obtain ⟨⟨pq', vis'⟩, hsc⟩ := scan_isSome dq res' (visible R'[i]) pq vis (by
          intro j hj _
          refine ⟨hdq j (hrowok.ids j hj).1, fun hf => ?_⟩
          obtain ⟨t, ht⟩ := MaxSizeHeap.peek_isSome (by rw [hres']; exact hmsr) hf
          simp [ht])
        simp only [hsc]
        obtain ⟨hi', hvis'⟩ := hi.step hp hsc
        refine ih res' pq' vis' (i :: popped) R' hi' ?_ ?_ (by simp; omega) (hbest.push hi hp)
        · intro j hj
          rcases (hvis' j).1 hj with hj | hj
          · exact (hpub j hj).mono hr.ne
          · exact ⟨(hrowok.ids j hj).1, fun h0 => ⟨hinv.1.pub i _ hrow j hj h0, (hrowok.ids j hj).2.2 h0⟩⟩
        · intro h0 hn j hj
          have hn' : ¬ NE R 0 := fun h => hn (hr.ne _ h)
          rcases (hvis' j).1 hj with hj | hj
          · exact hzero h0 hn' j hj
          · have hi0 : i = 0 := hzero h0 hn' i hiv
            subst hi0
            exact absurd ⟨_, hrow, List.ne_nil_of_mem hj⟩ hn

theorem searchForNeighbors_safe {n N w : Nat} {Z : Nat → Prop} {R₀ R : Rows} {idx : Nat}
    {Guar : Rows → Rows → Prop} {dq : Nat → Option D} {ms entry : Nat} (hnN : n ≤ N) (hms : 0 < ms)
    (hdq : ∀ i < n, (dq i).isSome) (hentry : Pub n Z R entry) :
    (searchForNeighbors N entry dq ms).Safe (InvFrom n w Z R₀) (RelyOn idx) Guar
      (Found n Z dq ms entry) R := by
  unfold searchForNeighbors
  obtain ⟨d, hd⟩ := Option.isSome_iff_exists.1 (hdq entry hentry.1)
  simp only [hd]
  exact searchLoop_safe hms hdq _ _ _ _ [] R (CInv.init hd) (by simpa using hentry)
    (by simp only [List.mem_singleton]; rintro h _ i rfl; exact h) (by simpa using hnN)
    (Or.inl ⟨rfl, d, hd, rfl⟩)

/-! ### Publishing -/

/-- The guarantee of the task of element `idx`. -/
abbrev GuarOf (idx : Nat) (a b : Rows) : Prop := ∀ j, j ≠ idx → RelyOn j a b

section publish
variable {n w : Nat} {Z : Nat → Prop} {R₀ : Rows} {idx : Nat} {es : Elements E D}
  {srt : List (Nat × D) → List (Nat × D)}

theorem connectOthers_safe (hn : n ≤ UNUSED) (hes : n ≤ es.data.length) (hsrt : IsSortByDist srt)
    (hw : 1 ≤ w) (hidx : idx < n) (hz : idx ≠ 0 → ¬ Z idx) :
    ∀ (neighbors : List (Nat × D)) (R : Rows), (∀ p ∈ neighbors, Pub n Z R p.1) →
      (neighbors ≠ [] → idx ≠ 0 → NE R idx) →
      (connectOthers es srt idx neighbors (.ret ())).Safe (InvFrom n w Z R₀) (RelyOn idx) (GuarOf idx)
        (fun _ _ => True) R := by
  intro neighbors
  induction neighbors with
  | nil => intro R _ _ R' _ _; trivial
  | cons p t ih =>
    intro R hpub hown
    obtain ⟨j, d⟩ := p
    have hrec : ∀ R', (∀ j, NE R j → NE R' j) →
        (connectOthers es srt idx t (.ret ())).Safe (InvFrom n w Z R₀) (RelyOn idx) (GuarOf idx)
        (fun _ _ => True) R' := fun R' hm =>
      ih R' (fun p hp => (hpub p (by simp [hp])).mono hm) (fun _ h0 => hm _ (hown (by simp) h0))
    have heq : connectOthers es srt idx ((j, d) :: t) (.ret ()) =
        connectNodes es srt j idx d (connectOthers es srt idx t (.ret ())) := rfl
    rw [heq, connectNodes]
    split
    · exact hrec R fun _ h => h
    · rename_i hne
      intro R' hr hinv
      have hj : j < n := (hpub (j, d) (by simp)).1
      have hrow : R'[j]? = some (R'[j]'(lt_of_lt_of_le hj hinv.1.len)) :=
        List.getElem?_eq_getElem (lt_of_lt_of_le hj hinv.1.len)
      have hrowok := hinv.1.rows j _ hrow
      obtain ⟨row', h1, h2, h3, h4, _⟩ := connectRow_ok hn hes hsrt hw hj hrowok hidx (Ne.symm hne) hz
        (fun h0 => ((hpub (j, d) (by simp)).2 h0).2) d
      have hup := update_ok (idx := idx) hinv hj h2 h3 (by
        intro k hk h0
        rcases h4 k hk with rfl | hk
        · exact hr.ne _ (hown (by simp) h0)
        · exact hinv.1.pub j _ hrow k hk h0) (by
        by_cases h0 : j = 0
        · exact Or.inl h0
        · exact Or.inr (Or.inl (hr.ne _ ((hpub (j, d) (by simp)).2 h0).1)))
      exact ⟨_, row', hrow, h1, hup.1, hup.2.1, hrec _ fun k hk => hup.2.2.1 k (hr.ne k hk)⟩

theorem connectOwn_safe (hn : n ≤ UNUSED) (hes : n ≤ es.data.length) (hsrt : IsSortByDist srt)
    (hw : 1 ≤ w) (hidx : idx < n) (hz : idx ≠ 0 → ¬ Z idx) (k : Prog Unit) :
    ∀ (neighbors : List (Nat × D)) (R : Rows), (∀ p ∈ neighbors, Pub n Z R p.1) → NE R idx →
      (∀ R', (∀ j, NE R j → NE R' j) → k.Safe (InvFrom n w Z R₀) (RelyOn idx) (GuarOf idx)
        (fun _ _ => True) R') →
      (connectOwn es srt idx neighbors k).Safe (InvFrom n w Z R₀) (RelyOn idx) (GuarOf idx)
        (fun _ _ => True) R := by
  intro neighbors
  induction neighbors with
  | nil => intro R _ _ hk; exact hk R fun _ h => h
  | cons p t ih =>
    intro R hpub hown hk
    obtain ⟨j, d⟩ := p
    have hrec : ∀ R', (∀ j, NE R j → NE R' j) →
        (connectOwn es srt idx t k).Safe (InvFrom n w Z R₀) (RelyOn idx) (GuarOf idx)
        (fun _ _ => True) R' := fun R' hm =>
      ih R' (fun p hp => (hpub p (by simp [hp])).mono hm) (hm _ hown)
        (fun R'' hm' => hk R'' fun j hj => hm' j (hm j hj))
    have heq : connectOwn es srt idx ((j, d) :: t) k =
        connectNodes es srt idx j d (connectOwn es srt idx t k) := rfl
    rw [heq, connectNodes]
    split
    · exact hrec R fun _ h => h
    · rename_i hne
      intro R' hr hinv
      have hj := (hpub (j, d) (by simp))
      have hrow : R'[idx]? = some (R'[idx]'(lt_of_lt_of_le hidx hinv.1.len)) :=
        List.getElem?_eq_getElem (lt_of_lt_of_le hidx hinv.1.len)
      have hrowok := hinv.1.rows idx _ hrow
      obtain ⟨row', h1, h2, h3, h4, _⟩ := connectRow_ok hn hes hsrt hw hidx hrowok hj.1 (Ne.symm hne)
        (fun h0 => (hj.2 h0).2) hz d
      have hup := update_ok (idx := idx) hinv hidx h2 h3 (by
        intro m hm h0
        rcases h4 m hm with rfl | hm
        · exact hr.ne _ (hj.2 h0).1
        · exact hinv.1.pub idx _ hrow m hm h0) (Or.inr (Or.inr rfl))
      exact ⟨_, row', hrow, h1, hup.1, hup.2.1, hrec _ fun m hm => hup.2.2.1 m (hr.ne m hm)⟩

theorem publish_safe (hn : n ≤ UNUSED) (hes : n ≤ es.data.length) (hsrt : IsSortByDist srt)
    (hw : 1 ≤ w) (hidx : idx < n) (hz : idx ≠ 0 → ¬ Z idx) (neighbors : List (Nat × D)) (R : Rows)
    (hpub : ∀ p ∈ neighbors, Pub n Z R p.1) (hnd : (neighbors.map Prod.fst).Nodup)
    (hself : ∀ p ∈ neighbors, p.1 ≠ idx) (hlen : neighbors.length ≤ w)
    (hzero : idx = 0 → ¬ NE R 0 → neighbors = []) :
    (publish es srt idx neighbors).Safe (InvFrom n w Z R₀) (RelyOn idx) (GuarOf idx)
      (fun _ _ => True) R := by
  intro R' hr hinv
  have hiR : idx < R'.length := lt_of_lt_of_le hidx hinv.1.len
  have hrow : R'[idx]? = some R'[idx] := List.getElem?_eq_getElem hiR
  have hrowok := hinv.1.rows idx _ hrow
  have hlen' := hrowok.length
  cases hcase : R'[idx] with
  | nil => rw [hcase] at hlen'; simp at hlen'; omega
  | cons x rest =>
    refine ⟨x, rest, by rw [hrow, hcase], ?_⟩
    have hpub' : ∀ p ∈ neighbors, Pub n Z R' p.1 := fun p hp => (hpub p hp).mono hr.ne
    by_cases hx : x = UNUSED
    · -- the node is empty
      have hvis : visible R'[idx] = [] := by rw [hcase]; simp [visible, hx]
      have hnne : ¬ NE R' idx := by
        rintro ⟨row, h1, h2⟩
        rw [hrow] at h1
        cases h1
        exact h2 hvis
      simp only [hx, beq_self_eq_true, if_true]
      by_cases h0 : idx = 0
      · -- node 0: nothing was found, nothing is written
        have hnil : neighbors = [] := hzero h0 fun h => hnne (h0 ▸ hr.ne _ h)
        subst hnil
        intro R'' hr2 hinv2
        have hrow2 : R''[idx]? = some (R''[idx]'(lt_of_lt_of_le hidx hinv2.1.len)) :=
          List.getElem?_eq_getElem (lt_of_lt_of_le hidx hinv2.1.len)
        refine ⟨_, _, hrow2, initializeNode_nil _, ?_, ?_, ?_⟩
        · rw [update_same hrow2]; exact hinv2
        · rw [update_same hrow2]; exact fun j _ => RelyOn.refl j _
        · intro R3 _ _; trivial
      · intro R'' hr2 hinv2
        have hrow2 : R''[idx]? = some (R''[idx]'(lt_of_lt_of_le hidx hinv2.1.len)) :=
          List.getElem?_eq_getElem (lt_of_lt_of_le hidx hinv2.1.len)
        have hnne2 := hr2.own h0 hnne
        have hvis2 : visible (R''[idx]'(lt_of_lt_of_le hidx hinv2.1.len)) = [] := by
          by_contra hc
          exact hnne2 ⟨_, hrow2, hc⟩
        have hpub2 : ∀ p ∈ neighbors, Pub n Z R'' p.1 := fun p hp => (hpub' p hp).mono hr2.ne
        have hrowok2 := hinv2.1.rows idx _ hrow2
        obtain ⟨row', h1, h2, h3⟩ := initializeNode_ok hn hrowok2 hvis2 hlen hnd (by
          intro j hj
          obtain ⟨p, hp, rfl⟩ := List.mem_map.1 hj
          exact ⟨(hpub p hp).1, hself p hp, fun h => ((hpub p hp).2 h).2⟩) hidx hz
        by_cases hnil : neighbors = []
        · subst hnil
          rw [initializeNode_nil] at h1
          cases h1
          refine ⟨_, _, hrow2, initializeNode_nil _, ?_, ?_, ?_⟩
          · rw [update_same hrow2]; exact hinv2
          · rw [update_same hrow2]; exact fun j _ => RelyOn.refl j _
          · intro R3 _ _; trivial
        · have hup := update_ok (idx := idx) hinv2 hidx h2 (by
            rw [h3]; simpa using hnil) (by
            rw [h3]
            intro j hj hj0
            obtain ⟨p, hp, rfl⟩ := List.mem_map.1 hj
            exact ((hpub2 p hp).2 hj0).1) (Or.inr (Or.inr rfl))
          refine ⟨_, row', hrow2, h1, hup.1, hup.2.1, ?_⟩
          exact connectOthers_safe hn hes hsrt hw hidx hz neighbors _
            (fun p hp => (hpub2 p hp).mono hup.2.2.1) (fun _ _ => hup.2.2.2)
    · have hne : NE R' idx := by
        refine ⟨_, hrow, ?_⟩
        rw [hcase]
        simp [visible, hx]
      have hbeq : (x == UNUSED) = false := by simpa using hx
      simp only [hbeq, Bool.false_eq_true, if_false]
      refine connectOwn_safe hn hes hsrt hw hidx hz _ neighbors R' hpub' hne ?_
      intro R'' hm
      exact connectOthers_safe hn hes hsrt hw hidx hz neighbors R''
        (fun p hp => (hpub' p hp).mono hm) (fun _ _ => hm _ hne)

end publish

/-- What `index_element` needs to know about the layers above: the search through them gives a published
node, and node 0 when node 0 has no neighbors yet. -/
structure PrevOk (n : Nat) (Z : Nat → Prop) (es : Elements E D) (prev : List Graph) (R₀ : Rows) : Prop where
  search : ∀ q, ∃ r, search prev es q 1 1 = some r ∧
    Pub n Z R₀ (match r.head? with | some p => p.1 | none => 0) ∧
    (¬ NE R₀ 0 → (match r.head? with | some p => p.1 | none => 0) = 0)

/-- The whole task is safe. -/
theorem indexElement_safe {n N w : Nat} {Z : Nat → Prop} {R₀ R : Rows} {idx : Nat} {es : Elements E D}
    {srt : List (Nat × D) → List (Nat × D)} {cfg : LayerConfig D} {prev : List Graph}
    (hnN : n ≤ N) (hn : n ≤ UNUSED) (hes : n ≤ es.data.length) (hsrt : IsSortByDist srt) (hidx : idx < n)
    (hw : 1 ≤ w) (hcfg : cfg.numNeighbors ≤ w) (hms : 1 ≤ cfg.maxSearch)
    (hZ : ∀ d, es.dist? idx idx = some d → ¬ cfg.eps < d → ¬ Z idx)
    (hprev : PrevOk n Z es prev R₀) (hinv : InvFrom n w Z R₀ R) :
    (indexElement cfg es srt prev N idx).Safe (InvFrom n w Z R₀) (RelyOn idx) (GuarOf idx)
      (fun _ _ => True) R := by
  have hidx' : idx < es.data.length := by omega
  have hget : es.data[idx]? = some es.data[idx] := List.getElem?_eq_getElem hidx'
  unfold indexElement
  have hself : ∃ d, es.dist? idx idx = some d := by
    simp [Elements.dist?, hget, Elements.distTo]
  obtain ⟨dSelf, hdSelf⟩ := hself
  simp only [hdSelf]
  split
  · intro R' _ _; trivial
  · rename_i hne
    have hzi := hZ dSelf hdSelf hne
    simp only [hget]
    obtain ⟨r, hr, hpubE, hzeroE⟩ := hprev.search es.data[idx]
    simp only [hr]
    refine Prog.Safe.bind (RelyOn.refl idx) (Q := Found n Z (es.distTo es.data[idx]) cfg.maxSearch
      (match r.head? with | some p => p.1 | none => 0))
      (searchForNeighbors_safe hnN hms (fun i hi => distTo_isSome es _ (by omega)) (hpubE.mono hinv.2))
      hinv ?_
    intro R1 found hinv1 hfound
    have hfpub : ∀ p ∈ found.filter (fun p => p.1 != idx), Pub n Z R1 p.1 := fun p hp =>
      hfound.pub p (List.mem_of_mem_filter hp)
    obtain ⟨neighbors, hsel⟩ := selectNeighbors_isSome (es := es) (m := cfg.numNeighbors)
      (cands := found.filter fun p => p.1 != idx) (fun p hp => by
        have := (hfpub p hp).1; omega) (hfound.sorted.sublist List.filter_sublist)
    obtain ⟨hsub, hlen⟩ := selectNeighbors_sublist hsel
    simp only [hsel]
    have hpublish : (publish es srt idx neighbors).Safe (InvFrom n w Z R₀) (RelyOn idx) (GuarOf idx)
        (fun _ _ => True) R1 := by
      refine publish_safe hn hes hsrt hw hidx (fun _ => hzi) neighbors R1
        (fun p hp => hfpub p (hsub.subset hp)) ?_ ?_ (by omega) ?_
      · exact hfound.nodup.sublist ((hsub.trans List.filter_sublist).map _)
      · intro p hp
        have := List.of_mem_filter (hsub.subset hp)
        simpa using this
      · intro h0 hn0
        have he := hzeroE fun h => hn0 (hinv1.2 _ h)
        have hall := hfound.zero he hn0
        have : found.filter (fun p => p.1 != idx) = [] := by
          rw [List.filter_eq_nil_iff]
          intro p hp
          simp [hall p hp, h0]
        rw [this] at hsub
        exact List.sublist_nil.1 hsub
    split
    · split
      · intro R' _ _; trivial
      · exact hpublish
    · exact hpublish

end Granne
