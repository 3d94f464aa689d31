import Verif.Proofs.Layer

/-!
What indexing achieves, whatever the interleaving: every element that is not skipped ends with a neighbor, and
as long as no neighbor list overflows (`S`) all of them are linked with node 0 in both directions.
-/
namespace Granne
open List Spec

variable {E D : Type} [LinearOrder D]

/-- No neighbor is lost. -/
def Grow (R R' : Rows) : Prop :=
  ∀ (i : Nat) (row : Row), R[i]? = some row → ∃ row', R'[i]? = some row' ∧ ∀ j ∈ visible row, j ∈ visible row'

theorem Grow.refl (R : Rows) : Grow R R := fun _ row h => ⟨row, h, fun _ h => h⟩

theorem Grow.trans {a b c : Rows} (h1 : Grow a b) (h2 : Grow b c) : Grow a c := by
  intro i row hi
  obtain ⟨row', e1, e2⟩ := h1 i row hi
  obtain ⟨row'', e3, e4⟩ := h2 i row' e1
  exact ⟨row'', e3, fun j hj => e4 j (e2 j hj)⟩

theorem Grow.reach {R R' : Rows} (h : Grow R R') {i j : Nat} (hr : Reach (graphOf R) i j) :
    Reach (graphOf R') i j := by
  induction hr with
  | refl => exact .refl
  | step _ he ih =>
    obtain ⟨row, h1, h2⟩ := edge_graphOf.1 he
    obtain ⟨row', h3, h4⟩ := h _ row h1
    exact .step ih (edge_graphOf.2 ⟨row', h3, h4 _ h2⟩)

theorem Grow.set {R : Rows} {i : Nat} {row row' : Row} (hi : R[i]? = some row)
    (h : ∀ j ∈ visible row, j ∈ visible row') : Grow R (R.set i row') := by
  have hlt := (List.getElem?_eq_some_iff.1 hi).1
  intro k r hk
  by_cases he : i = k
  · subst he
    rw [hi] at hk; cases hk
    exact ⟨row', List.getElem?_set_self hlt, h⟩
  · exact ⟨r, by rw [List.getElem?_set_ne he]; exact hk, fun _ h => h⟩

theorem reach_trans {g : Graph} {i j k : Nat} (h1 : Reach g i j) (h2 : Reach g j k) : Reach g i k := by
  induction h2 with
  | refl => exact h1
  | step _ he ih => exact .step ih he

/-- `RelyOn`, and nothing is lost. -/
def RelyS (S : Prop) (idx : Nat) (R R' : Rows) : Prop := RelyOn idx R R' ∧ (S → Grow R R')

theorem RelyS.refl (S : Prop) (idx : Nat) (R : Rows) : RelyS S idx R R := ⟨RelyOn.refl _ _, fun _ => Grow.refl R⟩

theorem RelyS.trans (S : Prop) (idx : Nat) (a b c : Rows) (h1 : RelyS S idx a b) (h2 : RelyS S idx b c) :
    RelyS S idx a c := ⟨RelyOn.trans _ _ _ _ h1.1 h2.1, fun s => (h1.2 s).trans (h2.2 s)⟩

/-- `InvFrom`; nothing of `R₀` was lost, and from every node with a neighbor one gets to node 0. -/
structure InvS (S : Prop) (n w : Nat) (Z : Nat → Prop) (R₀ R : Rows) : Prop where
  inv : InvFrom n w Z R₀ R
  grow : S → Grow R₀ R
  back : S → ∀ j, NE R j → Reach (graphOf R) j 0

/-- An id a task may know. -/
def Known (S : Prop) (n : Nat) (Z : Nat → Prop) (R : Rows) (j : Nat) : Prop :=
  Pub n Z R j ∧ (S → Reach (graphOf R) 0 j)

theorem Known.mono {S : Prop} {n : Nat} {Z : Nat → Prop} {R R' : Rows} {j : Nat} (hm : ∀ j, NE R j → NE R' j)
    (hg : S → Grow R R') (h : Known S n Z R j) : Known S n Z R' j :=
  ⟨h.1.mono hm, fun s => (hg s).reach (h.2 s)⟩

theorem Known.back {S : Prop} {n w : Nat} {Z : Nat → Prop} {R₀ R : Rows} {j : Nat} (hi : InvS S n w Z R₀ R)
    (h : Known S n Z R j) (s : S) : Reach (graphOf R) j 0 := by
  by_cases h0 : j = 0
  · subst h0; exact .refl
  · exact hi.back s j (h.1.2 h0).1

/-! ### The search -/

/-- What a search among nodes satisfying `K` delivers. -/
structure FoundK (K : Rows → Nat → Prop) (dq : Nat → Option D) (ms entry : Nat) (R : Rows)
    (found : List (Nat × D)) : Prop where
  known : ∀ p ∈ found, K R p.1
  nodup : (found.map Prod.fst).Nodup
  dist : ∀ p ∈ found, dq p.1 = some p.2
  sorted : found.Pairwise fun a b => a.2 ≤ b.2
  len : found.length ≤ ms
  ne : found ≠ []

theorem searchLoop_safeK {n : Nat} {Inv : Rows → Prop} {Rely Guar : Rows → Rows → Prop} {K : Rows → Nat → Prop}
    (hlt : ∀ R i, K R i → i < n) (hlen : ∀ R, Inv R → n ≤ R.length)
    (hmono : ∀ R R' i, Rely R R' → K R i → K R' i)
    (hstep : ∀ R i row, Inv R → K R i → R[i]? = some row → ∀ j ∈ visible row, K R j)
    {dq : Nat → Option D} {ms entry : Nat} (hms : 0 < ms) (hdq : ∀ i < n, (dq i).isSome) :
    ∀ (fuel : Nat) (res : MaxSizeHeap (Cand D)) (pq : List (Cand D)) (vis popped : List Nat) (R : Rows),
      CInv dq ms res pq vis popped → (∀ i ∈ vis, K R i) → n + 1 ≤ popped.length + fuel →
      BestInv dq entry res pq →
      (searchLoop dq fuel res pq vis).Safe Inv Rely Guar (FoundK K dq ms entry) R := by
  intro fuel
  induction fuel with
  | zero =>
    intro res pq vis popped R hi hk hfuel _
    exfalso
    have : popped ⊆ List.range n := fun i h => List.mem_range.2 (hlt R i (hk i (hi.popVis i h)))
    have := (List.subperm_of_subset hi.popNodup this).length_le
    simp at this; omega
  | succ fuel ih =>
    intro res pq vis popped R hi hk hfuel hbest
    have hret : (∃ c ∈ res.heap, ∃ d, dq entry = some d ∧ c.d ≤ d) →
        (Prog.ret (res.intoSortedVec.map fun c => (c.id, c.d))).Safe Inv Rely Guar (FoundK K dq ms entry) R := by
      intro hb R' hr hinv
      have hvis : ∀ c ∈ res.heap, c.id ∈ vis := fun c hc => hi.popVis _ (hi.resPop c hc).1
      refine ⟨?_, ?_, ?_, ?_, ?_, ?_⟩
      · intro p hp
        obtain ⟨c, hc, rfl⟩ := List.mem_map.1 hp
        exact hmono _ _ _ hr (hk _ (hvis c hc))
      · rw [List.map_map]
        refine List.Pairwise.map _ (fun a b hab => ?_) (List.Pairwise.and_mem.1 hi.resSorted)
        obtain ⟨ha, hb, hlt'⟩ := hab
        intro e
        simp only [Function.comp_apply] at e
        have h1 := (hi.resPop a ha).2
        have h2 := (hi.resPop b hb).2
        rw [e, h2] at h1
        have : a = b := by cases a; cases b; simp_all
        exact absurd hlt' (by rw [this]; exact lt_irrefl _)
      · intro p hp
        obtain ⟨c, hc, rfl⟩ := List.mem_map.1 hp
        exact (hi.resPop c hc).2
      · exact List.Pairwise.map _ (fun a b hab => Cand.d_le hab.le) hi.resSorted
      · simpa [MaxSizeHeap.intoSortedVec] using hi.resLen
      · obtain ⟨c, hc, _⟩ := hb
        exact List.ne_nil_of_mem (List.mem_map.2 ⟨c, hc, rfl⟩)
    cases pq with
    | nil =>
      rw [searchLoop]
      refine hret ?_
      rcases hbest with ⟨_, _, _, h⟩ | h
      · cases h
      · exact h
    | cons c pq =>
      obtain ⟨d, i⟩ := c
      have hiv : i ∈ vis := (hi.pqVis ⟨d, i⟩ (by simp)).1
      have hmsr : 0 < res.maxSize := by rw [hi.maxSize]; exact hms
      have hst : ∃ b, shouldStop res d = some b := by
        unfold shouldStop
        by_cases hf : res.isFull
        · obtain ⟨t, ht⟩ := MaxSizeHeap.peek_isSome hmsr hf
          simp [hf, ht]
        · simp [hf]
      obtain ⟨b, hst⟩ := hst
      rw [searchLoop]
      cases b with
      | true =>
        simp only [hst]
        refine hret ?_
        rcases hbest with ⟨h, _⟩ | h
        · have : res.isFull = false := by
            simp only [MaxSizeHeap.isFull, h, List.length_nil, decide_eq_false_iff_not]
            omega
          simp [shouldStop, this] at hst
        · exact h
      | false =>
        obtain ⟨⟨res', b⟩, hp⟩ := MaxSizeHeap.push_isSome hmsr (⟨d, i⟩ : Cand D)
        simp only [hst, hp]
        intro R' hr hinv
        have hki := hmono _ _ _ hr (hk i hiv)
        have hiR : i < R'.length := lt_of_lt_of_le (hlt _ _ hki) (hlen _ hinv)
        have hrow : R'[i]? = some R'[i] := List.getElem?_eq_getElem hiR
        refine ⟨R'[i], hrow, ?_⟩
        have hnb := hstep R' i _ hinv hki hrow
        have hres' : res'.maxSize = res.maxSize := by
          have hnot : (⟨d, i⟩ : Cand D) ∉ res.heap := fun h =>
            hi.popPq ⟨d, i⟩ (by simp) (hi.resPop _ h).1
          exact (MaxSizeHeap.push_spec hi.resSorted hnot
            (by rw [hi.maxSize]; exact hi.resLen) hp).1
        obtain ⟨⟨pq', vis'⟩, hsc⟩ := scan_isSome dq res' (visible R'[i]) pq vis (by
          intro j hj _
          refine ⟨hdq j (hlt _ _ (hnb j hj)), fun hf => ?_⟩
          obtain ⟨t, ht⟩ := MaxSizeHeap.peek_isSome (by rw [hres']; exact hmsr) hf
          simp [ht])
        simp only [hsc]
        obtain ⟨hi', hvis'⟩ := hi.step hp hsc
        refine ih res' pq' vis' (i :: popped) R' hi' ?_ (by simp; omega) (hbest.push hi hp)
        intro j hj
        rcases (hvis' j).1 hj with hj | hj
        · exact hmono _ _ _ hr (hk j hj)
        · exact hnb j hj

theorem searchForNeighbors_safeK {n N : Nat} {Inv : Rows → Prop} {Rely Guar : Rows → Rows → Prop}
    {K : Rows → Nat → Prop}
    (hlt : ∀ R i, K R i → i < n) (hlen : ∀ R, Inv R → n ≤ R.length)
    (hmono : ∀ R R' i, Rely R R' → K R i → K R' i)
    (hstep : ∀ R i row, Inv R → K R i → R[i]? = some row → ∀ j ∈ visible row, K R j)
    {dq : Nat → Option D} {ms entry : Nat} (hms : 0 < ms) (hdq : ∀ i < n, (dq i).isSome) (hnN : n ≤ N)
    {R : Rows} (hentry : K R entry) :
    (searchForNeighbors N entry dq ms).Safe Inv Rely Guar (FoundK K dq ms entry) R := by
  unfold searchForNeighbors
  obtain ⟨d, hd⟩ := Option.isSome_iff_exists.1 (hdq entry (hlt _ _ hentry))
  simp only [hd]
  exact searchLoop_safeK hlt hlen hmono hstep hms hdq _ _ _ _ [] R (CInv.init hd) (by simpa using hentry)
    (by simpa using hnN) (Or.inl ⟨rfl, d, hd, rfl⟩)

/-! ### Publishing -/

abbrev GuarS (S : Prop) (idx : Nat) (a b : Rows) : Prop := ∀ j, j ≠ idx → RelyS S j a b

/-- What the task of element `idx` achieves. -/
def Linked (S : Prop) (idx : Nat) (R : Rows) : Prop :=
  idx ≠ 0 → NE R idx ∧ (S → Reach (graphOf R) 0 idx)

theorem Linked.mono {S : Prop} {idx : Nat} {R R' : Rows} (hm : ∀ j, NE R j → NE R' j) (hg : S → Grow R R')
    (h : Linked S idx R) : Linked S idx R' :=
  fun h0 => ⟨hm _ (h h0).1, fun s => (hg s).reach ((h h0).2 s)⟩

/-- Replacing a row by a larger one. -/
theorem update_S {S : Prop} {n w : Nat} {Z : Nat → Prop} {R₀ R : Rows} {idx i : Nat} {row row' : Row}
    (h : InvS S n w Z R₀ R) (hi : i < n) (hrow : R[i]? = some row) (hrow' : RowOk n w Z i row')
    (hne : visible row' ≠ []) (hpub : ∀ j ∈ visible row', j ≠ 0 → NE R j)
    (hown : i = 0 ∨ NE R i ∨ i = idx)
    (hsup : S → ∀ j ∈ visible row, j ∈ visible row')
    (hback : S → ∃ j, (j = i ∨ j ∈ visible row') ∧ Reach (graphOf R) j 0) :
    InvS S n w Z R₀ (R.set i row') ∧ GuarS S idx R (R.set i row') ∧
      (∀ j, NE R j → NE (R.set i row') j) ∧ (S → Grow R (R.set i row')) ∧ NE (R.set i row') i := by
  obtain ⟨h1, h2, h3, h4⟩ := update_ok (idx := idx) h.inv hi hrow' hne hpub hown
  have hg : S → Grow R (R.set i row') := fun s => Grow.set hrow (hsup s)
  have hiR : i < R.length := (List.getElem?_eq_some_iff.1 hrow).1
  refine ⟨⟨h1, fun s => (h.grow s).trans (hg s), ?_⟩, fun k hk => ⟨h2 k hk, hg⟩, h3, hg, h4⟩
  intro s j hj
  by_cases he : j = i
  · subst he
    obtain ⟨k, hk, hr⟩ := hback s
    have hr' := (hg s).reach hr
    rcases hk with rfl | hk
    · exact hr'
    · exact reach_trans (Reach.step .refl (edge_graphOf.2 ⟨row', List.getElem?_set_self hiR, hk⟩)) hr'
  · rw [NE_set hiR, if_neg he] at hj
    exact (hg s).reach (h.back s j hj)

section publish
variable {S : Prop} {n w : Nat} {Z : Nat → Prop} {R₀ : Rows} {idx : Nat} {es : Elements E D}
  {srt : List (Nat × D) → List (Nat × D)}

theorem connectOthers_linked (hS : S → n ≤ w + 1) (hn : n ≤ UNUSED) (hes : n ≤ es.data.length)
    (hsrt : IsSortByDist srt) (hw : 1 ≤ w) (hidx : idx < n) (hz : idx ≠ 0 → ¬ Z idx) :
    ∀ (neighbors : List (Nat × D)) (R : Rows), (∀ p ∈ neighbors, Known S n Z R p.1 ∧ p.1 ≠ idx) →
      (neighbors ≠ [] → idx ≠ 0 → NE R idx) → (Linked S idx R ∨ neighbors ≠ []) →
      (connectOthers es srt idx neighbors (.ret ())).Safe (InvS S n w Z R₀) (RelyS S idx) (GuarS S idx)
        (fun R _ => Linked S idx R) R := by
  intro neighbors
  induction neighbors with
  | nil =>
    intro R _ _ hl R' hr _
    rcases hl with hl | hl
    · exact hl.mono hr.1.ne hr.2
    · exact absurd rfl hl
  | cons p t ih =>
    intro R hk hown _
    obtain ⟨j, d⟩ := p
    have heq : connectOthers es srt idx ((j, d) :: t) (.ret ()) =
        connectNodes es srt j idx d (connectOthers es srt idx t (.ret ())) := rfl
    obtain ⟨hkj, hne⟩ := hk (j, d) (by simp)
    simp only at hkj hne
    rw [heq, connectNodes, if_neg hne]
    intro R' hr hinv
    have hj : j < n := hkj.1.1
    have hkj' := hkj.mono hr.1.ne hr.2
    have hlt : j < R'.length := lt_of_lt_of_le hj hinv.inv.1.len
    have hrow : R'[j]? = some R'[j] := List.getElem?_eq_getElem hlt
    have hrowok := hinv.inv.1.rows j _ hrow
    obtain ⟨row', h1, h2, h3, h4, h5⟩ := connectRow_ok hn hes hsrt hw hj hrowok hidx (Ne.symm hne) hz
      (fun h0 => (hkj.1.2 h0).2) d
    have hup := update_S (idx := idx) hinv hj hrow h2 h3 (by
        intro k hk h0
        rcases h4 k hk with rfl | hk
        · exact hr.1.ne _ (hown (by simp) h0)
        · exact hinv.inv.1.pub j _ hrow k hk h0) (by
        by_cases h0 : j = 0
        · exact Or.inl h0
        · exact Or.inr (Or.inl (hkj'.1.2 h0).1)) (fun s => (h5 (hS s)).2)
        (fun s => ⟨j, Or.inl rfl, hkj'.back hinv s⟩)
    refine ⟨_, row', hrow, h1, hup.1, hup.2.1, ?_⟩
    have hm : ∀ k, NE R k → NE (R'.set j row') k := fun k hk => hup.2.2.1 k (hr.1.ne k hk)
    have hg : S → Grow R (R'.set j row') := fun s => (hr.2 s).trans (hup.2.2.2.1 s)
    refine ih _ (fun p hp => ⟨(hk p (by simp [hp])).1.mono hm hg, (hk p (by simp [hp])).2⟩)
      (fun _ h0 => hm _ (hown (by simp) h0)) (Or.inl fun h0 => ⟨hm _ (hown (by simp) h0), fun s => ?_⟩)
    exact .step ((hg s).reach (hkj.2 s)) (edge_graphOf.2 ⟨row', List.getElem?_set_self hlt, (h5 (hS s)).1⟩)

theorem connectOwn_linked (hS : S → n ≤ w + 1) (hn : n ≤ UNUSED) (hes : n ≤ es.data.length)
    (hsrt : IsSortByDist srt) (hw : 1 ≤ w) (hidx : idx < n) (hz : idx ≠ 0 → ¬ Z idx) (k : Prog Unit) :
    ∀ (neighbors : List (Nat × D)) (R : Rows), (∀ p ∈ neighbors, Known S n Z R p.1 ∧ p.1 ≠ idx) → NE R idx →
      (∀ R', (∀ j, NE R j → NE R' j) → (S → Grow R R') →
        k.Safe (InvS S n w Z R₀) (RelyS S idx) (GuarS S idx) (fun R _ => Linked S idx R) R') →
      (connectOwn es srt idx neighbors k).Safe (InvS S n w Z R₀) (RelyS S idx) (GuarS S idx)
        (fun R _ => Linked S idx R) R := by
  intro neighbors
  induction neighbors with
  | nil => intro R _ _ hk; exact hk R (fun _ h => h) fun _ => Grow.refl R
  | cons p t ih =>
    intro R hkn hown hk
    obtain ⟨j, d⟩ := p
    have heq : connectOwn es srt idx ((j, d) :: t) k =
        connectNodes es srt idx j d (connectOwn es srt idx t k) := rfl
    obtain ⟨hkj, hne⟩ := hkn (j, d) (by simp)
    simp only at hkj hne
    rw [heq, connectNodes, if_neg (Ne.symm hne)]
    intro R' hr hinv
    have hlt : idx < R'.length := lt_of_lt_of_le hidx hinv.inv.1.len
    have hrow : R'[idx]? = some R'[idx] := List.getElem?_eq_getElem hlt
    have hrowok := hinv.inv.1.rows idx _ hrow
    obtain ⟨row', h1, h2, h3, h4, h5⟩ := connectRow_ok hn hes hsrt hw hidx hrowok hkj.1.1 hne
      (fun h0 => (hkj.1.2 h0).2) hz d
    have hup := update_S (idx := idx) hinv hidx hrow h2 h3 (by
        intro m hm h0
        rcases h4 m hm with rfl | hm
        · exact hr.1.ne _ (hkj.1.2 h0).1
        · exact hinv.inv.1.pub idx _ hrow m hm h0) (Or.inr (Or.inr rfl)) (fun s => (h5 (hS s)).2)
        (fun s => ⟨idx, Or.inl rfl, hinv.back s idx (hr.1.ne _ hown)⟩)
    refine ⟨_, row', hrow, h1, hup.1, hup.2.1, ?_⟩
    have hm : ∀ k, NE R k → NE (R'.set idx row') k := fun k hk => hup.2.2.1 k (hr.1.ne k hk)
    have hg : S → Grow R (R'.set idx row') := fun s => (hr.2 s).trans (hup.2.2.2.1 s)
    exact ih _ (fun p hp => ⟨(hkn p (by simp [hp])).1.mono hm hg, (hkn p (by simp [hp])).2⟩) (hm _ hown)
      (fun R'' hm' hg' => hk R'' (fun j hj => hm' j (hm j hj)) fun s => (hg s).trans (hg' s))

theorem publish_linked (hS : S → n ≤ w + 1) (hn : n ≤ UNUSED) (hes : n ≤ es.data.length)
    (hsrt : IsSortByDist srt) (hw : 1 ≤ w) (hidx : idx < n) (hz : idx ≠ 0 → ¬ Z idx)
    (neighbors : List (Nat × D)) (R : Rows)
    (hk : ∀ p ∈ neighbors, Known S n Z R p.1 ∧ p.1 ≠ idx) (hnd : (neighbors.map Prod.fst).Nodup)
    (hlen : neighbors.length ≤ w)
    (hzero : idx = 0 → ¬ NE R 0 → neighbors = []) (hstart : Linked S idx R ∨ neighbors ≠ []) :
    (publish es srt idx neighbors).Safe (InvS S n w Z R₀) (RelyS S idx) (GuarS S idx)
      (fun R _ => Linked S idx R) R := by
  intro R' hr hinv
  have hiR : idx < R'.length := lt_of_lt_of_le hidx hinv.inv.1.len
  have hrow : R'[idx]? = some R'[idx] := List.getElem?_eq_getElem hiR
  have hrowok := hinv.inv.1.rows idx _ hrow
  have hlen' := hrowok.length
  cases hcase : R'[idx] with
  | nil => rw [hcase] at hlen'; simp at hlen'; omega
  | cons x rest =>
    refine ⟨x, rest, by rw [hrow, hcase], ?_⟩
    have hk' : ∀ p ∈ neighbors, Known S n Z R' p.1 ∧ p.1 ≠ idx := fun p hp =>
      ⟨(hk p hp).1.mono hr.1.ne hr.2, (hk p hp).2⟩
    have hstart' : Linked S idx R' ∨ neighbors ≠ [] := hstart.imp (fun h => h.mono hr.1.ne hr.2) id
    by_cases hx : x = UNUSED
    · have hvis : visible R'[idx] = [] := by rw [hcase]; simp [visible, hx]
      have hnne : ¬ NE R' idx := by
        rintro ⟨row, h1, h2⟩
        rw [hrow] at h1
        cases h1
        exact h2 hvis
      simp only [hx, beq_self_eq_true, if_true]
      by_cases h0 : idx = 0
      · have hnil : neighbors = [] := hzero h0 fun h => hnne (h0 ▸ hr.1.ne _ h)
        subst hnil
        intro R'' hr2 hinv2
        have hrow2 : R''[idx]? = some (R''[idx]'(lt_of_lt_of_le hidx hinv2.inv.1.len)) :=
          List.getElem?_eq_getElem (lt_of_lt_of_le hidx hinv2.inv.1.len)
        refine ⟨_, _, hrow2, initializeNode_nil _, ?_, ?_, ?_⟩
        · rw [update_same hrow2]; exact hinv2
        · rw [update_same hrow2]; exact fun j _ => RelyS.refl S j _
        · intro R3 _ _ hn0; exact absurd h0 hn0
      · intro R'' hr2 hinv2
        have hlt2 := lt_of_lt_of_le hidx hinv2.inv.1.len
        have hrow2 : R''[idx]? = some R''[idx] := List.getElem?_eq_getElem hlt2
        have hnne2 := hr2.1.own h0 hnne
        have hvis2 : visible R''[idx] = [] := by
          by_contra hc
          exact hnne2 ⟨_, hrow2, hc⟩
        have hk2 : ∀ p ∈ neighbors, Known S n Z R'' p.1 ∧ p.1 ≠ idx := fun p hp =>
          ⟨(hk' p hp).1.mono hr2.1.ne hr2.2, (hk' p hp).2⟩
        have hrowok2 := hinv2.inv.1.rows idx _ hrow2
        have hnil : neighbors ≠ [] := by
          rcases hstart' with h | h
          · exact absurd (h h0).1 hnne
          · exact h
        obtain ⟨row', h1, h2, h3⟩ := initializeNode_ok hn hrowok2 hvis2 hlen hnd (by
          intro j hj
          obtain ⟨p, hp, rfl⟩ := List.mem_map.1 hj
          exact ⟨(hk p hp).1.1.1, (hk p hp).2, fun h => ((hk p hp).1.1.2 h).2⟩) hidx hz
        have hup := update_S (idx := idx) hinv2 hidx hrow2 h2 (by
            rw [h3]; simpa using hnil) (by
            rw [h3]
            intro j hj hj0
            obtain ⟨p, hp, rfl⟩ := List.mem_map.1 hj
            exact ((hk2 p hp).1.1.2 hj0).1) (Or.inr (Or.inr rfl)) (by
            intro _ j hj; rw [hvis2] at hj; simp at hj) (by
            intro s
            obtain ⟨p, hp⟩ := List.exists_mem_of_ne_nil _ hnil
            exact ⟨p.1, Or.inr (by rw [h3]; exact List.mem_map.2 ⟨p, hp, rfl⟩), (hk2 p hp).1.back hinv2 s⟩)
        refine ⟨_, row', hrow2, h1, hup.1, hup.2.1, ?_⟩
        exact connectOthers_linked hS hn hes hsrt hw hidx hz neighbors _
            (fun p hp => ⟨(hk2 p hp).1.mono hup.2.2.1 hup.2.2.2.1, (hk2 p hp).2⟩) (fun _ _ => hup.2.2.2.2)
            (Or.inr hnil)
    · have hne : NE R' idx := by
        refine ⟨_, hrow, ?_⟩
        rw [hcase]
        simp [visible, hx]
      have hbeq : (x == UNUSED) = false := by simpa using hx
      simp only [hbeq, Bool.false_eq_true, if_false]
      refine connectOwn_linked hS hn hes hsrt hw hidx hz _ neighbors R' hk' hne ?_
      intro R'' hm hg
      exact connectOthers_linked hS hn hes hsrt hw hidx hz neighbors R''
        (fun p hp => ⟨(hk' p hp).1.mono hm hg, (hk' p hp).2⟩) (fun _ _ => hm _ hne)
        (hstart'.imp (fun h => h.mono hm hg) id)

end publish

/-- The task after the entry point is known. -/
theorem indexFrom_linked {S : Prop} {n N w : Nat} {Z : Nat → Prop} {R₀ R : Rows} {idx : Nat}
    {es : Elements E D} {srt : List (Nat × D) → List (Nat × D)} {cfg : LayerConfig D}
    (hS : S → n ≤ w + 1)
    (hnN : n ≤ N) (hn : n ≤ UNUSED) (hes : n ≤ es.data.length) (hsrt : IsSortByDist srt) (hidx : idx < n)
    (hw : 1 ≤ w) (hc1 : 1 ≤ cfg.numNeighbors) (hcfg : cfg.numNeighbors ≤ w) (hms : 1 ≤ cfg.maxSearch)
    (hzi : ¬ Z idx)
    (hfar : (∀ j d, j < n → j ≠ idx → es.dist? j idx = some d → ¬ d < cfg.eps) ∨ n ≤ cfg.numNeighbors / 2 + 1)
    {entry : Nat} (hpubE : Pub n Z R₀ entry) (hzeroE : ¬ NE R₀ 0 → entry = 0)
    (hroot : S → ∀ j, NE R₀ j → ¬ Z j → Reach (graphOf R₀) 0 j)
    (hstart : idx ≠ 0 → ¬ NE R idx ∨ Linked S idx R)
    (hinv : InvS S n w Z R₀ R) {element : E} (hget : es.data[idx]? = some element) :
    ((searchForNeighbors N entry (es.distTo element) cfg.maxSearch).bind fun found =>
            let candidates := found.filter fun p => p.1 != idx
            match selectNeighbors es candidates cfg.numNeighbors with
            | none => .fail
            | some neighbors =>
              match neighbors[cfg.numNeighbors / 2]? with
              | some (_, d) => if d < cfg.eps then .ret () else publish es srt idx neighbors
              | none => publish es srt idx neighbors).Safe (InvS S n w Z R₀) (RelyS S idx) (GuarS S idx)
      (fun R _ => Linked S idx R) R := by
  -- what is known about every node met
  let K : Rows → Nat → Prop := fun R i => Known S n Z R i ∧ (entry = 0 → ¬ NE R 0 → i = 0) ∧
    (idx ≠ 0 → ¬ NE R idx ∨ Linked S idx R)
  have hKmono : ∀ R R' i, RelyS S idx R R' → K R i → K R' i := by
    intro R R' i hr hK
    refine ⟨hK.1.mono hr.1.ne hr.2, fun he hn0 => hK.2.1 he fun h => hn0 (hr.1.ne _ h), fun h0 => ?_⟩
    rcases hK.2.2 h0 with h | h
    · exact Or.inl (hr.1.own h0 h)
    · exact Or.inr (h.mono hr.1.ne hr.2)
  have hKstep : ∀ R i row, InvS S n w Z R₀ R → K R i → R[i]? = some row → ∀ j ∈ visible row, K R j := by
    intro R i row hi hK hrow j hj
    have hrowok := hi.inv.1.rows i row hrow
    refine ⟨⟨⟨(hrowok.ids j hj).1, fun h0 => ⟨hi.inv.1.pub i row hrow j hj h0, (hrowok.ids j hj).2.2 h0⟩⟩,
      fun s => .step (hK.1.2 s) (edge_graphOf.2 ⟨row, hrow, hj⟩)⟩, ?_, hK.2.2⟩
    intro he hn0
    have hi0 := hK.2.1 he hn0
    subst hi0
    exact absurd ⟨_, hrow, List.ne_nil_of_mem hj⟩ hn0
  have hKe : K R entry := by
    refine ⟨⟨hpubE.mono hinv.inv.2, fun s => ?_⟩, fun h _ => h, hstart⟩
    by_cases h0 : entry = 0
    · rw [h0]; exact .refl
    · exact (hinv.grow s).reach (hroot s entry (hpubE.2 h0).1 (hpubE.2 h0).2)
  refine Prog.Safe.bind (RelyS.refl S idx) (Q := FoundK K (es.distTo element) cfg.maxSearch entry)
    (searchForNeighbors_safeK (n := n) (fun R i h => h.1.1.1) (fun R h => h.inv.1.len) hKmono hKstep hms
      (fun i hi => distTo_isSome es _ (lt_of_lt_of_le hi hes)) hnN hKe)
    hinv ?_
  intro R1 found hinv1 hfound
  obtain ⟨neighbors, hsel⟩ := selectNeighbors_isSome (es := es) (m := cfg.numNeighbors)
    (cands := found.filter fun p => p.1 != idx) (fun p hp => by
      have := (hfound.known p (List.mem_of_mem_filter hp)).1.1.1; omega)
    (hfound.sorted.sublist List.filter_sublist)
  obtain ⟨hsub, hlen⟩ := selectNeighbors_sublist hsel
  simp only [hsel]
  have hmem : ∀ p ∈ neighbors, p ∈ found ∧ p.1 ≠ idx := by
    intro p hp
    have h1 := hsub.subset hp
    exact ⟨List.mem_of_mem_filter h1, by simpa using List.of_mem_filter h1⟩
  have hnd : (neighbors.map Prod.fst).Nodup :=
    hfound.nodup.sublist ((hsub.trans List.filter_sublist).map _)
  have hst : idx ≠ 0 → Linked S idx R1 ∨ neighbors ≠ [] := by
    intro h0
    obtain ⟨p, hp⟩ := List.exists_mem_of_ne_nil _ hfound.ne
    rcases (hfound.known p hp).2.2 h0 with h | h
    · right
      refine selectNeighbors_ne_nil hc1 hsel ?_
      have hpi : p.1 ≠ idx := by
        intro he
        have h2 := ((hfound.known p hp).1.1.2 (he ▸ h0)).1
        rw [he] at h2
        exact h h2
      exact List.ne_nil_of_mem (List.mem_filter.2 ⟨hp, by simpa using hpi⟩)
    · exact Or.inl h
  have hst' : Linked S idx R1 ∨ neighbors ≠ [] := by
    by_cases h0 : idx = 0
    · exact Or.inl fun h => absurd h0 h
    · exact hst h0
  have hpublish : (publish es srt idx neighbors).Safe (InvS S n w Z R₀) (RelyS S idx) (GuarS S idx)
      (fun R _ => Linked S idx R) R1 := by
    refine publish_linked hS hn hes hsrt hw hidx (fun _ => hzi) neighbors R1
      (fun p hp => ⟨(hfound.known p (hmem p hp).1).1, (hmem p hp).2⟩) hnd (by omega) ?_ hst'
    intro h0 hn0
    have he := hzeroE fun h => hn0 (hinv1.inv.2 _ h)
    refine List.eq_nil_iff_forall_not_mem.2 fun p hp => ?_
    have := (hfound.known p (hmem p hp).1).2.1 he hn0
    exact (hmem p hp).2 (this.trans h0.symm)
  split
  · next j d hgetn =>
    split
    · next hlt =>
      exfalso
      have hjm : (j, d) ∈ neighbors := List.mem_of_getElem? hgetn
      rcases hfar with hfar | hfar
      · refine hfar j d (hfound.known _ (hmem _ hjm).1).1.1.1 (hmem _ hjm).2 ?_ hlt
        simp only [Elements.dist?, hget]
        exact hfound.dist _ (hmem _ hjm).1
      · have h1 := length_le_of_ids (l := neighbors.map Prod.fst) hidx hnd (by
          intro k hk
          obtain ⟨p, hp, rfl⟩ := List.mem_map.1 hk
          exact ⟨(hfound.known _ (hmem _ hp).1).1.1.1, (hmem _ hp).2⟩)
        rw [List.length_map] at h1
        have h2 := (List.getElem?_eq_some_iff.1 hgetn).1
        omega
    · exact hpublish
  · exact hpublish

/-- The whole task. -/
theorem indexElement_linked {S : Prop} {n N w : Nat} {Z : Nat → Prop} {R₀ R : Rows} {idx : Nat}
    {es : Elements E D} {srt : List (Nat × D) → List (Nat × D)} {cfg : LayerConfig D} {prev : List Graph}
    (hS : S → n ≤ w + 1)
    (hnN : n ≤ N) (hn : n ≤ UNUSED) (hes : n ≤ es.data.length) (hsrt : IsSortByDist srt) (hidx : idx < n)
    (hw : 1 ≤ w) (hc1 : 1 ≤ cfg.numNeighbors) (hcfg : cfg.numNeighbors ≤ w) (hms : 1 ≤ cfg.maxSearch)
    (hZ : ∀ d, es.dist? idx idx = some d → ¬ cfg.eps < d → ¬ Z idx)
    (hfar : (∀ j d, j < n → j ≠ idx → es.dist? j idx = some d → ¬ d < cfg.eps) ∨ n ≤ cfg.numNeighbors / 2 + 1)
    (hprev : PrevOk n Z es prev R₀)
    (hroot : S → ∀ j, NE R₀ j → ¬ Z j → Reach (graphOf R₀) 0 j)
    (hstart : ¬ Z idx → idx ≠ 0 → ¬ NE R idx ∨ Linked S idx R)
    (hinv : InvS S n w Z R₀ R) :
    (indexElement cfg es srt prev N idx).Safe (InvS S n w Z R₀) (RelyS S idx) (GuarS S idx)
      (fun R _ => (∃ d, es.dist? idx idx = some d ∧ ¬ cfg.eps < d) → Linked S idx R) R := by
  have hget : es.data[idx]? = some (es.data[idx]'(by omega)) := List.getElem?_eq_getElem (by omega)
  unfold indexElement
  have hself : ∃ d, es.dist? idx idx = some d := by
    simp [Elements.dist?, hget, Elements.distTo]
  obtain ⟨dSelf, hdSelf⟩ := hself
  simp only [hdSelf]
  split
  · next hlt =>
    intro R' _ _ ⟨d, hd, hnl⟩
    cases hd
    exact absurd hlt hnl
  · rename_i hne
    have hzi := hZ dSelf hdSelf hne
    simp only [hget]
    obtain ⟨r, hr, hpubE, hzeroE⟩ := hprev.search es.data[idx]
    simp only [hr]
    cases hh : r.head? with
    | none =>
      simp only [hh] at hpubE ⊢
      exact (indexFrom_linked hS hnN hn hes hsrt hidx hw hc1 hcfg hms hzi hfar hpubE (fun _ => rfl) hroot (hstart hzi) hinv
        hget).weaken fun R _ h _ => h
    | some p =>
      simp only [hh] at hpubE hzeroE ⊢
      exact (indexFrom_linked hS hnN hn hes hsrt hidx hw hc1 hcfg hms hzi hfar hpubE hzeroE hroot (hstart hzi) hinv
        hget).weaken fun R _ h _ => h

/-! ### All tasks together -/

/-- A system of safe threads whose thread `t` ends in a state satisfying `Q t`. -/
structure ParSafeQ (Inv : Rows → Prop) (Rely : Nat → Rows → Rows → Prop) (own : Nat → Nat) (Q : Nat → Rows → Prop)
    (s : Par) : Prop where
  inv : Inv s.rows
  threads : ∀ (t : Nat) (p : Prog Unit), s.threads[t]? = some p →
    p.Safe Inv (Rely (own t)) (fun a b => ∀ j, j ≠ own t → Rely j a b) (fun R _ => Q t R) s.rows

theorem ParSafeQ.step {Inv : Rows → Prop} {Rely : Nat → Rows → Rows → Prop} {own : Nat → Nat}
    {Q : Nat → Rows → Prop}
    (hrefl : ∀ i a, Rely i a a) (htrans : ∀ i a b c, Rely i a b → Rely i b c → Rely i a c)
    {s s' : Par} (hinj : ∀ t t', t < s.threads.length → t' < s.threads.length → own t = own t' → t = t')
    (h : ParSafeQ Inv Rely own Q s) (hs : Par.Step s s') : ParSafeQ Inv Rely own Q s' := by
  cases hs with
  | mk t p p' rows' ht hstep =>
    have hp := h.threads t p ht
    obtain ⟨h1, h2, h3⟩ := hp.step (hrefl _) (fun a j _ => hrefl j a) h.inv hstep
    refine ⟨h1, ?_⟩
    intro t' q hq
    simp only at hq ⊢
    have htl : t < s.threads.length := (List.getElem?_eq_some_iff.1 ht).1
    by_cases he : t = t'
    · subst he
      rw [List.getElem?_set_self htl] at hq
      simp only [Option.some.injEq] at hq
      subst hq
      exact h3
    · rw [List.getElem?_set_ne he] at hq
      have htl' : t' < s.threads.length := (List.getElem?_eq_some_iff.1 hq).1
      exact (h.threads t' q hq).mono (htrans _) (h2 _ fun e => he (hinj _ _ htl htl' e.symm))

theorem ParSafeQ.steps {Inv : Rows → Prop} {Rely : Nat → Rows → Rows → Prop} {own : Nat → Nat}
    {Q : Nat → Rows → Prop}
    (hrefl : ∀ i a, Rely i a a) (htrans : ∀ i a b c, Rely i a b → Rely i b c → Rely i a c)
    {s s' : Par} (hinj : ∀ t t', t < s.threads.length → t' < s.threads.length → own t = own t' → t = t')
    (h : ParSafeQ Inv Rely own Q s) (hs : Par.Steps s s') : ParSafeQ Inv Rely own Q s' := by
  induction hs with
  | refl => exact h
  | tail h1 h2 ih => exact ih.step hrefl htrans (by rw [h1.length]; exact hinj) h2

/-- When all threads are finished, all postconditions hold. -/
theorem ParSafeQ.done {Inv : Rows → Prop} {Rely : Nat → Rows → Rows → Prop} {own : Nat → Nat}
    {Q : Nat → Rows → Prop} (hrefl : ∀ i a, Rely i a a) {s : Par} (h : ParSafeQ Inv Rely own Q s) (hd : s.Done)
    {t : Nat} (ht : t < s.threads.length) : Q t s.rows := by
  have hg : s.threads[t]? = some s.threads[t] := List.getElem?_eq_getElem ht
  have := h.threads t _ hg
  rw [hd _ (List.getElem_mem ht)] at this
  exact this s.rows (hrefl _ _) h.inv

/-- One `index_elements` call. -/
theorem IndexElements_linked {S : Prop} {w num : Nat} {Z : Nat → Prop} (hnum : num ≤ UNUSED) {es : Elements E D}
    (hes : num ≤ es.data.length) {srt : List (Nat × D) → List (Nat × D)} (hsrt : IsSortByDist srt)
    {cfg : LayerConfig D} (hS : S → num ≤ cfg.numNeighbors + 1)
    (hc1 : 1 ≤ cfg.numNeighbors) (hcw : cfg.numNeighbors ≤ w) (hms : 1 ≤ cfg.maxSearch)
    (hZ : ∀ i d, es.dist? i i = some d → ¬ cfg.eps < d → ¬ Z i)
    (hZ' : ∀ i < num, ¬ Z i → ∃ d, es.dist? i i = some d ∧ ¬ cfg.eps < d)
    (hfar : (∀ i j d, i < num → j < num → j ≠ i → es.dist? j i = some d → ¬ d < cfg.eps) ∨
      num ≤ cfg.numNeighbors / 2 + 1)
    {prev : List Rows} (hprev : StackInv w es.data.length Z prev) {layer : Layer} (hw : layer.width = w)
    (hlayer : LayerInv layer.rows.length w Z layer.rows) (hle : layer.rows.length ≤ num) (h0 : 0 < num)
    (hpl : ∀ R ∈ prev, R.length ≤ layer.rows.length ∧ ∀ j, NE R j → NE layer.rows j)
    (hlinked : ∀ j < layer.rows.length, ¬ Z j → Linked S j layer.rows)
    (hback : S → ∀ j, NE layer.rows j → Reach (graphOf layer.rows) j 0)
    {reinsert : Bool} (hre : reinsert = true → layer.rows.length = num) {layer' : Layer}
    (h : IndexElements cfg es srt num (prev.map graphOf) layer reinsert (some layer')) :
    (∀ j < num, ¬ Z j → Linked S j layer'.rows) ∧
      (S → ∀ j, NE layer'.rows j → Reach (graphOf layer'.rows) j 0) := by
  have hstart : LayerInv num w Z (indexStart num layer reinsert).1 ∧
      (∀ j, NE (indexStart num layer reinsert).1 j ↔ NE layer.rows j) ∧
      Grow layer.rows (indexStart num layer reinsert).1 := by
    cases reinsert with
    | true =>
      simp only [indexStart, if_true]
      refine ⟨?_, fun _ => trivial, Grow.refl _⟩
      rw [← hre rfl]; exact hlayer
    | false =>
      simp only [indexStart, Bool.false_eq_true, if_false, hw]
      refine ⟨?_, fun j => NE_append, ?_⟩
      · have := hlayer.extend (m := num - layer.rows.length)
        rwa [show layer.rows.length + (num - layer.rows.length) = num by omega] at this
      · intro i row hi
        have hlt := (List.getElem?_eq_some_iff.1 hi).1
        exact ⟨row, by rw [List.getElem?_append_left hlt]; exact hi, fun _ h => h⟩
  have hlen : (indexStart num layer reinsert).1.length = num := hstart.1.len
  have hids : (indexStart num layer reinsert).2.Nodup ∧ (∀ i ∈ (indexStart num layer reinsert).2, i < num ∧
      (reinsert = false → layer.rows.length ≤ i)) ∧
      ∀ i, layer.rows.length ≤ i → i < num → i ∈ (indexStart num layer reinsert).2 := by
    cases reinsert with
    | true =>
      simp only [indexStart, if_true]
      refine ⟨List.nodup_reverse.2 List.nodup_range, ?_, ?_⟩
      · intro i hi
        simp at hi
        rw [← hre rfl]; exact ⟨hi, by simp⟩
      · intro i h1 h2
        have := hre rfl
        omega
    | false =>
      simp only [indexStart, Bool.false_eq_true, if_false]
      refine ⟨List.nodup_range.sublist (List.drop_sublist _ _), ?_, ?_⟩
      · intro i hi
        rw [List.mem_drop_iff_getElem] at hi
        obtain ⟨k, hk, rfl⟩ := hi
        simp at hk ⊢
        omega
      · intro i h1 h2
        rw [List.mem_drop_iff_getElem]
        exact ⟨i - layer.rows.length, by simp; omega, by simp; omega⟩
  have hprevOk : PrevOk num Z es (prev.map graphOf) layer.rows :=
    hprev.prevOk le_rfl h0 fun R hR => ⟨(hpl R hR).1.trans hle, (hpl R hR).2⟩
  have hlinked0 : ∀ j < layer.rows.length, ¬ Z j → Linked S j (indexStart num layer reinsert).1 := fun j hj hz =>
    (hlinked j hj hz).mono (fun k hk => (hstart.2.1 k).2 hk) fun _ => hstart.2.2
  have hinv : InvS S num w Z layer.rows (indexStart num layer reinsert).1 :=
    ⟨⟨hstart.1.roomy, fun j hj => (hstart.2.1 j).2 hj⟩, fun _ => hstart.2.2,
      fun s j hj => hstart.2.2.reach (hback s j ((hstart.2.1 j).1 hj))⟩
  have hroot : S → ∀ j, NE layer.rows j → ¬ Z j → Reach (graphOf layer.rows) 0 j := by
    intro s j hj hz
    by_cases h0 : j = 0
    · subst h0; exact .refl
    · obtain ⟨row, hr, _⟩ := hj
      exact (hlinked j (List.getElem?_eq_some_iff.1 hr).1 hz h0).2 s
  have hsys : ParSafeQ (InvS S num w Z layer.rows) (RelyS S)
      (fun t => (indexStart num layer reinsert).2[t]?.getD 0)
      (fun t R => (∃ d, es.dist? ((indexStart num layer reinsert).2[t]?.getD 0)
        ((indexStart num layer reinsert).2[t]?.getD 0) = some d ∧ ¬ cfg.eps < d) →
        Linked S ((indexStart num layer reinsert).2[t]?.getD 0) R)
      (indexPar cfg es srt num (prev.map graphOf) layer reinsert) := by
    refine ⟨hinv, ?_⟩
    intro t p hp
    have hth : (indexPar cfg es srt num (prev.map graphOf) layer reinsert).threads =
        (indexStart num layer reinsert).2.map
        (indexElement cfg es srt (prev.map graphOf) (indexStart num layer reinsert).1.length) := rfl
    rw [hth, List.getElem?_map, Option.map_eq_some_iff] at hp
    obtain ⟨idx, hidx, rfl⟩ := hp
    have hown : (indexStart num layer reinsert).2[t]?.getD 0 = idx := by rw [hidx]; rfl
    simp only [hown, hlen]
    obtain ⟨hlt, hge⟩ := hids.2.1 idx (List.mem_of_getElem? hidx)
    refine indexElement_linked (fun s => (hS s).trans (by omega)) le_rfl hnum hes hsrt hlt (by omega) hc1 hcw hms
      (hZ idx) ?_ hprevOk hroot ?_ hinv
    · exact hfar.imp (fun h j d hj hne => h idx j d hlt hj hne) id
    · intro hz hne0
      cases hb : reinsert with
      | true =>
        right
        rw [hb] at hlinked0
        exact hlinked0 idx (by rw [hre hb]; exact hlt) hz
      | false =>
        left
        rw [hb] at hstart
        show ¬ NE (indexStart num layer false).1 idx
        rw [hstart.2.1 idx]
        rintro ⟨row, hr, _⟩
        have := (List.getElem?_eq_some_iff.1 hr).1
        have := hge hb
        omega
  have hinj : ∀ t t', t < (indexPar cfg es srt num (prev.map graphOf) layer reinsert).threads.length →
      t' < (indexPar cfg es srt num (prev.map graphOf) layer reinsert).threads.length →
      (indexStart num layer reinsert).2[t]?.getD 0 = (indexStart num layer reinsert).2[t']?.getD 0 → t = t' := by
    intro t t' ht ht' he
    have hth : (indexPar cfg es srt num (prev.map graphOf) layer reinsert).threads.length =
        (indexStart num layer reinsert).2.length := by
      show ((indexStart num layer reinsert).2.map _).length = _
      rw [List.length_map]
    rw [hth] at ht ht'
    simp only [List.getElem?_eq_getElem ht, List.getElem?_eq_getElem ht', Option.getD_some] at he
    exact (List.Nodup.getElem_inj_iff hids.1).1 he
  generalize ho : some layer' = out at h
  cases h with
  | tooMany h => cases ho
  | panic s' _ hs' hp => cases ho
  | done s' _ hs' hd =>
    have hfin := hsys.steps (RelyS.refl S) (RelyS.trans S) hinj hs'
    have hlk : ∀ j < num, ¬ Z j → Linked S j s'.rows := by
      intro j hj hz
      by_cases hjl : j < layer.rows.length
      · exact (hlinked j hjl hz).mono hfin.inv.inv.2 hfin.inv.grow
      · obtain ⟨t, ht, he⟩ := List.getElem_of_mem (hids.2.2 j (by omega) hj)
        have hth : s'.threads.length = (indexStart num layer reinsert).2.length := by
          rw [hs'.length]
          show ((indexStart num layer reinsert).2.map _).length = _
          rw [List.length_map]
        have := hfin.done (RelyS.refl S) hd (t := t) (by omega)
        simp only [List.getElem?_eq_getElem ht, Option.getD_some, he] at this
        exact this (hZ' j hj hz)
    obtain ⟨R', h1, h2, h3, h4, h5⟩ := limitPass_ok hnum hes hsrt hc1 hcw
      (hfin.inv.inv.1.exact (hs'.rows_length.trans hlen))
    rw [h1] at ho
    simp only [Option.map_some, Option.some.injEq] at ho
    subst ho
    have hg : S → Grow s'.rows R' := by
      intro s i row hi
      obtain ⟨row', e1, e2⟩ := h5 (hS s) i row hi
      exact ⟨row', e1, fun j hj => (e2 j).2 hj⟩
    exact ⟨fun j hj hz => (hlk j hj hz).mono (fun k hk => (h3 k).1 hk) hg,
      fun s j hj => (hg s).reach (hfin.inv.back s j ((h3 j).2 hj))⟩

end Granne
