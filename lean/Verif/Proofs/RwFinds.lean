import Verif.Proofs.RwLinked
import Verif.Proofs.RwTrace

/-! A search of the concurrent builder that runs next to inserts finds everything that could be reached when it
started, if it may consider all elements. -/
namespace Granne
open List Spec

variable {E D : Type} [LinearOrder D]

/-- Other threads only add neighbors. -/
abbrev RelyG (a b : Rows) : Prop := RelyOn 0 a b ∧ Grow a b

theorem RelyG.trans (a b c : Rows) (h1 : RelyG a b) (h2 : RelyG b c) : RelyG a c :=
  ⟨RelyOn.trans 0 _ _ _ h1.1 h2.1, h1.2.trans h2.2⟩

theorem searchLoop_complete {n w : Nat} {Z : Nat → Prop} {Guar : Rows → Rows → Prop} {R₀ : Rows}
    {dq : Nat → Option D} {ms entry : Nat} (hms : 0 < ms) (hnms : n ≤ ms) (hdq : ∀ i < n, (dq i).isSome) :
    ∀ (fuel : Nat) (res : MaxSizeHeap (Cand D)) (pq : List (Cand D)) (vis popped : List Nat) (R : Rows),
      CInv dq ms res pq vis popped → (∀ i ∈ vis, i < n) → n + 1 ≤ popped.length + fuel → Grow R₀ R →
      res.heap.length ≤ popped.length →
      (∀ i ∈ vis, i ∈ popped ∨ ∃ c ∈ pq, c.id = i) → (∀ i ∈ popped, ∃ c ∈ res.heap, c.id = i) →
      (∀ i ∈ popped, ∀ j, Edge (graphOf R₀) i j → j ∈ vis) → entry ∈ vis →
      (searchLoop dq fuel res pq vis).Safe (RowsInv n w Z) RelyG Guar
        (fun _ r => ∀ j, Reach (graphOf R₀) entry j → ∃ x, dq j = some x ∧ (j, x) ∈ r) R := by
  intro fuel
  induction fuel with
  | zero =>
    intro res pq vis popped R hi hv hfuel _ _ _ _ _ _
    exfalso
    have : popped ⊆ List.range n := fun i h => List.mem_range.2 (hv i (hi.popVis i h))
    have := (List.subperm_of_subset hi.popNodup this).length_le
    simp at this; omega
  | succ fuel ih =>
    intro res pq vis popped R hi hv hfuel hg hlen hdone hkept hclosed hent
    -- as long as some id below `n` is not popped, the heap is not full
    have room : ∀ {l : List Nat} {i : Nat}, l.Nodup → (∀ k ∈ l, k < n) → i ∉ l → i < n → l.length < n := by
      intro l i hnd hl hil hin
      have : (i :: l) ⊆ List.range n := by
        intro k hk
        rcases List.mem_cons.1 hk with rfl | hk
        · exact List.mem_range.2 hin
        · exact List.mem_range.2 (hl k hk)
      have := (List.subperm_of_subset (List.nodup_cons.2 ⟨hil, hnd⟩) this).length_le
      simp at this; omega
    cases pq with
    | nil =>
      rw [searchLoop]
      intro R' hr hinv j hj
      have hvp : ∀ i ∈ vis, i ∈ popped := by
        intro i h
        rcases hdone i h with h | ⟨c, hc, _⟩
        · exact h
        · cases hc
      have hjv : j ∈ vis := by
        induction hj with
        | refl => exact hent
        | step _ he ih => exact hclosed _ (hvp _ ih) _ he
      obtain ⟨c, hc, rfl⟩ := hkept j (hvp j hjv)
      exact ⟨c.d, (hi.resPop c hc).2, List.mem_map.2 ⟨c, hc, rfl⟩⟩
    | cons c pq =>
      obtain ⟨d, i⟩ := c
      have hiv : i ∈ vis := (hi.pqVis ⟨d, i⟩ (by simp)).1
      have hip : i ∉ popped := hi.popPq ⟨d, i⟩ (by simp)
      have hpl : popped.length < n :=
        room hi.popNodup (fun k hk => hv k (hi.popVis k hk)) hip (hv i hiv)
      have hnf : res.isFull = false := by
        simp only [MaxSizeHeap.isFull, decide_eq_false_iff_not, hi.maxSize]; omega
      rw [searchLoop]
      have hst : shouldStop res d = some false := by simp [shouldStop, hnf]
      have hp : res.push ⟨d, i⟩ = some ({ res with heap := heapPush ⟨d, i⟩ res.heap }, true) := by
        simp [MaxSizeHeap.push, hnf]
      simp only [hst, hp]
      have hmem : ∀ c, c ∈ heapPush (⟨d, i⟩ : Cand D) res.heap ↔ c = ⟨d, i⟩ ∨ c ∈ res.heap := by
        intro c
        rw [heapPush, List.mem_orderedInsert]
      have hlen' : (heapPush (⟨d, i⟩ : Cand D) res.heap).length = res.heap.length + 1 :=
        List.orderedInsert_length _ _ _
      generalize hres' : ({ res with heap := heapPush ⟨d, i⟩ res.heap } : MaxSizeHeap (Cand D)) = res' at hp ⊢
      have hheap : res'.heap = heapPush ⟨d, i⟩ res.heap := by rw [← hres']
      have hmax : res'.maxSize = ms := by rw [← hres']; exact hi.maxSize
      intro R' hr hinv
      have hiR : i < R'.length := lt_of_lt_of_le (hv i hiv) hinv.len
      have hrow : R'[i]? = some R'[i] := List.getElem?_eq_getElem hiR
      refine ⟨R'[i], hrow, ?_⟩
      have hnb : ∀ j ∈ visible R'[i], j < n := fun j hj => ((hinv.rows i _ hrow).ids j hj).1
      obtain ⟨⟨pq', vis'⟩, hsc⟩ := scan_isSome dq res' (visible R'[i]) pq vis (by
        intro j hj _
        refine ⟨hdq j (hnb j hj), fun hf => ?_⟩
        obtain ⟨t, ht⟩ := MaxSizeHeap.peek_isSome (by rw [hmax]; exact hms) hf
        simp [ht])
      simp only [hsc]
      obtain ⟨hi', hvis'⟩ := hi.step hp hsc
      have hpqs := (List.pairwise_cons.1 hi.pqSorted).2
      have hpv : ∀ c ∈ pq, c.id ∈ vis := fun c hc => (hi.pqVis c (by simp [hc])).1
      obtain ⟨_, _, s3, s4⟩ := scan_spec dq res' (visible R'[i]) pq vis pq' vis' hpqs hpv hsc
      have hg' : Grow R₀ R' := hg.trans hr.2
      refine ih res' pq' vis' (i :: popped) R' hi' ?_ (by simp; omega) hg' ?_ ?_ ?_ ?_ ((hvis' entry).2 (Or.inl hent))
      · intro j hj
        rcases (hvis' j).1 hj with hj | hj
        · exact hv j hj
        · exact hnb j hj
      · rw [hheap, hlen', List.length_cons]; omega
      · intro j hj
        by_cases hjv : j ∈ vis
        · rcases hdone j hjv with h | ⟨c, hc, rfl⟩
          · exact Or.inl (List.mem_cons_of_mem _ h)
          · rcases List.mem_cons.1 hc with rfl | hc
            · exact Or.inl (by simp)
            · exact Or.inr ⟨c, (s3 c).2 (Or.inl hc), rfl⟩
        · rcases (hvis' j).1 hj with h | h
          · exact absurd h hjv
          · right
            obtain ⟨x, hx, _⟩ := s4 j h hjv
            refine ⟨⟨x, j⟩, (s3 ⟨x, j⟩).2 (Or.inr ⟨h, hjv, hx, Or.inl ?_⟩), rfl⟩
            have hjp : j ∉ i :: popped := by
              rw [List.mem_cons]
              rintro (rfl | hc)
              · exact hjv hiv
              · exact hjv (hi.popVis j hc)
            have := room (List.nodup_cons.2 ⟨hip, hi.popNodup⟩) (by
              intro k hk
              rcases List.mem_cons.1 hk with rfl | hk
              · exact hv k hiv
              · exact hv k (hi.popVis k hk)) hjp (hnb j h)
            simp only [List.length_cons] at this
            simp only [MaxSizeHeap.isFull, decide_eq_false_iff_not, hmax, hheap, hlen']
            omega
      · intro j hj
        rw [hheap]
        rcases List.mem_cons.1 hj with rfl | hj
        · exact ⟨⟨d, j⟩, (hmem _).2 (Or.inl rfl), rfl⟩
        · obtain ⟨c, hc, rfl⟩ := hkept j hj
          exact ⟨c, (hmem c).2 (Or.inr hc), rfl⟩
      · intro k hk j he
        rw [hvis']
        rcases List.mem_cons.1 hk with rfl | hk
        · right
          obtain ⟨row, h1, h2⟩ := edge_graphOf.1 he
          obtain ⟨row', h3, h4⟩ := hg' k row h1
          rw [hrow] at h3; cases h3
          exact h4 j h2
        · exact Or.inl (hclosed k hk j he)

theorem searchForNeighbors_complete {n N w : Nat} {Z : Nat → Prop} {Guar : Rows → Rows → Prop} {R : Rows}
    {dq : Nat → Option D} {ms entry : Nat} (hms : 0 < ms) (hnms : n ≤ ms) (hdq : ∀ i < n, (dq i).isSome)
    (hnN : n ≤ N) (hentry : entry < n) :
    (searchForNeighbors N entry dq ms).Safe (RowsInv n w Z) RelyG Guar
      (fun _ r => ∀ j, Reach (graphOf R) entry j → ∃ x, dq j = some x ∧ (j, x) ∈ r) R := by
  unfold searchForNeighbors
  obtain ⟨d, hd⟩ := Option.isSome_iff_exists.1 (hdq entry hentry)
  simp only [hd]
  exact searchLoop_complete hms hnms hdq _ _ _ _ [] R (CInv.init hd) (by simpa using hentry)
    (by simpa using hnN) (Grow.refl _) (by simp [MaxSizeHeap.new]) (by simp) (by simp) (by simp) (by simp)

/-! ### Through a run -/

/-- `j` is among the hits, or there are `k` hits, all at least as close. -/
def Hit (es : Elements E D) (q : E) (k j : Nat) (r : List (Nat × D)) : Prop :=
  ∃ x, es.distTo q j = some x ∧ ((j, x) ∈ r ∨ (r.length = k ∧ ∀ p ∈ r, p.2 ≤ x))

/-- The search finds `j`. -/
def FindsJ (cap j : Nat) (d : RwData E D) : RwThread E D → Prop
  | .seRun q ms _ p => cap ≤ ms ∧ p.Safe (RowsInv d.len d.config.numNeighbors d.Z) RelyG Eq
      (fun _ r => ∃ x, d.elements.distTo q j = some x ∧ (j, x) ∈ r) d.current
  | .seDropL q _ k r | .seDropE q _ k r | .found q _ k r => Hit d.elements q k j r
  | .seWantE _ ms _ | .seWantL _ ms _ => cap ≤ ms
  | .loWantE (some (_, ms, _)) | .loHold (some (_, ms, _)) _ => cap ≤ ms
  | _ => True

theorem Hit.extend {d d' : RwData E D} {q : E} {k j : Nat} {r : List (Nat × D)} (h : Hit d.elements q k j r)
    (he : Extends d d') : Hit d'.elements q k j r := by
  obtain ⟨x, hx, h⟩ := h
  exact ⟨x, he.distTo hx, h⟩

theorem Hit.take {es : Elements E D} {q : E} {k j : Nat} {r : List (Nat × D)}
    (hs : r.Pairwise fun a b => a.2 ≤ b.2) (h : ∃ x, es.distTo q j = some x ∧ (j, x) ∈ r) :
    Hit es q k j (r.take k) := by
  obtain ⟨x, hx, hm⟩ := h
  refine ⟨x, hx, ?_⟩
  rw [← List.take_append_drop k r] at hm hs
  rcases List.mem_append.1 hm with hm | hm
  · exact Or.inl hm
  · refine Or.inr ⟨?_, fun p hp => (List.pairwise_append.1 hs).2.2 p hp _ hm⟩
    have := List.length_pos_of_mem hm
    simp at this ⊢; omega

/-- A search started after `j` was settled finds `j`. -/
theorem RwLk.finds {srt : List (Nat × D) → List (Nat × D)} (hsrt : IsSortByDist srt) {n₀ cap j t : Nat} {s s' : Rw E D}
    (hs : RwSys n₀ s) (hk : RwLk True s) (hst : Rw.Steps srt s s') (hcap : max n₀ s.data.maxElements ≤ cap)
    (hj : Settled n₀ s j) (hz : j = 0 ∨ ¬ s.data.Z j) (hprev : s.data.prev ≠ []) {th : RwThread E D}
    (ht : s.threads[t]? = some th) (hth : FindsJ cap j s.data th) : s'.data.Loose True →
    Settled n₀ s' j ∧ (j = 0 ∨ ¬ s'.data.Z j) ∧ s'.data.prev ≠ [] ∧ max n₀ s'.data.maxElements ≤ cap ∧
      ∃ th', s'.threads[t]? = some th' ∧ FindsJ cap j s'.data th' := by
  induction hst with
  | refl => exact fun _ => ⟨hj, hz, hprev, hcap, th, ht, hth⟩
  | @tail s₂ s₃ h1 h2 ih =>
    intro hl
    obtain ⟨hs2, _⟩ := hs.steps hsrt h1
    obtain ⟨hs3, hext⟩ := hs2.step hsrt h2
    have hl2 := hl.of_extends hext
    have hk2 := hk.steps hsrt hs h1 hl2
    obtain ⟨hj2, hz2, hp2, hc2, th2, ht2, hf2⟩ := ih hl2
    have hj3 := hj2.step h2
    have hz3 : j = 0 ∨ ¬ s₃.data.Z j := hz2.imp id fun h hc => h ((hext.z_iff (hj2.lt hs2)).1 hc)
    have hc3 : max n₀ s₃.data.maxElements ≤ cap := by rw [hext.maxElements]; exact hc2
    have hlen2 : s₂.data.len ≤ cap := hs2.data.cap.trans hc2
    cases h2 with
    | mk u ub ub' d' hu hloc =>
      obtain ⟨more, hpre⟩ := hloc.prev
      have hp3 : d'.prev ≠ [] := by rw [hpre]; simp [hp2]
      refine ⟨hj3, hz3, hp3, hc3, ?_⟩
      have hul := (List.getElem?_eq_some_iff.1 hu).1
      by_cases hut : u = t
      · subst hut
        rw [ht2] at hu
        cases hu
        refine ⟨ub', by simp only [List.getElem?_set_self hul], ?_⟩
        cases hloc with
        | seTakeE q ms k => exact hf2
        | seTakeL q ms k e _ _ he =>
          refine ⟨hf2, ?_⟩
          obtain ⟨r, hr, hpub⟩ := entry_ok hs2.data q
          rw [he] at hr; cases hr
          have hpe := hpub e rfl
          have hpos : 0 < s₂.data.len := lt_of_le_of_lt (Nat.zero_le _) hpe.1
          have hback : Reach (graphOf s₂.data.current) e 0 := by
            by_cases h0 : e = 0
            · subst h0; exact .refl
            · exact hk2.back trivial e (hpe.2 h0).1
          have hreach : Reach (graphOf s₂.data.current) e j := by
            by_cases h0 : j = 0
            · subst h0; exact hback
            · have hzj : ¬ s₂.data.Z j := hz2.resolve_left h0
              exact reach_trans hback (((hj2.linked hs2 hk2 hzj) h0).2 trivial)
          have hf2 : cap ≤ ms := hf2
          exact (searchForNeighbors_complete (n := s₂.data.len) (by omega) (by omega) (fun i hi => distTo_isSome _ _ hi)
            hs2.data.rows.len hpe.1).strengthen fun R r _ h => h j hreach
        | seNothing q ms k _ _ he => exact absurd (entry_none hs2.data he) hp2
        | seEntryPanics => trivial
        | seStep q ms k p p' rows' hstep =>
          obtain ⟨h1, h2⟩ := hf2
          obtain ⟨_, g2, g3⟩ := h2.step (fun R => ⟨RelyOn.refl 0 R, Grow.refl R⟩) (fun _ => rfl) hs2.data.rows hstep
          subst g2
          exact ⟨h1, g3⟩
        | sePanics => trivial
        | seResult q ms k r =>
          obtain ⟨h1, h2⟩ := hf2
          have h3 := h2 s₂.data.current ⟨RelyOn.refl 0 _, Grow.refl _⟩ hs2.data.rows
          have h4 := (hs2.thr u _ ht2).2 s₂.data.current (RelyOn.refl 0 _) ⟨hs2.data.rows, fun j hj => by
            obtain ⟨row, hr, _⟩ := hj; simp at hr⟩
          exact Hit.take h4.1.sorted h3
        | seDropL q ms k r => exact hf2
        | seDropE q ms k r => exact hf2
        | loTake next => cases next <;> exact hf2
        | loSearch q ms k els => exact hf2
        | _ => trivial
      · refine ⟨th2, by simp only [List.getElem?_set_ne hut]; exact ht2, ?_⟩
        cases th2 with
        | seRun q ms k p =>
          obtain ⟨h1, h2⟩ := hf2
          have hn : ¬ ub.eExcl := fun hc => ((hs2.excl u t _ _ hut hu ht2).e hc).2 trivial
          obtain ⟨g1, g2, g3, g4, g5⟩ := hk2.grows trivial hs2 hu hloc hn
          simp only [FindsJ]
          have hlen : d'.len = s₂.data.len := by simp only [RwData.len, g2]
          have hZ : d'.Z = s₂.data.Z := by unfold RwData.Z; rw [g2, g3]
          rw [hlen, hZ, g2, g3]
          exact ⟨h1, h2.mono RelyG.trans ⟨g5, g1⟩⟩
        | seDropL q ms k r => exact Hit.extend hf2 hext
        | seDropE q ms k r => exact Hit.extend hf2 hext
        | found q ms k r => exact Hit.extend hf2 hext
        | seWantE q ms k => exact hf2
        | seWantL q ms k => exact hf2
        | loWantE next => cases next <;> exact hf2
        | loHold next els => cases next <;> exact hf2
        | _ => trivial

/-! ### The start -/

/-- A concurrent builder made from a linked builder is linked. -/
theorem RwLk.init {S : Prop} {srt : List (Nat × D) → List (Nat × D)} (hsrt : IsSortByDist srt) {b : Builder E D}
    (hc : GoodConfig b.config) (hb : BuilderInv b) {mx : Nat} (hall : AllLinked S b)
    (hsp : Sparse S b.elements b.config.eps (max 1 (b.config.numNeighbors / 2)) b.elements.data.length)
    {d : RwData E D} (h : RwNew srt b mx (some d)) (calls : List (RwCall E)) : RwLk S (Rw.start d calls) := by
  have hc' : GoodConfig (withExpected b mx).config := ⟨hc.neighbors, hc.search, hc.schedule⟩
  have hthreads : ∀ (t : Nat) (th : RwThread E D), (Rw.start d calls).threads[t]? = some th → ThreadLinked S d th := by
    intro t th ht
    simp only [Rw.start, List.getElem?_map] at ht
    obtain ⟨c, _, rfl⟩ := Option.map_eq_some_iff.1 ht
    cases c <;> trivial
  cases h with
  | ok b' h =>
    obtain ⟨b'', e, hinv, hel, hcf, hlast⟩ := (build_ok hsrt hc' (hb.withExpected mx)).2 _ h
    cases e
    have hel' : b'.elements = b.elements := hel
    have hlast : lastLen b'.layers = b.elements.data.length := hlast
    have hlk : AllLinked S b' := buildPartial_linked hsrt hc' (hb.withExpected mx)
      (fun k => Sparse.layers (b := withExpected b mx) hc.neighbors (hsp.mono (Nat.le_refl _) (Nat.le_refl _)) k) hall h
    have hst := hinv.stack
    rcases List.eq_nil_or_concat b'.layers with hnil | ⟨upper, last, hl⟩
    · have h0 : b.elements.data.length = 0 := by rw [← hlast, hnil]; rfl
      have hcur : (RwData.ofBuilder b' mx).current = [] ++ List.replicate (b'.config.schedule mx 0)
          (List.replicate b'.config.numNeighbors UNUSED) := by
        simp [RwData.ofBuilder, hnil, resizeRows]
      have hprev : (RwData.ofBuilder b' mx).prev = [] := by simp [RwData.ofBuilder, hnil]
      have hne : ∀ j, ¬ NE (RwData.ofBuilder b' mx).current j := by
        intro j hj
        rw [hcur, NE_append] at hj
        obtain ⟨row, hr, _⟩ := hj
        simp at hr
      refine ⟨fun _ => ⟨fun j hj => ?_, fun _ j hj => absurd hj (hne j)⟩, hthreads, ?_, fun j _ => hne j⟩
      · simp only [Rw.start, RwData.len, RwData.ofBuilder, hel', h0] at hj
        omega
      · simp only [Rw.start, hprev]
        intro R hR; cases hR
    · rw [List.concat_eq_append] at hl
      have hl' : b'.layers.getLast? = some last := by rw [hl]; simp
      have hlen : last.rows.length = b'.elements.data.length := by
        have : lastLen b'.layers = last.rows.length := by simp [lastLen, hl']
        rw [hel']; omega
      have hcur : (RwData.ofBuilder b' mx).current = resizeRows b'.config.numNeighbors
          (max last.rows.length (b'.config.schedule mx upper.length)) last.rows := by
        simp [RwData.ofBuilder, hl]
      have hprev : (RwData.ofBuilder b' mx).prev = upper.map Layer.rows := by simp [RwData.ofBuilder, hl]
      rw [resizeRows_grow (le_max_left _ _)] at hcur
      have hll := hlk last (by simp [hl])
      have hZ : (RwData.ofBuilder b' mx).Z = IsZero b'.elements b'.config.eps := rfl
      refine ⟨fun _ => ?_, hthreads, ?_, ?_⟩
      · simp only [Rw.start]
        rw [hcur]
        exact LinkedRows.resize ⟨fun j hj => hll.linked j (by rw [hlen]; exact hj), hll.back⟩
      · simp only [Rw.start, hprev]
        intro R hR
        obtain ⟨l, hl2, rfl⟩ := List.mem_map.1 hR
        exact hlk l (by simp [hl, hl2])
      · intro j hj
        simp only [Rw.start] at hj ⊢
        rw [hcur, NE_append]
        rintro ⟨row, hr, _⟩
        have := (List.getElem?_eq_some_iff.1 hr).1
        rw [hlen] at this
        have hj : b'.elements.data.length ≤ j := hj
        omega

end Granne
