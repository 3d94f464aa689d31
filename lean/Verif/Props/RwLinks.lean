import Verif.Proofs.RwFinds
import Verif.Props.Rw
import Verif.Props.Links

/-!
Links made by the concurrent builder: C60. Runs are `RwRun` (`Spec/Rw`): any number of inserts, saves and searches,
interleaved in every possible way. `Edge` (`Spec/Graph`) is the plain graph notion.
-/
namespace Granne
open List Spec

variable {E D : Type} [LinearOrder D] {srt : List (Nat × D) → List (Nat × D)}

/-- No two different elements are closer to each other than the threshold. -/
def Spread (es : Elements E D) (eps : D) : Prop :=
  ∀ (i j : Nat) (x y : E), i ≠ j → es.data[i]? = some x → es.data[j]? = some y → eps ≤ es.dist x y

theorem Spread.far {es : Elements E D} {eps : D} (h : Spread es eps) (n : Nat) :
    ∀ i j d, i < n → j < n → j ≠ i → es.dist? j i = some d → ¬ d < eps := by
  intro i j d hi hj hne hd
  unfold Elements.dist? Elements.distTo at hd
  rcases Option.eq_none_or_eq_some es.data[i]? with h1 | ⟨y, h1⟩
  · simp [h1] at hd
  · rcases Option.eq_none_or_eq_some es.data[j]? with h2 | ⟨x, h2⟩
    · simp [h1, h2] at hd
    · simp only [h1, h2, Option.map_some, Option.some.injEq] at hd
      rw [← hd]
      exact not_lt.2 (h j i x y hne h2 h1)

theorem Spread.sub {es es' : Elements E D} {eps : D} (h : Spread es' eps) (hd : es'.dist = es.dist)
    (hp : ∃ more, es'.data = es.data ++ more) : Spread es eps := by
  obtain ⟨more, hp⟩ := hp
  intro i j x y hne hi hj
  rw [← hd]
  have g : ∀ {i : Nat} {x : E}, es.data[i]? = some x → es'.data[i]? = some x := by
    intro i x hi
    rw [hp, List.getElem?_append_left (List.getElem?_eq_some_iff.1 hi).1]; exact hi
  exact h i j x y hne (g hi) (g hj)

/-- The initial elements and those given out by inserts that have returned. -/
def Present (b : Builder E D) (s : Rw E D) (j : Nat) : Prop :=
  j < b.elements.data.length ∨ ∃ u ids, result s u = some (.ids ids) ∧ j ∈ ids

omit [LinearOrder D] in
theorem Present.settled {b : Builder E D} {s : Rw E D} {j : Nat} (h : Present b s j) :
    Settled b.elements.data.length s j := by
  rcases h with h | ⟨u, ids, hr, hj⟩
  · exact Or.inl h
  · obtain ⟨f, hf, rfl⟩ := result_ids hr
    exact Or.inr ⟨u, f, hf, hj⟩

theorem Spec.RwRun.linked {b : Builder E D} {mx : Nat} {calls : List (RwCall E)} {s : Rw E D} (hsrt : IsSortByDist srt)
    (h : RwRun srt b mx calls s) (hfar : Spread s.data.elements b.config.eps) : RwLk False s := by
  obtain ⟨_, _, _, hmore, hdist, hcf, d, hsys, hst, hnew⟩ := h.sys hsrt
  have hinv := h.setup.reachable.inv hsrt h.setup.config
  have hb := hfar.sub hdist hmore
  have hby := (h.setup.reachable.by_good h.setup.config).mono (P' := Roomy False True 0) fun c hc =>
    ⟨hc, False.elim, fun h => absurd trivial h⟩
  have hall := hby.linked hsrt (by rintro (h | h) <;> exact absurd h (by simp)) (fun _ => hb.far _)
  have hlk := RwLk.init hsrt h.setup.config hinv hall ⟨False.elim, Or.inl (hb.far _)⟩ hnew calls
  refine hlk.steps hsrt hsys hst ⟨False.elim, Or.inl ?_⟩
  rw [hcf]
  exact hfar.far _

/-- C60. If no two elements are closer to each other than the threshold `eps`, then in every index a concurrent builder
saves, every element other than the first and other than zero elements has a neighbor in every layer it belongs to. -/
theorem C60_saved_linked (hsrt : IsSortByDist srt) (b : Builder E D) (mx : Nat) (calls : List (RwCall E)) (s : Rw E D)
    (h : RwRun srt b mx calls s) (hfar : Spread s.data.elements b.config.eps) (t : Nat) (els : List E)
    (layers : List Rows) (hr : result s t = some (.saved els layers)) (R : Rows) (hR : R ∈ layers) (j : Nat)
    (hj : j < R.length) (hj0 : j ≠ 0) (hz : ¬ IsZero s.data.elements b.config.eps j) :
    ∃ i, Edge (graphOf R) j i ∧ i < R.length ∧ i ≠ j := by
  have hk := h.linked hsrt hfar
  obtain ⟨hsys, _, _, _, _, hcf, _⟩ := h.sys hsrt
  have hw := result_saved hr
  have hl := hk.thr t _ hw
  have hok := hsys.thr t _ hw
  simp only [ThreadInv] at hok
  have hz' : ¬ s.data.Z j := by unfold RwData.Z; rw [hcf]; exact hz
  obtain ⟨⟨row, hrow, hne⟩, _⟩ := (hl.2 R hR).2.linked j hj hz' hj0
  obtain ⟨i, hi⟩ := List.exists_mem_of_ne_nil _ hne
  have hids := ((hok.wf.layer R hR).1.rows j row hrow).ids i hi
  exact ⟨i, edge_graphOf.2 ⟨row, hrow, hi⟩, hids.1, hids.2.1⟩

/-- C60. Once an insert has returned, each element it inserted (other than the first element and zero elements) has a
neighbor in the layer under construction, and keeps having one, whatever else runs at the same time; likewise for the
elements the builder had at first. -/
theorem C60_inserted_linked (hsrt : IsSortByDist srt) (b : Builder E D) (mx : Nat) (calls : List (RwCall E)) (s : Rw E D)
    (h : RwRun srt b mx calls s) (hfar : Spread s.data.elements b.config.eps) (j : Nat) (hj : Present b s j) (hj0 : j ≠ 0)
    (hz : ¬ IsZero s.data.elements b.config.eps j) :
    ∃ i, Edge (graphOf s.data.current) j i ∧ i < numElements s ∧ i ≠ j := by
  have hk := h.linked hsrt hfar
  obtain ⟨hsys, _, _, _, _, hcf, _⟩ := h.sys hsrt
  have hz' : ¬ s.data.Z j := by unfold RwData.Z; rw [hcf]; exact hz
  obtain ⟨⟨row, hrow, hne⟩, _⟩ := (hj.settled.linked hsys hk hz') hj0
  obtain ⟨i, hi⟩ := List.exists_mem_of_ne_nil _ hne
  have hids := (hsys.data.rows.rows j row hrow).ids i hi
  exact ⟨i, edge_graphOf.2 ⟨row, hrow, hi⟩, hids.1, hids.2.1⟩

/-- C60. In a small collection a search finds everything: take a concurrent builder for at most `num_neighbors + 1`
elements, made from a builder that has at most `num_neighbors / 2 + 1` (and at most 256) elements, and no two elements
closer than the threshold. If a search starts when some layer has been finished, and may consider all elements, then
each element whose insert has returned by then (other than zero elements) is among the hits, or the search returns as
many hits as asked for, all at least as close; whatever inserts, saves and searches run at the same time. -/
theorem C60_search_finds_inserted (hsrt : IsSortByDist srt) (b : Builder E D) (mx : Nat) (calls : List (RwCall E))
    (s s' : Rw E D) (h : RwRun srt b mx calls s) (hs : Rw.Steps srt s s')
    (hhist : ReachableBy srt (fun c => GoodConfig c ∧ b.elements.data.length ≤ c.numNeighbors / 2 + 1) b)
    (h256 : b.elements.data.length ≤ 256) (hsmall : mx ≤ b.config.numNeighbors + 1)
    (hfar : Spread s'.data.elements b.config.eps) (hprev : s.data.prev ≠ [])
    (t : Nat) (q : E) (ms k : Nat) (h0 : s.threads[t]? = some (RwCall.search q ms k).start)
    (hms : max b.elements.data.length mx ≤ ms) (hits : List (Nat × D)) (hr : result s' t = some (.hits hits))
    (j : Nat) (hj : Present b s j) (hz : j = 0 ∨ ¬ IsZero s.data.elements b.config.eps j) :
    ∃ e, s'.data.elements.data[j]? = some e ∧
      ((j, b.elements.dist e q) ∈ hits ∨ (hits.length = k ∧ ∀ p ∈ hits, p.2 ≤ b.elements.dist e q)) := by
  obtain ⟨hsys, _, hmx, hmore, hdist, hcf, d, hsys0, hst, hnew⟩ := h.sys hsrt
  obtain ⟨hsys', hext⟩ := hsys.steps hsrt hs
  have hinv := h.setup.reachable.inv hsrt h.setup.config
  have hfs : Spread s.data.elements b.config.eps := hfar.sub hext.dist hext.data
  have hb := hfs.sub hdist hmore
  have hbc := hhist.config
  have hby := hhist.mono (P' := Roomy True True b.elements.data.length) fun c hc =>
    ⟨hc.1, fun _ => ⟨by have := hc.2; omega, h256⟩, fun hn => absurd trivial hn⟩
  have hall := hby.linked hsrt (fun _ => hinv.lastLen_le) (fun _ => hb.far _)
  have hlk := RwLk.init hsrt h.setup.config hinv hall ⟨fun _ => by have := hbc.2; omega, Or.inl (hb.far _)⟩ hnew calls
  have hloose : s'.data.Loose True := by
    refine ⟨fun _ => ?_, Or.inl ?_⟩
    · have h1 := hsys'.data.cap
      rw [hext.maxElements, hmx] at h1
      have h2 : s'.data.config.numNeighbors = b.config.numNeighbors := by rw [hext.config, hcf]
      rw [h2]
      have := hbc.2
      omega
    · have h2 : s'.data.config.eps = b.config.eps := by rw [hext.config, hcf]
      rw [h2]
      exact hfar.far _
  have hk := hlk.steps hsrt hsys0 hst (hloose.of_extends hext)
  have hz' : j = 0 ∨ ¬ s.data.Z j := hz.imp id fun hn => by unfold RwData.Z; rw [hcf]; exact hn
  obtain ⟨_, _, _, _, th, ht, hf⟩ := hk.finds hsrt hsys hs (cap := max b.elements.data.length mx) (by rw [hmx])
    hj.settled hz' hprev h0 (show _ ≤ ms from hms) hloose
  obtain ⟨q', ms', k', hfd⟩ := result_hits hr
  have hcall : ∃ th, s'.threads[t]? = some th ∧ (th = .panicked ∨ th.call = some (.search q ms k)) :=
    hsys.track hsrt (P := fun _ th => th = .panicked ∨ th.call = some (.search q ms k))
      (fun s th d' th' _ _ hl hp => by
        rcases hp with rfl | hp
        · cases hl
        · rcases hl.call with h | h
          · exact Or.inl h
          · exact Or.inr (h.trans hp))
      (fun _ _ _ _ _ _ _ _ _ _ _ hp => hp) hs h0 (Or.inr (RwCall.start_call _))
  obtain ⟨th', ht', hcall⟩ := hcall
  rw [hfd] at ht ht'
  cases ht
  cases ht'
  simp only [RwThread.call, Option.some.injEq, RwCall.search.injEq, reduceCtorEq, false_or] at hcall
  obtain ⟨rfl, rfl, rfl⟩ := hcall
  obtain ⟨x, hx, hhit⟩ := hf
  unfold Elements.distTo at hx
  obtain ⟨e, he, hd⟩ := Option.map_eq_some_iff.1 hx
  refine ⟨e, he, ?_⟩
  rw [hext.dist, hdist] at hd
  rw [hd]
  exact hhit

/-! ### Non-vacuity -/

/-- Two saved elements; no distance is below the threshold 0. -/
example : ∃ s : Rw Int Nat, RwRun exSort rwBuilder 2 [.insert [10, 7], .write] s ∧
    Spread s.data.elements rwBuilder.config.eps ∧
    result s 1 = some (.saved [10, 7] [[[UNUSED, UNUSED]], [[1, UNUSED], [0, UNUSED]]]) ∧
    Present rwBuilder s 1 := by
  obtain ⟨s, h1, h2, h3⟩ := rwComplete
  exact ⟨s, h1, fun _ _ _ _ _ _ _ => Nat.zero_le _, h3, Or.inr ⟨0, _, h2, by simp⟩⟩

/-- A search for both of two inserted elements. -/
example : ∃ s s' : Rw Int Nat, RwRun exSort rwBuilder 2 [.insert [10, 7], .search 6 2 2] s ∧ Rw.Steps exSort s s' ∧
    ReachableBy exSort (fun c => GoodConfig c ∧ rwBuilder.elements.data.length ≤ c.numNeighbors / 2 + 1) rwBuilder ∧
    2 ≤ rwBuilder.config.numNeighbors + 1 ∧ Spread s'.data.elements rwBuilder.config.eps ∧
    s.data.prev ≠ [] ∧ s.threads[1]? = some (RwCall.search 6 2 2).start ∧ Present rwBuilder s 0 ∧ Present rwBuilder s 1 ∧
    result s' 1 = some (.hits [(1, 1), (0, 4)]) := by
  have hb : ∀ b : RwThread Int Nat, b = .seWantE 6 2 2 → ¬ b.eExcl ∧ ¬ b.eQueued ∧ ¬ b.eShared ∧ ¬ b.wExcl ∧ ¬ b.wQueued ∧
      ¬ b.lExcl ∧ ¬ b.lShared := by
    rintro b rfl
    simp [RwThread.eExcl, RwThread.eQueued, RwThread.eShared, RwThread.wExcl, RwThread.wQueued, RwThread.lExcl,
      RwThread.lShared]
  have h1 := Rw.Steps.round (srt := exSort) (rows := [[UNUSED, UNUSED]]) (hb _ rfl) (by decide)
    (by decide) (by decide +kernel) (.refl (Rw.start rwStart [.insert [10, 7], .search 6 2 2]))
  have h2 := h1.fst (.rest _ (by decide))
  have h3 := Rw.Steps.round (srt := exSort) (rows := [[1, UNUSED], [0, UNUSED]]) (hb _ rfl) (by decide)
    (by decide) (by decide +kernel) h2
  have h4 := (((h3.fst (.noRest _ (by decide))).fst (.dropW _ 1 rfl)).fst (.dropW _ 0 rfl)).fst (.done _ rfl)
  refine ⟨_, _, ⟨rwSetup 2 (by decide), by intro q ms k hm; simp at hm; omega, rwStart, rwStart_new, h4⟩,
    Rw.Steps.searched (r := [(1, 1), (0, 4)]) _ (((Rw.Steps.refl _).snd (.seTakeE _ _ _
    (noOther1 (by simp [RwThread.eExcl])) (noOther1 (by simp [RwThread.eQueued])))).snd
      (.seTakeL _ _ _ 0 (noOther1 (by simp [RwThread.lExcl])) (noOther1 (by simp [RwThread.lQueued])) (by decide +kernel)))
      (by decide +kernel), .new rwConfig rwBuilder.elements _ ⟨rwConfig_good, by decide⟩ rfl, by decide,
      fun _ _ _ _ _ _ _ => Nat.zero_le _, by decide, rfl, Or.inr ⟨0, [0, 1], rfl, by simp⟩,
      Or.inr ⟨0, [0, 1], rfl, by simp⟩, rfl⟩

end Granne
