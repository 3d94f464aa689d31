import Verif.Proofs.RwAtomic
import Verif.Proofs.RwProgress
import Verif.Proofs.RwTerm
import Verif.Proofs.RwShape
import Verif.Proofs.RwExample
import Verif.Proofs.Schedule
import Verif.Spec.Rw
import Verif.Props.Storage

/-!
Properties of the concurrent builder: C41 - C44.

`RwRun srt b maxElements calls s`: `s` is any state of any interleaving of the `calls` (inserts, searches, saves) on a
concurrent builder made from `b`. `result s t` is what call number `t` has returned.
-/
namespace Granne
open List Spec

variable {E D : Type} [LinearOrder D] {srt : List (Nat × D) → List (Nat × D)}

theorem Spec.RwSetup.new_ok {b : Builder E D} {mx : Nat} (hsrt : IsSortByDist srt) (h : RwSetup srt b mx) :
    (∃ out, RwNew srt b mx out) ∧ ∀ out, RwNew srt b mx out → ∃ d, out = some d ∧
      RwInv b.elements.data.length d ∧ d.elements = b.elements ∧ d.maxElements = mx ∧
      d.config = { b.config with expectedNumElements := some mx } :=
  rwNew_ok hsrt h.config (h.reachable.inv hsrt h.config) h.mono h.limit h.fits

/-- Everything known about a state of a run. -/
theorem Spec.RwRun.sys {b : Builder E D} {mx : Nat} {calls : List (RwCall E)} {s : Rw E D} (hsrt : IsSortByDist srt)
    (h : RwRun srt b mx calls s) : RwSys b.elements.data.length s ∧ Atomic s ∧ s.data.maxElements = mx ∧
      (∃ more, s.data.elements.data = b.elements.data ++ more) ∧ s.data.elements.dist = b.elements.dist ∧
      s.data.config = { b.config with expectedNumElements := some mx } ∧
      ∃ d, RwSys b.elements.data.length (Rw.start d calls) ∧ Rw.Steps srt (Rw.start d calls) s ∧
        RwNew srt b mx (some d) := by
  obtain ⟨d, hd, hs⟩ := h.run
  obtain ⟨d', e, hinv, hel, hmx, hcf⟩ := (h.setup.new_ok hsrt).2 _ hd
  cases e
  have hsys : RwSys b.elements.data.length (Rw.start d calls) :=
    RwSys.init hinv (by rw [RwData.len, hel]) h.searches
  obtain ⟨h1, h2⟩ := hsys.steps hsrt hs
  refine ⟨h1, (Atomic.start calls).steps hsrt hsys hs, h2.maxElements.trans hmx, ?_, ?_, h2.config.trans hcf, d, hsys, hs, hd⟩
  · have := h2.data
    simp only [Rw.start, hel] at this
    exact this
  · have := h2.dist
    simp only [Rw.start, hel] at this
    exact this

omit [LinearOrder D] in
theorem result_ids {s : Rw E D} {t : Nat} {ids : List Nat} (h : result s t = some (.ids ids)) :
    ∃ f, s.threads[t]? = some (.inserted f) ∧ f.got = ids := by
  unfold result at h
  split at h <;> simp only [Option.some.injEq, RwResult.ids.injEq, reduceCtorEq] at h
  exact ⟨_, by assumption, h⟩

omit [LinearOrder D] in
theorem result_saved {s : Rw E D} {t : Nat} {els : List E} {layers : List Rows}
    (h : result s t = some (.saved els layers)) : s.threads[t]? = some (.wrote els layers) := by
  unfold result at h
  split at h <;> simp only [Option.some.injEq, RwResult.saved.injEq, reduceCtorEq] at h
  obtain ⟨rfl, rfl⟩ := h
  assumption

omit [LinearOrder D] in
theorem result_hits {s : Rw E D} {t : Nat} {hits : List (Nat × D)} (h : result s t = some (.hits hits)) :
    ∃ q ms k, s.threads[t]? = some (.found q ms k hits) := by
  unfold result at h
  split at h <;> simp only [Option.some.injEq, RwResult.hits.injEq, reduceCtorEq] at h
  subst h
  exact ⟨_, _, _, by assumption⟩

/-! ### C41 -/

/-- C41. Making a concurrent builder does not panic and keeps the elements. -/
theorem C41_new (hsrt : IsSortByDist srt) (b : Builder E D) (mx : Nat) (h : RwSetup srt b mx) :
    (∃ out, RwNew srt b mx out) ∧
    ∀ out, RwNew srt b mx out → ∃ d, out = some d ∧ d.elements = b.elements ∧ d.maxElements = mx := by
  obtain ⟨h1, h2⟩ := h.new_ok hsrt
  refine ⟨h1, fun out hout => ?_⟩
  obtain ⟨d, e, _, h3, h4, _⟩ := h2 out hout
  exact ⟨d, e, h3, h4⟩

/-- C41. There are never more than `max(max_elements, initial number)` elements, and those present stay. -/
theorem C41_capacity (hsrt : IsSortByDist srt) (b : Builder E D) (mx : Nat) (calls : List (RwCall E)) (s : Rw E D)
    (h : RwRun srt b mx calls s) :
    numElements s ≤ max mx b.elements.data.length ∧ b.elements.data <+: s.data.elements.data ∧
    ∀ s', Rw.Steps srt s s' → s.data.elements.data <+: s'.data.elements.data := by
  obtain ⟨h1, _, h2, ⟨more, h3⟩, _⟩ := h.sys hsrt
  refine ⟨?_, ⟨more, h3.symm⟩, ?_⟩
  · have := h1.data.cap
    rw [h2] at this
    rw [numElements, max_comm]
    exact this
  · intro s' hs
    obtain ⟨more', h4⟩ := (h1.steps hsrt hs).2.data
    exact ⟨more', h4.symm⟩

/-- C41. No call panics. -/
theorem C41_no_panic (hsrt : IsSortByDist srt) (b : Builder E D) (mx : Nat) (calls : List (RwCall E)) (s : Rw E D)
    (h : RwRun srt b mx calls s) (t : Nat) : result s t ≠ some .panic := by
  intro hp
  unfold result at hp
  split at hp <;> simp only [Option.some.injEq, reduceCtorEq] at hp
  exact (h.sys hsrt).1.thr t _ (by assumption)

/-- C41. An insert that has returned: its ids ascend, are new, the `k`-th id is that of the `k`-th element of the batch,
and if there are fewer ids than elements then the capacity is reached. -/
theorem C41_insert_result (hsrt : IsSortByDist srt) (b : Builder E D) (mx : Nat) (calls : List (RwCall E)) (s : Rw E D)
    (h : RwRun srt b mx calls s) (t : Nat) (batch : List E) (hc : calls[t]? = some (.insert batch)) (ids : List Nat)
    (hr : result s t = some (.ids ids)) :
    ids.Pairwise (· < ·) ∧ ids.length ≤ batch.length ∧
    (∀ (k i : Nat), ids[k]? = some i → b.elements.data.length ≤ i ∧ i < numElements s ∧
      s.data.elements.data[i]? = batch[k]?) ∧
    (ids.length < batch.length → mx ≤ numElements s) := by
  obtain ⟨h1, _, h2, _, _, _, d, h3, h4, hnew⟩ := h.sys hsrt
  obtain ⟨f, hf, rfl⟩ := result_ids hr
  obtain ⟨th, ht, hcall⟩ := h3.call hsrt h4 hc
  rw [hf] at ht
  cases ht
  simp only [RwThread.call, RwCall.plain, Option.some.injEq, RwCall.insert.injEq] at hcall
  subst hcall
  obtain ⟨g1, g2⟩ := h1.thr t _ hf
  refine ⟨g1.asc, g1.len, g1.own, fun hlt => ?_⟩
  rw [h2] at g2
  refine g2 ?_
  rw [g1.todo]
  simp only [ne_eq, List.drop_eq_nil_iff, not_le]
  exact hlt

/-- C41. Different calls get different ids. -/
theorem C41_ids_distinct (hsrt : IsSortByDist srt) (b : Builder E D) (mx : Nat) (calls : List (RwCall E)) (s : Rw E D)
    (h : RwRun srt b mx calls s) (t u : Nat) (htu : t ≠ u) (ids ids' : List Nat)
    (h1 : result s t = some (.ids ids)) (h2 : result s u = some (.ids ids')) : ∀ i ∈ ids, i ∉ ids' := by
  obtain ⟨f, hf, rfl⟩ := result_ids h1
  obtain ⟨g, hg, rfl⟩ := result_ids h2
  exact (h.sys hsrt).1.disj t u _ _ htu hf hg

/-- C41. When all calls have returned, every element added since the start belongs to one of the inserts. -/
theorem C41_ids_cover (hsrt : IsSortByDist srt) (b : Builder E D) (mx : Nat) (calls : List (RwCall E)) (s : Rw E D)
    (h : RwRun srt b mx calls s) (hall : ∀ t < calls.length, result s t ≠ none) (i : Nat)
    (h1 : b.elements.data.length ≤ i) (h2 : i < numElements s) :
    ∃ t ids, result s t = some (.ids ids) ∧ i ∈ ids := by
  obtain ⟨hs, _, _, _, _, _, d, h3, h4, hnew⟩ := h.sys hsrt
  obtain ⟨t, th, ht, hi⟩ := hs.cover i h1 h2
  have hlt := (List.getElem?_eq_some_iff.1 ht).1
  rw [h4.length] at hlt
  simp only [Rw.start, List.length_map] at hlt
  have hne := hall t hlt
  refine ⟨t, th.got, ?_, hi⟩
  cases th <;> simp_all [result, RwThread.got]

/-- The number of elements a call wants to insert. -/
def wanted : RwCall E → Nat
  | .insert batch => batch.length
  | _ => 0

/-- C41. When all calls have returned, as many elements have been inserted as fit. -/
theorem C41_all_inserted (hsrt : IsSortByDist srt) (b : Builder E D) (mx : Nat) (calls : List (RwCall E)) (s : Rw E D)
    (h : RwRun srt b mx calls s) (hall : ∀ t < calls.length, result s t ≠ none) :
    numElements s = max b.elements.data.length (min mx (b.elements.data.length + (calls.map wanted).sum)) := by
  obtain ⟨hs, _, hmx, ⟨more, hmore⟩, _, _, d, h3, h4, hnew⟩ := h.sys hsrt
  -- the ids of the calls, in the order of the calls
  have hlen : s.threads.length = calls.length := by rw [h4.length]; simp [Rw.start]
  have hge : b.elements.data.length ≤ numElements s := by rw [numElements, hmore]; simp
  have hcap := (C41_capacity hsrt b mx calls s h).1
  have hres : ∀ (t : Nat) (c : RwCall E) (th : RwThread E D), calls[t]? = some c → s.threads[t]? = some th →
      th.got.length ≤ wanted c ∧ (th.got.length < wanted c → mx ≤ numElements s) := by
    intro t c th hc ht
    have hlt : t < calls.length := (List.getElem?_eq_some_iff.1 hc).1
    obtain ⟨th', ht', hcall⟩ := h3.call hsrt h4 hc
    rw [ht] at ht'
    cases ht'
    cases c with
    | write => cases th <;> simp [RwThread.call, RwCall.plain] at hcall <;> simp [RwThread.got, wanted]
    | search q ms k => cases th <;> simp [RwThread.call, RwCall.plain] at hcall <;> simp [RwThread.got, wanted]
    | look next =>
      have : th.got = [] := by
        cases next <;> cases th <;> simp [RwThread.call, RwCall.plain] at hcall <;> simp [RwThread.got]
      simp [this, wanted]
    | insert batch =>
      have hne := hall t hlt
      have hd : result s t = some (.ids th.got) := by
        unfold result at hne ⊢
        rw [ht] at hne ⊢
        cases th <;> simp [RwThread.call, RwCall.plain] at hcall <;> simp [RwThread.got] at hne ⊢
      obtain ⟨_, g1, _, g2⟩ := C41_insert_result hsrt b mx calls s h t batch hc _ hd
      exact ⟨g1, g2⟩
  -- sums over the calls
  have hsum : ∀ (cs : List (RwCall E)) (ths : List (RwThread E D)), ths.length = cs.length →
      (∀ (t : Nat) c th, cs[t]? = some c → ths[t]? = some th →
        th.got.length ≤ wanted c ∧ (th.got.length < wanted c → mx ≤ numElements s)) →
      (ths.map fun th => th.got.length).sum ≤ (cs.map wanted).sum ∧
      ((ths.map fun th => th.got.length).sum < (cs.map wanted).sum → mx ≤ numElements s) := by
    intro cs
    induction cs with
    | nil => intro ths hl _; rw [List.length_eq_zero_iff.1 hl]; simp
    | cons c cs ih =>
      intro ths hl hh
      cases ths with
      | nil => simp at hl
      | cons th ths =>
        obtain ⟨g1, g2⟩ := ih ths (by simpa using hl) fun t c' th' h1 h2 => hh (t + 1) c' th' h1 h2
        obtain ⟨g3, g4⟩ := hh 0 c th rfl rfl
        simp only [List.map_cons, List.sum_cons]
        refine ⟨by omega, fun hlt => ?_⟩
        by_cases hx : th.got.length < wanted c
        · exact g4 hx
        · exact g2 (by omega)
  obtain ⟨s1, s2⟩ := hsum calls s.threads hlen hres
  -- the ids handed out are exactly the new ones
  have hperm : (s.threads.map RwThread.got).flatten.Perm
      (List.range' b.elements.data.length (numElements s - b.elements.data.length)) := by
    refine (List.perm_ext_iff_of_nodup ?_ (List.nodup_range' ..)).2 ?_
    · rw [List.nodup_flatten]
      constructor
      · intro l hl
        obtain ⟨th, hth, rfl⟩ := List.mem_map.1 hl
        obtain ⟨t, ht⟩ := List.getElem?_of_mem hth
        have hinv := hs.thr t th ht
        have key : ∀ f : Ins E, FrameOk b.elements.data.length s.data f → f.got.Nodup :=
          fun f hf => hf.asc.imp fun h => Nat.ne_of_lt h
        cases th <;> simp only [RwThread.got, List.nodup_nil] <;> first | exact key _ hinv | exact key _ hinv.1
      · rw [List.pairwise_map, List.pairwise_iff_getElem]
        intro i j hi hj hij x hx hy
        exact hs.disj i j _ _ (by omega) (List.getElem?_eq_getElem hi) (List.getElem?_eq_getElem hj) x hx hy
    · intro i
      simp only [List.mem_flatten, List.mem_map, List.mem_range'_1, exists_exists_and_eq_and]
      constructor
      · rintro ⟨th, hth, hi⟩
        obtain ⟨t, ht⟩ := List.getElem?_of_mem hth
        have hinv := hs.thr t th ht
        have g1 := hinv.got_lt i hi
        have key : ∀ f : Ins E, FrameOk b.elements.data.length s.data f → i ∈ f.got → b.elements.data.length ≤ i := by
          intro f hf hi
          obtain ⟨k, hk⟩ := List.getElem?_of_mem hi
          exact (hf.own k i hk).1
        have g2 : b.elements.data.length ≤ i := by
          cases th <;> simp only [RwThread.got, List.not_mem_nil] at hi <;> first | exact key _ hinv hi | exact key _ hinv.1 hi
        refine ⟨g2, ?_⟩
        simp only [RwData.len] at g1
        simp only [numElements] at hge ⊢
        omega
      · rintro ⟨g1, g2⟩
        obtain ⟨t, th, ht, hi⟩ := hs.cover i g1 (by simp only [numElements] at g2 hge; simp only [RwData.len]; omega)
        exact ⟨th, List.mem_of_getElem? ht, hi⟩
  have hl := hperm.length_eq
  rw [List.length_range', List.length_flatten, List.map_map] at hl
  have hfun : (List.length ∘ RwThread.got : RwThread E D → Nat) = fun th => th.got.length := rfl
  rw [hfun] at hl
  by_cases hx : (s.threads.map fun th => th.got.length).sum < (calls.map wanted).sum
  · have := s2 hx
    omega
  · omega

omit [LinearOrder D] in
/-- C41. A builder that has not been built yet fits every plan. -/
theorem C41_fresh_fits (b : Builder E D) (mx : Nat) (h : b.layers = []) : PlanFits b mx := by
  intro i l hl
  rw [h] at hl
  simp at hl

/-- C41. So does a builder that has only ever been used with one layer multiplier (in exact arithmetic), whatever its
history of pushes, builds and reloads. -/
theorem C41_multiplier_fits (hsrt : IsSortByDist srt) (b : Builder E D) (mx : Nat) (m : ℝ) (hm : 1 < m)
    (h : ReachableBy srt (fun c => GoodConfig c ∧ c.schedule = numElementsInLayer m) b) :
    (∀ i j, i ≤ j → b.config.schedule mx i ≤ b.config.schedule mx j) ∧
    (b.elements.data.length < mx → PlanFits b mx) := by
  obtain ⟨⟨hc, hsch⟩, hsz⟩ := h.sizes hsrt (bound := fun i => ⌈m ^ (i + 1)⌉₊) (fun t i => sched_upper hm t i)
    (fun i => Nat.ceil_mono (pow_le_pow_right₀ hm.le (by omega)))
  refine ⟨fun i j hij => by rw [hsch]; exact sched_mono hm hij, fun hlt i l hl => ?_⟩
  rw [hsch]
  refine le_trans (le_min ?_ (hsz i l hl)) (sched_lower hm mx i)
  have := ((h.reachable.inv hsrt hc).stack.layer l.rows
    (List.mem_map.2 ⟨l, List.mem_of_getElem? hl, rfl⟩)).2.2
  omega

/-! ### C42 -/

/-- C42. What a save writes: the elements are the first ones of the builder, the layers form a well-formed index over
them, with one node of the bottom layer for each element (no layers if there are no elements), and with neighbor lists
like those of an ordinary builder. -/
theorem C42_snapshot_consistent (hsrt : IsSortByDist srt) (b : Builder E D) (mx : Nat) (calls : List (RwCall E))
    (s : Rw E D) (h : RwRun srt b mx calls s) (t : Nat) (els : List E) (layers : List Rows)
    (hr : result s t = some (.saved els layers)) :
    els <+: s.data.elements.data ∧ WellFormedIndex (layers.map graphOf) els.length ∧
    (els = [] → layers = []) ∧ (els ≠ [] → (layers.getLast?.map List.length) = some els.length) ∧
    ∀ R ∈ layers, ∀ (i : Nat) (nbrs : List Nat), (graphOf R)[i]? = some nbrs →
      nbrs.length ≤ b.config.numNeighbors ∧ nbrs.Nodup ∧ (∀ j ∈ nbrs, j < R.length ∧ j ≠ i) := by
  obtain ⟨hs, _, _, _, _, hcf, _⟩ := h.sys hsrt
  have hsn := hs.thr t _ (result_saved hr)
  simp only [ThreadInv] at hsn
  obtain ⟨more, hpre⟩ := hsn.prefixed
  refine ⟨⟨more, hpre.symm⟩, hsn.wf.wf, ?_, ?_, ?_⟩
  · rintro rfl
    rcases hsn.bottom with ⟨_, h1⟩ | ⟨upper, last, rfl, h1⟩
    · exact h1
    · have := (hsn.wf.layer last (by simp)).2.1
      simp only [List.length_nil] at h1
      omega
  · intro hne
    rcases hsn.bottom with ⟨h0, _⟩ | ⟨upper, last, rfl, h1⟩
    · exact absurd (List.length_eq_zero_iff.1 h0) hne
    · simp [h1]
  · intro R hR i nbrs hi
    simp only [graphOf, List.getElem?_map, Option.map_eq_some_iff] at hi
    obtain ⟨row, hrow, rfl⟩ := hi
    have := (hsn.wf.layer R hR).1.rows i row hrow
    refine ⟨by simpa [hcf] using this.len, this.nodup, fun j hj => ⟨(this.ids j hj).1, (this.ids j hj).2.1⟩⟩

/-- C42. A save contains all elements of an `insert_batch` or none of them, even if the batch is spread over several
layers. -/
theorem C42_batches_whole (hsrt : IsSortByDist srt) (b : Builder E D) (mx : Nat) (calls : List (RwCall E)) (s : Rw E D)
    (h : RwRun srt b mx calls s) (t u : Nat) (els : List E) (layers : List Rows) (ids : List Nat)
    (h1 : result s t = some (.saved els layers)) (h2 : result s u = some (.ids ids)) :
    (∀ i ∈ ids, i < els.length) ∨ (∀ i ∈ ids, els.length ≤ i) := by
  have ht := result_saved h1
  obtain ⟨f, hf, rfl⟩ := result_ids h2
  have hne : t ≠ u := by rintro rfl; rw [ht] at hf; cases hf
  exact ((h.sys hsrt).2.1.pair t u _ _ els hne ht hf rfl).whole

/-- C42. A save that starts when `n` elements are present contains them; in particular those of all inserts that have
returned by then. -/
theorem C42_contains_earlier (hsrt : IsSortByDist srt) (b : Builder E D) (mx : Nat) (calls : List (RwCall E))
    (s s' : Rw E D) (h : RwRun srt b mx calls s) (hs : Rw.Steps srt s s') (t : Nat)
    (h0 : s.threads[t]? = some (RwCall.write (E := E)).start) (els : List E) (layers : List Rows)
    (hr : result s' t = some (.saved els layers)) :
    s.data.elements.data <+: els ∧ ∀ u ids, result s u = some (.ids ids) → ∀ i ∈ ids, i < els.length := by
  obtain ⟨hsys, _⟩ := h.sys hsrt
  obtain ⟨th, ht, hp⟩ := hsys.track hsrt (P := SavesFrom s.data.len) (fun s th d' th' h1 h2 h3 h4 => h4.step hsrt h1 h2 h3)
    (fun s th u ub d' ub' _ h1 _ h3 h4 h5 => h5.mono (h4.ok hsrt h1 h3).ext.len_le) hs h0 (by
      simp [RwCall.start, SavesFrom])
  have hw := result_saved hr
  rw [hw] at ht
  cases ht
  obtain ⟨hsys', hext⟩ := hsys.steps hsrt hs
  have hsn := hsys'.thr t _ hw
  simp only [ThreadInv] at hsn
  have hle : s.data.len ≤ els.length := hp.2
  refine ⟨?_, fun u ids hu i hi => ?_⟩
  · obtain ⟨m1, e1⟩ := hext.data
    obtain ⟨m2, e2⟩ := hsn.prefixed
    exact List.prefix_of_prefix_length_le ⟨m1, e1.symm⟩ ⟨m2, e2.symm⟩ hle
  · obtain ⟨f, hf, rfl⟩ := result_ids hu
    have := (hsys.thr u _ hf).got_lt i hi
    omega

/-- C42. While a save reads, no insert is under way: none has added elements without having linked them and finished. -/
theorem C42_no_insert_in_progress (hsrt : IsSortByDist srt) (b : Builder E D) (mx : Nat) (calls : List (RwCall E))
    (s : Rw E D) (h : RwRun srt b mx calls s) (t u : Nat) (a c : RwThread E D) (htu : t ≠ u)
    (ht : s.threads[t]? = some a) (hu : s.threads[u]? = some c) (ha : a.wExcl) :
    match c with
    | .insCheck f | .insWantW f => f.got = []
    | .insWantE _ _ | .insWantL _ _ | .insCrit _ | .insIndex _ _ | .insHoldL _ => False
    | _ => True := by
  obtain ⟨hs, hat, _⟩ := h.sys hsrt
  have hx := ((hs.excl t u a c htu ht hu).w ha).2
  have hf := hat.fresh c (List.mem_of_getElem? hu)
  cases c <;> simp_all [RwThread.wShared, InsFresh]

/-- The layers of a save form an index that can be written. -/
theorem saved_indexState (hsrt : IsSortByDist srt) (b : Builder E D) (mx : Nat) (calls : List (RwCall E))
    (s : Rw E D) (h : RwRun srt b mx calls s) (t : Nat) (els : List E) (layers : List Rows)
    (hr : result s t = some (.saved els layers)) :
    IndexState (.fixWidth (layers.map fun R => ⟨b.config.numNeighbors, R⟩)) := by
  obtain ⟨hsys, _, hmx, _⟩ := h.sys hsrt
  have hsn := hsys.thr t _ (result_saved hr)
  simp only [ThreadInv] at hsn
  have hlim := hsys.data.limit
  have hcap := hsys.data.cap
  obtain ⟨more, hpre⟩ := hsn.prefixed
  have hel : els.length ≤ UNUSED := by
    have : els.length ≤ s.data.len := by rw [RwData.len, hpre]; simp
    omega
  refine .built _ ?_
  intro l hl row hrow
  obtain ⟨R, hR, rfl⟩ := List.mem_map.1 hl
  obtain ⟨i, hlt, he⟩ := List.getElem_of_mem hrow
  obtain ⟨g1, g2, g3⟩ := hsn.wf.layer R hR
  have hro := g1.rows i row (by rw [List.getElem?_eq_getElem hlt, he])
  have hid : ∀ j ∈ visible row, j < UNUSED := fun j hj => by
    have := (hro.ids j hj).1
    omega
  constructor
  · intro n hn
    rw [hro.shape] at hn
    rcases List.mem_append.1 hn with h1 | h1
    · have := hid n h1
      simp only [UNUSED] at this
      omega
    · rw [List.mem_replicate] at h1
      rw [h1.2]; decide
  · exact ⟨visible row, _, hro.shape, fun hc => absurd (hid _ hc) (by simp)⟩

/-- C42. Reading the files back gives the layers saved (with each neighbor list sorted), so everything known about
loaded indexes applies. -/
theorem C42_snapshot_loads (hsrt : IsSortByDist srt) (b : Builder E D) (mx : Nat) (calls : List (RwCall E))
    (s : Rw E D) (h : RwRun srt b mx calls s) (h255 : b.config.numNeighbors ≤ 255) (t : Nat) (els : List E)
    (layers : List Rows) (hr : result s t = some (.saved els layers)) (f f' : Bytes) (start : Nat)
    (hs : saveIndex (.fixWidth (layers.map fun R => ⟨b.config.numNeighbors, R⟩)) f start = (f', true))
    (hlen : f'.length < 2 ^ 64) :
    ∃ vs gs', loadLayers (f'.drop start) = some vs ∧ (Layers.compressed vs).graphs = some gs' ∧
      List.Forall₂ (List.Forall₂ fun l l' : List Nat => l'.Perm l ∧ l'.Pairwise (· ≤ ·)) (layers.map graphOf) gs' := by
  refine C06_save_load_preserves_graph _ (saved_indexState hsrt b mx calls s h t els layers hr) (layers.map graphOf) ?_ ?_ f f' start
    hs hlen
  · simp [Layers.graphs, Function.comp_def]
  · intro g hg l hl
    obtain ⟨R, hR, rfl⟩ := List.mem_map.1 hg
    obtain ⟨i, hi⟩ := List.getElem?_of_mem hl
    exact le_trans ((C42_snapshot_consistent hsrt b mx calls s h t els layers hr).2.2.2.2 R hR i l hi).1 h255

/-! ### C43 -/

/-- C43, what holds: every run ends, ... -/
theorem C43_runs_finite_partial (hsrt : IsSortByDist srt) (b : Builder E D) (mx : Nat) (calls : List (RwCall E))
    (s : Rw E D) (h : RwRun srt b mx calls s) : Acc (fun s' s : Rw E D => Rw.Step srt s s') s :=
  (h.sys hsrt).1.acc hsrt

omit [LinearOrder D] in
theorem finished_result {s : Rw E D} {t : Nat} (h : ∀ th ∈ s.threads, th.finished) (ht : t < s.threads.length) :
    result s t ≠ none := by
  have := h _ (List.getElem_mem ht)
  unfold result
  rw [List.getElem?_eq_getElem ht]
  generalize s.threads[t] = th at this
  cases th <;> simp_all [RwThread.finished]

/-- ... and it ends with all calls returned, except for two kinds of deadlock: an insert that already holds the write
lock waits for it once more, behind a save that waits for the insert; or a search by a caller that holds the guard returned by
`get_elements()` waits for the elements, behind an insert that waits for the guard to be dropped. -/
theorem C43_only_deadlock_partial (hsrt : IsSortByDist srt) (b : Builder E D) (mx : Nat) (calls : List (RwCall E))
    (s : Rw E D) (h : RwRun srt b mx calls s) (hh : Halted srt s) :
    (∀ t < calls.length, result s t ≠ none) ∨
    ((∃ f : Ins E, .insWantW f ∈ s.threads ∧ 0 < f.outer) ∧ .wrWantW true ∈ s.threads) ∨
    ((∃ q ms k els, .loHold (some (q, ms, k)) els ∈ s.threads) ∧ ∃ f : Ins E, .insWantE f true ∈ s.threads) := by
  obtain ⟨hs, _, _, _, _, _, d, _, h4, _⟩ := h.sys hsrt
  have hlen : s.threads.length = calls.length := by rw [h4.length]; simp [Rw.start]
  rcases hs.stuck hh with h1 | h1 | h1
  · exact Or.inl fun t ht => finished_result h1 (by omega)
  · exact Or.inr (Or.inl ⟨h1.1, h1.2.1⟩)
  · exact Or.inr (Or.inr h1)

/-- No call searches while it holds the guard returned by `get_elements()`. -/
def NoGuardedSearch (calls : List (RwCall E)) : Prop := ∀ x, RwCall.look (some x) ∉ calls

/-- A thread that searches under a guard is such a call. -/
theorem Spec.RwRun.guarded {b : Builder E D} {mx : Nat} {calls : List (RwCall E)} {s : Rw E D} (hsrt : IsSortByDist srt)
    (h : RwRun srt b mx calls s) {q : E} {ms k : Nat} {els : List E} (hm : .loHold (some (q, ms, k)) els ∈ s.threads) :
    RwCall.look (some (q, ms, k)) ∈ calls := by
  obtain ⟨_, _, _, _, _, _, d, h3, h4, hnew⟩ := h.sys hsrt
  obtain ⟨t, ht⟩ := List.getElem?_of_mem hm
  have hlt := (List.getElem?_eq_some_iff.1 ht).1
  rw [h4.length] at hlt
  simp only [Rw.start, List.length_map] at hlt
  obtain ⟨th, ht', hp⟩ := h3.track hsrt (t := t) (th := calls[t].start)
    (P := fun _ th => ∀ x, (th = .loWantE (some x) ∨ ∃ els, th = .loHold (some x) els) → RwCall.look (some x) ∈ calls)
    (fun s th d' th' _ _ hl hp x hx => by
      cases hl <;> simp_all)
    (fun _ _ _ _ _ _ _ _ _ _ _ hp => hp) h4
    (by simp only [Rw.start, List.getElem?_map, List.getElem?_eq_getElem hlt, Option.map_some])
    (by
      intro x hx
      have hmem : calls[t] ∈ calls := List.getElem_mem hlt
      generalize calls[t] = c at hx hmem
      cases c <;> simp_all [RwCall.start])
  rw [ht] at ht'
  cases ht'
  exact hp (q, ms, k) (Or.inr ⟨els, rfl⟩)

/-- Without searches under a guard there is only the first kind of deadlock. -/
theorem C43_unguarded_partial (hsrt : IsSortByDist srt) (b : Builder E D) (mx : Nat) (calls : List (RwCall E))
    (s : Rw E D) (h : RwRun srt b mx calls s) (hh : Halted srt s) (hg : NoGuardedSearch calls) :
    (∀ t < calls.length, result s t ≠ none) ∨
    (∃ f : Ins E, .insWantW f ∈ s.threads ∧ 0 < f.outer) ∧ .wrWantW true ∈ s.threads := by
  rcases C43_only_deadlock_partial hsrt b mx calls s h hh with h1 | h1 | ⟨⟨q, ms, k, els, h1⟩, _⟩
  · exact Or.inl h1
  · exact Or.inr h1
  · exact absurd (h.guarded hsrt h1) (hg _)

/-- C43, what holds: a deadlock leaves only inserts and saves waiting. Unless somebody searches under a guard, every search and
every call that looks at the elements returns. -/
theorem C43_searches_return_partial (hsrt : IsSortByDist srt) (b : Builder E D) (mx : Nat) (calls : List (RwCall E))
    (s : Rw E D) (h : RwRun srt b mx calls s) (hh : Halted srt s) (hg : NoGuardedSearch calls) (t : Nat)
    (hc : (∃ q ms k, calls[t]? = some (.search q ms k)) ∨ calls[t]? = some (.look none)) : result s t ≠ none := by
  obtain ⟨hs, _, _, _, _, _, d, h3, h4, _⟩ := h.sys hsrt
  have hlen : s.threads.length = calls.length := by rw [h4.length]; simp [Rw.start]
  have hlt : t < calls.length := by
    rcases hc with ⟨q, ms, k, hc⟩ | hc <;> exact (List.getElem?_eq_some_iff.1 hc).1
  rcases hs.stuck hh with h1 | ⟨_, _, h1⟩ | ⟨⟨q, ms, k, els, h1⟩, _⟩
  · exact finished_result h1 (by omega)
  · have ht : s.threads[t]? = some (s.threads[t]'(by omega)) := List.getElem?_eq_getElem _
    generalize s.threads[t]'(by omega) = th at ht
    have hcall : (∃ q ms k, th.call = some (.search q ms k)) ∨ th.call = some (.look none) := by
      rcases hc with ⟨q, ms, k, hc⟩ | hc <;> obtain ⟨th', ht', hcall⟩ := h3.call hsrt h4 hc <;> rw [ht] at ht' <;> cases ht'
      · exact Or.inl ⟨q, ms, k, hcall⟩
      · exact Or.inr hcall
    rcases h1 th (List.mem_of_getElem? ht) with h2 | ⟨f, rfl⟩ | rfl
    · unfold result
      rw [ht]
      cases th <;> simp_all [RwThread.finished]
    · simp [RwThread.call] at hcall
    · simp [RwThread.call] at hcall
  · exact absurd (h.guarded hsrt h1) (hg _)

/-- C43, what holds: without saves, and without searches under a guard, there is no deadlock. -/
theorem C43_no_saves_partial (hsrt : IsSortByDist srt) (b : Builder E D) (mx : Nat) (calls : List (RwCall E))
    (s : Rw E D) (h : RwRun srt b mx calls s) (hh : Halted srt s) (hg : NoGuardedSearch calls) (hc : RwCall.write ∉ calls) :
    ∀ t < calls.length, result s t ≠ none := by
  obtain ⟨_, _, _, _, _, _, d, h3, h4, hnew⟩ := h.sys hsrt
  rcases C43_unguarded_partial hsrt b mx calls s h hh hg with h1 | ⟨_, h1⟩
  · exact h1
  · obtain ⟨t, ht⟩ := List.getElem?_of_mem h1
    obtain ⟨c, hc', hcall⟩ := h3.call' hsrt h4 ht
    obtain rfl : c = .write := by
      cases c with
      | look next => cases next <;> simp [RwThread.call, RwCall.plain] at hcall
      | _ => first | rfl | simp [RwThread.call, RwCall.plain] at hcall
    exact absurd (List.mem_of_getElem? hc') hc

/-- C43, what holds: without inserts there is no deadlock. -/
theorem C43_no_inserts_partial (hsrt : IsSortByDist srt) (b : Builder E D) (mx : Nat) (calls : List (RwCall E))
    (s : Rw E D) (h : RwRun srt b mx calls s) (hh : Halted srt s) (hc : ∀ batch, RwCall.insert batch ∉ calls) :
    ∀ t < calls.length, result s t ≠ none := by
  obtain ⟨_, _, _, _, _, _, d, h3, h4, hnew⟩ := h.sys hsrt
  have hins : ∀ (t : Nat) (th : RwThread E D) (batch : List E), s.threads[t]? = some th → th.call ≠ some (.insert batch) := by
    intro t th batch ht hcall
    obtain ⟨c, hc', hcall'⟩ := h3.call' hsrt h4 ht
    rw [hcall] at hcall'
    cases c with
    | look next => cases next <;> simp [RwCall.plain] at hcall'
    | insert batch' => exact hc _ (List.mem_of_getElem? hc')
    | _ => simp [RwCall.plain] at hcall'
  rcases C43_only_deadlock_partial hsrt b mx calls s h hh with h1 | ⟨⟨f, h1, _⟩, _⟩ | ⟨_, f, h1⟩
  · exact h1
  · obtain ⟨t, ht⟩ := List.getElem?_of_mem h1
    exact absurd rfl (hins t _ f.batch ht)
  · obtain ⟨t, ht⟩ := List.getElem?_of_mem h1
    exact absurd rfl (hins t _ f.batch ht)

/-- The shape of the layers when there was nothing at the start. -/
theorem Spec.RwRun.shape {b : Builder E D} {mx : Nat} {calls : List (RwCall E)} {s : Rw E D} (hsrt : IsSortByDist srt)
    (h : RwRun srt b mx calls s) (h0 : b.elements.data = []) : Shape s.data := by
  obtain ⟨d, hd, hs⟩ := h.run
  exact (Shape.new hsrt h.setup.config (h.setup.reachable.inv hsrt h.setup.config) h0 hd :
    Shape (Rw.start d calls).data).steps hs

/-- C43, what holds: on a builder that was empty at first, with planned layers that strictly grow, saves and
searches do not deadlock with inserts of single elements. -/
theorem C43_single_inserts_partial (hsrt : IsSortByDist srt) (b : Builder E D) (mx : Nat) (calls : List (RwCall E))
    (s : Rw E D) (h : RwRun srt b mx calls s) (hh : Halted srt s) (hg : NoGuardedSearch calls) (h0 : b.elements.data = [])
    (hstrict : ∀ i, b.config.schedule mx i < b.config.schedule mx (i + 1) ∨ b.config.schedule mx i = mx)
    (hc : ∀ batch, RwCall.insert batch ∈ calls → batch.length ≤ 1) :
    ∀ t < calls.length, result s t ≠ none := by
  obtain ⟨_, _, _, _, _, _, d, h3, h4, hnew⟩ := h.sys hsrt
  rcases C43_unguarded_partial hsrt b mx calls s h hh hg with h1 | ⟨⟨f, h1, hf⟩, _⟩
  · exact h1
  · obtain ⟨t, ht⟩ := List.getElem?_of_mem h1
    obtain ⟨c, hc', hcall⟩ := h3.call' hsrt h4 ht
    obtain rfl : c = .insert f.batch := by
      cases c with
      | look next => cases next <;> simp [RwThread.call, RwCall.plain] at hcall
      | insert batch => simp [RwThread.call, RwCall.plain] at hcall; rw [hcall]
      | _ => simp [RwThread.call, RwCall.plain] at hcall
    -- the thread keeps the invariant of single inserts
    have key : ∀ s', Rw.Steps srt (Rw.start d calls) s' → RwRun srt b mx calls s' →
        ∃ th, s'.threads[t]? = some th ∧ SingleOk s'.data th := by
      intro s' hs'
      induction hs' with
      | refl =>
        intro _
        refine ⟨_, by simp only [Rw.start, List.getElem?_map, hc', Option.map_some]; rfl, ?_⟩
        exact ⟨hc _ (List.mem_of_getElem? hc'), by simp⟩
      | @tail s₁ s₂ g1 g2 ih =>
        intro hrun
        have hrun₁ : RwRun srt b mx calls s₁ := ⟨h.setup, h.searches, d, hnew, g1⟩
        obtain ⟨th, ht, hp⟩ := ih hrun₁
        obtain ⟨hsys₁, _, hmx₁, _, _, hcf₁, _⟩ := hrun₁.sys hsrt
        have hsh := hrun₁.shape hsrt h0
        cases g2 with
        | mk u ub ub' d' hu hl =>
          by_cases hut : u = t
          · subst hut
            rw [ht] at hu
            cases hu
            refine ⟨ub', by simp only [List.getElem?_set_self (List.getElem?_eq_some_iff.1 ht).1], ?_⟩
            exact hp.step hsrt hsys₁ hsh (by rw [hmx₁, hcf₁]; exact hstrict) ht hl
          · exact ⟨th, by simp only [List.getElem?_set_ne hut]; exact ht, hp.mono (hl.ok hsrt hsys₁ hu).ext⟩
    obtain ⟨th, ht', hp⟩ := key s h4 h
    rw [ht] at ht'
    cases ht'
    have := hp.2
    omega

/-- The condition of `C43_single_inserts_partial` on the plan holds for every layer multiplier from 2 on (in exact
arithmetic). -/
theorem C43_multiplier_strict (m : ℝ) (hm : 2 ≤ m) (mx i : Nat) :
    numElementsInLayer m mx i < numElementsInLayer m mx (i + 1) ∨ numElementsInLayer m mx i = mx := sched_strict hm i

/-! ### A concrete concurrent builder -/

/-- Layers of 1, 2, 3, ... elements. -/
def rwConfig : BuildConfig Nat := ⟨fun total i => min total (i + 1), none, 2, 3, false, 0⟩
/-- No elements yet; elements are integers. -/
def rwBuilder : Builder Int Nat := ⟨⟨[], fun a b => (a - b).natAbs⟩, [], rwConfig⟩
/-- A concurrent builder with room for two elements. -/
def rwStart : RwData Int Nat := .ofBuilder (withExpected rwBuilder 2) 2

theorem rwConfig_good : GoodConfig rwConfig := by
  refine ⟨by decide, by decide, ⟨fun t i => by simp [rwConfig], fun t i h => by simp [rwConfig]; omega,
    fun t => ⟨t, fun i hi => by simp [rwConfig]; omega⟩⟩⟩

theorem rwSetup (mx : Nat) (h : mx ≤ UNUSED) : RwSetup exSort rwBuilder mx where
  reachable := .new rwConfig rwBuilder.elements _ rfl
  config := rwConfig_good
  mono := fun i j hij => by simp only [rwBuilder, rwConfig]; omega
  limit := h
  fits := fun _ => C41_fresh_fits _ _ rfl

theorem rwStart_new : RwNew exSort rwBuilder 2 (some rwStart) := .ok _ (.zero rfl)

/-- One round of inserting 10 and 7, while a save is about to start. -/
theorem rwRound : Rw.Steps exSort (Rw.start rwStart [.insert [10, 7], .write])
    ⟨⟨⟨[10], fun a b => (a - b).natAbs⟩, [[UNUSED, UNUSED]], [], { rwConfig with expectedNumElements := some 2 }, 2⟩,
      [.insHoldL ⟨[10, 7], [7], [0], 1⟩, .wrWantW false]⟩ :=
  Rw.Steps.round (f := ⟨[10, 7], [10, 7], [], 0⟩) (by simp [RwCall.start, RwThread.eExcl, RwThread.eQueued, RwThread.eShared,
    RwThread.wExcl, RwThread.wQueued, RwThread.lExcl, RwThread.lShared]) (by decide) (by decide) (by decide +kernel) (.refl _)

/-- C43 is violated: inserting a batch of two elements that belong into different layers, while a save waits, ends in a
state in which neither call has returned and neither can go on. -/
theorem C43_violated : ∃ (b : Builder Int Nat) (s : Rw Int Nat), RwRun exSort b 2 [.insert [10, 7], .write] s ∧
    Halted exSort s ∧ result s 0 = none ∧ result s 1 = none := by
  have h1 := rwRound.snd .wrQueue
  have h2 := h1.fst (.rest _ (by simp))
  have h3 := h2.fst (.room _ (noOther0 (by simp [RwThread.eExcl])) (noOther0 (by simp [RwThread.eQueued])) (by decide))
  refine ⟨rwBuilder, _, ⟨rwSetup 2 (by decide), by simp, rwStart, rwStart_new, h3⟩, ?_, rfl, rfl⟩
  intro s' hs
  cases hs with
  | mk t th th' d' ht hl =>
    match t with
    | 0 =>
      cases ht
      cases hl with
      | takeW f _ hq => exact hq 1 (.wrWantW true) (by decide) rfl rfl
    | 1 =>
      cases ht
      cases hl with
      | wrTakeW _ hq => exact hq 0 _ (by decide) rfl (by simp [RwThread.wShared])
    | n + 2 => cases ht

/-- The two calls one after the other: both elements are inserted and saved. -/
theorem rwComplete : ∃ s : Rw Int Nat, RwRun exSort rwBuilder 2 [.insert [10, 7], .write] s ∧
    result s 0 = some (.ids [0, 1]) ∧
    result s 1 = some (.saved [10, 7] [[[UNUSED, UNUSED]], [[1, UNUSED], [0, UNUSED]]]) := by
  have h1 := rwRound.fst (.rest _ (by simp))
  have h2 := Rw.Steps.round (rows := [[1, UNUSED], [0, UNUSED]]) (by simp [RwThread.eExcl, RwThread.eQueued,
    RwThread.eShared, RwThread.wExcl, RwThread.wQueued, RwThread.lExcl, RwThread.lShared]) (by decide) (by decide)
    (by decide +kernel) h1
  have h3 := ((h2.fst (.noRest _ (by decide))).fst (.dropW _ 1 rfl)).fst (.dropW _ 0 rfl)
  have h4 := h3.fst (.done _ rfl)
  have h5 := h4.snd .wrQueue
  have h6 := h5.snd (.wrTakeW (noOther1 (by simp [RwThread.wExcl])) (noOther1 (by simp [RwThread.wShared])))
  have h7 := h6.snd (.wrTakeE (noOther1 (by simp [RwThread.eExcl])) (noOther1 (by simp [RwThread.eQueued])))
  have h8 := h7.snd (.wrTakeL (noOther1 (by simp [RwThread.lExcl])) (noOther1 (by simp [RwThread.lQueued])))
  have h9 := h8.snd .wrElements
  have h10 := h9.snd (.wrRow _ [] [1, UNUSED] (by decide) rfl)
  have h11 := h10.snd (.wrRow _ _ [0, UNUSED] (by decide) rfl)
  have h12 := h11.snd (.wrIndex _ _ rfl)
  have h13 := ((h12.snd (.wrDropL _ _)).snd (.wrDropE _ _)).snd (.wrDropW _ _)
  exact ⟨_, ⟨rwSetup 2 (by decide), by simp, rwStart, rwStart_new, h13⟩, rfl, rfl⟩

/-- Non-vacuity of C41, C42: a run with both calls returned. -/
example : ∃ s : Rw Int Nat, RwRun exSort rwBuilder 2 [.insert [10, 7], .write] s ∧
    (∀ t < 2, result s t ≠ none) ∧ numElements s = 2 := by
  obtain ⟨s, h1, h2, h3⟩ := rwComplete
  have hall : ∀ t < 2, result s t ≠ none := by
    intro t ht
    match t with
    | 0 => rw [h2]; simp
    | 1 => rw [h3]; simp
  exact ⟨s, h1, hall, C41_all_inserted exSort_sorts _ _ _ s h1 hall⟩

/-- Non-vacuity of `C41_multiplier_fits`: a builder with multiplier 3 and its history. -/
example : ReachableBy exSort (fun c => GoodConfig c ∧ c.schedule = numElementsInLayer 3)
    (⟨exData, [], ⟨numElementsInLayer 3, none, 4, 3, true, 0⟩⟩ : Builder Int Nat) :=
  .new _ exData _ ⟨⟨by simp, by simp, sched_good (by norm_num)⟩, rfl⟩ rfl

/-- C41: the condition on the plan is needed. The builder of six elements in one layer, saved and reloaded with a
configuration that plans layers of 2, 4, 6, ... elements, becomes a concurrent builder whose first insert panics, after
having thrown away nodes of the layer. -/
theorem C41_plan_must_fit : ∃ (b : Builder Int Nat) (d : RwData Int Nat) (s : Rw Int Nat), Reachable exSort b ∧
    GoodConfig b.config ∧ lastLen b.layers = 6 ∧ RwNew exSort b 10 (some d) ∧
    Rw.Steps exSort (Rw.start d [.insert [5], .write]) s ∧ result s 0 = some .panic ∧
    s.data.current.length < numElements s := by
  have hs : (saveIndex (.fixWidth exBuiltOne.layers) [] 0).2 = true ∧
    (saveIndex (.fixWidth exBuiltOne.layers) [] 0).1.length < 2 ^ 64 := by decide +kernel
  rcases hsv : saveIndex (.fixWidth exBuiltOne.layers) [] 0 with ⟨f', ok⟩
  rw [hsv] at hs
  obtain ⟨hok, hlen⟩ := hs
  simp only at hok hlen
  subst hok
  have hfb := fromBytes_saved (exBuiltOne_reachable.inv exSort_sorts exConfigOne_good).padded hsv hlen
    exConfig exData
  rw [if_pos (by decide)] at hfb
  have hr := (C21_reload_reachable exSort_sorts exBuiltOne _ exBuiltOne_reachable exConfigOne_good _ _ _ hsv hlen exConfig
    exData rfl rfl (fun _ _ => rfl) hfb).1
  have hnew : RwNew exSort _ 10 (some (RwData.ofBuilder (withExpected ⟨exData, exBuiltOne.layers.map fun l =>
      ⟨exConfig.numNeighbors, reloadLayer exConfig.numNeighbors l.rows⟩, exConfig⟩ 10) 10)) :=
    .ok _ (.continue _ _ (by decide) (by decide) (by decide) (by decide) (.nothing (by decide) (by decide))
      (.done _ (by decide)))
  generalize hd : RwData.ofBuilder (withExpected ⟨exData, exBuiltOne.layers.map fun l =>
      ⟨exConfig.numNeighbors, reloadLayer exConfig.numNeighbors l.rows⟩, exConfig⟩ 10) 10 = d at hnew
  have e1 : d.elements.data.length = 6 := by rw [← hd]; rfl
  have e2 : d.maxElements = 10 := by rw [← hd]; rfl
  have e3 : d.grow.current.length = 4 := by rw [← hd]; decide +kernel
  have e4 : d.grow.elements.data.length = 6 := by rw [← hd]; decide +kernel
  have h1 := (Rw.Steps.refl (srt := exSort) (Rw.start d [.insert [5], .write])).fst (.room _
    (noOther0 (by simp [RwCall.start, RwThread.eExcl])) (noOther0 (by simp [RwCall.start, RwThread.eQueued])) (by
      show d.elements.data.length < d.maxElements
      omega))
  have h2 := h1.fst (.takeW _ (noOther0 (by simp [RwCall.start, RwThread.wExcl]))
    (noOther0 (by simp [RwCall.start, RwThread.wQueued])))
  have h3 := h2.fst (.queueE _)
  have h4 := h3.fst (.takeE _ (noOther0 (by simp [RwCall.start, RwThread.eExcl]))
    (noOther0 (by simp [RwCall.start, RwThread.eShared])))
  have h5 := h4.fst (.queueL _)
  have h6 := h5.fst (.takeL _ (noOther0 (by simp [RwCall.start, RwThread.lExcl]))
    (noOther0 (by simp [RwCall.start, RwThread.lShared])))
  have h7 := h6.fst (.assertFails _ (by show d.grow.current.length < d.grow.elements.data.length; omega))
  refine ⟨_, d, _, hr, exConfig_good, by decide, hnew, h7, rfl, ?_⟩
  show d.grow.current.length < d.grow.elements.data.length
  omega

/-! ### C44 -/

/-- C44, what holds: whatever else is going on, a search returns different elements with their distances to the query,
nearest first, at most as many as asked for, and no zero elements except possibly number 0. -/
theorem C44_search_sound_partial (hsrt : IsSortByDist srt) (b : Builder E D) (mx : Nat) (calls : List (RwCall E))
    (s : Rw E D) (h : RwRun srt b mx calls s) (t : Nat) (q : E) (ms k : Nat)
    (hc : calls[t]? = some (.search q ms k) ∨ calls[t]? = some (.look (some (q, ms, k)))) (hits : List (Nat × D)) (hr : result s t = some (.hits hits)) :
    (∀ p ∈ hits, ∃ e, s.data.elements.data[p.1]? = some e ∧ b.elements.dist e q = p.2) ∧
    (hits.map Prod.fst).Nodup ∧ hits.Pairwise (fun x y => x.2 ≤ y.2) ∧ hits.length ≤ min ms k ∧
    ∀ p ∈ hits, p.1 ≠ 0 → ¬ IsZero s.data.elements b.config.eps p.1 := by
  obtain ⟨hs, _, _, _, hdist, hcf, d, h3, h4, _⟩ := h.sys hsrt
  obtain ⟨q', ms', k', hf⟩ := result_hits hr
  obtain ⟨th, ht, hcall⟩ : ∃ th, s.threads[t]? = some th ∧ th.call = some (.search q ms k) := by
    rcases hc with hc | hc <;> exact h3.call hsrt h4 hc
  rw [hf] at ht
  cases ht
  simp only [RwThread.call, Option.some.injEq, RwCall.search.injEq] at hcall
  obtain ⟨rfl, rfl, rfl⟩ := hcall
  have hok := hs.thr t _ hf
  simp only [ThreadInv] at hok
  refine ⟨fun p hp => ?_, hok.nodup, hok.sorted, hok.len, fun p hp h0 => ?_⟩
  · have := hok.dist p hp
    unfold Elements.distTo at this
    obtain ⟨e, he, hd⟩ := Option.map_eq_some_iff.1 this
    exact ⟨e, he, by rw [← hdist]; exact hd⟩
  · have := hok.nonzero p hp h0
    rw [hcf] at this
    exact this

/-- C44, what holds: a search that starts when a layer has already been finished finds something. -/
theorem C44_nonempty_partial (hsrt : IsSortByDist srt) (b : Builder E D) (mx : Nat) (calls : List (RwCall E))
    (s s' : Rw E D) (h : RwRun srt b mx calls s) (hs : Rw.Steps srt s s') (hprev : s.data.prev ≠ []) (t : Nat) (q : E)
    (ms k : Nat) (hk : 1 ≤ k) (h0 : s.threads[t]? = some (RwCall.search q ms k).start) (hits : List (Nat × D))
    (hr : result s' t = some (.hits hits)) : hits ≠ [] := by
  obtain ⟨hsys, _⟩ := h.sys hsrt
  obtain ⟨th, ht, hp⟩ := hsys.track hsrt (P := FindsSome)
    (fun s th d' th' h1 h2 h3 h4 => h4.step h1 h2 h3)
    (fun s th u ub d' ub' _ h1 _ h3 h4 h5 => h5.mono fun hne => by
      obtain ⟨more, hm⟩ := h4.prev
      rw [hm]; simp [hne]) hs h0 hprev
  obtain ⟨q', ms', k', hf⟩ := result_hits hr
  have hcall : ∃ th, s'.threads[t]? = some th ∧ (th = .panicked ∨ th.call = some (.search q ms k)) :=
    hsys.track hsrt (P := fun _ th => th = .panicked ∨ th.call = some (.search q ms k))
      (fun s th d' th' _ _ hl hp => by
        rcases hp with rfl | hp
        · cases hl
        · rcases hl.call with h | h
          · exact Or.inl h
          · exact Or.inr (h.trans hp))
      (fun _ _ _ _ _ _ _ _ _ _ _ hp => hp) hs h0 (Or.inr (RwCall.start_call _))
  obtain ⟨th', ht', hcall⟩ := hcall
  rw [hf] at ht ht'
  cases ht
  cases ht'
  simp only [RwThread.call, Option.some.injEq, RwCall.search.injEq, reduceCtorEq, false_or] at hcall
  obtain ⟨_, _, rfl⟩ := hcall
  exact hp.2 hk

/-- C44, what holds: on a builder that was empty at first, a search finds something if it starts when there are more
elements than planned for the first layer. -/
theorem C44_nonempty_when_partial (hsrt : IsSortByDist srt) (b : Builder E D) (mx : Nat) (calls : List (RwCall E))
    (s s' : Rw E D) (h : RwRun srt b mx calls s) (hs : Rw.Steps srt s s') (hempty : b.elements.data = [])
    (hmore : b.config.schedule mx 0 < numElements s) (t : Nat) (q : E)
    (ms k : Nat) (hk : 1 ≤ k) (h0 : s.threads[t]? = some (RwCall.search q ms k).start) (hits : List (Nat × D))
    (hr : result s' t = some (.hits hits)) : hits ≠ [] := by
  refine C44_nonempty_partial hsrt b mx calls s s' h hs ?_ t q ms k hk h0 hits hr
  intro hn
  have hsh := (h.shape hsrt hempty).current
  obtain ⟨hsys, _, hmx, _, _, hcf, _⟩ := h.sys hsrt
  have := hsys.data.rows.len
  rw [hn, hcf, hmx] at hsh
  simp only [List.length_nil] at hsh
  simp only [RwData.len] at this
  simp only [numElements] at hmore
  omega

/-- C44 is violated: on a builder that was empty at first, every search returns nothing until the first layer is full. -/
theorem C44_violated_until_full (hsrt : IsSortByDist srt) (b : Builder E D) (mx : Nat) (calls : List (RwCall E))
    (s : Rw E D) (h : RwRun srt b mx calls s) (hempty : b.elements.data = [])
    (hfew : numElements s < b.config.schedule mx 0) (t : Nat) (hits : List (Nat × D))
    (hr : result s t = some (.hits hits)) : hits = [] := by
  obtain ⟨hsys, _, hmx, _, _, hcf, d, h3, h4, _⟩ := h.sys hsrt
  obtain ⟨q, ms, k, hf⟩ := result_hits hr
  obtain ⟨c, hc, _⟩ := h3.call' hsrt h4 hf
  obtain ⟨th, ht, hp⟩ := h3.track hsrt (P := FindsNone) (t := t) (th := c.start)
    (fun s th d' th' _ _ h3 h4 => h4.step h3)
    (fun s th u ub d' ub' _ _ _ _ h4 h5 => h5.mono h4.prev) h4
    (by simp only [Rw.start, List.getElem?_map, hc, Option.map_some]) (by cases c <;> trivial)
  rw [hf] at ht
  cases ht
  refine hp ?_
  by_contra hn
  obtain ⟨R, hR⟩ : ∃ R, s.data.prev[0]? = some R := by
    cases hpv : s.data.prev with
    | nil => exact absurd hpv hn
    | cons a l => exact ⟨a, rfl⟩
  have h1 := (h.shape hsrt hempty).prev 0 R hR
  have h2 := (hsys.data.above R (List.mem_of_getElem? hR)).1
  rw [hcf, hmx] at h1
  simp only [numElements] at hfew
  simp only [RwData.len] at h2
  simp only at h1
  omega

/-- C44 is violated, concretely: 10 has been inserted, a search for it that starts afterwards returns nothing. -/
theorem C44_violated : ∃ (b : Builder Int Nat) (s s' : Rw Int Nat), RwRun exSort b 2 [.insert [10], .search 10 3 1] s ∧
    result s 0 = some (.ids [0]) ∧ s.data.elements.data = [10] ∧
    s.threads[1]? = some (RwCall.search 10 3 1).start ∧ Rw.Steps exSort s s' ∧ result s' 1 = some (.hits []) := by
  have h1 := Rw.Steps.round (srt := exSort) (rows := [[UNUSED, UNUSED]]) (by simp [RwCall.start, RwThread.eExcl,
    RwThread.eQueued, RwThread.eShared, RwThread.wExcl, RwThread.wQueued, RwThread.lExcl, RwThread.lShared]) (by decide)
    (by decide) (by decide +kernel) (.refl (Rw.start rwStart [.insert [10], .search 10 3 1]))
  have h2 := ((h1.fst (.noRest _ (by decide))).fst (.dropW _ 0 rfl)).fst (.done _ rfl)
  refine ⟨rwBuilder, _, _, ⟨rwSetup 2 (by decide), by intro q ms k hm; simp at hm; omega, rwStart, rwStart_new, h2⟩, rfl, rfl, rfl,
    ((((Rw.Steps.refl _).snd (.seTakeE _ _ _ (noOther1 (by simp [RwThread.eExcl])) (noOther1 (by simp [RwThread.eQueued])))).snd
      (.seNothing _ _ _ (noOther1 (by simp [RwThread.lExcl])) (noOther1 (by simp [RwThread.lQueued])) rfl)).snd
      (.seDropL _ _ _ _)).snd (.seDropE _ _ _ _), rfl⟩

/-- C44, what holds: a search that runs while nothing is being inserted (and some layer has been finished) returns what
a search of the index that a save would write returns. -/
theorem C44_quiescent_partial (hsrt : IsSortByDist srt) (b : Builder E D) (mx : Nat) (calls : List (RwCall E))
    (s s' : Rw E D) (h : RwRun srt b mx calls s) (hs : Rw.Steps srt s s')
    (hquiet : ∀ (t : Nat) (batch : List E), calls[t]? = some (.insert batch) → result s t ≠ none)
    (hprev : s.data.prev ≠ []) (t : Nat) (q : E) (ms k : Nat)
    (h0 : s.threads[t]? = some (RwCall.search q ms k).start) (hits : List (Nat × D))
    (hr : result s' t = some (.hits hits)) :
    search ((s.data.savedLayers (s.data.current.take (numElements s))).map graphOf) s.data.elements q ms k = some hits := by
  obtain ⟨hsys, _, _, _, _, _, d, h3, h4, _⟩ := h.sys hsrt
  have hq : s.Quiet := by
    intro th hth batch hcall
    obtain ⟨u, hu⟩ := List.getElem?_of_mem hth
    obtain ⟨c, hc, hcc⟩ := h3.call' hsrt h4 hu
    rw [hcall] at hcc
    obtain rfl : c = .insert batch := by
      cases c with
      | look next => cases next <;> simp [RwCall.plain] at hcc
      | insert batch' => simp [RwCall.plain] at hcc; rw [hcc]
      | _ => simp [RwCall.plain] at hcc
    have := hquiet u batch hc
    unfold result at this
    rw [hu] at this
    cases th with
    | loWantE next => cases next <;> simp [RwThread.call] at hcall
    | loHold next els => cases next <;> simp [RwThread.call] at hcall
    | inserted | wrote | found | looked | panicked => trivial
    | _ => exact absurd rfl this
  obtain ⟨_, _, th, ht, hp⟩ := hq.search hsrt hsys hprev hs h0 trivial
  obtain ⟨q', ms', k', hf⟩ := result_hits hr
  have hcall : ∃ th, s'.threads[t]? = some th ∧ (th = .panicked ∨ th.call = some (.search q ms k)) :=
    hsys.track hsrt (P := fun _ th => th = .panicked ∨ th.call = some (.search q ms k))
      (fun s th d' th' _ _ hl hp => by
        rcases hp with rfl | hp
        · cases hl
        · rcases hl.call with h | h
          · exact Or.inl h
          · exact Or.inr (h.trans hp))
      (fun _ _ _ _ _ _ _ _ _ _ _ hp => hp) hs h0 (Or.inr (RwCall.start_call _))
  obtain ⟨th', ht', hcall⟩ := hcall
  rw [hf] at ht ht'
  cases ht
  cases ht'
  simp only [RwThread.call, Option.some.injEq, RwCall.search.injEq, reduceCtorEq, false_or] at hcall
  obtain ⟨rfl, rfl, rfl⟩ := hcall
  exact hp

/-- Non-vacuity of C44: two elements are inserted, then 6 is searched for; the nearest is number 1. -/
example : ∃ s s' : Rw Int Nat, RwRun exSort rwBuilder 2 [.insert [10, 7], .search 6 3 1] s ∧ Rw.Steps exSort s s' ∧
    s.data.prev ≠ [] ∧ s.threads[1]? = some (RwCall.search 6 3 1).start ∧ result s 0 = some (.ids [0, 1]) ∧
    result s' 1 = some (.hits [(1, 1)]) := by
  have hb : ∀ b : RwThread Int Nat, b = .seWantE 6 3 1 → ¬ b.eExcl ∧ ¬ b.eQueued ∧ ¬ b.eShared ∧ ¬ b.wExcl ∧ ¬ b.wQueued ∧
      ¬ b.lExcl ∧ ¬ b.lShared := by
    rintro b rfl
    simp [RwThread.eExcl, RwThread.eQueued, RwThread.eShared, RwThread.wExcl, RwThread.wQueued, RwThread.lExcl,
      RwThread.lShared]
  have h1 := Rw.Steps.round (srt := exSort) (rows := [[UNUSED, UNUSED]]) (hb _ rfl) (by decide)
    (by decide) (by decide +kernel) (.refl (Rw.start rwStart [.insert [10, 7], .search 6 3 1]))
  have h2 := h1.fst (.rest _ (by decide))
  have h3 := Rw.Steps.round (srt := exSort) (rows := [[1, UNUSED], [0, UNUSED]]) (hb _ rfl) (by decide)
    (by decide) (by decide +kernel) h2
  have h4 := (((h3.fst (.noRest _ (by decide))).fst (.dropW _ 1 rfl)).fst (.dropW _ 0 rfl)).fst (.done _ rfl)
  refine ⟨_, _, ⟨rwSetup 2 (by decide), by intro q ms k hm; simp at hm; omega, rwStart, rwStart_new, h4⟩,
    Rw.Steps.searched (r := [(1, 1), (0, 4)]) _ (((Rw.Steps.refl _).snd (.seTakeE _ _ _
    (noOther1 (by simp [RwThread.eExcl])) (noOther1 (by simp [RwThread.eQueued])))).snd
      (.seTakeL _ _ _ 0 (noOther1 (by simp [RwThread.lExcl])) (noOther1 (by simp [RwThread.lQueued])) (by decide +kernel)))
      (by decide +kernel), by decide, rfl, rfl, rfl⟩

end Granne
