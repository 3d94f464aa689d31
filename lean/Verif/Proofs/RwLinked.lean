import Verif.Proofs.RwNew
import Verif.Proofs.LinkedBuild

/-!
The links of a concurrent builder: whenever no insert is indexing, all elements present are linked in the current
layer; finished and saved layers are linked.
-/
namespace Granne
open List Spec

variable {E D : Type} [LinearOrder D]

/-- The first `n` nodes of a layer are linked. -/
structure LinkedRows (S : Prop) (n : Nat) (Z : Nat → Prop) (R : Rows) : Prop where
  linked : ∀ j < n, ¬ Z j → Linked S j R
  back : S → ∀ j, NE R j → Reach (graphOf R) j 0

theorem Extends.z_iff {d d' : RwData E D} (h : Extends d d') {j : Nat} (hj : j < d.len) : d'.Z j ↔ d.Z j := by
  unfold RwData.Z IsZero
  simp only [Elements.dist?, Elements.distTo, h.get hj, h.dist, h.config]

/-- Nothing is skipped (and in case `S` nothing is dropped) in this collection. -/
abbrev RwData.Loose (S : Prop) (d : RwData E D) : Prop :=
  Sparse S d.elements d.config.eps d.config.numNeighbors d.len

theorem RwData.Loose.of_extends {S : Prop} {d d' : RwData E D} (he : Extends d d') (h : d'.Loose S) : d.Loose S := by
  have hl := he.len_le
  have h1 := h.small
  have h2 := h.far
  rw [he.config] at h1 h2
  refine ⟨fun s => by have := h1 s; omega, ?_⟩
  rcases h2 with h2 | h2
  · left
    intro i j x hi hj hne hd
    refine h2 i j x (by omega) (by omega) hne ?_
    simpa [Elements.dist?, Elements.distTo, he.get hi, he.get hj, he.dist] using hd
  · right; omega

/-- The tasks of an insert, and what they achieve. -/
def TasksLinked (S : Prop) (d : RwData E D) (got : List Nat) (tasks : List (Prog Unit)) : Prop :=
  ∃ R₀ own, ParSafeQ (InvS S d.len d.config.numNeighbors d.Z R₀) (RelyS S) own
      (fun t R => ¬ d.Z (own t) → Linked S (own t) R) ⟨d.current, tasks⟩ ∧
    (∀ t t', t < tasks.length → t' < tasks.length → own t = own t' → t = t') ∧
    (∀ t < tasks.length, own t < d.len ∧ own t ∈ got) ∧
    ∀ j < d.len, ¬ d.Z j → Linked S j R₀ ∨ ∃ t < tasks.length, own t = j

theorem TasksLinked.done {S : Prop} {d : RwData E D} {got : List Nat} {tasks : List (Prog Unit)}
    (h : TasksLinked S d got tasks)
    (hd : ∀ p ∈ tasks, p = Prog.ret ()) : LinkedRows S d.len d.Z d.current := by
  obtain ⟨R₀, own, hs, _, _, hc⟩ := h
  refine ⟨fun j hj hz => ?_, hs.inv.back⟩
  rcases hc j hj hz with h1 | ⟨t, ht, rfl⟩
  · exact h1.mono hs.inv.inv.2 hs.inv.grow
  · exact hs.done (RelyS.refl S) hd ht hz

theorem tasks_linked {S : Prop} {srt : List (Nat × D) → List (Nat × D)} (hsrt : IsSortByDist srt) {n₀ : Nat}
    {d : RwData E D} (h : RwInv n₀ d) (hl : d.Loose S) {n : Nat} (hnl : n ≤ d.len)
    (hlk : LinkedRows S n d.Z d.current) (hempty : ∀ j, n ≤ j → ¬ NE d.current j)
    {got : List Nat} (hgot : ∀ j, n ≤ j → j < d.len → j ∈ got) :
    TasksLinked S d got (d.tasks srt ((List.range (d.len - n)).map (n + ·))) := by
  have hinv : InvS S d.len d.config.numNeighbors d.Z d.current d.current :=
    ⟨⟨h.rows, fun _ h => h⟩, fun _ => Grow.refl _, hlk.back⟩
  have hids : ∀ t, t < d.len - n → ((List.range (d.len - n)).map (n + ·))[t]? = some (n + t) := by
    intro t ht
    rw [List.getElem?_map, List.getElem?_range ht]; rfl
  have htl : (d.tasks srt ((List.range (d.len - n)).map (n + ·))).length = d.len - n := by simp [RwData.tasks]
  refine ⟨d.current, fun t => n + t, ⟨hinv, ?_⟩, fun t t' _ _ he => Nat.add_left_cancel he,
    fun t ht => by rw [htl] at ht; exact ⟨show n + t < d.len by omega, hgot (n + t) (by omega) (by omega)⟩, ?_⟩
  · intro t p hp
    simp only at hp
    have ht : t < d.len - n := by rw [← htl]; exact (List.getElem?_eq_some_iff.1 hp).1
    rw [RwData.tasks, List.getElem?_map, hids t ht] at hp
    simp only [Option.map_some, Option.some.injEq] at hp
    subst hp
    have hlt : n + t < d.len := by omega
    have hroot : S → ∀ j, NE d.current j → ¬ d.Z j → Reach (graphOf d.current) 0 j := by
      intro s j hj hz
      by_cases h0 : j = 0
      · subst h0; exact .refl
      · have hjn : j < n := by
          by_contra hc
          exact hempty j (by omega) hj
        exact (hlk.linked j hjn hz h0).2 s
    refine (indexElement_linked (cfg := d.layerConfig) (fun s => by have := hl.small s; exact this) h.rows.len
      (h.cap.trans h.limit) le_rfl hsrt hlt h.neighbors h.neighbors le_rfl h.search ?_
      (hl.far.imp (fun hf j x hj hne => hf (n + t) j x hlt hj hne) id)
      (h.stack.prevOk le_rfl (by omega) h.above) hroot
      (fun _ _ => Or.inl (hempty _ (by omega))) hinv).strengthen ?_
    · rintro x hx hle ⟨x', hx', hlt'⟩
      rw [hx] at hx'; cases hx'
      exact hle hlt'
    · intro R _ _ hq hz
      apply hq
      have : ∃ x, d.elements.dist? (n + t) (n + t) = some x := by
        simp [Elements.dist?, Elements.distTo, List.getElem?_eq_getElem hlt]
      obtain ⟨x, hx⟩ := this
      exact ⟨x, hx, fun hc => hz ⟨x, hx, hc⟩⟩
  · intro j hj hz
    by_cases hjn : j < n
    · exact Or.inl (hlk.linked j hjn hz)
    · exact Or.inr ⟨j - n, by omega, by simp only; omega⟩

/-- Saved layers are linked. -/
def SnapLinked (S : Prop) (d : RwData E D) (els : List E) (layers : List Rows) : Prop :=
  els.length ≤ d.len ∧ ∀ R ∈ layers, R.length ≤ els.length ∧ LinkedLayer S d.Z R

theorem SnapLinked.extend {S : Prop} {d d' : RwData E D} {els : List E} {layers : List Rows}
    (h : SnapLinked S d els layers) (he : Extends d d') : SnapLinked S d' els layers := by
  refine ⟨h.1.trans he.len_le, fun R hR => ⟨(h.2 R hR).1, fun j hj hz => ?_, (h.2 R hR).2.back⟩⟩
  have := (h.2 R hR).1
  have := h.1
  exact (h.2 R hR).2.linked j hj fun hz' => hz ((he.z_iff (by omega)).2 hz')

/-- What is known about a thread. -/
def ThreadLinked (S : Prop) (d : RwData E D) : RwThread E D → Prop
  | .insIndex f tasks => TasksLinked S d f.got tasks
  | .wrDropL els layers | .wrDropE els layers | .wrDropW els layers | .wrote els layers => SnapLinked S d els layers
  | _ => True

/-- The thread is indexing. -/
def RwThread.indexing : RwThread E D → Prop
  | insIndex _ _ => True
  | _ => False

/-- Links of the whole system. -/
structure RwLk (S : Prop) (s : Rw E D) : Prop where
  idle : (∀ (t : Nat) (th : RwThread E D), s.threads[t]? = some th → ¬ th.indexing) →
    LinkedRows S s.data.len s.data.Z s.data.current
  thr : ∀ (t : Nat) (th : RwThread E D), s.threads[t]? = some th → ThreadLinked S s.data th
  prev : ∀ R ∈ s.data.prev, LinkedLayer S s.data.Z R
  empty : ∀ j, s.data.len ≤ j → ¬ NE s.data.current j

theorem ThreadLinked.extend {S : Prop} {d d' : RwData E D} {th : RwThread E D} (h : ThreadLinked S d th)
    (he : Extends d d') (hn : ¬ th.indexing) : ThreadLinked S d' th := by
  cases th <;> simp only [ThreadLinked, RwThread.indexing, not_true_eq_false] at h hn ⊢ <;> exact h.extend he

theorem graphOf_resize {R : Rows} {m w : Nat} :
    Grow R (R ++ List.replicate m (List.replicate w UNUSED)) := by
  intro i row hi
  have hlt := (List.getElem?_eq_some_iff.1 hi).1
  exact ⟨row, by rw [List.getElem?_append_left hlt]; exact hi, fun _ h => h⟩

theorem LinkedRows.resize {S : Prop} {n m w : Nat} {Z : Nat → Prop} {R : Rows} (h : LinkedRows S n Z R) :
    LinkedRows S n Z (R ++ List.replicate m (List.replicate w UNUSED)) :=
  ⟨fun j hj hz => (h.linked j hj hz).mono (fun _ h => NE_append.2 h) fun _ => graphOf_resize,
    fun s j hj => graphOf_resize.reach (h.back s j (NE_append.1 hj))⟩

theorem reach_take {n w : Nat} {Z : Nat → Prop} {R : Rows} (h : RowsInv n w Z R) {i j : Nat} (hi : i < n)
    (hr : Reach (graphOf R) i j) : j < n ∧ Reach (graphOf (R.take n)) i j := by
  induction hr with
  | refl => exact ⟨hi, .refl⟩
  | step _ he ih =>
    obtain ⟨row, h1, h2⟩ := edge_graphOf.1 he
    refine ⟨((h.rows _ row h1).ids _ h2).1, .step ih.2 (edge_graphOf.2 ⟨row, ?_, h2⟩)⟩
    rw [List.getElem?_take, if_pos ih.1]; exact h1

theorem LinkedRows.take {S : Prop} {n w : Nat} {Z : Nat → Prop} {R : Rows} (hi : RowsInv n w Z R)
    (h : LinkedRows S n Z R) : LinkedLayer S Z (R.take n) := by
  have hlen : (R.take n).length = n := by simp [hi.len]
  have hne : ∀ j, NE (R.take n) j → NE R j ∧ j < n := by
    rintro j ⟨row, h1, h2⟩
    have hj := (List.getElem?_eq_some_iff.1 h1).1
    rw [hlen] at hj
    rw [List.getElem?_take, if_pos hj] at h1
    exact ⟨⟨row, h1, h2⟩, hj⟩
  refine ⟨fun j hj hz h0 => ?_, fun s j hj => ?_⟩
  · rw [hlen] at hj
    obtain ⟨⟨row, h1, h2⟩, h3⟩ := h.linked j hj hz h0
    exact ⟨⟨row, by rw [List.getElem?_take, if_pos hj]; exact h1, h2⟩, fun s => (reach_take hi (by omega) (h3 s)).2⟩
  · obtain ⟨h1, h2⟩ := hne j hj
    exact (reach_take hi h2 (h.back s j h1)).2

theorem RwLk.step {S : Prop} {srt : List (Nat × D) → List (Nat × D)} (hsrt : IsSortByDist srt) {n₀ : Nat}
    {s s' : Rw E D} (hs : RwSys n₀ s) (h : RwLk S s) (hst : Rw.Step srt s s') (hl : s'.data.Loose S) : RwLk S s' := by
  obtain ⟨hs', hext⟩ := hs.step hsrt hst
  cases hst with
  | mk t th th' d' ht hloc =>
    simp only at hl hext
    have htl : t < s.threads.length := (List.getElem?_eq_some_iff.1 ht).1
    have hget : ∀ (u : Nat) (ub : RwThread E D), (s.threads.set t th')[u]? = some ub →
        (u = t ∧ ub = th') ∨ (u ≠ t ∧ s.threads[u]? = some ub) := by
      intro u ub hu
      by_cases he : t = u
      · subst he
        rw [List.getElem?_set_self htl] at hu
        cases hu
        exact Or.inl ⟨rfl, rfl⟩
      · rw [List.getElem?_set_ne he] at hu
        exact Or.inr ⟨Ne.symm he, hu⟩
    -- a step that does not change the data and neither starts nor ends indexing
    have same : d' = s.data → ¬ th.indexing → ¬ th'.indexing → ThreadLinked S s.data th' →
        RwLk S ⟨d', s.threads.set t th'⟩ := by
      rintro rfl h1 h2 h3
      refine ⟨fun hidle => h.idle fun u ub hu => ?_, fun u ub hu => ?_, h.prev, h.empty⟩
      · by_cases he : u = t
        · subst he; rw [ht] at hu; cases hu; exact h1
        · exact hidle u ub (by simp only; rw [List.getElem?_set_ne (Ne.symm he)]; exact hu)
      · rcases hget u ub hu with ⟨rfl, rfl⟩ | ⟨_, hu⟩
        · exact h3
        · exact h.thr u ub hu
    have hzone : th.zone → ∀ (u : Nat) (ub : RwThread E D), u ≠ t → s.threads[u]? = some ub → ¬ ub.indexing := by
      intro hz u ub hne hu hi
      have := (hs.excl t u _ _ (Ne.symm hne) ht hu).z hz
      cases ub <;> simp_all [RwThread.indexing, RwThread.zone]
    have hth := h.thr t th ht
    cases hloc with
    | full f => exact same rfl (by simp [RwThread.indexing]) (by simp [RwThread.indexing]) trivial
    | room f => exact same rfl (by simp [RwThread.indexing]) (by simp [RwThread.indexing]) trivial
    | takeW f => exact same rfl (by simp [RwThread.indexing]) (by simp [RwThread.indexing]) trivial
    | queueE f => exact same rfl (by simp [RwThread.indexing]) (by simp [RwThread.indexing]) trivial
    | takeE f => exact same rfl (by simp [RwThread.indexing]) (by simp [RwThread.indexing]) trivial
    | queueL f => exact same rfl (by simp [RwThread.indexing]) (by simp [RwThread.indexing]) trivial
    | takeL f => exact same rfl (by simp [RwThread.indexing]) (by simp [RwThread.indexing]) trivial
    | rest f => exact same rfl (by simp [RwThread.indexing]) (by simp [RwThread.indexing]) trivial
    | noRest f => exact same rfl (by simp [RwThread.indexing]) (by simp [RwThread.indexing]) trivial
    | dropW f => exact same rfl (by simp [RwThread.indexing]) (by simp [RwThread.indexing]) trivial
    | done f => exact same rfl (by simp [RwThread.indexing]) (by simp [RwThread.indexing]) trivial
    | wrQueue => exact same rfl (by simp [RwThread.indexing]) (by simp [RwThread.indexing]) trivial
    | wrTakeW => exact same rfl (by simp [RwThread.indexing]) (by simp [RwThread.indexing]) trivial
    | wrTakeE => exact same rfl (by simp [RwThread.indexing]) (by simp [RwThread.indexing]) trivial
    | wrTakeL => exact same rfl (by simp [RwThread.indexing]) (by simp [RwThread.indexing]) trivial
    | wrElements => exact same rfl (by simp [RwThread.indexing]) (by simp [RwThread.indexing]) trivial
    | wrRow els rows row => exact same rfl (by simp [RwThread.indexing]) (by simp [RwThread.indexing]) trivial
    | wrRowPanics els rows => exact same rfl (by simp [RwThread.indexing]) (by simp [RwThread.indexing]) trivial
    | wrDropL els layers => exact same rfl (by simp [RwThread.indexing]) (by simp [RwThread.indexing]) hth
    | wrDropE els layers => exact same rfl (by simp [RwThread.indexing]) (by simp [RwThread.indexing]) hth
    | wrDropW els layers => exact same rfl (by simp [RwThread.indexing]) (by simp [RwThread.indexing]) hth
    | seTakeE q ms k => exact same rfl (by simp [RwThread.indexing]) (by simp [RwThread.indexing]) trivial
    | seTakeL q ms k e => exact same rfl (by simp [RwThread.indexing]) (by simp [RwThread.indexing]) trivial
    | seNothing q ms k => exact same rfl (by simp [RwThread.indexing]) (by simp [RwThread.indexing]) trivial
    | seEntryPanics q ms k => exact same rfl (by simp [RwThread.indexing]) (by simp [RwThread.indexing]) trivial
    | sePanics q ms k => exact same rfl (by simp [RwThread.indexing]) (by simp [RwThread.indexing]) trivial
    | seResult q ms k r => exact same rfl (by simp [RwThread.indexing]) (by simp [RwThread.indexing]) trivial
    | seDropL q ms k r => exact same rfl (by simp [RwThread.indexing]) (by simp [RwThread.indexing]) trivial
    | seDropE q ms k r => exact same rfl (by simp [RwThread.indexing]) (by simp [RwThread.indexing]) trivial
    | loTake next => exact same rfl (by simp [RwThread.indexing]) (by simp [RwThread.indexing]) trivial
    | loDrop els => exact same rfl (by simp [RwThread.indexing]) (by simp [RwThread.indexing]) trivial
    | loSearch q ms k els => exact same rfl (by simp [RwThread.indexing]) (by simp [RwThread.indexing]) trivial
    | seStep q ms k p p' rows' hstep =>
      obtain ⟨g1, g2, g3⟩ := (hs.thr t _ ht).2.step (RelyOn.refl 0) (fun _ => rfl) ⟨hs.data.rows, fun j hj => by
        obtain ⟨row, hr, _⟩ := hj; simp at hr⟩ hstep
      subst g2
      exact same rfl (by simp [RwThread.indexing]) (by simp [RwThread.indexing]) trivial
    | wrIndex els rows hlen =>
      refine same rfl (by simp [RwThread.indexing]) (by simp [RwThread.indexing]) ?_
      obtain ⟨h1, h2, h3⟩ := hs.thr t _ ht
      have hidle := h.idle fun u ub hu hi => by
        by_cases he : u = t
        · subst he; rw [ht] at hu; cases hu; exact hi
        · have := ((hs.excl t u _ _ (Ne.symm he) ht hu).w trivial).2
          cases ub <;> first | exact hi | exact this trivial
      refine ⟨by rw [h1], fun R hR => ?_⟩
      have hlay := hidle.take hs.data.rows
      simp only [RwData.savedLayers] at hR
      split at hR
      · simp at hR
      · rcases List.mem_append.1 hR with hR | hR
        · exact ⟨by rw [h1]; exact (hs.data.above R hR).1, h.prev R hR⟩
        · rw [List.mem_singleton] at hR
          subst hR
          refine ⟨by rw [h1, hlen], ?_⟩
          rw [h2, hlen]; exact hlay
    | assertFails f hlt =>
      obtain ⟨hg, _⟩ := hs.data.grow (hs.thr t _ ht).2
      have := hg.rows.len
      exact absurd hlt (by simp only [RwData.len] at this; omega)
    | taskPanics f tasks hmem =>
      obtain ⟨hf, R₀, own, hsafe, hinj⟩ := hs.thr t _ ht
      exact absurd ⟨_, hmem, rfl⟩ hsafe.not_panicked
    | dropE f tasks hd =>
      refine ⟨fun _ => hth.done hd, fun u ub hu => ?_, h.prev, h.empty⟩
      rcases hget u ub hu with ⟨rfl, rfl⟩ | ⟨_, hu⟩
      · trivial
      · exact h.thr u ub hu
    | task f tasks i p p' rows' hi hstep =>
      obtain ⟨R₀, own, hsafe, hinj, hown, hcov⟩ := hth
      obtain ⟨_, g2, _⟩ := (hsafe.threads i p hi).step (RelyS.refl S _) (fun a j _ => RelyS.refl S j a) hsafe.inv hstep
      have hil : i < tasks.length := (List.getElem?_eq_some_iff.1 hi).1
      have hsafe' := hsafe.step (RelyS.refl S) (RelyS.trans S) hinj (.mk ⟨s.data.current, tasks⟩ i p p' rows' hi hstep)
      refine ⟨fun hidle => absurd trivial (hidle t _ (List.getElem?_set_self htl)), fun u ub hu => ?_, h.prev, ?_⟩
      rcases hget u ub hu with ⟨rfl, rfl⟩ | ⟨hne, hu⟩
      · exact ⟨R₀, own, hsafe', by simpa using hinj, by simpa using hown, by simpa using hcov⟩
      · exact (h.thr u ub hu).extend hext (hzone trivial u ub hne hu)
      · intro j hj
        have := (hown i hil).1
        have hj : s.data.len ≤ j := hj
        exact (g2 j (by omega)).1.own (by omega) (h.empty j hj)
    | reserve f hle =>
      obtain ⟨hg, e1, e2, e3⟩ := hs.data.grow (hs.thr t _ ht).2
      have hidle := h.idle fun u ub hu hi => by
        by_cases he : u = t
        · subst he; rw [ht] at hu; cases hu; exact hi
        · exact hzone trivial u ub he hu hi
      have hZ : s.data.grow.Z = s.data.Z := by unfold RwData.Z; rw [e1, e2]
      have hgl : s.data.grow.len = s.data.len := by simp only [RwData.len, e1]
      have hempty : ∀ j, s.data.len ≤ j → ¬ NE s.data.grow.current j := by
        intro j hj
        unfold RwData.grow
        split
        · obtain ⟨hpos, hnext⟩ := hs.data.next (hs.thr t _ ht).2
          simp only
          rw [resizeRows_grow hnext, NE_append]
          exact h.empty j hj
        · exact h.empty j hj
      have hgrow : LinkedRows S s.data.grow.len s.data.grow.Z s.data.grow.current ∧
          ∀ R ∈ s.data.grow.prev, LinkedLayer S s.data.grow.Z R := by
        rw [hZ, hgl]
        unfold RwData.grow
        split
        · next hfull =>
          obtain ⟨hpos, hnext⟩ := hs.data.next (hs.thr t _ ht).2
          have hlen : s.data.current.length = s.data.len := le_antisymm hfull hs.data.rows.len
          simp only
          rw [resizeRows_grow hnext]
          refine ⟨hidle.resize, fun R hR => ?_⟩
          rcases List.mem_append.1 hR with hR | hR
          · exact h.prev R hR
          · rw [List.mem_singleton] at hR
            subst hR
            exact ⟨fun j hj => hidle.linked j (by omega), hidle.back⟩
        · exact ⟨hidle, h.prev⟩
      obtain ⟨ha, hae⟩ := hg.append f.todo
      have hnum : (s.data.grow.append f.todo).1.len - s.data.grow.len =
          min f.todo.length (s.data.grow.current.length - s.data.grow.elements.data.length) := by
        simp only [RwData.append, RwData.len, List.length_append, List.length_take]
        omega
      have hids : (s.data.grow.append f.todo).2.1 =
          (List.range ((s.data.grow.append f.todo).1.len - s.data.grow.len)).map (s.data.grow.len + ·) := by
        rw [hnum]; rfl
      have hcur : (s.data.grow.append f.todo).1.current = s.data.grow.current := rfl
      have hprev : (s.data.grow.append f.todo).1.prev = s.data.grow.prev := rfl
      refine ⟨fun hi => absurd trivial (hi t _ (List.getElem?_set_self htl)), fun u ub hu => ?_, fun R hR => ?_,
        fun j hj => hempty j (hext.len_le.trans hj)⟩
      · rcases hget u ub hu with ⟨rfl, rfl⟩ | ⟨hne, hu⟩
        · show TasksLinked S _ (f.got ++ (s.data.grow.append f.todo).2.1) _
          rw [hids]
          refine tasks_linked hsrt ha hl hae.len_le ?_ ?_ ?_
          · rw [hcur]
            exact ⟨fun j hj hz => hgrow.1.linked j hj fun hz' => hz ((hae.z_iff hj).2 hz'), hgrow.1.back⟩
          · rw [hcur]
            exact fun j hj => hempty j (by omega)
          · intro j h1 h2
            exact List.mem_append_right _ (List.mem_map.2 ⟨j - s.data.grow.len, List.mem_range.2 (by omega), by omega⟩)
        · exact (h.thr u ub hu).extend hext (hzone trivial u ub hne hu)
      · rw [hprev] at hR
        have h1 := hgrow.2 R hR
        have h2 := (hg.above R hR).1
        exact ⟨fun j hj hz => h1.linked j hj fun hz' => hz ((hae.z_iff (by omega)).2 hz'), h1.back⟩

theorem RwLk.steps {S : Prop} {srt : List (Nat × D) → List (Nat × D)} (hsrt : IsSortByDist srt) {n₀ : Nat}
    {s s' : Rw E D} (hs : RwSys n₀ s) (h : RwLk S s) (hst : Rw.Steps srt s s') : s'.data.Loose S → RwLk S s' := by
  induction hst with
  | refl => exact fun _ => h
  | tail h1 h2 ih =>
    intro hl
    have hs1 := (hs.steps hsrt h1).1
    exact (ih (hl.of_extends (hs1.step hsrt h2).2)).step hsrt hs1 h2 hl

/-! ### Elements that are not being indexed are linked -/

/-- `j` was there from the start, or its insert has returned. -/
def Settled (n₀ : Nat) (s : Rw E D) (j : Nat) : Prop :=
  j < n₀ ∨ ∃ (u : Nat) (f : Ins E), s.threads[u]? = some (.inserted f) ∧ j ∈ f.got

theorem Settled.step {srt : List (Nat × D) → List (Nat × D)} {n₀ j : Nat} {s s' : Rw E D} (h : Settled n₀ s j)
    (hs : Rw.Step srt s s') : Settled n₀ s' j := by
  rcases h with h | ⟨u, f, hu, hj⟩
  · exact Or.inl h
  · refine Or.inr ⟨u, f, ?_, hj⟩
    cases hs with
    | mk t th th' d' ht hl =>
      by_cases he : t = u
      · subst he
        rw [hu] at ht; cases ht
        cases hl
      · simp only
        rw [List.getElem?_set_ne he]; exact hu

theorem Settled.lt {n₀ j : Nat} {s : Rw E D} (hs : RwSys n₀ s) (h : Settled n₀ s j) : j < s.data.len := by
  rcases h with h | ⟨u, f, hu, hj⟩
  · exact lt_of_lt_of_le h hs.data.start
  · obtain ⟨k, hk⟩ := List.getElem?_of_mem hj
    exact ((hs.thr u _ hu).1.own k j hk).2.1

theorem Settled.linked {S : Prop} {n₀ j : Nat} {s : Rw E D} (hs : RwSys n₀ s) (hk : RwLk S s) (h : Settled n₀ s j)
    (hz : ¬ s.data.Z j) : Linked S j s.data.current := by
  have hlt := h.lt hs
  by_cases hb : ∃ (t : Nat) (th : RwThread E D), s.threads[t]? = some th ∧ th.indexing
  · obtain ⟨t, th, ht, hi⟩ := hb
    cases th <;> simp only [RwThread.indexing] at hi
    rename_i f tasks
    obtain ⟨R₀, own, hsafe, _, hown, hcov⟩ := hk.thr t _ ht
    rcases hcov j hlt hz with h1 | ⟨k, hk', rfl⟩
    · exact h1.mono hsafe.inv.inv.2 hsafe.inv.grow
    · exfalso
      have hg := (hown k hk').2
      rcases h with h | ⟨u, f', hu, hj⟩
      · obtain ⟨m, hm⟩ := List.getElem?_of_mem hg
        have := ((hs.thr t _ ht).1.own m _ hm).1
        omega
      · have hne : t ≠ u := by rintro rfl; rw [ht] at hu; cases hu
        exact hs.disj t u _ _ hne ht hu _ hg hj
  · push Not at hb
    exact (hk.idle hb).linked j hlt hz

/-- From every node with neighbors one gets to node 0. -/
theorem RwLk.back {S : Prop} {s : Rw E D} (hk : RwLk S s) (hS : S) (j : Nat) (hj : NE s.data.current j) :
    Reach (graphOf s.data.current) j 0 := by
  by_cases hb : ∃ (t : Nat) (th : RwThread E D), s.threads[t]? = some th ∧ th.indexing
  · obtain ⟨t, th, ht, hi⟩ := hb
    cases th <;> simp only [RwThread.indexing] at hi
    obtain ⟨R₀, own, hsafe, _⟩ := hk.thr t _ ht
    exact hsafe.inv.back hS j hj
  · push Not at hb
    exact (hk.idle hb).back hS j hj

/-- One step only adds neighbors to the current layer, or happens while nobody searches it. -/
theorem RwLk.grows {S : Prop} {srt : List (Nat × D) → List (Nat × D)} (hS : S) {n₀ : Nat} {s : Rw E D}
    (hs : RwSys n₀ s) (hk : RwLk S s) {t : Nat} {th th' : RwThread E D} {d' : RwData E D}
    (ht : s.threads[t]? = some th) (hl : Rw.Local srt s t th d' th') (hn : ¬ th.eExcl) :
    Grow s.data.current d'.current ∧ d'.elements = s.data.elements ∧ d'.config = s.data.config ∧
      d'.maxElements = s.data.maxElements ∧ RelyOn 0 s.data.current d'.current := by
  have hrefl : Grow s.data.current s.data.current ∧ s.data.elements = s.data.elements ∧
    s.data.config = s.data.config ∧ s.data.maxElements = s.data.maxElements ∧
      RelyOn 0 s.data.current s.data.current := ⟨Grow.refl _, rfl, rfl, rfl, RelyOn.refl _ _⟩
  cases hl with
  | reserve f => exact absurd trivial hn
  | assertFails f => exact absurd trivial hn
  | task f tasks i p p' rows' hi hstep =>
    obtain ⟨R₀, own, hsafe, _, hown, _⟩ := hk.thr t _ ht
    obtain ⟨_, g2, _⟩ := (hsafe.threads i p hi).step (RelyS.refl S _) (fun a j _ => RelyS.refl S j a) hsafe.inv hstep
    have := g2 (own i + 1) (by omega)
    exact ⟨this.2 hS, rfl, rfl, rfl, this.1.zero⟩
  | seStep q ms k p p' rows' hstep =>
    obtain ⟨g1, g2, g3⟩ := (hs.thr t _ ht).2.step (RelyOn.refl 0) (fun _ => rfl) ⟨hs.data.rows, fun j hj => by
      obtain ⟨row, hr, _⟩ := hj; simp at hr⟩ hstep
    subst g2
    exact hrefl
  | _ => exact hrefl

end Granne
