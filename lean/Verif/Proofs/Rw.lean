import Verif.Model.Rw
import Verif.Proofs.Builder

/-! Invariant of `RwGranneBuilder`, preserved by every step of every thread. -/
namespace Granne
open List Spec

variable {E D : Type} [LinearOrder D]

/-! ### Lock exclusion -/

/-- Inserts from the acquisition of `elements` to its release. -/
def RwThread.zone : RwThread E D → Prop
  | insWantL _ _ | insCrit _ | insIndex _ _ => True
  | _ => False

/-- Two different threads do not hold incompatible locks. -/
structure Excl (a b : RwThread E D) : Prop where
  e : a.eExcl → ¬ b.eExcl ∧ ¬ b.eShared
  l : a.lExcl → ¬ b.lExcl ∧ ¬ b.lShared
  w : a.wExcl → ¬ b.wExcl ∧ ¬ b.wShared
  z : a.zone → ¬ b.zone

section
open RwThread
variable {srt : List (Nat × D) → List (Nat × D)} {s : Rw E D} {t : Nat} {th th' : RwThread E D} {d' : RwData E D}

theorem Rw.Local.eExcl (h : Rw.Local srt s t th d' th') (h' : th'.eExcl) :
    th.eExcl ∨ (s.NoOther t RwThread.eExcl ∧ s.NoOther t RwThread.eShared) := by
  cases h <;> simp_all [RwThread.eExcl]

theorem Rw.Local.eShared (h : Rw.Local srt s t th d' th') (h' : th'.eShared) :
    th.eShared ∨ th.eExcl ∨ s.NoOther t RwThread.eExcl := by
  cases h <;> simp_all [RwThread.eExcl, RwThread.eShared]

theorem Rw.Local.lExcl (h : Rw.Local srt s t th d' th') (h' : th'.lExcl) :
    th.lExcl ∨ (s.NoOther t RwThread.lExcl ∧ s.NoOther t RwThread.lShared) := by
  cases h <;> simp_all [RwThread.lExcl]

theorem Rw.Local.lShared (h : Rw.Local srt s t th d' th') (h' : th'.lShared) :
    th.lShared ∨ th.lExcl ∨ s.NoOther t RwThread.lExcl := by
  cases h <;> simp_all [RwThread.lExcl, RwThread.lShared]

theorem Rw.Local.wExcl (h : Rw.Local srt s t th d' th') (h' : th'.wExcl) :
    th.wExcl ∨ (s.NoOther t RwThread.wExcl ∧ s.NoOther t RwThread.wShared) := by
  cases h <;> simp_all [RwThread.wExcl]

theorem Rw.Local.wShared (h : Rw.Local srt s t th d' th') (h' : th'.wShared) :
    th.wShared ∨ s.NoOther t RwThread.wExcl := by
  cases h <;> simp_all [RwThread.wShared]

theorem Rw.Local.zone (h : Rw.Local srt s t th d' th') (h' : th'.zone) :
    th.zone ∨ (s.NoOther t RwThread.eExcl ∧ s.NoOther t RwThread.eShared) := by
  cases h <;> simp_all [RwThread.zone]

omit [LinearOrder D] in
theorem RwThread.zone_e {th : RwThread E D} (h : th.zone) : th.eExcl ∨ th.eShared := by
  cases th <;> simp_all [RwThread.zone, RwThread.eExcl, RwThread.eShared]

omit [LinearOrder D] in
theorem RwThread.zone_w {th : RwThread E D} (h : th.zone) : th.wShared := by
  cases th <;> simp_all [RwThread.zone, RwThread.wShared]

theorem Rw.Local.excl (h : Rw.Local srt s t th d' th') {u : Nat} {ub : RwThread E D} (hne : u ≠ t)
    (hu : s.threads[u]? = some ub) (h1 : Excl th ub) (h2 : Excl ub th) : Excl th' ub ∧ Excl ub th' := by
  refine ⟨⟨fun x => ?_, fun x => ?_, fun x => ?_, fun x => ?_⟩, ⟨fun x => ⟨fun y => ?_, fun y => ?_⟩,
    fun x => ⟨fun y => ?_, fun y => ?_⟩, fun x => ⟨fun y => ?_, fun y => ?_⟩, fun x y => ?_⟩⟩
  · rcases h.eExcl x with g | ⟨g1, g2⟩
    · exact h1.e g
    · exact ⟨g1 u ub hne hu, g2 u ub hne hu⟩
  · rcases h.lExcl x with g | ⟨g1, g2⟩
    · exact h1.l g
    · exact ⟨g1 u ub hne hu, g2 u ub hne hu⟩
  · rcases h.wExcl x with g | ⟨g1, g2⟩
    · exact h1.w g
    · exact ⟨g1 u ub hne hu, g2 u ub hne hu⟩
  · rcases h.zone x with g | ⟨g1, g2⟩
    · exact h1.z g
    · intro hz
      rcases RwThread.zone_e hz with g | g
      · exact g1 u ub hne hu g
      · exact g2 u ub hne hu g
  · rcases h.eExcl y with g | ⟨g1, _⟩
    · exact (h2.e x).1 g
    · exact g1 u ub hne hu x
  · rcases h.eShared y with g | g | g
    · exact (h2.e x).2 g
    · exact (h2.e x).1 g
    · exact g u ub hne hu x
  · rcases h.lExcl y with g | ⟨g1, _⟩
    · exact (h2.l x).1 g
    · exact g1 u ub hne hu x
  · rcases h.lShared y with g | g | g
    · exact (h2.l x).2 g
    · exact (h2.l x).1 g
    · exact g u ub hne hu x
  · rcases h.wExcl y with g | ⟨g1, _⟩
    · exact (h2.w x).1 g
    · exact g1 u ub hne hu x
  · rcases h.wShared y with g | g
    · exact (h2.w x).2 g
    · exact g u ub hne hu x
  · rcases h.zone y with g | ⟨g1, g2⟩
    · exact h2.z x g
    · rcases RwThread.zone_e x with g | g
      · exact g1 u ub hne hu g
      · exact g2 u ub hne hu g

end

/-! ### Data -/

/-- The number of elements. -/
abbrev RwData.len (d : RwData E D) : Nat := d.elements.data.length

/-- The zero elements. -/
abbrev RwData.Z (d : RwData E D) : Nat → Prop := IsZero d.elements d.config.eps

/-- Invariant of the shared data; `n₀` is the initial number of elements. -/
structure RwInv (n₀ : Nat) (d : RwData E D) : Prop where
  neighbors : 1 ≤ d.config.numNeighbors
  search : 1 ≤ d.config.maxSearch
  sched : GoodSchedule d.config.schedule
  mono : ∀ i j, i ≤ j → d.config.schedule d.maxElements i ≤ d.config.schedule d.maxElements j
  limit : max n₀ d.maxElements ≤ UNUSED
  start : n₀ ≤ d.len
  room : d.current.length ≤ max n₀ d.maxElements
  rows : RowsInv d.len d.config.numNeighbors d.Z d.current
  stack : StackInv d.config.numNeighbors d.len d.Z d.prev
  above : ∀ R ∈ d.prev, R.length ≤ d.len ∧ ∀ j, NE R j → NE d.current j
  next : n₀ < d.maxElements → 0 < d.current.length ∧
    d.current.length ≤ d.config.schedule d.maxElements (d.prev.length + 1)

theorem RwInv.cap {n₀ : Nat} {d : RwData E D} (h : RwInv n₀ d) : d.len ≤ max n₀ d.maxElements :=
  h.rows.len.trans h.room

/-- `d'` has more elements than `d`; nothing else about the elements differs. -/
structure Extends (d d' : RwData E D) : Prop where
  dist : d'.elements.dist = d.elements.dist
  data : ∃ more, d'.elements.data = d.elements.data ++ more
  config : d'.config = d.config
  maxElements : d'.maxElements = d.maxElements

omit [LinearOrder D] in
theorem Extends.refl (d : RwData E D) : Extends d d := ⟨rfl, ⟨[], by simp⟩, rfl, rfl⟩

omit [LinearOrder D] in
theorem Extends.trans {a b c : RwData E D} (h1 : Extends a b) (h2 : Extends b c) : Extends a c := by
  obtain ⟨m1, e1⟩ := h1.data
  obtain ⟨m2, e2⟩ := h2.data
  exact ⟨h2.dist.trans h1.dist, ⟨m1 ++ m2, by rw [e2, e1, List.append_assoc]⟩, h2.config.trans h1.config,
    h2.maxElements.trans h1.maxElements⟩

omit [LinearOrder D] in
theorem Extends.get {d d' : RwData E D} (h : Extends d d') {i : Nat} (hi : i < d.len) :
    d'.elements.data[i]? = d.elements.data[i]? := by
  obtain ⟨more, e⟩ := h.data
  rw [e, List.getElem?_append_left hi]

omit [LinearOrder D] in
theorem Extends.len_le {d d' : RwData E D} (h : Extends d d') : d.len ≤ d'.len := by
  obtain ⟨more, e⟩ := h.data
  rw [RwData.len, RwData.len, e]; simp

theorem Extends.z {d d' : RwData E D} (h : Extends d d') {j : Nat} (hj : j < d.len) (hz : d'.Z j) : d.Z j := by
  obtain ⟨x, h1, h2⟩ := hz
  refine ⟨x, ?_, h.config ▸ h2⟩
  simpa [Elements.dist?, Elements.distTo, h.get hj, h.dist] using h1

omit [LinearOrder D] in
theorem Extends.distTo {d d' : RwData E D} (h : Extends d d') {q : E} {i : Nat} {x : D}
    (hd : d.elements.distTo q i = some x) : d'.elements.distTo q i = some x := by
  have hi : i < d.len := by
    unfold Elements.distTo at hd
    obtain ⟨e, he, _⟩ := Option.map_eq_some_iff.1 hd
    exact (List.getElem?_eq_some_iff.1 he).1
  simpa [Elements.distTo, h.get hi, h.dist] using hd

theorem RowsInv.mono {n n' w : Nat} {Z Z' : Nat → Prop} {R : Rows} (h : RowsInv n w Z R) (hn : n ≤ n')
    (hl : n' ≤ R.length) (hZ : ∀ j < n, Z' j → Z j) : RowsInv n' w Z' R := by
  refine ⟨hl, fun i row hi => ?_, h.pub⟩
  have := h.rows i row hi
  exact ⟨this.shape, this.len, this.nodup, fun j hj => ⟨(this.ids j hj).1.trans_le hn, (this.ids j hj).2.1,
    fun h0 hz => (this.ids j hj).2.2 h0 (hZ j (this.ids j hj).1 hz)⟩,
    fun hne h0 => ⟨(this.own hne h0).1.trans_le hn,
      fun hz => (this.own hne h0).2 (hZ i (this.own hne h0).1 hz)⟩⟩

theorem StackInv.mono {w n n' : Nat} {Z Z' : Nat → Prop} {layers : List Rows} (h : StackInv w n Z layers)
    (hn : n ≤ n') (hZ : ∀ j < n, Z' j → Z j) : StackInv w n' Z' layers := by
  refine ⟨fun R hR => ?_, h.nested⟩
  obtain ⟨h1, h2, h3⟩ := h.layer R hR
  exact ⟨h1.mono fun j hj => hZ j (hj.trans_le h3), h2, h3.trans hn⟩

theorem resizeRows_grow {w num : Nat} {R : Rows} (h : R.length ≤ num) :
    resizeRows w num R = R ++ List.replicate (num - R.length) (List.replicate w UNUSED) := by
  rw [resizeRows, List.take_of_length_le h]

theorem RowsInv.resize {n w m : Nat} {Z : Nat → Prop} {R : Rows} (h : RowsInv n w Z R) :
    RowsInv n w Z (R ++ List.replicate m (List.replicate w UNUSED)) := by
  have hempty : ∀ (i : Nat) (row : Row), ¬ i < R.length →
      (R ++ List.replicate m (List.replicate w UNUSED))[i]? = some row → row = List.replicate w UNUSED := by
    intro i row hlt hi
    rw [List.getElem?_append_right (by omega), List.getElem?_replicate] at hi
    split at hi
    · simp only [Option.some.injEq] at hi; exact hi.symm
    · simp at hi
  refine ⟨by have := h.len; simp; omega, ?_, ?_⟩
  · intro i row hi
    by_cases hlt : i < R.length
    · rw [List.getElem?_append_left hlt] at hi
      exact h.rows i row hi
    · rw [hempty i row hlt hi]; exact RowOk.empty _ _ _ _
  · intro i row hi j hj h0
    rw [NE_append]
    by_cases hlt : i < R.length
    · rw [List.getElem?_append_left hlt] at hi
      exact h.pub i row hi j hj h0
    · rw [hempty i row hlt hi, visible_replicate] at hj
      simp at hj

theorem RwInv.grow {n₀ : Nat} {d : RwData E D} (h : RwInv n₀ d) (hm : n₀ < d.maxElements) :
    RwInv n₀ d.grow ∧ d.grow.elements = d.elements ∧ d.grow.config = d.config ∧
      d.grow.maxElements = d.maxElements := by
  unfold RwData.grow
  split
  · next hfull =>
    obtain ⟨hpos, hnext⟩ := h.next hm
    have hlen : d.current.length = d.len := le_antisymm hfull h.rows.len
    have hsched := h.sched.le d.maxElements (d.prev.length + 1)
    have hnum : (resizeRows d.config.numNeighbors (d.config.schedule d.maxElements (d.prev.length + 1))
        d.current).length = d.config.schedule d.maxElements (d.prev.length + 1) := by
      rw [resizeRows_grow hnext]; simp; omega
    refine ⟨?_, rfl, rfl, rfl⟩
    refine { neighbors := h.neighbors, search := h.search, sched := h.sched, mono := h.mono, limit := h.limit,
             start := h.start, room := ?_, rows := ?_, stack := ?_, above := ?_, next := ?_ }
    · rw [hnum]; simp only; omega
    · simp only
      rw [resizeRows_grow hnext]
      exact h.rows.resize
    · refine h.stack.snoc ?_ hpos (by simp only [RwData.len] at hlen ⊢; omega) ?_
      · rw [hlen]; exact h.rows.exact hlen
      · intro R hR
        obtain ⟨h1, h2⟩ := h.above R hR
        exact ⟨by omega, h2⟩
    · simp only
      rw [resizeRows_grow hnext]
      intro R hR
      rcases List.mem_append.1 hR with h1 | h1
      · exact ⟨(h.above R h1).1, fun j hj => NE_append.2 ((h.above R h1).2 j hj)⟩
      · rw [List.mem_singleton] at h1
        subst h1
        exact ⟨hfull, fun j hj => NE_append.2 hj⟩
    · intro _
      rw [hnum]
      simp only [List.length_append, List.length_singleton]
      exact ⟨by omega, h.mono _ _ (by omega)⟩
  · exact ⟨h, rfl, rfl, rfl⟩

theorem RwInv.append {n₀ : Nat} {d : RwData E D} (h : RwInv n₀ d) (batch : List E) :
    RwInv n₀ (d.append batch).1 ∧ Extends d (d.append batch).1 := by
  have hext : Extends d (d.append batch).1 := ⟨rfl, ⟨_, rfl⟩, rfl, rfl⟩
  have hlen : (d.append batch).1.len ≤ d.current.length := by
    have := h.rows.len
    simp [RwData.append, RwData.len] at this ⊢
    omega
  refine ⟨?_, hext⟩
  refine { neighbors := h.neighbors, search := h.search, sched := h.sched, mono := h.mono, limit := h.limit,
           start := h.start.trans hext.len_le, room := h.room, rows := ?_, stack := ?_, above := ?_, next := h.next }
  · exact h.rows.mono hext.len_le hlen fun j hj hz => hext.z hj hz
  · exact h.stack.mono hext.len_le fun j hj hz => hext.z hj hz
  · exact fun R hR => ⟨(h.above R hR).1.trans hext.len_le, (h.above R hR).2⟩

/-! ### Threads -/

/-- A result of a search: different elements with their distances, in order, no zero elements except possibly number 0. -/
structure ResOk (es : Elements E D) (eps : D) (q : E) (num : Nat) (r : List (Nat × D)) : Prop where
  dist : ∀ p ∈ r, es.distTo q p.1 = some p.2
  nodup : (r.map Prod.fst).Nodup
  sorted : r.Pairwise fun a b => a.2 ≤ b.2
  nonzero : ∀ p ∈ r, p.1 ≠ 0 → ¬ IsZero es eps p.1
  len : r.length ≤ num

/-- What an insert has done so far. -/
structure FrameOk (n₀ : Nat) (d : RwData E D) (f : Ins E) : Prop where
  todo : f.todo = f.batch.drop f.got.length
  len : f.got.length ≤ f.batch.length
  asc : f.got.Pairwise (· < ·)
  own : ∀ (k i : Nat), f.got[k]? = some i → n₀ ≤ i ∧ i < d.len ∧ d.elements.data[i]? = f.batch[k]?

/-- What `write` has written. -/
structure SnapOk (d : RwData E D) (els : List E) (layers : List Rows) : Prop where
  prefixed : ∃ more, d.elements.data = els ++ more
  wf : StackInv d.config.numNeighbors els.length d.Z layers
  bottom : els.length = 0 ∧ layers = [] ∨ ∃ upper last, layers = upper ++ [last] ∧ last.length = els.length

/-- The tasks of an insert are safe. -/
def TasksOk (d : RwData E D) (tasks : List (Prog Unit)) : Prop :=
  ∃ R₀ own, ParSafe (InvFrom d.len d.config.numNeighbors d.Z R₀) RelyOn own ⟨d.current, tasks⟩ ∧
    ∀ t t', t < tasks.length → t' < tasks.length → own t = own t' → t = t'

/-- Invariant of one thread. -/
def ThreadInv (n₀ : Nat) (d : RwData E D) : RwThread E D → Prop
  | .insCheck f => FrameOk n₀ d f
  | .insWantW f => FrameOk n₀ d f ∧ n₀ < d.maxElements
  | .insWantE f _ => FrameOk n₀ d f ∧ n₀ < d.maxElements
  | .insWantL f _ => FrameOk n₀ d f ∧ n₀ < d.maxElements
  | .insCrit f => FrameOk n₀ d f ∧ n₀ < d.maxElements
  | .insIndex f tasks => FrameOk n₀ d f ∧ TasksOk d tasks
  | .insHoldL f => FrameOk n₀ d f
  | .insReturn f => FrameOk n₀ d f ∧ (f.todo ≠ [] → d.maxElements ≤ d.len)
  | .inserted f => FrameOk n₀ d f ∧ (f.todo ≠ [] → d.maxElements ≤ d.len)
  | .wrWantW _ => True
  | .wrWantE => True
  | .wrWantL => True
  | .wrElems => True
  | .wrRows els rows => els = d.elements.data ∧ rows = d.current.take rows.length ∧ rows.length ≤ d.len
  | .wrDropL els layers => SnapOk d els layers
  | .wrDropE els layers => SnapOk d els layers
  | .wrDropW els layers => SnapOk d els layers
  | .wrote els layers => SnapOk d els layers
  | .seWantE _ ms _ => 1 ≤ ms
  | .seWantL _ ms _ => 1 ≤ ms
  | .seRun q ms _ p => 1 ≤ ms ∧ p.Safe (InvFrom d.len d.config.numNeighbors d.Z []) (RelyOn 0) Eq
      (fun _ r => ResOk d.elements d.config.eps q ms r ∧ r ≠ []) d.current
  | .seDropL q ms k r => ResOk d.elements d.config.eps q (min ms k) r
  | .seDropE q ms k r => ResOk d.elements d.config.eps q (min ms k) r
  | .found q ms k r => ResOk d.elements d.config.eps q (min ms k) r
  | .loWantE next => ∀ q ms k, next = some (q, ms, k) → 1 ≤ ms
  | .loHold next els => (∀ q ms k, next = some (q, ms, k) → 1 ≤ ms) ∧ els = d.elements.data
  | .looked els => ∃ more, d.elements.data = els ++ more
  | .panicked => False

theorem ResOk.extend {d d' : RwData E D} {q : E} {num : Nat} {r : List (Nat × D)} (h : ResOk d.elements d.config.eps q num r)
    (he : Extends d d') : ResOk d'.elements d'.config.eps q num r := by
  refine ⟨fun p hp => he.distTo (h.dist p hp), h.nodup, h.sorted, fun p hp h0 hz => h.nonzero p hp h0 (he.z ?_ hz),
    h.len⟩
  have := h.dist p hp
  unfold Elements.distTo at this
  obtain ⟨e, he, _⟩ := Option.map_eq_some_iff.1 this
  exact (List.getElem?_eq_some_iff.1 he).1

omit [LinearOrder D] in
theorem FrameOk.extend {n₀ : Nat} {d d' : RwData E D} {f : Ins E} (h : FrameOk n₀ d f) (he : Extends d d') :
    FrameOk n₀ d' f := by
  refine ⟨h.todo, h.len, h.asc, fun k i hk => ?_⟩
  obtain ⟨h1, h2, h3⟩ := h.own k i hk
  exact ⟨h1, h2.trans_le he.len_le, by rw [he.get h2]; exact h3⟩

theorem SnapOk.extend {d d' : RwData E D} {els : List E} {layers : List Rows} (h : SnapOk d els layers)
    (he : Extends d d') : SnapOk d' els layers := by
  obtain ⟨m1, e1⟩ := h.prefixed
  obtain ⟨m2, e2⟩ := he.data
  refine ⟨⟨m1 ++ m2, by rw [e2, e1, List.append_assoc]⟩, ?_, h.bottom⟩
  rw [he.config]
  refine h.wf.mono le_rfl fun j hj hz => he.z ?_ hz
  rw [RwData.len, e1]; simp; omega

/-- Threads that hold neither `elements` nor `layers` do not mind elements and layers being added. -/
theorem ThreadInv.extend {n₀ : Nat} {d d' : RwData E D} {th : RwThread E D} (h : ThreadInv n₀ d th)
    (he : Extends d d') (h1 : ¬ th.eShared) (h2 : ¬ th.eExcl) : ThreadInv n₀ d' th := by
  cases th <;> simp only [ThreadInv, RwThread.eShared, RwThread.eExcl, not_true_eq_false, not_false_eq_true] at h h1 h2 ⊢ <;>
    try trivial
  · exact h.extend he
  · exact ⟨h.1.extend he, he.maxElements ▸ h.2⟩
  · exact ⟨h.1.extend he, he.maxElements ▸ h.2⟩
  · exact h.extend he
  · exact ⟨h.1.extend he, fun x => he.maxElements ▸ (h.2 x).trans he.len_le⟩
  · exact ⟨h.1.extend he, fun x => he.maxElements ▸ (h.2 x).trans he.len_le⟩
  · exact h.extend he
  · exact h.extend he
  · exact h.extend he
  · obtain ⟨m1, e1⟩ := h
    obtain ⟨m2, e2⟩ := he.data
    exact ⟨m1 ++ m2, by rw [e2, e1, List.append_assoc]⟩

/-- Threads that are not inserting or writing do not mind the rows of the current layer changing. -/
theorem ThreadInv.rows {n₀ : Nat} {d : RwData E D} {rows' : Rows} {th : RwThread E D} (h : ThreadInv n₀ d th)
    (hr : RelyOn 0 d.current rows') (h1 : ¬ th.zone) (h2 : ¬ th.wExcl) :
    ThreadInv n₀ { d with current := rows' } th := by
  have hext : Extends d { d with current := rows' } := ⟨rfl, ⟨[], by simp⟩, rfl, rfl⟩
  cases th <;> simp only [ThreadInv, RwThread.zone, RwThread.wExcl, not_true_eq_false, not_false_eq_true] at h h1 h2 ⊢ <;>
    try first | trivial | exact h.extend hext
  · exact ⟨h.1.extend hext, h.2⟩
  · exact ⟨h.1.extend hext, h.2⟩
  · exact ⟨h.1.extend hext, h.2⟩
  · exact ⟨h.1.extend hext, h.2⟩
  · refine ⟨h.1, ?_⟩
    exact h.2.mono (RelyOn.trans 0) hr

/-! ### Steps -/

/-- The ids an insert has got so far. -/
def RwThread.got : RwThread E D → List Nat
  | insCheck f | insWantW f | insWantE f _ | insWantL f _ | insCrit f | insIndex f _ | insHoldL f | insReturn f
  | inserted f => f.got
  | _ => []

/-- Invariant of the whole system. -/
structure RwSys (n₀ : Nat) (s : Rw E D) : Prop where
  data : RwInv n₀ s.data
  excl : ∀ (t u : Nat) (a b : RwThread E D), t ≠ u → s.threads[t]? = some a → s.threads[u]? = some b → Excl a b
  thr : ∀ (t : Nat) (th : RwThread E D), s.threads[t]? = some th → ThreadInv n₀ s.data th
  disj : ∀ (t u : Nat) (a b : RwThread E D), t ≠ u → s.threads[t]? = some a → s.threads[u]? = some b →
    ∀ i ∈ a.got, i ∉ b.got
  cover : ∀ i, n₀ ≤ i → i < s.data.len → ∃ (t : Nat) (th : RwThread E D), s.threads[t]? = some th ∧ i ∈ th.got

/-- What one step of thread `t` does. -/
structure LocalOk (n₀ : Nat) (s : Rw E D) (t : Nat) (th : RwThread E D) (d' : RwData E D) (th' : RwThread E D) :
    Prop where
  data : RwInv n₀ d'
  thr : ThreadInv n₀ d' th'
  other : ∀ (u : Nat) (ub : RwThread E D), u ≠ t → s.threads[u]? = some ub → ThreadInv n₀ d' ub
  ext : Extends s.data d'
  got : th'.got = th.got ++ (List.range (d'.len - s.data.len)).map (s.data.len + ·)

theorem LocalOk.same {n₀ : Nat} {s : Rw E D} (h : RwSys n₀ s) {t : Nat} {th th' : RwThread E D}
    (hth : ThreadInv n₀ s.data th') (hgot : th'.got = th.got) : LocalOk n₀ s t th s.data th' :=
  ⟨h.data, hth, fun u ub _ hu => h.thr u ub hu, .refl _, by simp [hgot]⟩

theorem RelyOn.zero {i : Nat} {a b : Rows} (h : RelyOn i a b) : RelyOn 0 a b :=
  ⟨h.len, h.ne, fun h0 => absurd rfl h0⟩

theorem RwInv.setRows {n₀ : Nat} {d : RwData E D} (h : RwInv n₀ d) {rows' : Rows}
    (hinv : RowsInv d.len d.config.numNeighbors d.Z rows') (hr : RelyOn 0 d.current rows') :
    RwInv n₀ { d with current := rows' } where
  neighbors := h.neighbors
  search := h.search
  sched := h.sched
  mono := h.mono
  limit := h.limit
  start := h.start
  room := by simpa [hr.len] using h.room
  rows := hinv
  stack := h.stack
  above R hR := ⟨(h.above R hR).1, fun j hj => hr.ne j ((h.above R hR).2 j hj)⟩
  next hm := by simpa [hr.len] using h.next hm

theorem entry_ok {n₀ : Nat} {d : RwData E D} (h : RwInv n₀ d) (q : E) :
    ∃ r, d.entry q = some r ∧ ∀ e, r = some e → Pub d.len d.Z d.current e := by
  by_cases hp : d.prev = []
  · refine ⟨none, ?_, by simp⟩
    simp [RwData.entry, hp, search, searchInternal]
  · obtain ⟨R, hR⟩ := List.exists_mem_of_ne_nil _ hp
    have hpos : 0 < d.len := lt_of_lt_of_le (h.stack.layer R hR).2.1 (h.above R hR).1
    have hprev : PrevOk d.len d.Z d.elements (d.prev.map graphOf) d.current :=
      h.stack.prevOk le_rfl hpos h.above
    obtain ⟨r, h1, h2, _⟩ := hprev.search q
    refine ⟨r.head?.map Prod.fst, by simp [RwData.entry, h1], ?_⟩
    intro e he
    obtain ⟨p, hp, rfl⟩ := Option.map_eq_some_iff.1 he
    rw [hp] at h2
    exact h2

theorem ResOk.take {es : Elements E D} {eps : D} {q : E} {ms : Nat} {r : List (Nat × D)} (h : ResOk es eps q ms r)
    (k : Nat) : ResOk es eps q (min ms k) (r.take k) := by
  refine ⟨fun p hp => h.dist p (List.mem_of_mem_take hp), ?_, h.sorted.sublist (List.take_sublist _ _),
    fun p hp => h.nonzero p (List.mem_of_mem_take hp), ?_⟩
  · exact h.nodup.sublist ((List.take_sublist _ _).map _)
  · have := h.len
    simp; omega

theorem Prog.Safe.strengthen {α : Type} {Inv : Rows → Prop} {Rely Guar : Rows → Rows → Prop} {Q Q' : Rows → α → Prop}
    (hQ : ∀ R a, Inv R → Q R a → Q' R a) : ∀ {p : Prog α} {R : Rows}, p.Safe Inv Rely Guar Q R →
      p.Safe Inv Rely Guar Q' R := by
  intro p
  induction p with
  | ret a => intro R h R' hr hi; exact hQ R' a hi (h R' hr hi)
  | fail => intro R h; exact h
  | nbrs i k ih => intro R h R' hr hi; obtain ⟨row, h1, h2⟩ := h R' hr hi; exact ⟨row, h1, ih _ h2⟩
  | unused i k ih => intro R h R' hr hi; obtain ⟨x, row, h1, h2⟩ := h R' hr hi; exact ⟨x, row, h1, ih _ h2⟩
  | upd i f k ih =>
    intro R h R' hr hi
    obtain ⟨row, row', h1, h2, h3, h4, h5⟩ := h R' hr hi
    exact ⟨row, row', h1, h2, h3, h4, ih h5⟩

/-- Appending to the frame of an insert. -/
theorem FrameOk.append {n₀ : Nat} {d : RwData E D} (h : RwInv n₀ d) {f : Ins E} (hf : FrameOk n₀ d f) :
    FrameOk n₀ (d.append f.todo).1
      { f with got := f.got ++ (d.append f.todo).2.1, todo := (d.append f.todo).2.2 } := by
  have hl := h.rows.len
  have htl : f.todo.length = f.batch.length - f.got.length := by rw [hf.todo]; simp
  have hlen := hf.len
  generalize hnum : min f.todo.length (d.current.length - d.elements.data.length) = num
  have happ : d.append f.todo = ({ d with elements := { d.elements with data := d.elements.data ++ f.todo.take num } },
      (List.range num).map (d.elements.data.length + ·), f.todo.drop num) := by
    simp only [RwData.append, hnum]
  rw [happ]
  simp only
  have hgl : (f.got ++ (List.range num).map (d.elements.data.length + ·)).length = f.got.length + num := by simp
  refine ⟨?_, ?_, ?_, ?_⟩
  · simp only [hgl]
    rw [hf.todo, List.drop_drop]
  · simp only [hgl]; omega
  · simp only
    rw [List.pairwise_append]
    refine ⟨hf.asc, ?_, ?_⟩
    · rw [List.pairwise_map]
      exact List.pairwise_lt_range.imp fun h => by omega
    · intro a ha b hb
      obtain ⟨k, hk, rfl⟩ := List.getElem_of_mem ha
      have := (hf.own k _ (List.getElem?_eq_getElem hk)).2.1
      obtain ⟨c, _, rfl⟩ := List.mem_map.1 hb
      simp only [RwData.len] at this
      omega
  · intro k i hk
    simp only at hk ⊢
    have hn : ({ d with elements := { d.elements with data := d.elements.data ++ f.todo.take num } } : RwData E D).len =
        d.len + num := by simp [RwData.len]; omega
    rw [hn]
    by_cases hkl : k < f.got.length
    · rw [List.getElem?_append_left hkl] at hk
      obtain ⟨h1, h2, h3⟩ := hf.own k i hk
      exact ⟨h1, by omega, by rw [List.getElem?_append_left h2]; exact h3⟩
    · rw [List.getElem?_append_right (by omega), List.getElem?_map, Option.map_eq_some_iff] at hk
      obtain ⟨c, hc, rfl⟩ := hk
      obtain ⟨hc1, hc2⟩ := List.getElem?_eq_some_iff.1 hc
      simp only [List.length_range] at hc1
      simp only [List.getElem_range] at hc2
      subst hc2
      have hst := h.start
      simp only [RwData.len] at hst ⊢
      refine ⟨by omega, by omega, ?_⟩
      rw [List.getElem?_append_right (by omega), Nat.add_sub_cancel_left, List.getElem?_take, if_pos hc1, hf.todo,
        List.getElem?_drop]
      congr 1
      omega

theorem tasks_ok {srt : List (Nat × D) → List (Nat × D)} (hsrt : IsSortByDist srt) {n₀ : Nat} {d : RwData E D}
    (h : RwInv n₀ d) {ids : List Nat} (hnd : ids.Nodup) (hids : ∀ i ∈ ids, i < d.len) :
    TasksOk d (d.tasks srt ids) := by
  refine ⟨d.current, fun t => ids[t]?.getD 0, ⟨⟨h.rows, fun _ h => h⟩, ?_⟩, ?_⟩
  · intro t p hp
    simp only [RwData.tasks, List.getElem?_map, Option.map_eq_some_iff] at hp
    obtain ⟨idx, hidx, rfl⟩ := hp
    have hlt := hids idx (List.mem_of_getElem? hidx)
    have hown : ids[t]?.getD 0 = idx := by rw [hidx]; rfl
    rw [hown]
    refine indexElement_safe h.rows.len (h.cap.trans h.limit) le_rfl hsrt hlt h.neighbors le_rfl h.search ?_
      (h.stack.prevOk le_rfl (by omega) h.above) ⟨h.rows, fun _ h => h⟩
    intro x hx hle hz
    obtain ⟨x', hx', hlt'⟩ := hz
    rw [hx] at hx'; cases hx'
    exact hle hlt'
  · intro t t' ht ht' he
    simp only [RwData.tasks, List.length_map] at ht ht'
    simp only [List.getElem?_eq_getElem ht, List.getElem?_eq_getElem ht', Option.getD_some] at he
    exact (List.Nodup.getElem_inj_iff hnd).1 he

theorem SnapOk.saved {n₀ : Nat} {d : RwData E D} (h : RwInv n₀ d) :
    SnapOk d d.elements.data (d.savedLayers (d.current.take d.len)) := by
  unfold RwData.savedLayers
  refine ⟨⟨[], by simp⟩, ?_, ?_⟩
  · split
    · exact ⟨by simp, by simp⟩
    · next h0 =>
      have hlen : (d.current.take d.len).length = d.len := by simp [h.rows.len]
      have hne : ∀ j, NE d.current j → j < d.len → NE (d.current.take d.len) j := by
        rintro j ⟨row, h1, h2⟩ hj
        exact ⟨row, by rw [List.getElem?_take, if_pos hj]; exact h1, h2⟩
      refine h.stack.snoc ?_ (by rw [hlen]; simp only [RwData.len]; omega) hlen.le ?_
      · rw [hlen]
        have hget : ∀ (i : Nat) (row : Row), (d.current.take d.len)[i]? = some row → d.current[i]? = some row := by
          intro i row hi
          rw [List.getElem?_take] at hi
          split at hi
          · exact hi
          · cases hi
        refine ⟨hlen, fun i row hi => h.rows.rows i row (hget i row hi), fun i row hi j hj h0 => ?_⟩
        exact hne j (h.rows.pub i row (hget i row hi) j hj h0) ((h.rows.rows i row (hget i row hi)).ids j hj).1
      · intro R hR
        obtain ⟨h1, h2⟩ := h.above R hR
        refine ⟨by rw [hlen]; exact h1, fun j hj => hne j (h2 j hj) ?_⟩
        obtain ⟨row, hr, _⟩ := hj
        exact lt_of_lt_of_le (List.getElem?_eq_some_iff.1 hr).1 h1
  · split
    · next h0 => exact Or.inl ⟨h0, rfl⟩
    · exact Or.inr ⟨d.prev, _, rfl, by simpa using h.rows.len⟩

theorem Rw.Local.ok {srt : List (Nat × D) → List (Nat × D)} (hsrt : IsSortByDist srt) {n₀ : Nat} {s : Rw E D}
    (h : RwSys n₀ s) {t : Nat} {th th' : RwThread E D} {d' : RwData E D} (ht : s.threads[t]? = some th)
    (hl : Rw.Local srt s t th d' th') : LocalOk n₀ s t th d' th' := by
  have hth := h.thr t th ht
  cases hl with
  | full f _ _ hm => exact .same h ⟨hth, fun _ => hm⟩ rfl
  | room f _ _ hm => exact .same h ⟨hth, lt_of_le_of_lt h.data.start hm⟩ rfl
  | takeW f => exact .same h ⟨⟨hth.1.todo, hth.1.len, hth.1.asc, hth.1.own⟩, hth.2⟩ rfl
  | queueE f => exact .same h hth rfl
  | takeE f => exact .same h hth rfl
  | queueL f => exact .same h hth rfl
  | takeL f => exact .same h hth rfl
  | assertFails f hlt =>
    obtain ⟨hg, _⟩ := h.data.grow hth.2
    have := hg.rows.len
    exact absurd hlt (by simp only [RwData.len] at this; omega)
  | reserve f hle =>
    obtain ⟨hg, e1, e2, e3⟩ := h.data.grow hth.2
    have hge : Extends s.data s.data.grow := ⟨by rw [e1], ⟨[], by simp [e1]⟩, e2, e3⟩
    obtain ⟨ha, hae⟩ := hg.append f.todo
    have hext := hge.trans hae
    have hf : FrameOk n₀ s.data.grow f := hth.1.extend hge
    have hgl : s.data.grow.len = s.data.len := by simp only [RwData.len, e1]
    refine ⟨ha, ⟨hf.append hg, ?_⟩, ?_, hext, ?_⟩
    · refine tasks_ok hsrt ha ?_ ?_
      · simp only [RwData.append]
        exact List.nodup_range.map (fun a b hab => by omega)
      · intro i hi
        simp only [RwData.append, List.mem_map, List.mem_range] at hi
        obtain ⟨a, h1, rfl⟩ := hi
        simp only [RwData.append, RwData.len, List.length_append, List.length_take]
        omega
    · intro u ub hne hu
      have hx := h.excl t u _ _ (Ne.symm hne) ht hu
      exact (h.thr u ub hu).extend hext (hx.e trivial).2 (hx.e trivial).1
    · simp only [RwThread.got]
      congr 1
      have : (s.data.grow.append f.todo).1.len - s.data.len =
          min f.todo.length (s.data.grow.current.length - s.data.grow.elements.data.length) := by
        rw [← hgl]
        simp only [RwData.append, RwData.len, List.length_append, List.length_take]
        omega
      rw [this, ← hgl]
      rfl
  | task f tasks i p p' rows' hi hstep =>
    obtain ⟨hf, R₀, own, hsafe, hinj⟩ := hth
    have hsafe' := hsafe.step RelyOn.refl RelyOn.trans hinj (.mk ⟨s.data.current, tasks⟩ i p p' rows' hi hstep)
    obtain ⟨g1, g2, g3⟩ := (hsafe.threads i p hi).step (RelyOn.refl _) (fun a j _ => RelyOn.refl j a) hsafe.inv hstep
    have hrely : RelyOn 0 s.data.current rows' := by
      by_cases h0 : own i = 0
      · exact (g2 1 (by omega)).zero
      · exact (g2 0 (Ne.symm h0)).zero
    have hext : Extends s.data { s.data with current := rows' } := ⟨rfl, ⟨[], by simp⟩, rfl, rfl⟩
    refine ⟨h.data.setRows g1.1 hrely, ⟨hf.extend hext, R₀, own, hsafe', ?_⟩, ?_, hext, ?_⟩
    · simpa using hinj
    · intro u ub hne hu
      have hx := h.excl t u _ _ (Ne.symm hne) ht hu
      have hx' := h.excl u t _ _ hne hu ht
      exact (h.thr u ub hu).rows hrely (hx.z trivial) fun hw => (hx'.w hw).2 trivial
    · simp [RwThread.got]
  | taskPanics f tasks hmem =>
    obtain ⟨hf, R₀, own, hsafe, hinj⟩ := hth
    exact absurd ⟨_, hmem, rfl⟩ hsafe.not_panicked
  | dropE f tasks _ => exact .same h hth.1 rfl
  | rest f _ => exact .same h hth rfl
  | noRest f h0 => exact .same h ⟨hth, fun hc => absurd h0 hc⟩ rfl
  | dropW f k _ => exact .same h ⟨⟨hth.1.todo, hth.1.len, hth.1.asc, hth.1.own⟩, hth.2⟩ rfl
  | done f _ => exact .same h hth rfl
  | wrQueue => exact .same h trivial rfl
  | wrTakeW => exact .same h trivial rfl
  | wrTakeE => exact .same h trivial rfl
  | wrTakeL => exact .same h trivial rfl
  | wrElements => exact .same h ⟨rfl, by simp, by simp⟩ rfl
  | wrRow els rows row hlt hrow =>
    refine .same h ⟨hth.1, ?_, by simp only [RwData.len, List.length_append, List.length_singleton]; omega⟩ rfl
    obtain ⟨hl, he⟩ := List.getElem?_eq_some_iff.1 hrow
    simp only [List.length_append, List.length_singleton]
    rw [List.take_succ_eq_append_getElem hl, ← hth.2.1, he]
  | wrRowPanics els rows hlt hnone =>
    have := h.data.rows.len
    have := List.getElem?_eq_none_iff.1 hnone
    simp only [RwData.len] at *
    omega
  | wrIndex els rows hlen =>
    refine .same h ?_ rfl
    have := SnapOk.saved h.data
    obtain ⟨h1, h2, h3⟩ := hth
    show SnapOk s.data els (s.data.savedLayers rows)
    rw [h1, h2, hlen]
    exact this
  | wrDropL els layers => exact .same h hth rfl
  | wrDropE els layers => exact .same h hth rfl
  | wrDropW els layers => exact .same h hth rfl
  | seTakeE q ms k => exact .same h hth rfl
  | seTakeL q ms k entry _ _ he =>
    refine .same h ⟨hth, ?_⟩ rfl
    obtain ⟨r, hr, hp⟩ := entry_ok h.data q
    rw [he] at hr
    cases hr
    have := searchForNeighbors_safe (w := s.data.config.numNeighbors) (R₀ := []) (idx := 0) (Guar := Eq)
      (dq := s.data.elements.distTo q) (ms := ms) h.data.rows.len hth
      (fun i hi => distTo_isSome s.data.elements q hi) (hp entry rfl)
    refine this.strengthen ?_
    intro R a hinv hfound
    obtain ⟨p, hp, _⟩ := hfound.best
    exact ⟨⟨hfound.dist, hfound.nodup, hfound.sorted, fun p hp h0 => ((hfound.pub p hp).2 h0).2, hfound.len⟩,
      List.ne_nil_of_mem hp⟩
  | seNothing q ms k =>
    exact .same h (show ResOk _ _ _ _ _ from ⟨by simp, by simp, by simp, by simp, by simp⟩) rfl
  | seEntryPanics q ms k _ _ he =>
    obtain ⟨r, hr, _⟩ := entry_ok h.data q
    rw [he] at hr; cases hr
  | seStep q ms k p p' rows' hstep =>
    obtain ⟨g1, g2, g3⟩ := hth.2.step (RelyOn.refl 0) (fun _ => rfl) ⟨h.data.rows, fun j hj => by
      obtain ⟨row, hr, _⟩ := hj; simp at hr⟩ hstep
    subst g2
    exact .same h ⟨hth.1, g3⟩ rfl
  | sePanics q ms k => exact hth.2.elim
  | seResult q ms k r =>
    refine .same h ?_ rfl
    have := hth.2 s.data.current (RelyOn.refl 0 _) ⟨h.data.rows, fun j hj => by
      obtain ⟨row, hr, _⟩ := hj; simp at hr⟩
    exact this.1.take k
  | seDropL q ms k r => exact .same h hth rfl
  | seDropE q ms k r => exact .same h hth rfl
  | loTake next => exact .same h ⟨hth, rfl⟩ rfl
  | loDrop els => exact .same h ⟨[], by simp [hth.2]⟩ rfl
  | loSearch q ms k els => exact .same h (hth.1 q ms k rfl) rfl

theorem RwSys.step {srt : List (Nat × D) → List (Nat × D)} (hsrt : IsSortByDist srt) {n₀ : Nat} {s s' : Rw E D}
    (h : RwSys n₀ s) (hs : Rw.Step srt s s') : RwSys n₀ s' ∧ Extends s.data s'.data := by
  cases hs with
  | mk t th th' d' ht hl =>
    have hok := hl.ok hsrt h ht
    have htl : t < s.threads.length := (List.getElem?_eq_some_iff.1 ht).1
    have hget : ∀ (u : Nat) (ub : RwThread E D), (s.threads.set t th')[u]? = some ub →
        (u = t ∧ ub = th') ∨ (u ≠ t ∧ s.threads[u]? = some ub) := by
      intro u ub hu
      by_cases he : t = u
      · subst he
        rw [List.getElem?_set_self htl] at hu
        cases hu
        exact Or.inl ⟨rfl, rfl⟩
      · rw [List.getElem?_set_ne he] at hu
        exact Or.inr ⟨Ne.symm he, hu⟩
    have hnew : ∀ (u : Nat) (ub : RwThread E D), u ≠ t → s.threads[u]? = some ub → ∀ i ∈ th'.got, i ∉ ub.got := by
      intro u ub hne hu i hi hiu
      rw [hok.got] at hi
      rcases List.mem_append.1 hi with hi | hi
      · exact h.disj t u _ _ (Ne.symm hne) ht hu i hi hiu
      · obtain ⟨c, _, rfl⟩ := List.mem_map.1 hi
        -- ids of other threads are old
        have hfr : ∃ f, ub.got = f.got ∧ FrameOk n₀ s.data f := by
          have := h.thr u ub hu
          cases ub <;> simp only [RwThread.got, List.not_mem_nil] at hiu <;> simp only [ThreadInv] at this <;>
            first
            | exact ⟨_, rfl, this⟩
            | exact ⟨_, rfl, this.1⟩
        obtain ⟨f, e, hf⟩ := hfr
        rw [e] at hiu
        obtain ⟨k, hk, hke⟩ := List.getElem_of_mem hiu
        have := (hf.own k _ (List.getElem?_eq_getElem hk)).2.1
        omega
    refine ⟨⟨hok.data, ?_, ?_, ?_, ?_⟩, hok.ext⟩
    · intro a b ta tb hne ha hb
      rcases hget a ta ha with ⟨rfl, rfl⟩ | ⟨h1, h2⟩ <;> rcases hget b tb hb with ⟨rfl, rfl⟩ | ⟨h3, h4⟩
      · exact absurd rfl hne
      · exact (hl.excl h3 h4 (h.excl _ _ _ _ (Ne.symm h3) ht h4) (h.excl _ _ _ _ h3 h4 ht)).1
      · exact (hl.excl h1 h2 (h.excl _ _ _ _ (Ne.symm h1) ht h2) (h.excl _ _ _ _ h1 h2 ht)).2
      · exact h.excl a b ta tb hne h2 h4
    · intro u ub hu
      rcases hget u ub hu with ⟨rfl, rfl⟩ | ⟨h1, h2⟩
      · exact hok.thr
      · exact hok.other u ub h1 h2
    · intro a b ta tb hne ha hb
      rcases hget a ta ha with ⟨rfl, rfl⟩ | ⟨h1, h2⟩ <;> rcases hget b tb hb with ⟨rfl, rfl⟩ | ⟨h3, h4⟩
      · exact absurd rfl hne
      · exact hnew b tb h3 h4
      · exact fun i hi hi' => hnew a ta h1 h2 i hi' hi
      · exact h.disj a b ta tb hne h2 h4
    · intro i hi hlt
      by_cases hold : i < s.data.len
      · obtain ⟨u, ub, hu, hiu⟩ := h.cover i hi hold
        by_cases he : u = t
        · subst he
          rw [ht] at hu; cases hu
          refine ⟨u, th', List.getElem?_set_self htl, ?_⟩
          rw [hok.got]; exact List.mem_append_left _ hiu
        · exact ⟨u, ub, by simp only; rw [List.getElem?_set_ne (Ne.symm he)]; exact hu, hiu⟩
      · refine ⟨t, th', List.getElem?_set_self htl, ?_⟩
        rw [hok.got]
        refine List.mem_append_right _ (List.mem_map.2 ⟨i - s.data.len, ?_, by omega⟩)
        simp only [List.mem_range]
        simp only at hlt
        omega

theorem RwSys.steps {srt : List (Nat × D) → List (Nat × D)} (hsrt : IsSortByDist srt) {n₀ : Nat} {s s' : Rw E D}
    (h : RwSys n₀ s) (hs : Rw.Steps srt s s') : RwSys n₀ s' ∧ Extends s.data s'.data := by
  induction hs with
  | refl => exact ⟨h, .refl _⟩
  | tail _ h2 ih =>
    obtain ⟨h3, h4⟩ := ih.1.step hsrt h2
    exact ⟨h3, ih.2.trans h4⟩

end Granne
