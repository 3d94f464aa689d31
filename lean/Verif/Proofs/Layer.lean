import Verif.Proofs.Index
import Verif.Model.Builder

/-! One `index_elements` call preserves the layer invariant, whatever the interleaving. -/
namespace Granne
open List Spec

variable {E D : Type} [LinearOrder D]

theorem graphOf_length (R : Rows) : (graphOf R).length = R.length := by simp [graphOf]

theorem edge_graphOf {R : Rows} {i j : Nat} :
    Edge (graphOf R) i j ↔ ∃ row, R[i]? = some row ∧ j ∈ visible row := by
  unfold Edge graphOf
  simp only [List.getElem?_map, Option.map_eq_some_iff]
  constructor
  · rintro ⟨l, ⟨row, h1, rfl⟩, h2⟩; exact ⟨row, h1, h2⟩
  · rintro ⟨row, h1, h2⟩; exact ⟨_, ⟨row, h1, rfl⟩, h2⟩

theorem LayerInv.edgesInside {n w : Nat} {Z : Nat → Prop} {R : Rows} (h : LayerInv n w Z R) :
    EdgesInside (graphOf R) := by
  intro i j hij
  obtain ⟨row, h1, h2⟩ := edge_graphOf.1 hij
  rw [graphOf_length, h.len]
  exact ((h.rows i row h1).ids j h2).1

theorem reach_cases {g : Graph} {i j : Nat} (h : Reach g i j) : j = i ∨ ∃ k, Edge g k j := by
  cases h with
  | refl => exact Or.inl rfl
  | step _ he => exact Or.inr ⟨_, he⟩

/-- Every node reached in a layer is the start, 0, or published there. -/
theorem LayerInv.reach_pub {n w : Nat} {Z : Nat → Prop} {R : Rows} (h : LayerInv n w Z R) {i j : Nat}
    (hr : Reach (graphOf R) i j) : j = i ∨ (j ≠ 0 → NE R j ∧ ¬ Z j) := by
  rcases reach_cases hr with h1 | ⟨k, hk⟩
  · exact Or.inl h1
  · right
    intro h0
    obtain ⟨row, h2, h3⟩ := edge_graphOf.1 hk
    exact ⟨h.pub k row h2 j h3 h0, ((h.rows k row h2).ids j h3).2.2 h0⟩

theorem reach_zero {R : Rows} (h : ¬ NE R 0) {j : Nat} (hr : Reach (graphOf R) 0 j) : j = 0 := by
  induction hr with
  | refl => rfl
  | step _ he ih =>
    subst ih
    obtain ⟨row, h1, h2⟩ := edge_graphOf.1 he
    exact absurd ⟨row, h1, List.ne_nil_of_mem h2⟩ h

/-- The descent through layers whose non-empty nodes are non-empty in `Rfin`. -/
theorem findEntrypointFrom_pub {w : Nat} {Z : Nat → Prop} {dq : Nat → Option D} {Rfin : Rows} :
    ∀ (layers : List Rows) (entry e : Nat),
      (∀ R ∈ layers, LayerInv R.length w Z R ∧ ∀ j, NE R j → NE Rfin j) →
      findEntrypointFrom dq (layers.map graphOf) entry = some e →
      ((entry ≠ 0 → NE Rfin entry ∧ ¬ Z entry) → (e ≠ 0 → NE Rfin e ∧ ¬ Z e)) ∧
      (¬ NE Rfin 0 → entry = 0 → e = 0) := by
  intro layers
  induction layers with
  | nil =>
    intro entry e _ h
    simp only [List.map_nil, findEntrypointFrom, Option.some.injEq] at h
    subst h
    exact ⟨fun h => h, fun _ h => h⟩
  | cons R layers ih =>
    intro entry e hl h
    rw [List.map_cons, findEntrypointFrom] at h
    cases hr : (searchForNeighbors (graphOf R).length entry dq 1).runRO (graphOf R) with
    | none => simp [hr] at h
    | some r =>
      obtain ⟨l, hl', hpost⟩ := searchForNeighbors_post hr
      cases l with
      | nil => exact absurd rfl (hpost.ne_nil (by omega))
      | cons c l =>
        simp only [hr, hl', List.map_cons] at h
        obtain ⟨h1, h2⟩ := ih c.id e (fun R' hR' => hl R' (by simp [hR'])) h
        have hreach := (hpost.mem c (by simp)).2.2
        obtain ⟨hinv, hmono⟩ := hl R (by simp)
        constructor
        · intro hent
          apply h1
          rcases hinv.reach_pub hreach with h3 | h3
          · rw [h3]; exact hent
          · exact fun h0 => ⟨hmono _ (h3 h0).1, (h3 h0).2⟩
        · intro hne h0
          subst h0
          exact h2 hne (reach_zero (fun h => hne (hmono _ h)) hreach)

/-- A stack of layers over `total` elements. -/
structure StackInv (w total : Nat) (Z : Nat → Prop) (layers : List Rows) : Prop where
  layer : ∀ R ∈ layers, LayerInv R.length w Z R ∧ 0 < R.length ∧ R.length ≤ total
  nested : layers.Pairwise fun a b => a.length ≤ b.length ∧ ∀ j, NE a j → NE b j

theorem StackInv.wf {w total : Nat} {Z : Nat → Prop} {layers : List Rows}
    (h : StackInv w total Z layers) : WellFormedIndex (layers.map graphOf) total := by
  refine ⟨?_, ?_, ?_, ?_⟩
  · intro g hg
    obtain ⟨R, hR, rfl⟩ := List.mem_map.1 hg
    intro hnil
    have := (h.layer R hR).2.1
    have h2 := graphOf_length R
    rw [hnil] at h2
    simp at h2; omega
  · intro g hg
    obtain ⟨R, hR, rfl⟩ := List.mem_map.1 hg
    exact (h.layer R hR).1.edgesInside
  · refine List.Pairwise.map _ (fun a b hab => ?_) h.nested
    rw [graphOf_length, graphOf_length]; exact hab.1
  · intro g hg
    obtain ⟨R, hR, rfl⟩ := List.mem_map.1 hg
    rw [graphOf_length]
    exact (h.layer R hR).2.2

/-- Whatever a search in a stack returns is 0 or a published node. -/
theorem StackInv.search_pub {w total : Nat} {Z : Nat → Prop} {layers : List Rows} {es : Elements E D}
    (h : StackInv w total Z layers) {q : E} {ms k : Nat} {r : List (Nat × D)} {Rfin : Rows}
    (hs : search (layers.map graphOf) es q ms k = some r)
    (hfin : ∀ R ∈ layers, ∀ j, NE R j → NE Rfin j) :
    ∀ p ∈ r, (p.1 ≠ 0 → NE Rfin p.1 ∧ ¬ Z p.1) ∧ (¬ NE Rfin 0 → p.1 = 0) := by
  rcases List.eq_nil_or_concat layers with rfl | ⟨top, bot, rfl⟩
  · simp only [List.map_nil, search, searchInternal, List.getLast?_nil, Option.some.injEq] at hs
    subst hs; simp
  · rw [List.concat_eq_append] at *
    have hb : ((top ++ [bot]).map graphOf).getLast? = some (graphOf bot) := by simp
    obtain ⟨e, l, he, hp, rfl, _⟩ := searchInternal_some hb hs
    have hdl : ((top ++ [bot]).map graphOf).dropLast = top.map graphOf := by simp
    rw [hdl] at he
    obtain ⟨h1, h2⟩ := findEntrypointFrom_pub (w := w) (Z := Z) (Rfin := Rfin) top 0 e
      (fun R hR => ⟨(h.layer R (by simp [hR])).1, hfin R (by simp [hR])⟩) he
    intro p hpm
    obtain ⟨c, hc, rfl⟩ := List.mem_map.1 (List.mem_of_mem_take hpm)
    have hreach := (hp.mem c hc).2.2
    have hinv := (h.layer bot (by simp)).1
    have hmono := hfin bot (by simp)
    constructor
    · rcases hinv.reach_pub hreach with h3 | h3
      · simp only; rw [h3]; exact h1 (by simp)
      · exact fun h0 => ⟨hmono _ (h3 h0).1, (h3 h0).2⟩
    · intro hne
      have he0 := h2 hne rfl
      subst he0
      exact reach_zero (fun h => hne (hmono _ h)) hreach

theorem StackInv.prevOk {w total n : Nat} {Z : Nat → Prop} {layers : List Rows} {es : Elements E D}
    (h : StackInv w total Z layers) (htot : total ≤ es.data.length) {R₀ : Rows} (hn : 0 < n)
    (hfin : ∀ R ∈ layers, R.length ≤ n ∧ ∀ j, NE R j → NE R₀ j) :
    PrevOk n Z es (layers.map graphOf) R₀ := by
  refine ⟨fun q => ?_⟩
  have hdq : ∀ i < es.data.length, (es.distTo q i).isSome := fun i hi => distTo_isSome es q hi
  have hwf : WellFormedIndex (layers.map graphOf) es.data.length :=
    ⟨h.wf.nonempty, h.wf.inside, h.wf.nested, fun g hg => (h.wf.bounded g hg).trans htot⟩
  have hsome : ∃ r, search (layers.map graphOf) es q 1 1 = some r := by
    unfold search searchInternal
    cases hb : (layers.map graphOf).getLast? with
    | none => exact ⟨[], rfl⟩
    | some bottom =>
      have hmem : bottom ∈ layers.map graphOf := List.mem_of_getLast? hb
      obtain ⟨e, he, hlt⟩ := findEntrypoint_total hwf hdq hb
      obtain ⟨r, hr⟩ := searchForNeighbors_total (ms := 1) (by omega) (hwf.inside bottom hmem)
        (fun i hi => hdq i (lt_of_lt_of_le hi (hwf.bounded bottom hmem))) hlt le_rfl
      simp only [he, hr]
      exact ⟨_, rfl⟩
  obtain ⟨r, hr⟩ := hsome
  refine ⟨r, hr, ?_⟩
  have hpub := h.search_pub (Rfin := R₀) hr fun R hR => (hfin R hR).2
  cases hh : r.head? with
  | none => exact ⟨⟨hn, fun h => absurd rfl h⟩, fun _ => rfl⟩
  | some p =>
    have hpr : p ∈ r := List.mem_of_head? hh
    obtain ⟨h1, h2⟩ := hpub p hpr
    refine ⟨⟨?_, h1⟩, h2⟩
    -- the id is a node of the last of the layers above
    cases hb : (layers.map graphOf).getLast? with
    | none =>
      simp only [search, searchInternal, hb, Option.some.injEq] at hr
      subst hr; simp at hh
    | some bottom =>
      obtain ⟨e, l, _, hp, rfl, _⟩ := searchInternal_some hb hr
      obtain ⟨c, hc, rfl⟩ := List.mem_map.1 (List.mem_of_mem_take hpr)
      have hlt := (hp.mem c hc).2.1
      obtain ⟨R, hR, rfl⟩ := List.mem_map.1 (List.mem_of_getLast? hb)
      rw [graphOf_length] at hlt
      exact lt_of_lt_of_le hlt (hfin R hR).1

/-! ### Starting rows -/

theorem visible_replicate (k : Nat) : visible (List.replicate k UNUSED) = [] := by
  cases k <;> simp [visible, List.replicate_succ]

theorem RowOk.empty (n w : Nat) (Z : Nat → Prop) (i : Nat) : RowOk n w Z i (List.replicate w UNUSED) := by
  constructor <;> simp [visible_replicate]

theorem NE_append {R : Rows} {m w j : Nat} :
    NE (R ++ List.replicate m (List.replicate w UNUSED)) j ↔ NE R j := by
  unfold NE
  by_cases h : j < R.length
  · rw [List.getElem?_append_left h]
  · constructor
    · rintro ⟨row, h1, h2⟩
      rw [List.getElem?_append_right (by omega), List.getElem?_replicate] at h1
      split at h1
      · simp only [Option.some.injEq] at h1
        subst h1
        exact absurd (visible_replicate w) h2
      · simp at h1
    · rintro ⟨row, h1, _⟩
      rw [List.getElem?_eq_none (by omega)] at h1
      simp at h1

theorem LayerInv.extend {n w m : Nat} {Z : Nat → Prop} {R : Rows} (h : LayerInv n w Z R) :
    LayerInv (n + m) w Z (R ++ List.replicate m (List.replicate w UNUSED)) := by
  refine ⟨by simp [h.len], ?_, ?_⟩
  · intro i row hi
    by_cases hlt : i < R.length
    · rw [List.getElem?_append_left hlt] at hi
      have := h.rows i row hi
      exact ⟨this.shape, this.len, this.nodup, fun j hj =>
        ⟨by have := (this.ids j hj).1; omega, (this.ids j hj).2⟩,
      fun hne h0 => ⟨by have := (this.own hne h0).1; omega, (this.own hne h0).2⟩⟩
    · rw [List.getElem?_append_right (by omega), List.getElem?_replicate] at hi
      split at hi
      · simp only [Option.some.injEq] at hi
        subst hi
        exact RowOk.empty _ _ _ _
      · simp at hi
  · intro i row hi j hj h0
    rw [NE_append]
    by_cases hlt : i < R.length
    · rw [List.getElem?_append_left hlt] at hi
      exact h.pub i row hi j hj h0
    · rw [List.getElem?_append_right (by omega), List.getElem?_replicate] at hi
      split at hi
      · simp only [Option.some.injEq] at hi
        subst hi
        rw [visible_replicate] at hj
        simp at hj
      · simp at hi

/-! ### The final limiting pass -/

theorem mapM_eq_some_forall₂ {α β : Type} {f : α → Option β} :
    ∀ {l : List α}, (∀ a ∈ l, ∃ b, f a = some b) → ∃ r, l.mapM f = some r ∧
      List.Forall₂ (fun a b => f a = some b) l r := by
  intro l
  induction l with
  | nil => intro _; exact ⟨[], rfl, List.Forall₂.nil⟩
  | cons a t ih =>
    intro h
    obtain ⟨r, h1, h2⟩ := ih fun b hb => h b (by simp [hb])
    obtain ⟨b, hb⟩ := h a (by simp)
    refine ⟨b :: r, ?_, List.Forall₂.cons hb h2⟩
    rw [List.mapM_cons, hb, h1]; rfl

theorem forall₂_getElem? {α β : Type} {P : α → β → Prop} :
    ∀ {l : List α} {r : List β}, List.Forall₂ P l r → ∀ (i : Nat) (b : β), r[i]? = some b →
      ∃ a, l[i]? = some a ∧ P a b := by
  intro l r h
  induction h with
  | nil => intro i b hb; simp at hb
  | cons h1 _ ih =>
    intro i b hb
    cases i with
    | zero => simp at hb ⊢; subst hb; exact h1
    | succ i => simpa using ih i b (by simpa using hb)

theorem limitPass_ok {n w : Nat} {Z : Nat → Prop} (hn : n ≤ UNUSED) {es : Elements E D}
    (hes : n ≤ es.data.length) {srt : List (Nat × D) → List (Nat × D)} (hsrt : IsSortByDist srt)
    {cfg : LayerConfig D} (hc1 : 1 ≤ cfg.numNeighbors) (hcw : cfg.numNeighbors ≤ w) {R : Rows}
    (h : LayerInv n w Z R) :
    ∃ R', limitPass cfg es srt R = some R' ∧ LayerInv n w Z R' ∧ (∀ j, NE R j ↔ NE R' j) ∧
      (∀ row ∈ R', (visible row).length ≤ cfg.numNeighbors) ∧
      (n ≤ cfg.numNeighbors + 1 → ∀ (i : Nat) (row : Row), R[i]? = some row →
        ∃ row', R'[i]? = some row' ∧ ∀ j, j ∈ visible row' ↔ j ∈ visible row) := by
  have hz : ∀ (p : Row × Nat), p ∈ R.zipIdx → R[p.2]? = some p.1 := by
    intro p hp
    have := List.mem_zipIdx_iff_getElem?.1 (show (p.1, p.2) ∈ R.zipIdx from hp)
    simpa using this
  have hrow : ∀ i row, R[i]? = some row → ∃ row', addAndLimit es srt i [] cfg.numNeighbors row = some row' ∧
      RowOk n w Z i row' ∧ (visible row').length ≤ cfg.numNeighbors ∧
      (∀ j ∈ visible row', j ∈ visible row) ∧ (visible row ≠ [] → visible row' ≠ []) ∧
      (n ≤ cfg.numNeighbors + 1 → ∀ j ∈ visible row, j ∈ visible row') := by
    intro i row hi
    have hok := h.rows i row hi
    have hin : i < n := by
      have := (List.getElem?_eq_some_iff.1 hi).1
      rw [h.len] at this; exact this
    have := addAndLimit_ok (extra := ([] : List (Nat × D))) hn hes hsrt hin hok hcw hc1
      (by simpa using hok.nodup) (by simp) (by simp)
    simpa using this
  obtain ⟨R', h1, h2⟩ := mapM_eq_some_forall₂
    (f := fun p : Row × Nat => addAndLimit es srt p.2 [] cfg.numNeighbors p.1) (l := R.zipIdx) (by
      intro p hp
      obtain ⟨row', h1, _⟩ := hrow p.2 p.1 (hz p hp)
      exact ⟨row', h1⟩)
  have hget : ∀ (i : Nat) (row' : Row), R'[i]? = some row' → ∃ row, R[i]? = some row ∧
      RowOk n w Z i row' ∧ (visible row').length ≤ cfg.numNeighbors ∧
      (∀ j ∈ visible row', j ∈ visible row) ∧ (visible row ≠ [] → visible row' ≠ []) ∧
      (n ≤ cfg.numNeighbors + 1 → ∀ j ∈ visible row, j ∈ visible row') := by
    intro i row' hi
    obtain ⟨p, hp, heq⟩ := forall₂_getElem? h2 i row' hi
    have hp' := hz p (List.mem_of_getElem? hp)
    have hpi : p.2 = i := by
      rw [List.getElem?_zipIdx] at hp
      simp only [Option.map_eq_some_iff] at hp
      obtain ⟨a, _, rfl⟩ := hp
      simp
    rw [hpi] at hp' heq
    obtain ⟨row'', e1, e2⟩ := hrow i p.1 hp'
    rw [heq] at e1
    cases e1
    exact ⟨p.1, hp', e2⟩
  have hlen : R'.length = n := by
    rw [← h2.length_eq, List.length_zipIdx, h.len]
  have hne : ∀ j, NE R j ↔ NE R' j := by
    intro j
    constructor
    · rintro ⟨row, hj, hv⟩
      have hlt : j < R'.length := by
        have := (List.getElem?_eq_some_iff.1 hj).1
        rw [h.len] at this; omega
      obtain ⟨row2, e1, _, _, _, e5, _⟩ := hget j _ (List.getElem?_eq_getElem hlt)
      rw [hj] at e1; cases e1
      exact ⟨_, List.getElem?_eq_getElem hlt, e5 hv⟩
    · rintro ⟨row', hj, hv⟩
      obtain ⟨row, e1, _, _, e4, _⟩ := hget j row' hj
      obtain ⟨x, hx⟩ := List.exists_mem_of_ne_nil _ hv
      exact ⟨row, e1, List.ne_nil_of_mem (e4 x hx)⟩
  refine ⟨R', h1, ⟨hlen, fun i row' hi => ?_, fun i row' hi j hj h0 => ?_⟩, hne, ?_, ?_⟩
  · obtain ⟨_, _, e2, _⟩ := hget i row' hi; exact e2
  · obtain ⟨row, e1, _, _, e4, _⟩ := hget i row' hi
    exact (hne j).1 (h.pub i row e1 j (e4 j hj) h0)
  · intro row' hr
    obtain ⟨i, hi, rfl⟩ := List.getElem_of_mem hr
    obtain ⟨_, _, _, e3, _⟩ := hget i _ (List.getElem?_eq_getElem hi)
    exact e3
  · intro hsmall i row hi
    have hlt : i < R'.length := by
      have := (List.getElem?_eq_some_iff.1 hi).1
      rw [h.len] at this; omega
    obtain ⟨row2, e1, _, _, e4, _, e6⟩ := hget i _ (List.getElem?_eq_getElem hlt)
    rw [hi] at e1; cases e1
    exact ⟨_, List.getElem?_eq_getElem hlt, fun j => ⟨e4 j, e6 hsmall j⟩⟩

/-! ### `index_elements` -/

/-- The tasks of an `index_elements` call form a safe system. -/
theorem indexPar_safe {w num : Nat} {Z : Nat → Prop} (hnum : num ≤ UNUSED) {es : Elements E D}
    (hes : num ≤ es.data.length) {srt : List (Nat × D) → List (Nat × D)} (hsrt : IsSortByDist srt)
    {cfg : LayerConfig D} (hc1 : 1 ≤ cfg.numNeighbors) (hcw : cfg.numNeighbors ≤ w)
    (hms : 1 ≤ cfg.maxSearch)
    (hZ : ∀ i d, es.dist? i i = some d → ¬ cfg.eps < d → ¬ Z i)
    {prev : List Rows} (hprev : StackInv w es.data.length Z prev) {layer : Layer} (hw : layer.width = w)
    (hlayer : LayerInv layer.rows.length w Z layer.rows) (hle : layer.rows.length ≤ num) (h0 : 0 < num)
    (hpl : ∀ R ∈ prev, R.length ≤ layer.rows.length ∧ ∀ j, NE R j → NE layer.rows j)
    {reinsert : Bool} (hre : reinsert = true → layer.rows.length = num) :
    let s := indexPar cfg es srt num (prev.map graphOf) layer reinsert
    s.rows.length = num ∧ ∃ own, ParSafe (InvFrom num w Z layer.rows) RelyOn own s ∧
      ∀ t t', t < s.threads.length → t' < s.threads.length → own t = own t' → t = t' := by
  intro s
  -- the starting rows
  have hstart : LayerInv num w Z (indexStart num layer reinsert).1 ∧
      (∀ j, NE (indexStart num layer reinsert).1 j ↔ NE layer.rows j) := by
    cases reinsert with
    | true =>
      simp only [indexStart, if_true]
      refine ⟨?_, fun _ => trivial⟩
      rw [← hre rfl]; exact hlayer
    | false =>
      simp only [indexStart, Bool.false_eq_true, if_false, hw]
      refine ⟨?_, fun j => NE_append⟩
      have := hlayer.extend (m := num - layer.rows.length)
      rwa [show layer.rows.length + (num - layer.rows.length) = num by omega] at this
  have hlen : (indexStart num layer reinsert).1.length = num := hstart.1.len
  have hids : (indexStart num layer reinsert).2.Nodup ∧ ∀ i ∈ (indexStart num layer reinsert).2, i < num := by
    cases reinsert with
    | true =>
      simp only [indexStart, if_true]
      refine ⟨List.nodup_reverse.2 List.nodup_range, ?_⟩
      intro i hi
      simp at hi
      rw [← hre rfl]; exact hi
    | false =>
      simp only [indexStart, Bool.false_eq_true, if_false]
      refine ⟨List.nodup_range.sublist (List.drop_sublist _ _), ?_⟩
      intro i hi
      have := List.mem_of_mem_drop hi
      simp at this
      omega
  have hprevOk : PrevOk num Z es (prev.map graphOf) layer.rows :=
    hprev.prevOk le_rfl h0 fun R hR => ⟨(hpl R hR).1.trans hle, (hpl R hR).2⟩
  have hinv : InvFrom num w Z layer.rows (indexStart num layer reinsert).1 :=
    ⟨hstart.1.roomy, fun j hj => (hstart.2 j).2 hj⟩
  refine ⟨hlen, fun t => (indexStart num layer reinsert).2[t]?.getD 0, ⟨hinv, ?_⟩, ?_⟩
  · intro t p hp
    have hth : s.threads = (indexStart num layer reinsert).2.map
        (indexElement cfg es srt (prev.map graphOf) (indexStart num layer reinsert).1.length) := rfl
    rw [hth, List.getElem?_map, Option.map_eq_some_iff] at hp
    obtain ⟨idx, hidx, rfl⟩ := hp
    have hown : (indexStart num layer reinsert).2[t]?.getD 0 = idx := by rw [hidx]; rfl
    rw [hown, hlen]
    exact indexElement_safe le_rfl hnum hes hsrt (hids.2 idx (List.mem_of_getElem? hidx)) (by omega) hcw hms
      (hZ idx) hprevOk hinv
  · intro t t' ht ht' he
    have hth : s.threads.length = (indexStart num layer reinsert).2.length := by
      show ((indexStart num layer reinsert).2.map _).length = _
      rw [List.length_map]
    rw [hth] at ht ht'
    simp only [List.getElem?_eq_getElem ht, List.getElem?_eq_getElem ht', Option.getD_some] at he
    exact (List.Nodup.getElem_inj_iff hids.1).1 he

theorem Prog.step_length {α : Type} {p p' : Prog α} {R R' : Rows} (h : p.step R = some (R', p')) :
    R'.length = R.length := by
  cases p with
  | ret a => simp [Prog.step] at h
  | fail => simp [Prog.step] at h
  | nbrs i k => simp only [Prog.step, Option.some.injEq, Prod.mk.injEq] at h; rw [h.1]
  | unused i k => simp only [Prog.step, Option.some.injEq, Prod.mk.injEq] at h; rw [h.1]
  | upd i f k =>
    simp only [Prog.step] at h
    split at h
    · simp only [Option.some.injEq, Prod.mk.injEq] at h; rw [h.1]
    · split at h
      · simp only [Option.some.injEq, Prod.mk.injEq] at h; rw [h.1]
      · simp only [Option.some.injEq, Prod.mk.injEq] at h; rw [← h.1]; simp

theorem Par.Steps.rows_length {s s' : Par} (h : Par.Steps s s') : s'.rows.length = s.rows.length := by
  induction h with
  | refl => rfl
  | tail _ hs ih =>
    cases hs with
    | mk t p p' rows' ht hstep => exact (Prog.step_length hstep).trans ih

/-- From every reachable state the system can be run to completion. -/
theorem exists_done {s : Par} (h : ∀ s', Par.Steps s s' → ¬ s'.Panicked) :
    ∃ s', Par.Steps s s' ∧ s'.Done := by
  have : ∀ t : Par, Par.Steps s t → ∃ s', Par.Steps s s' ∧ s'.Done := by
    intro t
    induction t using Par.step_wellFounded.induction with
    | _ t ih =>
      intro ht
      rcases Par.progress (h t ht) with hd | ⟨u, hu⟩
      · exact ⟨t, ht, hd⟩
      · exact ih u hu (ht.tail hu)
  exact this s (.refl s)

theorem IndexElements_ok {w num : Nat} {Z : Nat → Prop} (hnum : num ≤ UNUSED) {es : Elements E D}
    (hes : num ≤ es.data.length) {srt : List (Nat × D) → List (Nat × D)} (hsrt : IsSortByDist srt)
    {cfg : LayerConfig D} (hc1 : 1 ≤ cfg.numNeighbors) (hcw : cfg.numNeighbors ≤ w)
    (hms : 1 ≤ cfg.maxSearch)
    (hZ : ∀ i d, es.dist? i i = some d → ¬ cfg.eps < d → ¬ Z i)
    {prev : List Rows} (hprev : StackInv w es.data.length Z prev) {layer : Layer} (hw : layer.width = w)
    (hlayer : LayerInv layer.rows.length w Z layer.rows) (hle : layer.rows.length ≤ num) (h0 : 0 < num)
    (hpl : ∀ R ∈ prev, R.length ≤ layer.rows.length ∧ ∀ j, NE R j → NE layer.rows j)
    {reinsert : Bool} (hre : reinsert = true → layer.rows.length = num) :
    (∃ out, IndexElements cfg es srt num (prev.map graphOf) layer reinsert out) ∧
    ∀ out, IndexElements cfg es srt num (prev.map graphOf) layer reinsert out →
      ∃ layer', out = some layer' ∧ layer'.width = w ∧ LayerInv num w Z layer'.rows ∧
        (∀ j, NE layer.rows j → NE layer'.rows j) ∧
        (∀ row ∈ layer'.rows, (visible row).length ≤ cfg.numNeighbors) := by
  obtain ⟨hrl, own, hsafe, hinj⟩ := indexPar_safe hnum hes hsrt hc1 hcw hms hZ hprev hw hlayer hle h0 hpl hre
  have hsteps : ∀ s', Par.Steps (indexPar cfg es srt num (prev.map graphOf) layer reinsert) s' →
      ParSafe (InvFrom num w Z layer.rows) RelyOn own s' := fun s' hs' =>
    hsafe.steps RelyOn.refl RelyOn.trans hinj hs'
  constructor
  · obtain ⟨s', hs', hd⟩ := exists_done fun s' hs' => (hsteps s' hs').not_panicked
    exact ⟨_, .done s' hle hs' hd⟩
  · intro out hout
    cases hout with
    | tooMany h => exact absurd hle h
    | panic s' _ hs' hp => exact absurd hp (hsteps s' hs').not_panicked
    | done s' _ hs' hd =>
      have hinv := (hsteps s' hs').inv
      obtain ⟨R', h1, h2, h3, h4, _⟩ := limitPass_ok hnum hes hsrt hc1 hcw (hinv.1.exact (hs'.rows_length.trans hrl))
      refine ⟨{ layer with rows := R' }, by rw [h1]; rfl, hw, h2, ?_, h4⟩
      intro j hj
      exact (h3 j).1 (hinv.2 j hj)

end Granne
