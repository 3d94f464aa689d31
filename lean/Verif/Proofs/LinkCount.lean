import Verif.Proofs.Histories
import Mathlib.Data.List.TakeWhile
import Mathlib.Tactic.Ring
import Mathlib.Tactic.Linarith

/-! How many links a layer can get: every task of `index_elements` has a budget. -/
namespace Granne
open List Spec

variable {E D : Type} [LinearOrder D]

/-- Used slots of one row. -/
def slots (row : Row) : Nat := row.countP (· != UNUSED)

/-- Used slots of all rows. -/
def usedSlots (rows : Rows) : Nat := (rows.map slots).sum

theorem visible_le_slots (row : Row) : (visible row).length ≤ slots row := by
  unfold visible slots
  have : (row.takeWhile (· != UNUSED)).countP (· != UNUSED) = (row.takeWhile (· != UNUSED)).length :=
    List.countP_eq_length.2 fun a ha => List.mem_takeWhile_imp (p := (· != UNUSED)) ha
  rw [← this]
  exact (List.takeWhile_sublist _).countP_le

theorem slots_le_length (row : Row) : slots row ≤ row.length := List.countP_le_length

theorem slots_set (row : Row) (i x : Nat) : slots (row.set i x) ≤ slots row + 1 := by
  unfold slots
  induction row generalizing i with
  | nil => simp
  | cons a l ih =>
    cases i with
    | zero => simp only [List.set_cons_zero, List.countP_cons]; split <;> split <;> omega
    | succ i => simp only [List.set_cons_succ, List.countP_cons]; have := ih i; omega

theorem slots_padded (ids : List Nat) (k : Nat) : slots (ids ++ List.replicate k UNUSED) ≤ ids.length := by
  unfold slots
  rw [List.countP_append, List.countP_replicate]
  have := List.countP_le_length (p := (· != UNUSED)) (l := ids)
  simp; omega

theorem slots_writePadded {len : Nat} {ids : List Nat} {row : Row} (h : writePadded len ids = some row) :
    slots row ≤ ids.length := by
  unfold writePadded at h
  obtain ⟨l, hl, rfl⟩ := Option.map_eq_some_iff.1 h
  refine (slots_padded _ _).trans ?_
  have : l.length = (ids.take len).length := by
    have := mapM_some hl
    exact this.length_eq.symm
  rw [this, List.length_take]; omega

theorem slots_addAndLimit {es : Elements E D} {srt : List (Nat × D) → List (Nat × D)} (hsrt : IsSortByDist srt) {i m : Nat}
    {extra : List (Nat × D)} {row row' : Row} (h : addAndLimit es srt i extra m row = some row') :
    slots row' ≤ slots row + extra.length := by
  unfold addAndLimit at h
  split at h
  · simp only at h
    split at h
    · cases h
    · next ds hds =>
      split at h
      · cases h
      · next sel hsel =>
        refine (slots_writePadded h).trans ?_
        rw [List.length_map]
        refine (selectNeighbors_sublist hsel).1.length_le.trans ?_
        rw [(hsrt _).1.length_eq, List.length_append, List.length_zip]
        have := visible_le_slots row
        omega
  · cases h

theorem slots_connectRow {es : Elements E D} {srt : List (Nat × D) → List (Nat × D)} (hsrt : IsSortByDist srt) {i j : Nat}
    {d : D} {row row' : Row} (h : connectRow es srt i j d row = some row') : slots row' ≤ slots row + 1 := by
  unfold connectRow at h
  split at h
  · cases h
  · split at h
    · cases h; exact slots_set _ _ _
    · exact slots_addAndLimit hsrt h

theorem slots_initializeNode {neighbors : List (Nat × D)} {row row' : Row}
    (h : initializeNode neighbors row = some row') : slots row' ≤ slots row + neighbors.length := by
  unfold initializeNode at h
  obtain ⟨l, hl, rfl⟩ := Option.map_eq_some_iff.1 h
  have h1 : l.length = ((neighbors.take row.length).map Prod.fst).length := (mapM_some hl).length_eq.symm
  rw [List.length_map, List.length_take] at h1
  unfold slots
  rw [List.countP_append]
  have h2 := List.countP_le_length (p := (· != UNUSED)) (l := l)
  have h3 := (List.drop_sublist l.length row).countP_le (p := (· != UNUSED))
  omega

/-- All the updates of the program together use at most `b` more slots. -/
def Prog.Within : Nat → Prog Unit → Prop
  | _, .ret _ => True
  | _, .fail => True
  | b, .nbrs _ k => ∀ l, Prog.Within b (k l)
  | b, .unused _ k => ∀ e, Prog.Within b (k e)
  | b, .upd _ f k => ∃ a c, a + c ≤ b ∧ (∀ row row', f row = some row' → slots row' ≤ slots row + a) ∧ Prog.Within c k

theorem Prog.Within.mono {p : Prog Unit} : ∀ {a b : Nat}, a ≤ b → p.Within a → p.Within b := by
  induction p with
  | ret _ => intros; trivial
  | fail => intros; trivial
  | nbrs i k ih => intro a b hab h l; exact ih l hab (h l)
  | unused i k ih => intro a b hab h l; exact ih l hab (h l)
  | upd i f k ih =>
    rintro a b hab ⟨x, c, h1, h2, h3⟩
    exact ⟨x, c, h1.trans hab, h2, h3⟩

/-- The program only reads neighbors, and its results satisfy `Q`. -/
def Prog.Gives {α : Type} (Q : α → Prop) : Prog α → Prop
  | .ret a => Q a
  | .fail => True
  | .nbrs _ k => ∀ l, Prog.Gives Q (k l)
  | .unused _ _ => False
  | .upd _ _ _ => False

theorem Prog.Gives.bind {α : Type} {Q : α → Prop} {b : Nat} {f : α → Prog Unit} (hf : ∀ a, Q a → (f a).Within b) :
    ∀ {p : Prog α}, p.Gives Q → (p.bind f).Within b := by
  intro p
  induction p with
  | ret a => intro h; exact hf a h
  | fail => intro _; trivial
  | nbrs i k ih => intro h l; exact ih l (h l)
  | unused i k ih => intro h; exact h.elim
  | upd i f k ih => intro h; exact h.elim

theorem heapPush_bounded {h h' : MaxSizeHeap (Cand D)} {x : Cand D} {b : Bool} (hp : h.push x = some (h', b))
    (hl : h.heap.length ≤ h.maxSize) : h'.heap.length ≤ h'.maxSize ∧ h'.maxSize = h.maxSize := by
  unfold MaxSizeHeap.push at hp
  split at hp
  · next hf =>
    cases hp
    simp only [MaxSizeHeap.isFull, Bool.not_eq_true', decide_eq_false_iff_not] at hf
    refine ⟨?_, rfl⟩
    show (heapPush x h.heap).length ≤ h.maxSize
    rw [length_heapPush]
    omega
  · split at hp
    · cases hp
    · next hf top htop =>
      split at hp
      · cases hp
        refine ⟨?_, rfl⟩
        show (heapPush x (if h.maxSize ≤ h.heap.length then h.heap.dropLast else h.heap)).length ≤ h.maxSize
        rw [length_heapPush]
        have hne : h.heap ≠ [] := by intro hn; rw [MaxSizeHeap.peek, hn] at htop; cases htop
        have := List.length_pos_iff.2 hne
        split
        · rw [List.length_dropLast]; omega
        · omega
      · cases hp; exact ⟨hl, rfl⟩

theorem searchLoop_gives (dq : Nat → Option D) (m : Nat) : ∀ (fuel : Nat) (res : MaxSizeHeap (Cand D)) (pq : List (Cand D))
    (visited : List Nat), res.heap.length ≤ res.maxSize → res.maxSize = m →
    (searchLoop dq fuel res pq visited).Gives fun r => r.length ≤ m
  | 0, _, _, _, _, _ => trivial
  | fuel + 1, res, [], visited, h, hm => by
    unfold searchLoop
    show _ ≤ _
    rw [List.length_map]; exact hm ▸ h
  | fuel + 1, res, ⟨d, idx⟩ :: pq, visited, h, hm => by
    unfold searchLoop
    rcases shouldStop res d with _ | _ | _
    · trivial
    · simp only
      rcases Option.eq_none_or_eq_some (res.push ⟨d, idx⟩) with hp | ⟨⟨res', b⟩, hp⟩
      · rw [hp]; trivial
      · rw [hp]
        intro l
        obtain ⟨h1, h2⟩ := heapPush_bounded hp h
        simp only
        rcases Option.eq_none_or_eq_some (scanNeighbors dq res' l pq visited) with hq | ⟨⟨pq', v'⟩, hq⟩ <;> rw [hq]
        · trivial
        · exact searchLoop_gives dq m fuel res' pq' v' h1 (h2.trans hm)
    · simp only
      show _ ≤ _
      rw [List.length_map]; exact hm ▸ h

theorem searchForNeighbors_gives (layerLen entrypoint : Nat) (dq : Nat → Option D) (m : Nat) :
    (searchForNeighbors layerLen entrypoint dq m).Gives fun r => r.length ≤ m := by
  unfold searchForNeighbors
  cases dq entrypoint with
  | none => trivial
  | some d => exact searchLoop_gives dq m _ _ _ _ (Nat.zero_le _) rfl

theorem connectOthers_within {es : Elements E D} {srt : List (Nat × D) → List (Nat × D)} (hsrt : IsSortByDist srt) (idx : Nat)
    (neighbors : List (Nat × D)) : (connectOthers es srt idx neighbors (.ret ())).Within neighbors.length := by
  unfold connectOthers
  induction neighbors with
  | nil => trivial
  | cons p l ih =>
    simp only [List.foldr_cons, connectNodes]
    split
    · exact ih.mono (by simp)
    · exact ⟨1, l.length, by simp; omega, fun _ _ h => slots_connectRow hsrt h, ih⟩

theorem connectOwn_within {es : Elements E D} {srt : List (Nat × D) → List (Nat × D)} (hsrt : IsSortByDist srt) (idx : Nat)
    (neighbors : List (Nat × D)) {k : Prog Unit} {b : Nat} (hk : k.Within b) :
    (connectOwn es srt idx neighbors k).Within (neighbors.length + b) := by
  unfold connectOwn
  induction neighbors with
  | nil => simpa using hk
  | cons p l ih =>
    simp only [List.foldr_cons, connectNodes]
    split
    · exact ih.mono (by simp)
    · exact ⟨1, l.length + b, by simp; omega, fun _ _ h => slots_connectRow hsrt h, ih⟩

theorem publish_within {es : Elements E D} {srt : List (Nat × D) → List (Nat × D)} (hsrt : IsSortByDist srt) (idx : Nat)
    (neighbors : List (Nat × D)) : (publish es srt idx neighbors).Within (2 * neighbors.length) := by
  intro e
  simp only
  split
  · exact ⟨neighbors.length, neighbors.length, by omega, fun _ _ h => slots_initializeNode h,
      connectOthers_within hsrt idx neighbors⟩
  · exact (connectOwn_within hsrt idx neighbors (connectOthers_within hsrt idx neighbors)).mono (by omega)

theorem indexElement_within {cfg : LayerConfig D} {es : Elements E D} {srt : List (Nat × D) → List (Nat × D)}
    (hsrt : IsSortByDist srt) (prev : List Graph) (layerLen idx : Nat) :
    (indexElement cfg es srt prev layerLen idx).Within (2 * cfg.maxSearch) := by
  unfold indexElement
  split
  · trivial
  · split
    · trivial
    · split
      · trivial
      · split
        · trivial
        · simp only
          apply (searchForNeighbors_gives _ _ _ _).bind
          intro found hf
          split
          · trivial
          · next neighbors hn =>
            have : neighbors.length ≤ cfg.maxSearch :=
              ((selectNeighbors_sublist hn).1.length_le.trans (List.length_filter_le _ _)).trans hf
            have hp := (publish_within (es := es) hsrt idx neighbors).mono
              (b := 2 * cfg.maxSearch) (by omega)
            split
            · split
              · trivial
              · exact hp
            · exact hp

theorem usedSlots_set {rows : Rows} {i : Nat} {row row' : Row} (h : rows[i]? = some row) {a : Nat}
    (hs : slots row' ≤ slots row + a) : usedSlots (rows.set i row') ≤ usedSlots rows + a := by
  unfold usedSlots
  induction rows generalizing i with
  | nil => simp at h
  | cons r l ih =>
    cases i with
    | zero => simp at h; subst h; simp; omega
    | succ i => simp at h; have := ih h; simp at this ⊢; omega

theorem Prog.Within.step {p p' : Prog Unit} {b : Nat} {rows rows' : Rows} (h : p.Within b)
    (hs : p.step rows = some (rows', p')) : ∃ b', p'.Within b' ∧ usedSlots rows' + b' ≤ usedSlots rows + b := by
  cases p with
  | ret _ => cases hs
  | fail => cases hs
  | nbrs i k =>
    simp only [Prog.step, Option.some.injEq, Prod.mk.injEq] at hs
    obtain ⟨rfl, rfl⟩ := hs
    refine ⟨b, ?_, le_rfl⟩
    split
    · exact h _
    · trivial
  | unused i k =>
    simp only [Prog.step, Option.some.injEq, Prod.mk.injEq] at hs
    obtain ⟨rfl, rfl⟩ := hs
    refine ⟨b, ?_, le_rfl⟩
    split
    · exact h _
    · trivial
  | upd i f k =>
    obtain ⟨a, c, h1, h2, h3⟩ := h
    simp only [Prog.step] at hs
    split at hs
    · cases hs; exact ⟨0, trivial, by omega⟩
    · next row hrow =>
      split at hs
      · cases hs; exact ⟨0, trivial, by omega⟩
      · next row' hrow' =>
        cases hs
        have := usedSlots_set hrow (h2 _ _ hrow')
        exact ⟨c, h3, by omega⟩

/-- The rows and the budgets of the tasks together. -/
def Par.Bounded (s : Par) (B : Nat) : Prop :=
  ∃ bs : List Nat, List.Forall₂ (fun b p => Prog.Within b p) bs s.threads ∧ usedSlots s.rows + bs.sum ≤ B

theorem budget_sum_set {bs : List Nat} {t b b' : Nat} (h : bs[t]? = some b) : (bs.set t b').sum + b = bs.sum + b' := by
  induction bs generalizing t with
  | nil => simp at h
  | cons x l ih =>
    cases t with
    | zero => simp at h; subst h; simp; omega
    | succ t => simp at h; simp; have := ih h; omega

theorem budget_forall₂_set {α β : Type} {R : α → β → Prop} {l : List α} {m : List β} (h : List.Forall₂ R l m) (t : Nat) {a : α} {b : β}
    (hr : R a b) : List.Forall₂ R (l.set t a) (m.set t b) := by
  induction h generalizing t with
  | nil => simp
  | cons h1 h2 ih =>
    cases t with
    | zero => exact .cons hr h2
    | succ t => exact .cons h1 (ih t)

theorem budget_forall₂_get {α β : Type} {R : α → β → Prop} {l : List α} {m : List β} (h : List.Forall₂ R l m) {t : Nat} {b : β}
    (hb : m[t]? = some b) : ∃ a, l[t]? = some a ∧ R a b := by
  induction h generalizing t with
  | nil => simp at hb
  | cons h1 h2 ih =>
    cases t with
    | zero => simp at hb; subst hb; exact ⟨_, rfl, h1⟩
    | succ t => simp at hb; simpa using ih hb

theorem Par.Bounded.step {s s' : Par} {B : Nat} (h : s.Bounded B) (hs : Par.Step s s') : s'.Bounded B := by
  obtain ⟨bs, h1, h2⟩ := h
  cases hs with
  | mk t p p' rows' hp hst =>
    obtain ⟨b, hb, hw⟩ := budget_forall₂_get h1 hp
    obtain ⟨b', hw', hle⟩ := hw.step hst
    refine ⟨bs.set t b', budget_forall₂_set h1 t hw', ?_⟩
    have := budget_sum_set (b' := b') hb
    simp only
    omega

theorem Par.Bounded.steps {s s' : Par} {B : Nat} (h : s.Bounded B) (hs : Par.Steps s s') : s'.Bounded B := by
  induction hs with
  | refl => exact h
  | tail _ h2 ih => exact ih.step h2

theorem Par.Bounded.rows {s : Par} {B : Nat} (h : s.Bounded B) : usedSlots s.rows ≤ B := by
  obtain ⟨_, _, h⟩ := h; omega

theorem forall₂_usedSlots {l m : Rows} (h : List.Forall₂ (fun r r' => slots r' ≤ slots r) l m) : usedSlots m ≤ usedSlots l := by
  unfold usedSlots
  induction h with
  | nil => simp
  | cons h1 _ ih => simp; omega

theorem limitPass_slots {cfg : LayerConfig D} {es : Elements E D} {srt : List (Nat × D) → List (Nat × D)} (hsrt : IsSortByDist srt)
    {rows rows' : Rows} (h : limitPass cfg es srt rows = some rows') : usedSlots rows' ≤ usedSlots rows := by
  unfold limitPass at h
  have h2 := mapM_some h
  have h3 : List.Forall₂ (fun (p : Row × Nat) r' => slots r' ≤ slots p.1) rows.zipIdx rows' :=
    h2.imp fun p r hp => by simpa using slots_addAndLimit hsrt hp
  have h4 := forall₂_usedSlots (l := rows.zipIdx.map Prod.fst) (m := rows') (List.forall₂_map_left_iff.2 h3)
  simpa using h4

/-- `index_elements`: at most `2 * max_search` more links for every element that is inserted. -/
theorem IndexElements.links {cfg : LayerConfig D} {es : Elements E D} {srt : List (Nat × D) → List (Nat × D)}
    (hsrt : IsSortByDist srt) {num : Nat} {prev : List Graph} {layer layer' : Layer} {reinsert : Bool}
    (h : IndexElements cfg es srt num prev layer reinsert (some layer')) :
    usedSlots layer'.rows ≤ usedSlots layer.rows + 2 * cfg.maxSearch *
      (if reinsert then layer.rows.length else num - layer.rows.length) := by
  generalize ho : some layer' = out at h
  cases h with
  | tooMany _ => cases ho
  | panic _ _ _ _ => cases ho
  | done s hle hs hd =>
    obtain ⟨rows, hr, hl⟩ := Option.map_eq_some_iff.1 ho.symm
    subst hl
    simp only
    refine (limitPass_slots hsrt hr).trans ?_
    refine Par.Bounded.rows (Par.Bounded.steps ?_ hs)
    unfold indexPar indexStart
    cases reinsert with
    | true =>
      simp only [if_true]
      refine ⟨List.replicate layer.rows.length (2 * cfg.maxSearch), ?_, ?_⟩
      · rw [List.forall₂_iff_get]
        refine ⟨by simp, fun i h1 h2 => ?_⟩
        simp only [List.get_eq_getElem, List.getElem_replicate, List.getElem_map]
        exact indexElement_within hsrt _ _ _
      · simp [Nat.mul_comm]
    | false =>
      simp only [Bool.false_eq_true, if_false]
      refine ⟨List.replicate (num - layer.rows.length) (2 * cfg.maxSearch), ?_, ?_⟩
      · rw [List.forall₂_iff_get]
        refine ⟨by simp, fun i h1 h2 => ?_⟩
        simp only [List.get_eq_getElem, List.getElem_replicate, List.getElem_map]
        exact indexElement_within hsrt _ _ _
      · have : usedSlots (layer.rows ++ List.replicate (num - layer.rows.length) (List.replicate layer.width UNUSED)) =
            usedSlots layer.rows := by
          simp [usedSlots, slots]
        rw [this]
        simp [Nat.mul_comm]

theorem IndexElements.length_eq {cfg : LayerConfig D} {es : Elements E D} {srt : List (Nat × D) → List (Nat × D)}
    {num : Nat} {prev : List Graph} {layer layer' : Layer} {reinsert : Bool}
    (h : IndexElements cfg es srt num prev layer reinsert (some layer')) :
    layer.rows.length ≤ num ∧ layer'.rows.length = if reinsert then layer.rows.length else num := by
  generalize ho : some layer' = out at h
  cases h with
  | tooMany _ => cases ho
  | panic _ _ _ _ => cases ho
  | done s hle hs hd =>
    obtain ⟨rows, hr, hl⟩ := Option.map_eq_some_iff.1 ho.symm
    subst hl
    refine ⟨hle, ?_⟩
    have h1 : rows.length = s.rows.length := by
      unfold limitPass at hr
      rw [← (mapM_some hr).length_eq]; simp
    simp only
    rw [h1, hs.rows_length]
    unfold indexPar indexStart
    cases reinsert <;> simp
    omega

/-- What reinsertion adds per element (twice): half of `max_search`, but at least one; nothing if it is switched off. -/
def reinsertWidth (c : BuildConfig D) : Nat := if c.reinsertElements then max 1 (c.maxSearch / 2) else 0

theorem IndexLast.links {srt : List (Nat × D) → List (Nat × D)} (hsrt : IsSortByDist srt) {b b' : Builder E D} {maxNum : Nat}
    (h : IndexLast srt b maxNum (some b')) :
    ∃ upper layer layer', b.layers = upper ++ [layer] ∧ b' = { b with layers := upper ++ [layer'] } ∧
      layer.rows.length ≤ layer'.rows.length ∧
      usedSlots layer'.rows ≤ usedSlots layer.rows + 2 * b.config.maxSearch * (layer'.rows.length - layer.rows.length) +
        2 * reinsertWidth b.config * layer'.rows.length := by
  generalize ho : some b' = out at h
  cases h with
  | noLayer _ => cases ho
  | nothing hne _ =>
    cases ho
    refine ⟨b.layers.dropLast, b.layers.getLast hne, b.layers.getLast hne, (List.dropLast_append_getLast hne).symm, ?_, le_rfl, by omega⟩
    rw [List.dropLast_append_getLast hne]
  | firstPanics _ _ _ _ _ => cases ho
  | once upper layer layer' h1 h2 h3 h4 =>
    cases ho
    have hl := h3.links hsrt
    have hlen := h3.length_eq
    simp only [Bool.false_eq_true, if_false] at hl hlen
    refine ⟨upper, layer, layer', h1, rfl, by omega, ?_⟩
    rw [hlen.2]
    exact hl.trans (by show _ ≤ _; exact Nat.le_add_right _ _)
  | twice upper layer layer' o h1 h2 h3 h4 h5 =>
    obtain ⟨l2, hl2, rfl⟩ := Option.map_eq_some_iff.1 ho.symm
    subst hl2
    have hl := h3.links hsrt
    have hlen := h3.length_eq
    have kl := h5.links hsrt
    have klen := h5.length_eq
    simp only [Bool.false_eq_true, if_false, if_true] at hl hlen kl klen
    refine ⟨upper, layer, l2, h1, rfl, by omega, ?_⟩
    have e : reinsertWidth b.config = (b.layerConfig (b.ideal b.layers.length)).forReinsert.maxSearch := by
      unfold reinsertWidth
      rw [if_pos h4]
      rfl
    rw [e]
    rw [klen.2, hlen.2]
    have e2 : (b.layerConfig (b.ideal b.layers.length)).maxSearch = b.config.maxSearch := rfl
    rw [e2] at hl
    rw [hlen.2] at kl
    omega

/-- At most `2 * (m + (i + 1) * w)` links per node in layer `i`. -/
def SlotBound (m w : Nat) (layers : List Layer) : Prop :=
  ∀ (i : Nat) (l : Layer), layers[i]? = some l → usedSlots l.rows ≤ 2 * l.rows.length * (m + (i + 1) * w)

theorem slot_arith {o n m w i a b c : Nat} (h1 : a ≤ 2 * o * (m + i * w)) (hon : o ≤ n) (h2 : b ≤ a + 2 * m * (n - o) + 2 * c * n)
    (hc : c ≤ w) : b ≤ 2 * n * (m + (i + 1) * w) := by
  obtain ⟨k, rfl⟩ := Nat.exists_eq_add_of_le hon
  rw [Nat.add_sub_cancel_left] at h2
  have h3 : 2 * c * (o + k) ≤ 2 * w * (o + k) := Nat.mul_le_mul_right _ (Nat.mul_le_mul_left _ hc)
  have h4 : 2 * o * (m + i * w) + 2 * m * k ≤ 2 * (o + k) * (m + i * w) := by nlinarith [Nat.zero_le (k * (i * w))]
  have h5 : 2 * (o + k) * (m + (i + 1) * w) = 2 * (o + k) * (m + i * w) + 2 * w * (o + k) := by ring
  omega

theorem SlotBound.round {srt : List (Nat × D) → List (Nat × D)} (hsrt : IsSortByDist srt) {b b' : Builder E D} {num m w : Nat}
    (hm : b.config.maxSearch ≤ m) (hw : reinsertWidth b.config ≤ w) (h : SlotBound m w b.layers)
    (hr : IndexLast srt b.addLayer num (some b')) : b'.config = b.config ∧ SlotBound m w b'.layers := by
  obtain ⟨upper, layer, layer', h1, rfl, h3, h4⟩ := hr.links hsrt
  have h1' : b.layers ++ [match b.layers.getLast? with
    | some l => l
    | none => ⟨b.config.numNeighbors, []⟩] = upper ++ [layer] := h1
  obtain ⟨e1, e2⟩ := List.append_inj' h1' rfl
  rw [List.singleton_inj] at e2
  subst e1
  refine ⟨rfl, ?_⟩
  intro i l hl
  simp only at hl
  rw [List.getElem?_append] at hl
  split at hl
  · exact h i l hl
  · next hi =>
    have hi' : i = b.layers.length := by
      have := (List.getElem?_eq_some_iff.1 hl).1
      simp at this; omega
    subst hi'
    simp at hl
    subst hl
    have h4' : usedSlots layer'.rows ≤ usedSlots layer.rows + 2 * m * (layer'.rows.length - layer.rows.length) +
        2 * reinsertWidth b.config * layer'.rows.length :=
      h4.trans (Nat.add_le_add_right (Nat.add_le_add_left (Nat.mul_le_mul_right _ (Nat.mul_le_mul_left _ hm)) _) _)
    refine slot_arith ?_ h3 h4' hw
    rcases Option.eq_none_or_eq_some b.layers.getLast? with hn | ⟨a, ha⟩
    · rw [hn] at e2; subst e2; simp [usedSlots]
    · rw [ha] at e2
      simp only at e2
      subst e2
      have hne : b.layers ≠ [] := by intro hx; rw [hx] at ha; cases ha
      have hp := List.length_pos_iff.2 hne
      rw [List.getLast?_eq_getElem?] at ha
      have := h _ _ ha
      rwa [Nat.sub_add_cancel hp] at this

theorem SlotBound.loop {srt : List (Nat × D) → List (Nat × D)} (hsrt : IsSortByDist srt) {num m w : Nat} {b : Builder E D}
    {out : Option (Builder E D)} (hl : BuildLoop srt num b out) : ∀ b', out = some b' → b.config.maxSearch ≤ m →
      reinsertWidth b.config ≤ w → SlotBound m w b.layers → SlotBound m w b'.layers := by
  induction hl with
  | done b _ => rintro b' ⟨⟩ _ _ h; exact h
  | panic b _ _ => rintro b' ⟨⟩
  | round b b1 out _ h1 _ ih =>
    intro b' hb' hm hw h
    obtain ⟨e, h2⟩ := h.round hsrt hm hw h1
    exact ih b' hb' (e ▸ hm) (e ▸ hw) h2

/-- Without reinsertion the bound survives continuing the last layer. -/
theorem SlotBound.last {srt : List (Nat × D) → List (Nat × D)} (hsrt : IsSortByDist srt) {b b' : Builder E D} {num m : Nat}
    (hm : b.config.maxSearch ≤ m) (hw : reinsertWidth b.config = 0) (h : SlotBound m 0 b.layers)
    (hr : IndexLast srt b num (some b')) : b'.config = b.config ∧ SlotBound m 0 b'.layers := by
  obtain ⟨upper, layer, layer', h1, rfl, h3, h4⟩ := hr.links hsrt
  refine ⟨rfl, ?_⟩
  intro i l hl
  simp only at hl
  rw [List.getElem?_append] at hl
  split at hl
  · next hi => exact h i l (by rw [h1, List.getElem?_append_left hi]; exact hl)
  · next hi =>
    have hi' : i = upper.length := by
      have := (List.getElem?_eq_some_iff.1 hl).1
      simp at this; omega
    subst hi'
    simp at hl
    subst hl
    have h4' : usedSlots layer'.rows ≤ usedSlots layer.rows + 2 * m * (layer'.rows.length - layer.rows.length) +
        2 * reinsertWidth b.config * layer'.rows.length :=
      h4.trans (Nat.add_le_add_right (Nat.add_le_add_left (Nat.mul_le_mul_right _ (Nat.mul_le_mul_left _ hm)) _) _)
    have := h upper.length layer (by rw [h1]; simp)
    simp only [Nat.mul_zero, Nat.add_zero] at this
    have := slot_arith (i := 0) (w := 0) (by simpa using this) h3 h4' hw.le
    simpa using this

theorem SlotBound.build {srt : List (Nat × D) → List (Nat × D)} (hsrt : IsSortByDist srt) {b b' : Builder E D} {num m : Nat}
    (hm : b.config.maxSearch ≤ m) (hw : reinsertWidth b.config = 0) (h : SlotBound m 0 b.layers)
    (hb : BuildPartial srt b num (some b')) : SlotBound m 0 b'.layers := by
  generalize ho : some b' = out at hb
  cases hb with
  | zero _ => cases ho; exact h
  | fewer _ _ => cases ho
  | more _ _ _ => cases ho
  | fresh _ _ _ _ _ hl => exact SlotBound.loop hsrt hl b' ho.symm hm hw.le h
  | lastPanics _ _ _ _ _ => cases ho
  | «continue» b1 _ _ _ _ _ h1 hl =>
    obtain ⟨e, h2⟩ := h.last hsrt hm hw h1
    exact SlotBound.loop hsrt hl b' ho.symm (e ▸ hm) (e ▸ hw.le) h2

theorem usedSlots_map_le {α : Type} (l : List α) (f g : α → Row) (h : ∀ a ∈ l, slots (f a) ≤ slots (g a)) :
    usedSlots (l.map f) ≤ usedSlots (l.map g) := by
  apply forall₂_usedSlots
  rw [List.forall₂_map_left_iff, List.forall₂_map_right_iff, List.forall₂_same]
  exact h

theorem slots_reloadRow (w : Nat) (row : Row) : slots (reloadRow w ((sortIds (visible row)).take 255)) ≤ slots row := by
  unfold reloadRow
  refine (slots_padded _ _).trans (le_trans ?_ (visible_le_slots row))
  rw [List.length_take, List.length_take, (sortIds_perm _).length_eq]
  omega

theorem SlotBound.reloaded {b : Builder E D} {m w : Nat} (h : SlotBound m w b.layers) (config : BuildConfig D) (es : Elements E D) :
    SlotBound m w (b.reloadWith config es).layers := by
  intro i l hl
  unfold Builder.reloadWith at hl
  rw [List.getElem?_map] at hl
  obtain ⟨a, ha, rfl⟩ := Option.map_eq_some_iff.1 hl
  simp only [reloadLayer, List.length_map]
  refine le_trans ?_ (h i a ha)
  have := usedSlots_map_le a.rows _ id fun row _ => slots_reloadRow config.numNeighbors row
  simpa using this

theorem usedSlots_perm {l m : Rows} (h : l.Perm m) : usedSlots l = usedSlots m := (h.map slots).sum_eq

theorem SlotBound.renamed {b : Builder E D} (hb : BuilderInv b) {m w : Nat} (h : SlotBound m w b.layers) {order : List Nat}
    {es : Elements E D} (ho : InOrder order b.elements es) (hpre : LayerPreserving order (b.layers.map fun l => l.rows.length)) :
    SlotBound m w (b.renamed order es).layers := by
  intro i l hl
  unfold Builder.renamed at hl
  rw [List.getElem?_map] at hl
  obtain ⟨a, ha, rfl⟩ := Option.map_eq_some_iff.1 hl
  have hm := List.mem_of_getElem? ha
  have hp := hpre _ (List.mem_map.2 ⟨a, hm, rfl⟩)
  simp only
  rw [renRows_length ho.perm (hb.stack.layer a.rows (List.mem_map_of_mem hm)).2.2 hp rfl]
  refine le_trans ?_ (h i a ha)
  unfold renRows
  have h1 := usedSlots_map_le (order.take a.rows.length) (fun j =>
    let ids := (visible (a.rows.getD j [])).map (posIn order)
    ids ++ List.replicate (a.width - ids.length) UNUSED) (fun j => a.rows.getD j []) (fun j _ => by
      refine (slots_padded _ _).trans ?_
      rw [List.length_map]
      exact visible_le_slots _)
  refine h1.trans (le_of_eq ?_)
  rw [usedSlots_perm (hp.map _)]
  congr 1
  apply List.ext_getElem
  · simp
  · intro j h1 h2
    simp at h1
    simp [h1]

end Granne
