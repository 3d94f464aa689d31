import Verif.Model.Debug
import Verif.Proofs.Sequential
import Verif.Proofs.SetVec

/-! Builds with debug assertions against release builds. -/
namespace Granne

/-! ### Chunks and offsets -/

theorem ChunkRepr.getDebug {c : Chunk} {l : List Nat} (h : ChunkRepr c l) {i x : Nat} (hi : l[i]? = some x) :
    c.getDebug i = some x := by
  have hg := h.get hi
  have hlt := (List.getElem?_eq_some_iff.1 hi).1
  have := h.len
  unfold Chunk.get OFFSETS_PER_CHUNK at hg
  unfold Chunk.getDebug OFFSETS_PER_CHUNK
  rw [if_pos (by omega)] at hg ⊢
  rw [if_pos, hg]
  intro d hd
  rw [h.deltas, List.take_append_of_le_length (by rw [deltaEncodeFrom_length]; omega)] at hd
  have := deltas_lt h.steps d (List.mem_of_mem_take hd)
  unfold UNUSED_DELTA
  omega

theorem ChunkRepr.lastDebug {c : Chunk} {l : List Nat} (h : ChunkRepr c l) : c.lastDebug = c.last := by
  unfold Chunk.lastDebug Chunk.last
  rw [h.isEmpty]
  by_cases hn : l = []
  · simp [hn]
  · have hpos := List.length_pos_iff.2 hn
    rw [if_neg (by simpa using hn), if_neg (by simpa using hn), h.chunkLen]
    have e : l[l.length - 1]? = some l[l.length - 1] := List.getElem?_eq_getElem _
    rw [h.getDebug e, h.get e]

theorem ChunkRepr.pushDebug {c : Chunk} {l : List Nat} (h : ChunkRepr c l) (x : Nat) :
    c.pushDebug x = c.push x := by
  unfold Chunk.pushDebug Chunk.push
  rw [h.lastDebug]
  rfl

theorem ChunkRepr.getConsecutiveDebug {c : Chunk} {l : List Nat} (h : ChunkRepr c l) {i x : Nat}
    (hi : l[i]? = some x) : c.getConsecutiveDebug i = c.getConsecutive i := by
  unfold Chunk.getConsecutiveDebug Chunk.getConsecutive
  rw [h.getDebug hi, h.get hi]
  rfl

theorem OffRepr.last_chunk {o : Offsets} {offs : List Nat} (h : OffRepr o offs) :
    ∃ c l, o.getLast? = some c ∧ ChunkRepr c l := by
  induction h with
  | one c l hc => exact ⟨c, l, rfl, hc⟩
  | cons c l cs offs hc _ _ hcs ih =>
    obtain ⟨c', l', h1, h2⟩ := ih
    exact ⟨c', l', by rw [List.getLast?_cons, h1]; rfl, h2⟩

theorem OffRepr.pushDebug {o : Offsets} {offs : List Nat} (h : OffRepr o offs) (x : Nat) :
    o.pushDebug x = o.push x := by
  obtain ⟨c, l, h1, h2⟩ := h.last_chunk
  unfold Offsets.pushDebug Offsets.push
  rw [h1]
  simp only
  rw [h2.pushDebug, (ChunkRepr.new x).pushDebug]

/-- The chunk and the place in it of an offset. -/
theorem OffRepr.locate {o : Offsets} {offs : List Nat} (h : OffRepr o offs) {i x : Nat} (hi : offs[i]? = some x) :
    ∃ c l, o[i / 60]? = some c ∧ ChunkRepr c l ∧ l[i % 60]? = some x := by
  induction h generalizing i with
  | one c l hc =>
    have hlt := (List.getElem?_eq_some_iff.1 hi).1
    have := hc.len
    refine ⟨c, l, ?_, hc, ?_⟩
    · rw [Nat.div_eq_of_lt (by omega)]; rfl
    · rw [Nat.mod_eq_of_lt (by omega)]; exact hi
  | cons c l cs offs hc hl hne hcs ih =>
    by_cases hlt : i < 60
    · rw [List.getElem?_append_left (by omega)] at hi
      refine ⟨c, l, ?_, hc, ?_⟩
      · rw [Nat.div_eq_of_lt (by omega)]; rfl
      · rw [Nat.mod_eq_of_lt (by omega)]; exact hi
    · rw [List.getElem?_append_right (by omega), hl] at hi
      obtain ⟨c', l', h1, h2, h3⟩ := ih hi
      obtain ⟨k, rfl⟩ : ∃ k, i = k + 60 := ⟨i - 60, by omega⟩
      rw [Nat.add_sub_cancel] at h1 h3
      exact ⟨c', l', by rw [show (k + 60) / 60 = k / 60 + 1 by omega, List.getElem?_cons_succ]; exact h1, h2,
        by rw [show (k + 60) % 60 = k % 60 by omega]; exact h3⟩

theorem OffRepr.getDebug {o : Offsets} {offs : List Nat} (h : OffRepr o offs) {i x : Nat} (hi : offs[i]? = some x) :
    o.getDebug i = some x := by
  obtain ⟨c, l, h1, h2, h3⟩ := h.locate hi
  unfold Offsets.getDebug OFFSETS_PER_CHUNK
  rw [h1]
  exact h2.getDebug h3

theorem OffRepr.getConsecutiveDebug {o : Offsets} {offs : List Nat} (h : OffRepr o offs) {i x y : Nat}
    (hi : offs[i]? = some x) (hj : offs[i + 1]? = some y) : o.getConsecutiveDebug i = o.getConsecutive i := by
  unfold Offsets.getConsecutiveDebug Offsets.getConsecutive
  rw [h.getDebug hi, h.getDebug hj, h.get hi, h.get hj]
  obtain ⟨c, l, h1, h2, h3⟩ := h.locate hi
  unfold OFFSETS_PER_CHUNK
  rw [h1]
  simp only
  rw [h2.getConsecutiveDebug h3]

/-! ### The codec -/

theorem deltaDecodeDebug_encode {p : Nat} {l : List Nat} (hs : (p :: l).Pairwise (· ≤ ·)) (h : ∀ n ∈ l, n < 2 ^ 32) :
    deltaDecodeDebug p (deltaEncodeFrom p l) = some l := by
  induction l generalizing p with
  | nil => rfl
  | cons x t ih =>
    have hpx : p ≤ x := (List.pairwise_cons.1 hs).1 x (by simp)
    have hx := h x (by simp)
    have he : p + (x - p) = x := by omega
    rw [deltaEncodeFrom, deltaDecodeDebug, he, if_pos hx,
      ih (List.pairwise_cons.1 hs).2 fun m hm => h m (by simp [hm])]
    rfl

theorem vbDecodedBytes_encode (nums : List Nat) : vbDecodedBytes (vbEncode nums) nums.length = (vbEncode nums).length := by
  obtain ⟨h1, h2⟩ := vbControls_spec nums
  unfold vbDecodedBytes vbEncode
  simp only
  rw [← h1, List.take_left' rfl, h2, List.length_append]
  congr 1
  induction nums with
  | nil => rfl
  | cons n t ih =>
    rw [List.map_cons, List.map_cons, List.sum_cons, List.flatMap_cons, List.length_append, leBytes_length,
      ih (vbControls_spec t).1 (vbControls_spec t).2]

theorem decodeDebug_setEncode {l : List Nat} (hs : l.Pairwise (· ≤ ·)) (h : ∀ n ∈ l, n < 2 ^ 32)
    (hlen : l.length < 255) : decodeIntoDebug (setEncode l) = some l := by
  unfold setEncode
  simp only [if_neg (show ¬ l.length ≥ 255 by omega)]
  have hs' : (0 :: l).Pairwise (· ≤ ·) := List.pairwise_cons.2 ⟨by simp, hs⟩
  have hlen : (deltaEncodeFrom 0 l).length ≤ 255 := by rw [deltaEncodeFrom_length]; omega
  have hd := deltaEncodeFrom_lt (p := 0) h
  have hdd := deltaDecodeDebug_encode hs' h
  generalize deltaEncodeFrom 0 l = ds at *
  have hc : (UInt8.ofNat ds.length).toNat = ds.length := by simp; omega
  rw [decodeIntoDebug]
  simp only [hc]
  by_cases h1 : (vbEncode (ds ++ List.replicate (4 - ds.length) 0)).length ≥ 4 * ds.length
  · rw [if_pos h1, if_neg (by rw [flatMap_leBytes_length]; simp)]
    have := readRaw_flatMap ds hd []
    rw [List.append_nil] at this
    rw [this, hdd]
  · rw [if_neg h1, if_pos (by omega)]
    have hmax : max 4 ds.length = (ds ++ List.replicate (4 - ds.length) 0).length := by simp; omega
    rw [hmax, vbDecode_encode _ (by
      intro n hn
      rcases List.mem_append.1 hn with hn | hn
      · exact hd n hn
      · rw [List.eq_of_mem_replicate hn]; omega), vbDecodedBytes_encode]
    simp only
    rw [if_pos trivial, List.take_left' rfl, hdd]

theorem SetRepr.pushDebug {v : SetVec} {bs : List Bytes} (h : SetRepr v bs) (l : List Nat) :
    v.pushDebug l = if l.length < 255 then v.push l else none := by
  unfold SetVec.pushDebug setEncodeDebug
  rw [(sortIds_perm l).length_eq]
  by_cases hl : l.length < 255
  · rw [if_pos hl, if_pos hl]
    simp only
    rw [h.offsets.pushDebug]
    rfl
  · rw [if_neg hl, if_neg hl]

theorem SetRepr.pushAllDebug {v : SetVec} {bs : List Bytes} (h : SetRepr v bs) (ls : List (List Nat)) :
    v.pushAllDebug ls = if ∀ l ∈ ls, l.length < 255 then v.pushAll ls else none := by
  induction ls generalizing v bs with
  | nil => simp [SetVec.pushAllDebug, SetVec.pushAll]
  | cons l t ih =>
    rw [SetVec.pushAllDebug, h.pushDebug]
    by_cases hl : l.length < 255
    · rw [if_pos hl, SetVec.pushAll]
      obtain ⟨v1, h1, h2⟩ := h.pushRaw (setEncode_short (sortIds l))
      have h1 : v.push l = some v1 := h1
      rw [h1]
      simp only
      rw [ih h2]
      simp [hl]
    · rw [if_neg hl, if_neg fun hc => hl (hc l (by simp))]

theorem get_encodedDebug {v : SetVec} {bs : List Bytes} (h : SetRepr v bs) {i : Nat} {l : List Nat}
    (hi : bs[i]? = some (setEncode (sortIds l))) (hl : ∀ n ∈ l, n < 2 ^ 32) (hlen : l.length < 255) :
    v.getDebug i = some (sortIds l) := by
  have hr := h.getRaw hi
  obtain ⟨h1, h2⟩ := ends_get (a := 0) hi
  unfold SetVec.getRaw at hr
  unfold SetVec.getDebug
  rw [h.offsets.getConsecutiveDebug h1 h2]
  rw [h.offsets.getConsecutive h1 h2] at hr ⊢
  simp only at hr ⊢
  split at hr
  · next hc =>
    rw [if_pos hc, Option.some.inj hr, decodeDebug_setEncode (sortIds_sorted l)
      (fun n hn => hl n ((sortIds_perm l).mem_iff.1 hn)) (by rw [(sortIds_perm l).length_eq]; exact hlen)]
  · cases hr

/-! ### One thread -/

section
variable {E D : Type} [LinearOrder D]

theorem runRW_publishDebug (es : Elements E D) (srt : List (Nat × D) → List (Nat × D)) (idx : Nat)
    (neighbors : List (Nat × D)) (rows : Rows) :
    (publishDebug es srt idx neighbors).runRW rows = (publish es srt idx neighbors).runRW rows := by
  unfold publishDebug publish
  simp only [Prog.runRW]
  cases hr : rows[idx]? with
  | none => rfl
  | some row =>
    cases row with
    | nil => rfl
    | cons x t =>
      by_cases hx : x = UNUSED
      · simp [hx, Prog.runRW, hr]
      · simp [hx]

theorem runRW_bind_congr {α β : Type} {f g : α → Prog β} (hfg : ∀ a rows, (f a).runRW rows = (g a).runRW rows)
    (p : Prog α) : ∀ rows, (p.bind f).runRW rows = (p.bind g).runRW rows := by
  induction p with
  | ret a => exact fun rows => hfg a rows
  | fail => exact fun rows => rfl
  | nbrs i k ih =>
    intro rows
    simp only [Prog.bind, Prog.runRW]
    cases rows[i]? with
    | none => rfl
    | some row => exact ih _ rows
  | unused i k ih =>
    intro rows
    simp only [Prog.bind, Prog.runRW]
    cases rows[i]? with
    | none => rfl
    | some row =>
      cases row with
      | nil => rfl
      | cons x t => exact ih _ rows
  | upd i u k ih =>
    intro rows
    simp only [Prog.bind, Prog.runRW]
    cases rows[i]? with
    | none => rfl
    | some row =>
      simp only
      cases u row with
      | none => rfl
      | some row' => exact ih _

theorem runRW_indexElementDebug (cfg : LayerConfig D) (es : Elements E D) (srt : List (Nat × D) → List (Nat × D))
    (prev : List Graph) (layerLen idx : Nat) (rows : Rows) :
    (indexElementDebug cfg es srt prev layerLen idx).runRW rows =
      (indexElement cfg es srt prev layerLen idx).runRW rows := by
  unfold indexElementDebug indexElement
  cases es.dist? idx idx with
  | none => rfl
  | some d =>
    simp only
    split
    · rfl
    · cases es.data[idx]? with
      | none => rfl
      | some element =>
        simp only
        cases search prev es element 1 1 with
        | none => rfl
        | some r =>
          simp only
          refine runRW_bind_congr (fun found rows => ?_) _ rows
          cases selectNeighbors es (found.filter fun p => p.1 != idx) cfg.numNeighbors with
          | none => rfl
          | some neighbors =>
            simp only
            cases neighbors[cfg.numNeighbors / 2]? with
            | none => exact runRW_publishDebug ..
            | some p =>
              simp only
              split
              · rfl
              · exact runRW_publishDebug ..

theorem runSeq_congr {α : Type} (f g : α → Prog Unit) (h : ∀ a rows, (f a).runRW rows = (g a).runRW rows) :
    ∀ (l : List α) (rows : Rows), runSeq rows (l.map f) = runSeq rows (l.map g)
  | [], _ => rfl
  | a :: t, rows => by
    simp only [List.map_cons, runSeq, h]
    cases (g a).runRW rows with
    | none => rfl
    | some p => exact runSeq_congr f g h t _

/-! ### Many threads -/

/-- The program on the left is the one on the right with assertions about the first slot of row `o`. -/
inductive Asserting (o : Nat) : Prog Unit → Prog Unit → Prop
  | ret (a : Unit) : Asserting o (.ret a) (.ret a)
  | fail : Asserting o .fail .fail
  | nbrs (i : Nat) (k k' : List Nat → Prog Unit) : (∀ l, Asserting o (k l) (k' l)) →
      Asserting o (.nbrs i k) (.nbrs i k')
  | unused (i : Nat) (k k' : Bool → Prog Unit) : (∀ b, Asserting o (k b) (k' b)) →
      Asserting o (.unused i k) (.unused i k')
  | upd (i : Nat) (f : List Nat → Option (List Nat)) (k k' : Prog Unit) : Asserting o k k' →
      Asserting o (.upd i f k) (.upd i f k')
  | check (k : Bool → Prog Unit) (q : Prog Unit) : Asserting o (k true) q → k false = .fail →
      Asserting o (.unused o k) q

theorem Asserting.refl (o : Nat) : ∀ p : Prog Unit, Asserting o p p
  | .ret a => .ret a
  | .fail => .fail
  | .nbrs i k => .nbrs i k k fun l => Asserting.refl o (k l)
  | .unused i k => .unused i k k fun b => Asserting.refl o (k b)
  | .upd i f k => .upd i f k k (Asserting.refl o k)

theorem Asserting.bind {o : Nat} {α : Type} {f g : α → Prog Unit} (h : ∀ a, Asserting o (f a) (g a)) :
    ∀ p : Prog α, Asserting o (p.bind f) (p.bind g)
  | .ret a => h a
  | .fail => .fail
  | .nbrs i k => .nbrs i _ _ fun l => Asserting.bind h (k l)
  | .unused i k => .unused i _ _ fun b => Asserting.bind h (k b)
  | .upd i f k => .upd i f _ _ (Asserting.bind h k)

/-- The task `p` of element `o` is about to find its assertion violated. -/
def AssertionFails (o : Nat) (p : Prog Unit) (rows : Rows) : Prop :=
  ∃ k, p = .unused o k ∧ k false = .fail ∧ ¬ ∃ t, rows[o]? = some (UNUSED :: t)

theorem Asserting.step {o : Nat} {p q p' : Prog Unit} {rows rows' : Rows} (h : Asserting o p q)
    (hs : p.step rows = some (rows', p')) :
    (rows' = rows ∧ Asserting o p' q) ∨ (∃ q', q.step rows = some (rows', q') ∧ Asserting o p' q') ∨
      (AssertionFails o p rows ∧ p' = .fail) := by
  cases h with
  | ret a => simp [Prog.step] at hs
  | fail => simp [Prog.step] at hs
  | nbrs i k k' h =>
    right; left
    simp only [Prog.step, Option.some.injEq, Prod.mk.injEq] at hs ⊢
    obtain ⟨rfl, rfl⟩ := hs
    refine ⟨_, ⟨rfl, rfl⟩, ?_⟩
    cases rows[i]? with
    | none => exact .fail
    | some row => exact h _
  | unused i k k' h =>
    right; left
    simp only [Prog.step, Option.some.injEq, Prod.mk.injEq] at hs ⊢
    obtain ⟨rfl, rfl⟩ := hs
    refine ⟨_, ⟨rfl, rfl⟩, ?_⟩
    cases rows[i]? with
    | none => exact .fail
    | some row => cases row with
      | nil => exact .fail
      | cons x t => exact h _
  | upd i f k k' h =>
    right; left
    simp only [Prog.step] at hs ⊢
    cases hr : rows[i]? with
    | none =>
      simp only [hr, Option.some.injEq, Prod.mk.injEq] at hs ⊢
      exact ⟨_, ⟨hs.1, rfl⟩, hs.2 ▸ .fail⟩
    | some row =>
      simp only [hr] at hs ⊢
      cases hf : f row with
      | none =>
        simp only [hf, Option.some.injEq, Prod.mk.injEq] at hs ⊢
        exact ⟨_, ⟨hs.1, rfl⟩, hs.2 ▸ .fail⟩
      | some row' =>
        simp only [hf, Option.some.injEq, Prod.mk.injEq] at hs ⊢
        exact ⟨_, ⟨hs.1, rfl⟩, hs.2 ▸ h⟩
  | check k q h hk =>
    simp only [Prog.step, Option.some.injEq, Prod.mk.injEq] at hs
    obtain ⟨rfl, rfl⟩ := hs
    cases hr : rows[o]? with
    | none => exact Or.inr (Or.inr ⟨⟨k, rfl, hk, by simp [hr]⟩, rfl⟩)
    | some row => cases row with
      | nil => exact Or.inr (Or.inr ⟨⟨k, rfl, hk, by simp [hr]⟩, rfl⟩)
      | cons x t =>
        by_cases hx : x = UNUSED
        · subst hx; exact Or.inl ⟨rfl, by simpa using h⟩
        · exact Or.inr (Or.inr ⟨⟨k, rfl, hk, by simp [hr, hx]⟩,
            by show k (x == UNUSED) = .fail; rw [show (x == UNUSED) = false by simp [hx]]; exact hk⟩)

theorem Asserting.publish (es : Elements E D) (srt : List (Nat × D) → List (Nat × D)) (idx : Nat)
    (neighbors : List (Nat × D)) :
    Asserting idx (publishDebug es srt idx neighbors) (publish es srt idx neighbors) := by
  unfold publishDebug Granne.publish
  refine .unused _ _ _ fun b => ?_
  cases b with
  | false => exact Asserting.refl _ _
  | true => exact .check _ _ (Asserting.refl _ _) rfl

theorem Asserting.indexElement (cfg : LayerConfig D) (es : Elements E D) (srt : List (Nat × D) → List (Nat × D))
    (prev : List Graph) (layerLen idx : Nat) :
    Asserting idx (indexElementDebug cfg es srt prev layerLen idx) (indexElement cfg es srt prev layerLen idx) := by
  unfold indexElementDebug Granne.indexElement
  cases es.dist? idx idx with
  | none => exact .fail
  | some d =>
    simp only
    split
    · exact .ret _
    · cases es.data[idx]? with
      | none => exact .fail
      | some element =>
        simp only
        cases search prev es element 1 1 with
        | none => exact .fail
        | some r =>
          simp only
          refine Asserting.bind (fun found => ?_) _
          cases selectNeighbors es (found.filter fun p => p.1 != idx) cfg.numNeighbors with
          | none => exact .fail
          | some neighbors =>
            simp only
            cases neighbors[cfg.numNeighbors / 2]? with
            | none => exact Asserting.publish ..
            | some p =>
              simp only
              split
              · exact .ret _
              · exact Asserting.publish ..

/-- The same, for the tasks of a layer; task `i` is the one of element `ids[i]`. -/
structure ParAsserting (ids : List Nat) (s t : Par) : Prop where
  rows : s.rows = t.rows
  len : s.threads.length = t.threads.length
  lenIds : s.threads.length = ids.length
  threads : ∀ (i o : Nat) (p q : Prog Unit), ids[i]? = some o → s.threads[i]? = some p → t.threads[i]? = some q →
    Asserting o p q

/-- Some task is about to find its assertion violated. -/
def SomeAssertionFails (ids : List Nat) (s : Par) : Prop :=
  ∃ (i o : Nat) (p : Prog Unit), ids[i]? = some o ∧ s.threads[i]? = some p ∧ AssertionFails o p s.rows

theorem Par.Step.panicked {s s' : Par} (h : Par.Step s s') (hp : s.Panicked) : s'.Panicked := by
  obtain ⟨i, p, p', rows', h1, h2⟩ := h
  obtain ⟨q, hq, rfl⟩ := hp
  obtain ⟨j, hj⟩ := List.mem_iff_getElem?.1 hq
  have hne : i ≠ j := by
    rintro rfl
    rw [h1] at hj
    obtain rfl := Option.some.inj hj
    simp [Prog.step] at h2
  refine ⟨.fail, List.mem_of_getElem? (i := j) ?_, rfl⟩
  rw [List.getElem?_set_ne hne]; exact hj

theorem ParAsserting.step {ids : List Nat} {s s' t : Par} (h : ParAsserting ids s t) (hs : Par.Step s s') :
    (∃ t', Par.Steps t t' ∧ ParAsserting ids s' t') ∨ (SomeAssertionFails ids s ∧ s'.Panicked) := by
  cases hs with
  | mk i p p' rows' hp hst =>
    have hlt := (List.getElem?_eq_some_iff.1 hp).1
    have hid : ids[i]? = some (ids[i]'(by rw [← h.lenIds]; exact hlt)) := List.getElem?_eq_getElem _
    have hq : t.threads[i]? = some (t.threads[i]'(by rw [← h.len]; exact hlt)) := List.getElem?_eq_getElem _
    generalize ids[i]'(by rw [← h.lenIds]; exact hlt) = o at hid
    generalize t.threads[i]'(by rw [← h.len]; exact hlt) = q at hq
    rcases (h.threads i o p q hid hp hq).step hst with ⟨rfl, h1⟩ | ⟨q', h1, h2⟩ | ⟨h1, rfl⟩
    · refine Or.inl ⟨t, .refl _, h.rows, by simp [h.len], by simp [h.lenIds], fun j oj pj qj a1 a2 a3 => ?_⟩
      by_cases hij : i = j
      · subst hij
        rw [List.getElem?_set_self hlt] at a2
        rw [hid] at a1
        rw [hq] at a3
        obtain rfl := Option.some.inj a1
        obtain rfl := Option.some.inj a2
        obtain rfl := Option.some.inj a3
        exact h1
      · rw [List.getElem?_set_ne hij] at a2
        exact h.threads j oj pj qj a1 a2 a3
    · rw [h.rows] at h1
      refine Or.inl ⟨_, .tail (.refl _) (.mk t i q q' rows' hq h1), rfl, by simp [h.len], by simp [h.lenIds],
        fun j oj pj qj a1 a2 a3 => ?_⟩
      by_cases hij : i = j
      · subst hij
        simp only at a2 a3
        rw [List.getElem?_set_self hlt] at a2
        rw [List.getElem?_set_self (by rw [← h.len]; exact hlt)] at a3
        rw [hid] at a1
        obtain rfl := Option.some.inj a1
        obtain rfl := Option.some.inj a2
        obtain rfl := Option.some.inj a3
        exact h2
      · simp only at a2 a3
        rw [List.getElem?_set_ne hij] at a2 a3
        exact h.threads j oj pj qj a1 a2 a3
    · exact Or.inr ⟨⟨i, o, p, hid, hp, h1⟩, ⟨.fail, List.mem_of_getElem? (i := i) (List.getElem?_set_self hlt), rfl⟩⟩

theorem ParAsserting.steps {ids : List Nat} {s s' : Par} (hs : Par.Steps s s') {t : Par} (h : ParAsserting ids s t) :
    (∃ t', Par.Steps t t' ∧ ParAsserting ids s' t') ∨
      (s'.Panicked ∧ ∃ u, Par.Steps s u ∧ Par.Steps u s' ∧ SomeAssertionFails ids u) := by
  induction hs with
  | refl => exact Or.inl ⟨t, .refl _, h⟩
  | tail h1 h2 ih =>
    rcases ih with ⟨t1, h3, h4⟩ | ⟨h3, u, h4, h5, h6⟩
    · rcases h4.step h2 with ⟨t2, h5, h6⟩ | ⟨h5, h6⟩
      · exact Or.inl ⟨t2, h3.trans h5, h6⟩
      · exact Or.inr ⟨h6, _, h1, .tail (.refl _) h2, h5⟩
    · exact Or.inr ⟨h2.panicked h3, u, h4, .tail h5 h2, h6⟩

theorem ParAsserting.zip {ids : List Nat} {s t : Par} (h : ParAsserting ids s t) {i : Nat} {q : Prog Unit}
    (hi : t.threads[i]? = some q) : ∃ o p, s.threads[i]? = some p ∧ Asserting o p q := by
  have hlt := (List.getElem?_eq_some_iff.1 hi).1
  have h1 : i < s.threads.length := by rw [h.len]; exact hlt
  have h2 : i < ids.length := by rw [← h.lenIds]; exact h1
  exact ⟨ids[i], s.threads[i], List.getElem?_eq_getElem h1,
    h.threads i _ _ q (List.getElem?_eq_getElem h2) (List.getElem?_eq_getElem h1) hi⟩

theorem ParAsserting.done {ids : List Nat} {s t : Par} (h : ParAsserting ids s t) (hd : s.Done) : t.Done := by
  intro q hq
  obtain ⟨i, hi⟩ := List.mem_iff_getElem?.1 hq
  obtain ⟨o, p, hp, hpq⟩ := h.zip hi
  have := hd p (List.mem_of_getElem? hp)
  subst this
  cases hpq
  rfl

theorem ParAsserting.panicked {ids : List Nat} {s t : Par} (h : ParAsserting ids s t) (hd : s.Panicked) : t.Panicked := by
  obtain ⟨p, hp, rfl⟩ := hd
  obtain ⟨i, hi⟩ := List.mem_iff_getElem?.1 hp
  have h1 := (List.getElem?_eq_some_iff.1 hi).1
  have h2 : i < t.threads.length := by rw [← h.len]; exact h1
  have h3 : i < ids.length := by rw [← h.lenIds]; exact h1
  have := h.threads i _ _ _ (List.getElem?_eq_getElem h3) hi (List.getElem?_eq_getElem h2)
  generalize hq : t.threads[i] = q at this
  cases this
  exact ⟨.fail, hq ▸ List.getElem_mem h2, rfl⟩

theorem indexParDebug_asserting (cfg : LayerConfig D) (es : Elements E D) (srt : List (Nat × D) → List (Nat × D))
    (num : Nat) (prev : List Graph) (layer : Layer) (reinsert : Bool) :
    ParAsserting (indexStart num layer reinsert).2
      (indexParDebug cfg es srt num prev layer reinsert) (indexPar cfg es srt num prev layer reinsert) := by
  refine ⟨rfl, ?_, ?_, ?_⟩
  · simp [indexParDebug, indexPar]
  · simp [indexParDebug]
  · intro i o p q h1 h2 h3
    simp only [indexParDebug, indexPar, List.getElem?_map, h1, Option.map_some, Option.some.injEq] at h2 h3
    subst h2; subst h3
    exact Asserting.indexElement ..

theorem IndexElementsDebug.release {cfg : LayerConfig D} {es : Elements E D} {srt : List (Nat × D) → List (Nat × D)}
    {num : Nat} {prev : List Graph} {layer : Layer} {reinsert : Bool} {l : Layer}
    (h : IndexElementsDebug cfg es srt num prev layer reinsert (some l)) :
    IndexElements cfg es srt num prev layer reinsert (some l) := by
  generalize ho : some l = out at h
  cases h with
  | tooMany _ => cases ho
  | panic _ _ _ _ => cases ho
  | done s h1 h2 h3 =>
    rcases (indexParDebug_asserting cfg es srt num prev layer reinsert).steps h2 with ⟨t, h4, h5⟩ | ⟨⟨p, hp, h4⟩, _⟩
    · rw [h5.rows]
      exact .done t h1 h4 (h5.done h3)
    · rw [h3 p hp] at h4; cases h4

theorem IndexLastDebug.release {srt : List (Nat × D) → List (Nat × D)} {b b' : Builder E D} {num : Nat}
    (h : IndexLastDebug srt b num (some b')) : IndexLast srt b num (some b') := by
  generalize ho : some b' = out at h
  cases h with
  | noLayer _ => cases ho
  | nothing h1 h2 => exact .nothing h1 h2
  | firstPanics _ _ _ _ _ => cases ho
  | once upper layer layer' h1 h2 h3 h4 => exact .once upper layer layer' h1 h2 h3.release h4
  | twice upper layer layer' out h1 h2 h3 h4 h5 =>
    cases out with
    | none => cases ho
    | some l => exact .twice upper layer layer' (some l) h1 h2 h3.release h4 h5.release

theorem BuildLoopDebug.release {srt : List (Nat × D) → List (Nat × D)} {b b' : Builder E D} {num : Nat}
    (h : BuildLoopDebug srt num b (some b')) : BuildLoop srt num b (some b') := by
  generalize ho : some b' = out at h
  induction h with
  | done b h1 => exact .done b h1
  | panic _ _ _ => cases ho
  | round b b1 out h1 h2 _ ih => exact .round b b1 out h1 h2.release (ih ho)

theorem BuildPartialDebug.release {srt : List (Nat × D) → List (Nat × D)} {b b' : Builder E D} {num : Nat}
    (h : BuildPartialDebug srt b num (some b')) : BuildPartial srt b num (some b') := by
  generalize ho : some b' = out at h
  cases h with
  | zero h1 => exact .zero h1
  | fewer _ _ => cases ho
  | more _ _ _ => cases ho
  | fresh out h1 h2 h3 h4 h5 => subst ho; exact .fresh _ h1 h2 h3 h4 h5.release
  | lastPanics _ _ _ _ _ => cases ho
  | «continue» b1 out h1 h2 h3 h4 h5 h6 => subst ho; exact .continue b1 _ h1 h2 h3 h4 h5.release h6.release

theorem indexElementsSeqDebug_eq (cfg : LayerConfig D) (es : Elements E D) (srt : List (Nat × D) → List (Nat × D))
    (num : Nat) (prev : List Graph) (layer : Layer) (reinsert : Bool) :
    indexElementsSeqDebug cfg es srt num prev layer reinsert =
      indexElementsSeq cfg es srt num prev layer reinsert := by
  unfold indexElementsSeqDebug indexElementsSeq indexSeq indexParDebug indexPar
  split
  · simp only
    rw [runSeq_congr _ _ (fun a rows => runRW_indexElementDebug cfg es srt prev _ a rows)]
    cases runSeq (indexStart num layer reinsert).1
      ((indexStart num layer reinsert).2.map (indexElement cfg es srt prev (indexStart num layer reinsert).1.length)) <;> rfl
  · rfl

/-- On one thread, in order, is one of the ways many threads can go. -/
theorem indexElementsSeqDebug_outcome (cfg : LayerConfig D) (es : Elements E D)
    (srt : List (Nat × D) → List (Nat × D)) (num : Nat) (prev : List Graph) (layer : Layer) (reinsert : Bool) :
    IndexElementsDebug cfg es srt num prev layer reinsert
      (indexElementsSeqDebug cfg es srt num prev layer reinsert) := by
  unfold indexElementsSeqDebug
  split
  · next hle =>
    simp only
    obtain ⟨s, h1, h2⟩ := runSeq_inOrder (indexParDebug cfg es srt num prev layer reinsert).threads []
      (indexParDebug cfg es srt num prev layer reinsert).rows (by simp)
    rw [List.nil_append] at h1
    have hrun : runSeq (indexParDebug cfg es srt num prev layer reinsert).rows
      (indexParDebug cfg es srt num prev layer reinsert).threads = runSeq s.rows s.threads := h1.runSeq
    rw [hrun]
    rcases h2 with h2 | h2
    · rw [runSeq_done h2]
      exact .done s hle h1.steps h2
    · rw [runSeq_panicked h2]
      exact .panic s hle h1.steps h2
  · next hle => exact .tooMany hle

theorem indexLastSeq_debug (srt : List (Nat × D) → List (Nat × D)) (b : Builder E D) (maxNum : Nat) :
    IndexLastDebug srt b maxNum (indexLastSeq srt b maxNum) := by
  unfold indexLastSeq
  rcases Option.eq_none_or_eq_some b.layers.getLast? with hl | ⟨layer, hl⟩
  · rw [hl]
    exact .noLayer (List.getLast?_eq_none_iff.1 hl)
  · rw [hl]
    simp only
    have hsplit : b.layers = b.layers.dropLast ++ [layer] := (List.dropLast_append_getLast? layer hl).symm
    have hlast : lastLen b.layers = layer.rows.length := by simp [lastLen, hl]
    split
    · next hid =>
      exact .nothing (by rw [hsplit]; simp) (by rw [hlast]; exact hid)
    · next hid =>
      have hlt : layer.rows.length < b.ideal b.layers.length := by omega
      have h1 := indexElementsSeqDebug_outcome (b.layerConfig (b.ideal b.layers.length)) b.elements srt
        (min maxNum (b.ideal b.layers.length)) (b.layers.dropLast.map fun l => graphOf l.rows) layer false
      rw [indexElementsSeqDebug_eq] at h1
      split
      · next h =>
        rw [h] at h1
        exact .firstPanics _ layer hsplit hlt h1
      · next layer' h =>
        rw [h] at h1
        split
        · next hre =>
          refine .twice _ layer layer' _ hsplit hlt h1 hre ?_
          rw [← indexElementsSeqDebug_eq]
          exact indexElementsSeqDebug_outcome ..
        · next hre => exact .once _ layer layer' hsplit hlt h1 (by simpa using hre)

theorem BuildLoopSeq.debug {srt : List (Nat × D) → List (Nat × D)} {num : Nat} {b : Builder E D}
    {out : Option (Builder E D)} (h : BuildLoopSeq srt num b out) : BuildLoopDebug srt num b out := by
  induction h with
  | done b h => exact .done b h
  | panic b h1 h2 => exact .panic b h1 (h2 ▸ indexLastSeq_debug srt b.addLayer num)
  | round b b' out h1 h2 _ ih => exact .round b b' out h1 (h2 ▸ indexLastSeq_debug srt b.addLayer num) ih

theorem BuildPartialSeq.debug {srt : List (Nat × D) → List (Nat × D)} {num : Nat} {b : Builder E D}
    {out : Option (Builder E D)} (h : BuildPartialSeq srt b num out) : BuildPartialDebug srt b num out := by
  cases h with
  | zero h => exact .zero h
  | fewer h1 h2 => exact .fewer h1 h2
  | more h1 h2 h3 => exact .more h1 h2 h3
  | fresh _ h1 h2 h3 h4 h5 => exact .fresh _ h1 h2 h3 h4 h5.debug
  | lastPanics h1 h2 h3 h4 h5 => exact .lastPanics h1 h2 h3 h4 (h5 ▸ indexLastSeq_debug srt b num)
  | «continue» b' _ h1 h2 h3 h4 h5 h6 =>
    exact .continue b' _ h1 h2 h3 h4 (h5 ▸ indexLastSeq_debug srt b num) h6.debug

end

end Granne
