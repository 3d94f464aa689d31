import Verif.Proofs.Py
import Verif.Proofs.RwNew
import Verif.Props.EndToEnd

/-!
C61: a builder filled, built and saved in a Python session, and opened again.

`Saved .. wi w indexed vectors` (Spec/Py) describes the session; `w.Answers checked h q a`: asked `q`, object `h` answers
`a` in state `w` (no answer: the process panics).
-/
namespace Granne
open Spec

/-- Arguments of `GranneBuilder(..)`, where they are given: a multiplier above 1, between 1 and 255 neighbors, at least
one candidate in a search. -/
structure PyConfig.Good (c : PyConfig) : Prop where
  multiplier : ∀ m, c.layerMultiplier = some m → 1 < m
  neighbors : ∀ n, c.numNeighbors = some n → 1 ≤ n ∧ n ≤ 255
  maxSearch : ∀ n, c.maxSearch = some n → 1 ≤ n

theorem PyConfig.Good.config {c : PyConfig} (h : c.Good) : GoodConfig c.config ∧ c.config.numNeighbors ≤ 255 ∧
    c.config.eps = zeroThreshold := by
  refine ⟨⟨?_, ?_, C22_schedule_good _ ?_⟩, ?_, rfl⟩
  · show 1 ≤ c.numNeighbors.getD 30
    rcases Option.eq_none_or_eq_some c.numNeighbors with e | ⟨n, e⟩
    · simp [e]
    · rw [e]; exact (h.neighbors n e).1
  · show 1 ≤ c.maxSearch.getD 200
    rcases Option.eq_none_or_eq_some c.maxSearch with e | ⟨n, e⟩
    · simp [e]
    · rw [e]; exact h.maxSearch n e
  · rcases Option.eq_none_or_eq_some c.layerMultiplier with e | ⟨n, e⟩
    · rw [e]; norm_num
    · rw [e]; exact h.multiplier n e
  · show c.numNeighbors.getD 30 ≤ 255
    rcases Option.eq_none_or_eq_some c.numNeighbors with e | ⟨n, e⟩
    · simp [e]
    · rw [e]; exact (h.neighbors n e).2

variable {checked : Bool} {srt : List (Nat × ℝ) → List (Nat × ℝ)} {t : ElementType} {c : PyConfig}

/-! ### Filling and building -/

/-- C61. A builder created empty has as many elements as vectors were appended, whatever else was called. -/
theorem C61_num_elements {w0 w : World} {calls : List PyCall}
    (hr : PyRun checked srt w0 (.newBuilder t c none none :: calls) w)
    (hne : ∀ raw ∈ appendedTo w0.objects.length calls, raw ≠ []) (a : PyAnswer) :
    w.Answers checked w0.objects.length .numElements a ↔
      a = .num (appendedTo w0.objects.length calls).length := by
  obtain ⟨rows, v, layers, h1, h2⟩ := At.filled hr hne
  obtain ⟨d, hd, _⟩ := h2.shows
  have hlen : v.len = (appendedTo w0.objects.length calls).length := by rw [hd.len, h2.conv.length_eq]
  unfold World.Answers
  rw [h1]
  simp only [Option.some.injEq, exists_eq_left', PyObj.Answers, Layers.answer, Src.vectors, hlen]
  simp

/-- C61. `append` returns exactly if the vector can be converted, has the dimension of the vectors before, and there is
room. -/
theorem C61_append_returns {w0 w : World} {calls : List PyCall}
    (hr : PyRun checked srt w0 (.newBuilder t c none none :: calls) w)
    (hne : ∀ raw ∈ appendedTo w0.objects.length calls, raw ≠ []) (raw : List UInt32) (hraw : raw ≠ []) :
    (∃ w', PyStep checked srt w (.append w0.objects.length raw) w') ↔
      (∃ row, Convert t raw row) ∧ (∀ r ∈ appendedTo w0.objects.length calls, r.length = raw.length) ∧
      (appendedTo w0.objects.length calls).length < 4294967294 := by
  obtain ⟨rows, v, layers, h1, h2⟩ := At.filled hr hne
  generalize hraws : appendedTo w0.objects.length calls = raws at *
  obtain ⟨d, hd, hd2⟩ := h2.shows
  have hlen : v.len = raws.length := by rw [hd.len, h2.conv.length_eq]
  constructor
  · rintro ⟨w', hs⟩
    have ha := At.step (t := t) (c := c) ⟨h1, h2⟩ hs (by simp [appendedTo, hraw])
    cases hs with
    | append h raw o o' e1 e2 =>
      rw [h1] at e1; cases e1
      obtain ⟨v0, v', row, x1, x2, x3, x4, _⟩ := e2
      simp only [Src.vectors, Option.some.injEq] at x1
      subst x1
      refine ⟨⟨row, x2⟩, ?_, by unfold UNUSED at x3; omega⟩
      obtain ⟨rows', v'', layers', ⟨_, b⟩, _⟩ := ha
      obtain ⟨d', _, hd'⟩ := b.shows
      have := (hd' (by simp [appendedTo])).2
      simp only [appendedTo, if_true] at this
      intro r hr
      rw [this r (by simp [hr]), this raw (by simp)]
  · rintro ⟨⟨row, hrow⟩, hsame, hroom⟩
    have hp : ∃ v', v.push row = some v' := by
      by_cases h0 : raws = []
      · obtain rfl := h2.empty h0
        exact ⟨_, by simp [FixVec.push, FixVec.new]; rfl⟩
      · obtain ⟨d0, hdl⟩ := hd2 h0
        obtain ⟨r0, hr0⟩ := List.exists_mem_of_ne_nil _ h0
        obtain ⟨v', e, _⟩ := (hd.repr d0).push (x := row) (by rw [hrow.length, ← hsame r0 hr0, hdl r0 hr0])
        exact ⟨v', e⟩
    obtain ⟨v', hp⟩ := hp
    exact ⟨_, .append w _ raw _ _ h1 ⟨v, v', row, rfl, hrow, by unfold UNUSED; omega, hp, rfl⟩⟩

theorem toI8_range (x : F32) : -128 ≤ FloatOps.toI8 x ∧ FloatOps.toI8 x ≤ 127 := by
  cases x with
  | nan => exact ⟨by norm_num [FloatOps.toI8], by norm_num [FloatOps.toI8]⟩
  | inf s => cases s <;> simp [FloatOps.toI8]
  | fin a =>
    show -128 ≤ truncI8 a ∧ truncI8 a ≤ 127
    unfold truncI8
    omega

/-- C61. Every vector can be converted for `angular`; for `angular_int` every vector without NaN. -/
theorem C61_convertible (raw : List UInt32) :
    (∃ row, Convert .angular raw row) ∧
    ((∃ row, Convert .angularInt raw row) ↔ ∀ u ∈ raw, F32.ofBits u ≠ .nan) := by
  refine ⟨convertF32_total raw, ?_⟩
  have hnan : ∀ x : F32, FloatOps.isNan (FloatOps.abs x) = true ↔ x = .nan := by
    intro x
    cases x <;> simp [FloatOps.isNan, FloatOps.abs]
  have e : ((raw.map F32.ofBits).any fun a => FloatOps.isNan (FloatOps.abs a)) = true ↔ ∃ u ∈ raw, F32.ofBits u = .nan := by
    simp [hnan]
  constructor
  · rintro ⟨row, h⟩ u hu hn
    have h' : quantize (raw.map F32.ofBits) = some (List.map i8OfByte row) := h
    unfold quantize at h'
    rw [if_pos (e.2 ⟨u, hu, hn⟩)] at h'
    cases h'
  · intro h
    have hf : ¬ ((raw.map F32.ofBits).any fun a => FloatOps.isNan (FloatOps.abs a)) = true := by
      rw [e]; rintro ⟨u, hu, hn⟩; exact h u hu hn
    obtain ⟨q, hq⟩ : ∃ q, quantize (raw.map F32.ofBits) = some q := ⟨_, if_neg hf⟩
    have hrange : ∀ a ∈ q, -128 ≤ a ∧ a ≤ 127 := by
      unfold quantize at hq
      rw [if_neg hf] at hq
      cases hq
      intro a ha
      obtain ⟨x, _, rfl⟩ := List.mem_map.1 ha
      exact toI8_range _
    obtain ⟨row, hrow⟩ : ∃ row : List UInt8, row.map i8OfByte = q := by
      clear hq
      induction q with
      | nil => exact ⟨[], rfl⟩
      | cons a l ih =>
        obtain ⟨row, hr⟩ := ih fun b hb => hrange b (by simp [hb])
        obtain ⟨u, hu⟩ := exists_byte (hrange a (by simp)).1 (hrange a (by simp)).2
        exact ⟨u :: row, by simp [hu, hr]⟩
    exact ⟨row, show quantize (raw.map F32.ofBits) = some (row.map i8OfByte) by rw [hq, hrow]⟩

theorem fixWidth_len (layers : List Layer) : (Layers.fixWidth layers).answer .len = some (.num (lastLen layers)) := by
  unfold Layers.answer lastLen
  by_cases h : layers = []
  · subst h; simp [Layers.num]
  · have hl : (layers.getLast h) = layers[layers.length - 1]'(by have := List.length_pos_iff.2 h; omega) :=
      List.getLast_eq_getElem h
    have hpos := List.length_pos_iff.2 h
    simp only [Layers.num, List.length_eq_zero_iff, h, if_false, Layers.layerLen, List.getLast?_eq_some_getLast h]
    rw [List.getElem?_eq_getElem (by omega), hl]
    rfl

theorem builder_len {w : World} {h : Nat} {v : FixVec (Scal t)} {layers : List Layer} {cfg : BuildConfig ℝ}
    (ho : w.objects[h]? = some (.builder t (.owned v) layers cfg)) (a : PyAnswer) :
    w.Answers checked h .len a ↔ a = .num (lastLen layers) := by
  unfold World.Answers
  rw [ho]
  simp only [Option.some.injEq, exists_eq_left', PyObj.Answers, PyObj.layers, fixWidth_len]
  simp [eq_comm]

/-- C61. `build(num)` (all elements: `2^64 - 1`) with a number between the number of elements indexed so far and the
number of elements returns, under no schedule of the workers panics, and afterwards `len` is that number. -/
theorem C61_build (hsrt : IsSortByDist srt) (hgood : c.Good) {w0 w : World} {calls : List PyCall}
    (hr : PyRun checked srt w0 (.newBuilder t c none none :: calls) w)
    (hne : ∀ raw ∈ appendedTo w0.objects.length calls, raw ≠ []) (num indexed n : Nat)
    (hidx : w.Answers checked w0.objects.length .len (.num indexed))
    (hn : n = if num = 2 ^ 64 - 1 then (appendedTo w0.objects.length calls).length else num)
    (h1 : indexed ≤ n) (h2 : n ≤ (appendedTo w0.objects.length calls).length) :
    (∃ w', PyStep checked srt w (.build w0.objects.length num) w') ∧
    (∀ o, w.objects[w0.objects.length]? = some o → ¬ o.BuildPanics checked srt w.files num) ∧
    ∀ w', PyStep checked srt w (.build w0.objects.length num) w' →
      ∀ a, w'.Answers checked w0.objects.length .len a ↔ a = .num n := by
  obtain ⟨rows, v, layers, ho, hsh⟩ := At.filled hr hne
  obtain ⟨hc, _, _⟩ := hgood.config
  generalize hraws : appendedTo w0.objects.length calls = raws at *
  obtain ⟨d, hd, _⟩ := hsh.shows
  have hlen : v.len = raws.length := by rw [hd.len, hsh.conv.length_eq]
  have hrl : rows.length = raws.length := hsh.conv.length_eq.symm
  have hlast : indexed = lastLen layers := by simpa using (builder_len ho _).1 hidx
  have hb := hsh.reach.reachable
  have hlt := (List.getElem?_eq_some_iff.1 ho).1
  have hnum : (if num = 2 ^ 64 - 1 then v.len else num) = n := by rw [hn, hlen]
  refine ⟨?_, ?_, ?_⟩
  · obtain ⟨b', hb'⟩ := C18_has_outcome hsrt _ hb hc n (by simp only; omega) (by simp only; omega)
    exact ⟨_, .build w _ num _ _ ho ⟨v, b', rfl, by rw [hsh.elements, hnum]; exact hb', rfl⟩⟩
  · intro o ho'
    rw [ho] at ho'; cases ho'
    rintro (h | ⟨v', h, hp⟩)
    · cases h
    · cases h
      rw [hsh.elements, hnum] at hp
      exact C18_no_panic hsrt _ hb hc n (by simp only; omega) (by simp only; omega) hp
  · intro w' hs a
    cases hs with
    | build h' num o o' e1 e2 =>
      rw [ho] at e1; cases e1
      obtain ⟨v', b', e3, e4, rfl⟩ := e2
      cases e3
      rw [hsh.elements, hnum] at e4
      have hx : lastLen b'.layers = n := by
        by_cases h0 : n = 0
        · have := (C14_build_partial_exact hsrt _ hb hc n _ e4).1 h0
          cases this
          simp only; omega
        · obtain ⟨b'', e, hx, _⟩ := (C14_build_partial_exact hsrt _ hb hc n _ e4).2.2 h0 (by simp only; omega)
            (by simp only; omega)
          cases e; exact hx
      rw [builder_len (v := v) (layers := b'.layers) (cfg := c.config) (by simp only; rw [List.getElem?_set_self hlt]), hx]

/-! ### Saving and opening -/

section
variable {h : Nat} {ip ep : String} {wi w : World} {indexed vectors : List (List UInt32)}

theorem FilesHave.small {f : Bytes} {rows layers d v} (hsrt : IsSortByDist srt) (hc : GoodConfig c.config)
    (hf : FilesHave checked srt t c w.files ip ep vectors rows layers d v f) : f.length < 2 ^ 64 := by
  have := C06_builder_size hsrt _ hf.reach.reachable hc [] f 0 hf.saved
  simp only [List.length_nil] at this
  omega

/-- C61. Index and elements saved from a builder can be opened; the opened object has the graph the builder had when the
index was saved, and the vectors appended until the elements were saved. -/
theorem C61_open (hsrt : IsSortByDist srt) (hgood : c.Good) (hs : Saved checked srt t c h ip ep wi w indexed vectors)
    (hok : Sensible vectors) :
    (∃ w', PyStep checked srt w (.openIndex t ip ep) w') ∧
    ∀ w', PyStep checked srt w (.openIndex t ip ep) w' →
      SameGraph checked wi h w' w.objects.length ∧ HasElements checked w' w.objects.length t vectors := by
  obtain ⟨rowsi, vi, layers, rows, d, v, f, ⟨hoi, _⟩, hf⟩ := hs.facts fun raw hr => (hok.proper raw hr).1
  obtain ⟨hc, h255, _⟩ := hgood.config
  have hflen := hf.small hsrt hc
  have hopen := hf.openIndex hsrt hc h255 hflen hok.some_vector fun raw hr => (hok.proper raw hr).2
  obtain ⟨_, vs, gs, hl, hsame, _⟩ := hf.loaded hsrt hc h255 hflen
  have hsrc := hf.srcLayers hl
  have hvec := (hf.openVectors hok.some_vector fun raw hr => (hok.proper raw hr).2).2
  refine ⟨⟨_, .openIndex w t ip ep _ hopen⟩, fun w' hst => ?_⟩
  cases hst with
  | openIndex t ip ep o ho =>
    rw [hopen] at ho; cases ho
    have hob : (w.objects ++ [PyObj.index t (.mapped ip f.length) (.mapped ep v.bytes.length)])[w.objects.length]? =
        some (.index t (.mapped ip f.length) (.mapped ep v.bytes.length)) := by simp
    have ans : ∀ (q : PyQuery) (a : PyAnswer), (∀ i, q ≠ .element i) → (∀ r m k, q ≠ .search r m k) →
        (World.Answers checked ⟨w.files, w.objects ++ [.index t (.mapped ip f.length) (.mapped ep v.bytes.length)]⟩
          w.objects.length q a ↔ (Layers.compressed vs).answer q = some a) := by
      intro q a h1 h2
      unfold World.Answers
      simp only [hob, Option.some.injEq, exists_eq_left', PyObj.Answers, PyObj.layers, hsrc]
      cases q with
      | element i => exact absurd rfl (h1 i)
      | search r m k => exact absurd rfl (h2 r m k)
      | _ => simp
    have ansB : ∀ (q : PyQuery) (a : PyAnswer), q ≠ .numElements →
        (wi.Answers checked h q a ↔ (Layers.fixWidth layers).answer q = some a) := by
      intro q a h1
      unfold World.Answers
      simp only [hoi, Option.some.injEq, exists_eq_left', PyObj.Answers, PyObj.layers]
      cases q with
      | numElements => exact absurd rfl h1
      | _ => simp
    refine ⟨⟨fun a => ?_, fun a => ?_, fun l a => ?_, fun i l ns hn a => ?_⟩, rows, hf.conv, fun i a => ?_⟩
    · rw [ansB _ _ (by simp), ans _ _ (by simp) (by simp)]
      simp only [Layers.answer, hsame.num, hsame.layerLen]
    · rw [ansB _ _ (by simp), ans _ _ (by simp) (by simp)]
      simp only [Layers.answer, hsame.num]
    · rw [ansB _ _ (by simp), ans _ _ (by simp) (by simp)]
      simp only [Layers.answer, hsame.layerLen]
    · rw [ansB _ _ (by simp)] at hn
      rw [ans _ _ (by simp) (by simp)]
      cases l with
      | some l =>
        simp only [Layers.answer, Option.map_eq_some_iff, PyAnswer.ids.injEq, exists_eq_right] at hn ⊢
        rw [hsame.neighbors hn]
        simp [sortIds, eq_comm]
      | none =>
        simp only [Layers.answer, hsame.num] at hn ⊢
        split at hn
        · cases hn
        · next h0 =>
          rw [if_neg h0]
          simp only [Option.map_eq_some_iff, PyAnswer.ids.injEq, exists_eq_right] at hn
          rw [hsame.neighbors hn]
          simp [sortIds, eq_comm]
    · unfold World.Answers
      simp only [hob, Option.some.injEq, exists_eq_left', PyObj.Answers, PyObj.layers, Layers.answer, hvec]
      have hd0 := (hf.dim hok.some_vector).1
      have hget := (hf.shows.repr hd0).get_eq i
      simp [hget]

/-- The components of a vector as real numbers. -/
def Decodes (raw : List UInt32) (x : List ℝ) : Prop := raw.map F32.ofBits = x.map F32.fin

/-- What a search of the opened object computes. -/
theorem opened_search (hsrt : IsSortByDist srt) (hgood : c.Good) (hs : Saved checked srt t c h ip ep wi w indexed vectors)
    (hok : Sensible vectors) {w' : World} (hw : PyStep checked srt w (.openIndex t ip ep) w') :
    ∃ (rows : List (List (Scal t))) (layers : List Layer),
      List.Forall₂ (Convert t) vectors rows ∧
      ReachableBy srt (fun c' => c' = c.config) (⟨⟨rows, rowDist checked t⟩, layers, c.config⟩ : Builder (List (Scal t)) ℝ) ∧
      (∀ a, wi.Answers checked h .len a ↔ a = .num (lastLen layers)) ∧
      ∀ (raw : List UInt32) (maxSearch k : Nat) (a : PyAnswer),
        w'.Answers checked w.objects.length (.search raw maxSearch k) a ↔ ∃ row r, Convert t raw row ∧
          search (layers.map fun l => graphOf l.rows) (⟨rows, rowDist checked t⟩ : Elements (List (Scal t)) ℝ) row
            maxSearch k = some r ∧ a = .found r := by
  obtain ⟨rowsi, vi, layers, rows, d, v, f, ⟨hoi, _⟩, hf⟩ := hs.facts fun raw hr => (hok.proper raw hr).1
  obtain ⟨hc, h255, _⟩ := hgood.config
  have hflen := hf.small hsrt hc
  have hopen := hf.openIndex hsrt hc h255 hflen hok.some_vector fun raw hr => (hok.proper raw hr).2
  obtain ⟨_, vs, gs, hl, _, hgs, hsearch⟩ := hf.loaded hsrt hc h255 hflen
  have hsrc := hf.srcLayers hl
  have hvec := (hf.openVectors hok.some_vector fun raw hr => (hok.proper raw hr).2).2
  refine ⟨rows, layers, hf.conv, hf.reach, builder_len hoi, fun raw maxSearch k a => ?_⟩
  cases hw with
  | openIndex t ip ep o ho =>
    rw [hopen] at ho; cases ho
    have hob : (w.objects ++ [PyObj.index t (.mapped ip f.length) (.mapped ep v.bytes.length)])[w.objects.length]? =
        some (.index t (.mapped ip f.length) (.mapped ep v.bytes.length)) := by simp
    unfold World.Answers
    simp only [hob, Option.some.injEq, exists_eq_left', PyObj.Answers, PyObj.layers, Layers.answer, hvec, hsrc]
    constructor
    · rintro (hx | hx)
      · simp at hx
      · obtain ⟨L, gs', v', row, r, e1, e2, e3, h1, h2, h3⟩ := hx
        subst e1 e3
        rw [hgs] at e2; cases e2
        rw [vecElements_eq hf.shows, hsearch] at h2
        exact ⟨row, r, h1, h2, h3⟩
    · rintro ⟨row, r, h1, h2, h3⟩
      refine Or.inr ⟨_, gs, v, row, r, rfl, hgs, rfl, h1, ?_, h3⟩
      rw [vecElements_eq hf.shows, hsearch]
      exact h2

/-- Search results `r` (at most `k`) for the query `q` among the vectors `xs`: every distance is 1 minus the cosine up to
`tol`, the order is that of the cosines up to `2 * tol`, nothing is returned twice, and no zero vectors (except possibly
element 0). -/
structure GoodResults (xs : List (List ℝ)) (q : List ℝ) (tol : ℝ) (k : Nat) (r : List (Nat × ℝ)) : Prop where
  count : r.length ≤ k
  distinct : (r.map Prod.fst).Nodup
  near : ∀ p ∈ r, ∃ x, xs[p.1]? = some x ∧ |p.2 - (1 - cosine x q)| ≤ tol ∧ (p.1 ≠ 0 → ¬ ZeroVector x)
  ordered : r.Pairwise fun p p' => ∀ x x', xs[p.1]? = some x → xs[p'.1]? = some x' → cosine x' q ≤ cosine x q + 2 * tol

theorem opened_results {E : Type} {b : Builder E ℝ} (hsrt : IsSortByDist srt) (hb : Reachable srt b)
    (hc : GoodConfig b.config) {xs : List (List ℝ)} {q : E} {rq : List ℝ} {tol : ℝ}
    (ha : Approximates b.elements xs q rq tol)
    (hz : ∀ i x, xs[i]? = some x → ZeroVector x → IsZero b.elements b.config.eps i) {maxSearch k : Nat}
    (hms : 1 ≤ maxSearch) :
    ∃ r, search b.graphs b.elements q maxSearch k = some r ∧ GoodResults xs rq tol k r ∧
      (0 < lastLen b.layers → 1 ≤ k → r ≠ []) := by
  obtain ⟨r, h1, h2, h3⟩ := approx_search hsrt b hb hc xs q rq tol ha hz maxSearch k hms
  obtain ⟨_, s2, _, s4⟩ := C01_search_sound b.graphs b.elements q maxSearch k r h1
  refine ⟨r, h1, ⟨by omega, s2, h2, h3⟩, fun hl hk => ?_⟩
  obtain ⟨r', e1, e2⟩ := C02_search_no_panic b.graphs b.elements (C16_index_wellformed hsrt b hb hc) q maxSearch k hms
  rw [h1] at e1; cases e1
  refine e2 (fun hx => ?_) hk
  have : b.layers = [] := by simpa [Builder.graphs] using hx
  rw [this] at hl
  simp [lastLen] at hl

theorem forall₂_at {α β : Type} {R : α → β → Prop} {l : List α} {m : List β} (h : List.Forall₂ R l m) {i : Nat} {b : β}
    (hb : m[i]? = some b) : ∃ a, l[i]? = some a ∧ R a b := by
  rcases forall₂_get? h i with ⟨_, e⟩ | ⟨a, b', e1, e2, hr⟩
  · rw [hb] at e; cases e
  · rw [hb] at e2; cases e2; exact ⟨a, e1, hr⟩

noncomputable def f32s (row : List (Scal .angular)) : List F32 := List.map (α := UInt32) F32.ofBits row

def i8s (row : List (Scal .angularInt)) : List Int := List.map (α := UInt8) i8OfByte row

theorem stored_of_convert {raw : List UInt32} {row : List (Scal .angular)} {x : List ℝ} (h1 : Convert .angular raw row)
    (h2 : Decodes raw x) : f32s row = storedF32 x := by
  have h1' : f32s row = normalize (raw.map F32.ofBits) := h1
  rw [h1', h2, storedF32]

theorem angular_rows {rows : List (List (Scal .angular))} {xs : List (List ℝ)}
    (hconv : List.Forall₂ (Convert .angular) vectors rows) (hx : List.Forall₂ Decodes vectors xs) :
    List.Forall₂ (fun row x => f32s row = storedF32 x) rows xs := by
  induction hx generalizing rows with
  | nil => cases hconv; exact .nil
  | cons h1 _ ih =>
    cases hconv with
    | cons h2 h3 => exact .cons (stored_of_convert h2 h1) (ih h3)

theorem angular_approx {rows : List (List (Scal .angular))} {xs : List (List ℝ)} {dim : Nat}
    (hr : List.Forall₂ (fun row x => f32s row = storedF32 x) rows xs) (hin : F32Input xs dim)
    {row : List (Scal .angular)} {q : List ℝ} (hrow : f32s row = storedF32 q) (hq : q.length = dim)
    (hqr : InRange q) :
    Approximates (⟨rows, rowDist checked .angular⟩ : Elements (List (Scal .angular)) ℝ) xs row q zeroThreshold := by
  refine ⟨hr.length_eq, fun i e x he hx => ?_⟩
  obtain ⟨e', h1, h2⟩ := forall₂_at hr hx
  rw [show rows[i]? = some e from he] at h1
  cases h1
  have hm := List.mem_of_getElem? hx
  have := (C53_distance x q (by rw [hin.length x hm, hq]) (by rw [hin.length x hm]; exact hin.small) (hin.range x hm) hqr
    []).2.2
  show |((angularDist (f32s e) (f32s row)).getD .nan).val - _| ≤ _
  rw [h2, hrow]
  exact this.le

theorem angular_zero {rows : List (List (Scal .angular))} {xs : List (List ℝ)} {dim : Nat}
    (hr : List.Forall₂ (fun row x => f32s row = storedF32 x) rows xs) (hin : F32Input xs dim)
    (i : Nat) : IsZero (⟨rows, rowDist checked .angular⟩ : Elements (List (Scal .angular)) ℝ) zeroThreshold i ↔
      ∃ x, xs[i]? = some x ∧ ZeroVector x := by
  rw [← C53_skipped_iff_zero xs dim hin i]
  unfold IsZero
  have : (⟨rows, rowDist checked .angular⟩ : Elements (List (Scal .angular)) ℝ).dist? i i =
      (angularElements (xs.map storedF32)).dist? i i := by
    unfold Elements.dist? Elements.distTo
    simp only [angularElements, List.getElem?_map]
    rcases forall₂_get? hr i with ⟨e1, e2⟩ | ⟨a, b, e1, e2, h⟩
    · rw [e1, e2]; rfl
    · rw [e1, e2]
      show some ((angularDist (f32s a) (f32s a)).getD .nan).val = _
      rw [h]
      rfl
  rw [this]

/-- C61. Searching an opened `angular` index for a vector of the right dimension (a modest dimension; all vectors zero
or with norms between `2^-50` and `2^63`) returns, and whatever it returns are good results in terms of the cosines of
the vectors as they were appended. -/
theorem C61_search_angular (hsrt : IsSortByDist srt) (hgood : c.Good)
    (hs : Saved checked srt .angular c h ip ep wi w indexed vectors) (hok : Sensible vectors)
    (xs : List (List ℝ)) (hx : List.Forall₂ Decodes vectors xs) (dim : Nat) (hin : F32Input xs dim)
    (w' : World) (hw : PyStep checked srt w (.openIndex .angular ip ep) w')
    (raw : List UInt32) (q : List ℝ) (hraw : Decodes raw q) (hq : q.length = dim) (hqr : InRange q)
    (maxSearch k : Nat) (hms : 1 ≤ maxSearch) :
    (∃ a, w'.Answers checked w.objects.length (.search raw maxSearch k) a) ∧
    ∀ a, w'.Answers checked w.objects.length (.search raw maxSearch k) a →
      ∃ r, a = .found r ∧ GoodResults xs q zeroThreshold k r ∧
        (∀ n, wi.Answers checked h .len (.num n) → 0 < n → 1 ≤ k → r ≠ []) := by
  obtain ⟨rows, layers, hconv, hreach, hlen, hans⟩ := opened_search hsrt hgood hs hok hw
  obtain ⟨hc, _, heps⟩ := hgood.config
  have hr := angular_rows hconv hx
  have key : ∀ row : List (Scal .angular), Convert .angular raw row → ∃ r,
      search (layers.map fun l => graphOf l.rows) (⟨rows, rowDist checked .angular⟩ : Elements (List (Scal .angular)) ℝ)
        row maxSearch k = some r ∧ GoodResults xs q zeroThreshold k r ∧ (0 < lastLen layers → 1 ≤ k → r ≠ []) := by
    intro row hrow
    exact opened_results hsrt hreach.reachable hc
      (angular_approx hr hin (stored_of_convert hrow hraw) hq hqr)
      (fun i x hx hz => by
        show IsZero (⟨rows, rowDist checked .angular⟩ : Elements (List (Scal .angular)) ℝ) c.config.eps i
        rw [heps]; exact (angular_zero hr hin i).2 ⟨x, hx, hz⟩) hms
  constructor
  · obtain ⟨row, hrow⟩ := (C61_convertible raw).1
    obtain ⟨r, h1, _⟩ := key row hrow
    exact ⟨_, (hans raw maxSearch k _).2 ⟨row, r, hrow, h1, rfl⟩⟩
  · intro a ha
    obtain ⟨row, r, h1, h2, rfl⟩ := (hans raw maxSearch k a).1 ha
    obtain ⟨r', h3, h4, h5⟩ := key row h1
    rw [h2] at h3; cases h3
    refine ⟨r, rfl, h4, fun n hn h0 hk => h5 ?_ hk⟩
    have := (hlen _).1 hn
    simp only [PyAnswer.num.injEq] at this
    omega

/-- C61, C50. With at most `num_neighbors / 4 + 1` indexed vectors (8 by default) and `max_search` at least their number,
a search of an opened `angular` index misses nothing: if an indexed vector that is not zero is not among the results,
then there are `k` of them, and the cosine of none is smaller by more than `200 * f32::EPSILON`. -/
theorem C61_small_exact_angular (hsrt : IsSortByDist srt) (hgood : c.Good)
    (hs : Saved checked srt .angular c h ip ep wi w indexed vectors) (hok : Sensible vectors)
    (xs : List (List ℝ)) (hx : List.Forall₂ Decodes vectors xs) (dim : Nat) (hin : F32Input xs dim)
    (w' : World) (hw : PyStep checked srt w (.openIndex .angular ip ep) w') (n : Nat)
    (hn : wi.Answers checked h .len (.num n)) (hn0 : 0 < n) (hn4 : n ≤ c.numNeighbors.getD 30 / 2 / 2 + 1)
    (raw : List UInt32) (q : List ℝ) (hraw : Decodes raw q) (hq : q.length = dim) (hqr : InRange q)
    (maxSearch k : Nat) (hms : n ≤ maxSearch) (r : List (Nat × ℝ))
    (ha : w'.Answers checked w.objects.length (.search raw maxSearch k) (.found r)) :
    ∀ j x, j < n → xs[j]? = some x → ¬ ZeroVector x → j ∉ r.map Prod.fst →
      r.length = k ∧ ∀ p ∈ r, ∃ y, xs[p.1]? = some y ∧ cosine x q ≤ cosine y q + 2 * zeroThreshold := by
  obtain ⟨rows, layers, hconv, hreach, hlen, hans⟩ := opened_search hsrt hgood hs hok hw
  obtain ⟨hc, h255, heps⟩ := hgood.config
  have hr := angular_rows hconv hx
  obtain ⟨row, r', h1, h2, h3⟩ := (hans raw maxSearch k _).1 ha
  cases h3
  have hnl : n = lastLen layers := by simpa using (hlen _).1 hn
  subst hnl
  have hnn : c.config.numNeighbors = c.numNeighbors.getD 30 := rfl
  have hsmall : SmallCollection srt (⟨⟨rows, rowDist checked .angular⟩, layers, c.config⟩ : Builder (List (Scal .angular)) ℝ) := by
    refine ⟨by simp only; omega, hreach.mono fun c' hc' => ?_⟩
    subst hc'
    simp only at *
    exact ⟨hc, by omega, Or.inr (by omega)⟩
  obtain ⟨r', e1, _, e3⟩ := approx_small hsrt _ hsmall xs row q zeroThreshold
    (angular_approx hr hin (stored_of_convert h1 hraw) hq hqr) (fun i x hx hnz => by
      show ¬ IsZero (⟨rows, rowDist checked .angular⟩ : Elements (List (Scal .angular)) ℝ) c.config.eps i
      rw [heps, angular_zero hr hin i]
      rintro ⟨y, hy, hz⟩
      rw [hx] at hy; cases hy
      exact hnz hz) hn0 maxSearch k hms
  rw [show search (Builder.graphs ⟨⟨rows, rowDist checked .angular⟩, layers, c.config⟩) _ row maxSearch k = some r from h2] at e1
  cases e1
  exact e3

/-! ### Quantised vectors -/

/-- The quantised form of a vector. -/
def Quantised (raw : List UInt32) (x : List Int) : Prop := quantize (raw.map F32.ofBits) = some x

theorem i8s_of_convert {raw : List UInt32} {row : List (Scal .angularInt)} {x : List Int}
    (h1 : Convert .angularInt raw row) (h2 : Quantised raw x) : i8s row = x := by
  have h1' : quantize (raw.map F32.ofBits) = some (i8s row) := h1
  unfold Quantised at h2
  rw [h2] at h1'
  exact (Option.some.inj h1').symm

theorem int_rows {rows : List (List (Scal .angularInt))} {xs : List (List Int)}
    (hconv : List.Forall₂ (Convert .angularInt) vectors rows) (hx : List.Forall₂ Quantised vectors xs) :
    List.Forall₂ (fun row x => i8s row = x) rows xs := by
  induction hx generalizing rows with
  | nil => cases hconv; exact .nil
  | cons h1 _ ih =>
    cases hconv with
    | cons h2 h3 =>
      refine .cons ?_ (ih h3)
      exact (i8s_of_convert h2 h1)

theorem int_range {row : List (Scal .angularInt)} {x : List Int} (h : i8s row = x) : ∀ a ∈ x, IsI8 a := by
  subst h
  intro a ha
  obtain ⟨u, _, rfl⟩ := List.mem_map.1 (show a ∈ List.map (α := UInt8) i8OfByte row from ha)
  exact i8OfByte_range u

theorem int_input {rows : List (List (Scal .angularInt))} {xs : List (List Int)} {dim : Nat} (hdim : dim ≤ 131071)
    (hr : List.Forall₂ (fun row x => i8s row = x) rows xs) (hl : ∀ x ∈ xs, x.length = dim) :
    I8Input xs dim := by
  refine ⟨hdim, hl, fun x hx => ?_⟩
  obtain ⟨i, hi, rfl⟩ := List.getElem_of_mem hx
  obtain ⟨row, _, h⟩ := forall₂_at hr (List.getElem?_eq_getElem hi)
  exact int_range h

theorem int_approx {rows : List (List (Scal .angularInt))} {xs : List (List Int)} {dim : Nat}
    (hr : List.Forall₂ (fun row x => i8s row = x) rows xs) (hin : I8Input xs dim)
    {row : List (Scal .angularInt)} {q : List Int} (hrow : i8s row = q) (hq : q.length = dim) :
    Approximates (⟨rows, rowDist checked .angularInt⟩ : Elements (List (Scal .angularInt)) ℝ) (xs.map toReal) row (toReal q)
      i8Error := by
  refine ⟨by rw [List.length_map]; exact hr.length_eq, fun i e x he hx => ?_⟩
  simp only [List.getElem?_map, Option.map_eq_some_iff] at hx
  obtain ⟨y, hy, rfl⟩ := hx
  obtain ⟨e', h1, h2⟩ := forall₂_at hr hy
  rw [show rows[i]? = some e from he] at h1
  cases h1
  have hm := List.mem_of_getElem? hy
  have := (C54_distance checked y q (hin.range y hm) (int_range hrow) (by rw [hin.length y hm, hq])
    (by rw [hin.length y hm]; exact hin.small) []).2.2
  show |((angularIntDist (F := F32) checked (i8s e) (i8s row)).getD .nan).val - _| ≤ _
  rw [h2, hrow]
  exact this

theorem int_zero {rows : List (List (Scal .angularInt))} {xs : List (List Int)} {dim : Nat}
    (hr : List.Forall₂ (fun row x => i8s row = x) rows xs) (hin : I8Input xs dim)
    (i : Nat) : IsZero (⟨rows, rowDist checked .angularInt⟩ : Elements (List (Scal .angularInt)) ℝ) zeroThreshold i ↔
      ∃ x, xs[i]? = some x ∧ ∀ a ∈ x, a = 0 := by
  rw [← C54_skipped_iff_zero checked xs dim hin i]
  unfold IsZero
  have : (⟨rows, rowDist checked .angularInt⟩ : Elements (List (Scal .angularInt)) ℝ).dist? i i =
      (angularIntElements checked xs).dist? i i := by
    unfold Elements.dist? Elements.distTo
    simp only [angularIntElements]
    rcases forall₂_get? hr i with ⟨e1, e2⟩ | ⟨a, b, e1, e2, h⟩
    · rw [e1, e2]
    · rw [e1, e2]
      show some ((angularIntDist (F := F32) checked (i8s a) (i8s a)).getD .nan).val = _
      rw [h]
      rfl
  rw [this]

/-- C61. Searching an opened `angular_int` index for a vector of the right dimension (up to 131071) without NaN returns,
and whatever it returns are good results in terms of the cosines of the quantised vectors (for what quantisation costs
see `C54_quantisation_error`). -/
theorem C61_search_angular_int (hsrt : IsSortByDist srt) (hgood : c.Good)
    (hs : Saved checked srt .angularInt c h ip ep wi w indexed vectors) (hok : Sensible vectors)
    (xs : List (List Int)) (hx : List.Forall₂ Quantised vectors xs) (dim : Nat) (hdim : dim ≤ 131071)
    (hl : ∀ x ∈ xs, x.length = dim)
    (w' : World) (hw : PyStep checked srt w (.openIndex .angularInt ip ep) w')
    (raw : List UInt32) (q : List Int) (hraw : Quantised raw q) (hq : q.length = dim)
    (maxSearch k : Nat) (hms : 1 ≤ maxSearch) :
    (∃ a, w'.Answers checked w.objects.length (.search raw maxSearch k) a) ∧
    ∀ a, w'.Answers checked w.objects.length (.search raw maxSearch k) a →
      ∃ r, a = .found r ∧ GoodResults (xs.map toReal) (toReal q) (11 * 2 ^ (-24 : Int)) k r ∧
        (∀ n, wi.Answers checked h .len (.num n) → 0 < n → 1 ≤ k → r ≠ []) := by
  obtain ⟨rows, layers, hconv, hreach, hlen, hans⟩ := opened_search hsrt hgood hs hok hw
  obtain ⟨hc, _, heps⟩ := hgood.config
  have hr := int_rows hconv hx
  have hin := int_input hdim hr hl
  have key : ∀ row : List (Scal .angularInt), Convert .angularInt raw row → ∃ r,
      search (layers.map fun l => graphOf l.rows) (⟨rows, rowDist checked .angularInt⟩ : Elements (List (Scal .angularInt)) ℝ)
        row maxSearch k = some r ∧ GoodResults (xs.map toReal) (toReal q) i8Error k r ∧
        (0 < lastLen layers → 1 ≤ k → r ≠ []) := by
    intro row hrow
    have hrow' := i8s_of_convert hrow hraw
    exact opened_results hsrt hreach.reachable hc (int_approx hr hin hrow' hq)
      (fun i x hx hz => by
        show IsZero (⟨rows, rowDist checked .angularInt⟩ : Elements (List (Scal .angularInt)) ℝ) c.config.eps i
        simp only [List.getElem?_map, Option.map_eq_some_iff] at hx
        obtain ⟨y, hy, rfl⟩ := hx
        rw [heps]; exact (int_zero hr hin i).2 ⟨y, hy, zeroVector_toReal.1 hz⟩) hms
  constructor
  · obtain ⟨row, hrow⟩ := (C61_convertible raw).2.2 (by
      intro u hu hn
      unfold Quantised quantize at hraw
      rw [if_pos] at hraw
      · cases hraw
      · simp only [List.any_map, List.any_eq_true, Function.comp]
        exact ⟨u, hu, by rw [hn]; rfl⟩)
    obtain ⟨r, h1, _⟩ := key row hrow
    exact ⟨_, (hans raw maxSearch k _).2 ⟨row, r, hrow, h1, rfl⟩⟩
  · intro a ha
    obtain ⟨row, r, h1, h2, rfl⟩ := (hans raw maxSearch k a).1 ha
    obtain ⟨r', h3, h4, h5⟩ := key row h1
    rw [h2] at h3; cases h3
    refine ⟨r, rfl, h4, fun n hn h0 hk => h5 ?_ hk⟩
    have := (hlen _).1 hn
    simp only [PyAnswer.num.injEq] at this
    omega

/-! ### Opening the files in a builder again -/

theorem layers_same_shape {l l' : List Layer} (h : List.Forall₂ (fun a b : Layer => a.rows.length = b.rows.length) l l') :
    (Layers.fixWidth l').num = (Layers.fixWidth l).num ∧
    ∀ i, (Layers.fixWidth l').layerLen i = (Layers.fixWidth l).layerLen i := by
  refine ⟨h.length_eq.symm, fun i => ?_⟩
  unfold Layers.layerLen
  simp only
  rcases forall₂_get? h i with ⟨e1, e2⟩ | ⟨a, b, e1, e2, hab⟩
  · rw [e1, e2]
  · rw [e1, e2]; simp [hab]

/-- C61, C21. A builder opened from the saved files, with any sensible configuration, has all the vectors and the same
layer sizes, and can be built further: `build` with a number of elements between the indexed and the available ones
returns, under no schedule of the workers panics, and indexes as many. -/
theorem C61_resume (hsrt : IsSortByDist srt) (hgood : c.Good) (hs : Saved checked srt t c h ip ep wi w indexed vectors)
    (hok : Sensible vectors) (c' : PyConfig) (hgood' : c'.Good) :
    (∃ w', PyStep checked srt w (.newBuilder t c' (some ep) (some ip)) w') ∧
    ∀ w', PyStep checked srt w (.newBuilder t c' (some ep) (some ip)) w' →
      (∀ a, w'.Answers checked w.objects.length .numElements a ↔ a = .num vectors.length) ∧
      (∀ a, w'.Answers checked w.objects.length .len a ↔ wi.Answers checked h .len a) ∧
      (∀ a, w'.Answers checked w.objects.length .numLayers a ↔ wi.Answers checked h .numLayers a) ∧
      (∀ l a, w'.Answers checked w.objects.length (.layerLen l) a ↔ wi.Answers checked h (.layerLen l) a) ∧
      ∀ num m n, wi.Answers checked h .len (.num m) → n = (if num = 2 ^ 64 - 1 then vectors.length else num) → m ≤ n →
        n ≤ vectors.length →
        (∃ w'', PyStep checked srt w' (.build w.objects.length num) w'') ∧
        (∀ o, w'.objects[w.objects.length]? = some o → ¬ o.BuildPanics checked srt w'.files num) ∧
        ∀ w'', PyStep checked srt w' (.build w.objects.length num) w'' →
          ∀ a, w''.Answers checked w.objects.length .len a ↔ a = .num n := by
  obtain ⟨rowsi, vi, layers, rows, d, v, f, ⟨hoi, _⟩, hf⟩ := hs.facts fun raw hr => (hok.proper raw hr).1
  obtain ⟨hc, h255, heps⟩ := hgood.config
  obtain ⟨hc', _, heps'⟩ := hgood'.config
  have hflen := hf.small hsrt hc
  obtain ⟨hf0, _⟩ := hf.loaded hsrt hc h255 hflen
  obtain ⟨hv1, hv2⟩ := hf.openVectors hok.some_vector fun raw hr => (hok.proper raw hr).2
  have hb := hf.reach.reachable
  have hsize := reachableBy_size hf.reach
  obtain ⟨b', hb1, hb2, hb3, hb4⟩ := C21_reload_resumes hsrt _ hb hc [] f 0 hf.saved hflen c'.config
    (⟨rows, rowDist checked t⟩ : Elements (List (Scal t)) ℝ) (by unfold UNUSED at hsize; exact hsize)
  obtain ⟨hb5, hb6⟩ := C21_reload_reachable hsrt _ b' hb hc [] f 0 hf.saved hflen c'.config
    (⟨rows, rowDist checked t⟩ : Elements (List (Scal t)) ℝ) (by rw [heps', heps]) rfl (fun _ _ => rfl) hb1
  have hlayers : List.Forall₂ (fun a b : Layer => a.rows.length = b.rows.length) layers b'.layers :=
    hb4.imp fun a b h => h.2.length_eq
  have hshape := layers_same_shape hlayers
  rw [List.drop_zero] at hb1
  have hnew : newBuilder checked w.files t c'.config (some ep) (some ip) =
      some (.builder t (.mapped ep v.bytes.length) b'.layers c'.config) := by
    unfold newBuilder
    simp only
    rw [hv1, mapFile_some hf.index hf0, hf.index]
    simp only
    rw [hv2]
    simp only
    rw [vecElements_eq hf.shows, hb1]
  have hlen : v.len = vectors.length := by rw [hf.shows.len, hf.conv.length_eq]
  have hrl : rows.length = vectors.length := hf.conv.length_eq.symm
  refine ⟨⟨_, .newBuilder w t c' _ _ _ hnew⟩, fun w' hst => ?_⟩
  cases hst with
  | newBuilder t c'' ep ip o ho =>
    rw [hnew] at ho; cases ho
    have hob : (w.objects ++ [PyObj.builder t (.mapped ep v.bytes.length) b'.layers c'.config])[w.objects.length]? =
        some (.builder t (.mapped ep v.bytes.length) b'.layers c'.config) := by simp
    have ansB : ∀ (q : PyQuery) (a : PyAnswer), q ≠ .numElements →
        (wi.Answers checked h q a ↔ (Layers.fixWidth layers).answer q = some a) := by
      intro q a h1
      unfold World.Answers
      simp only [hoi, Option.some.injEq, exists_eq_left', PyObj.Answers, PyObj.layers]
      cases q with
      | numElements => exact absurd rfl h1
      | _ => simp
    have ansN : ∀ (objects : List PyObj) (ls : List Layer) (q : PyQuery) (a : PyAnswer),
        objects[w.objects.length]? = some (.builder t (.mapped ep v.bytes.length) ls c'.config) → q ≠ .numElements →
        (World.Answers checked ⟨w.files, objects⟩ w.objects.length q a ↔ (Layers.fixWidth ls).answer q = some a) := by
      intro objects ls q a ho h1
      unfold World.Answers
      simp only [ho, Option.some.injEq, exists_eq_left', PyObj.Answers, PyObj.layers]
      cases q with
      | numElements => exact absurd rfl h1
      | _ => simp
    have hlast : lastLen b'.layers = lastLen layers := hb6
    refine ⟨fun a => ?_, fun a => ?_, fun a => ?_, fun l a => ?_, fun num m n hm hn h1 h2 => ?_⟩
    · unfold World.Answers
      simp only [hob, Option.some.injEq, exists_eq_left', PyObj.Answers, PyObj.layers, Layers.answer, hv2]
      simp [hlen]
    · rw [ansB _ _ (by simp), ansN _ _ _ _ hob (by simp), fixWidth_len, fixWidth_len, hlast]
    · rw [ansB _ _ (by simp), ansN _ _ _ _ hob (by simp)]
      simp only [Layers.answer, hshape.1]
    · rw [ansB _ _ (by simp), ansN _ _ _ _ hob (by simp)]
      simp only [Layers.answer, hshape.2]
    · have hm' : m = lastLen layers := by simpa using (builder_len hoi _).1 hm
      have hnum : (if num = 2 ^ 64 - 1 then v.len else num) = n := by rw [hn, hlen]
      have hbb : b' = ⟨⟨rows, rowDist checked t⟩, b'.layers, c'.config⟩ := by
        rcases b' with ⟨es, ls, cf⟩; cases hb2; cases hb3; rfl
      have hreach : Reachable srt (⟨⟨rows, rowDist checked t⟩, b'.layers, c'.config⟩ : Builder (List (Scal t)) ℝ) :=
        hbb ▸ hb5
      have hlt : w.objects.length < (w.objects ++ [PyObj.builder t (.mapped ep v.bytes.length) b'.layers c'.config]).length := by
        simp
      refine ⟨?_, ?_, ?_⟩
      · obtain ⟨b2, hb2⟩ := C18_has_outcome hsrt _ hreach hc' n (by simp only; omega) (by simp only; omega)
        exact ⟨_, .build _ _ num _ _ hob ⟨v, b2, hv2, by rw [vecElements_eq hf.shows, hnum]; exact hb2, rfl⟩⟩
      · intro o ho'
        rw [hob] at ho'; cases ho'
        rintro (h | ⟨v', h, hp⟩)
        · rw [hv2] at h; cases h
        · rw [hv2] at h; cases h
          rw [vecElements_eq hf.shows, hnum] at hp
          exact C18_no_panic hsrt _ hreach hc' n (by simp only; omega) (by simp only; omega) hp
      · intro w'' hst a
        cases hst with
        | build h' num o o' e1 e2 =>
          rw [hob] at e1; cases e1
          obtain ⟨v', b2, e3, e4, rfl⟩ := e2
          rw [hv2] at e3; cases e3
          rw [vecElements_eq hf.shows, hnum] at e4
          have hx : lastLen b2.layers = n := by
            by_cases h0 : n = 0
            · have := (C14_build_partial_exact hsrt _ hreach hc' n _ e4).1 h0
              cases this
              simp only; omega
            · obtain ⟨b'', e, hx, _⟩ := (C14_build_partial_exact hsrt _ hreach hc' n _ e4).2.2 h0 (by simp only; omega)
                (by simp only; omega)
              cases e; exact hx
          rw [ansN _ b2.layers _ _ (by rw [List.getElem?_set_self hlt]) (by simp), fixWidth_len, hx]
          simp [eq_comm]

end

/-! ### Defaults -/

/-- C61. For every object: `get_neighbors` without a layer asks for the last layer (without layers it panics), and `len`
is the number of elements in the last layer (0 without layers). -/
theorem C61_default_layer {w : World} {h n : Nat} (hn : w.Answers checked h .numLayers (.num n)) :
    (∀ i a, w.Answers checked h (.neighbors i none) a ↔ 0 < n ∧ w.Answers checked h (.neighbors i (some (n - 1))) a) ∧
    ∀ a, w.Answers checked h .len a ↔ (n = 0 ∧ a = .num 0) ∨ (0 < n ∧ w.Answers checked h (.layerLen (n - 1)) a) := by
  obtain ⟨o, ho, ha⟩ := hn
  have key : ∃ L, o.layers w.files = some L ∧ L.num = n := by
    rcases ha with ⟨L, h1, h2⟩ | ha
    · exact ⟨L, h1, by simpa [Layers.answer] using h2⟩
    · cases o <;> simp at ha
  obtain ⟨L, hL, rfl⟩ := key
  have hans : ∀ (q : PyQuery) (a : PyAnswer), q ≠ .numElements → (∀ i, q ≠ .element i) → (∀ r m k, q ≠ .search r m k) →
      (w.Answers checked h q a ↔ L.answer q = some a) := by
    intro q a h1 h2 h3
    unfold World.Answers
    simp only [ho, Option.some.injEq, exists_eq_left', PyObj.Answers, hL]
    cases q with
    | numElements => exact absurd rfl h1
    | element i => exact absurd rfl (h2 i)
    | search r m k => exact absurd rfl (h3 r m k)
    | _ => simp
  constructor
  · intro i a
    rw [hans _ _ (by simp) (by simp) (by simp), hans _ _ (by simp) (by simp) (by simp)]
    simp only [Layers.answer]
    by_cases h0 : L.num = 0
    · simp [h0]
    · simp [h0, Nat.pos_of_ne_zero h0]
  · intro a
    rw [hans _ _ (by simp) (by simp) (by simp), hans _ _ (by simp) (by simp) (by simp)]
    simp only [Layers.answer]
    by_cases h0 : L.num = 0
    · simp [h0, eq_comm]
    · simp [h0, Nat.pos_of_ne_zero h0]

/-! ### Saving does not panic -/

/-- C61. Saving the elements always returns; saving the index returns if there are at most 19 layers. -/
theorem C61_save_returns (hsrt : IsSortByDist srt) (hgood : c.Good) {w0 w : World} {calls : List PyCall}
    (hr : PyRun checked srt w0 (.newBuilder t c none none :: calls) w)
    (hne : ∀ raw ∈ appendedTo w0.objects.length calls, raw ≠ []) (path : String) :
    (∃ w', PyStep checked srt w (.saveElements w0.objects.length path) w') ∧
    ∀ n, w.Answers checked w0.objects.length .numLayers (.num n) → n ≤ 19 →
      ∃ w', PyStep checked srt w (.saveIndex w0.objects.length path) w' := by
  obtain ⟨rows, v, layers, ho, hsh⟩ := At.filled hr hne
  obtain ⟨hc, _, _⟩ := hgood.config
  refine ⟨⟨_, .saveElements w _ path _ _ ho rfl⟩, fun n hn h19 => ?_⟩
  have hn' : n = layers.length := by
    unfold World.Answers at hn
    simp only [ho, Option.some.injEq, exists_eq_left', PyObj.Answers, PyObj.layers, Layers.answer, Layers.num] at hn
    simpa [eq_comm] using hn
  have hs := C06_builder_save_returns hsrt _ hsh.reach.reachable hc (by simp only; omega) [] 0
  exact ⟨_, .saveIndex w _ path _ _ ho (Prod.ext rfl hs)⟩

theorem At.layers_kept {w w' : World} {calls : List PyCall} {h : Nat} {raws rows v layers}
    (hr : PyRun checked srt w calls w') (ha : At checked srt t c w h raws rows v layers)
    (hne : ∀ raw ∈ appendedTo h calls, raw ≠ []) (hb : ∀ num, PyCall.build h num ∉ calls) :
    ∃ rows' v', At checked srt t c w' h (raws ++ appendedTo h calls) rows' v' layers := by
  induction hr generalizing raws rows v with
  | nil => exact ⟨rows, v, by simpa [appendedTo] using ha⟩
  | cons w w1 w' call calls hs _ ih =>
    have e : appendedTo h (call :: calls) = appendedTo h [call] ++ appendedTo h calls :=
      appendedTo_append h [call] calls
    rw [e] at hne ⊢
    obtain ⟨r1, v1, l1, a1, _⟩ := ha.step hs fun raw hr => hne raw (List.mem_append_left _ hr)
    have hl : l1 = layers := by
      have hlt := (List.getElem?_eq_some_iff.1 ha.1).1
      by_cases hc : Changes h call
      · cases hs with
        | append h' raw o1 o' h1 h2 =>
          obtain rfl : h' = h := hc
          rw [ha.1] at h1; cases h1
          obtain ⟨v0, v', row, _, _, _, _, rfl⟩ := h2
          have := a1.1
          simp only at this
          rw [List.getElem?_set_self hlt] at this
          cases this; rfl
        | build h' n o1 o' h1 h2 =>
          obtain rfl : h' = h := hc
          exact absurd (List.mem_cons_self) (hb n)
        | reorder h' o1 o' order h1 h2 =>
          obtain rfl : h' = h := hc
          rw [ha.1] at h1; cases h1
          simp [PyObj.reorder] at h2
        | _ => exact absurd hc (by simp [Changes])
      · have := hs.other ha.1 hc
        rw [a1.1] at this
        cases this; rfl
    subst hl
    obtain ⟨r2, v2, a2⟩ := ih a1 (fun raw hr => hne raw (List.mem_append_right _ hr))
      fun num hm => hb num (List.mem_cons_of_mem _ hm)
    exact ⟨r2, v2, by simpa [List.append_assoc] using a2⟩

/-- C61, C22. A builder with a layer multiplier of at least 4 (by default 15) and no `expected_num_elements`, on which
`build()` is called once, after all vectors have been appended, has at most 17 layers afterwards: by `C61_save_returns`
its index can be saved. -/
theorem C61_few_layers (hsrt : IsSortByDist srt) (hgood : c.Good) (hm : ∀ m, c.layerMultiplier = some m → 4 ≤ m)
    (hexp : c.expectedNumElements = none) {w0 w w' : World} {calls : List PyCall}
    (hr : PyRun checked srt w0 (.newBuilder t c none none :: calls) w)
    (hne : ∀ raw ∈ appendedTo w0.objects.length calls, raw ≠ []) (hsome : appendedTo w0.objects.length calls ≠ [])
    (hb : ∀ num, PyCall.build w0.objects.length num ∉ calls)
    (hs : PyStep checked srt w (.build w0.objects.length (2 ^ 64 - 1)) w') (n : Nat)
    (hn : w'.Answers checked w0.objects.length .numLayers (.num n)) : n ≤ 17 := by
  obtain ⟨hc, _, _⟩ := hgood.config
  cases hr with
  | cons _ w1 _ _ _ hst hr =>
    obtain ⟨rows, v, ho, hsh⟩ := (At.new hst).layers_kept hr hne hb
    rw [List.nil_append] at hsh
    have hlt := (List.getElem?_eq_some_iff.1 ho).1
    generalize hh : w0.objects.length = h at *
    generalize hnum : 2 ^ 64 - 1 = num at hs
    cases hs with
    | build h num o o' e1 e2 =>
      rw [ho] at e1; cases e1
      obtain ⟨v', b', e3, e4, rfl⟩ := e2
      cases e3
      rw [if_pos hnum.symm, hsh.elements] at e4
      obtain ⟨d, hd, _⟩ := hsh.shows
      rw [hd.len] at e4
      have hrows : rows ≠ [] := by
        intro hx
        have := hsh.conv.length_eq
        rw [hx, List.length_nil, List.length_eq_zero_iff] at this
        exact hsome this
      have h17 := C22_few_layers hsrt _ b' hsh.reach.reachable (c.layerMultiplier.getD 15) (by
        rcases Option.eq_none_or_eq_some c.layerMultiplier with e | ⟨m, e⟩
        · rw [e]; norm_num
        · rw [e]; exact hm m e) rfl hexp hc.neighbors hc.search rfl hrows e4
      have : n = b'.layers.length := by
        unfold World.Answers at hn
        simp only [List.getElem?_set_self hlt, Option.some.injEq, exists_eq_left', PyObj.Answers, PyObj.layers, Layers.answer,
          Layers.num] at hn
        simpa [eq_comm] using hn
      omega

theorem sched_first_lt {m : ℝ} (hm : 4 ≤ m) {n : Nat} (hn : m ≤ n) : numElementsInLayer m n 0 < n := by
  have hn4 : (4 : ℝ) ≤ n := le_trans hm hn
  have hn4' : 4 ≤ n := by exact_mod_cast hn4
  have hm1 : 1 < m := by linarith
  have hk : (1 : ℤ) ≤ ⌊Real.logb m n⌋ := by
    rw [Int.le_floor]
    rw [Real.le_logb_iff_rpow_le hm1 (by linarith)]
    simpa using hn
  have hp : m ≤ m ^ ((⌊Real.logb m n⌋ : ℝ) - ((0 : ℕ) : ℝ)) := by
    conv_lhs => rw [← Real.rpow_one m]
    apply Real.rpow_le_rpow_of_exponent_le (le_of_lt hm1)
    have : ((1 : ℤ) : ℝ) ≤ (⌊Real.logb m n⌋ : ℝ) := by exact_mod_cast hk
    simpa using this
  unfold numElementsInLayer
  refine lt_of_le_of_lt (min_le_left _ _) ?_
  have h1 : (n : ℝ) / m ^ ((⌊Real.logb m n⌋ : ℝ) - ((0 : ℕ) : ℝ)) ≤ ((n - 1 : ℕ) : ℝ) := by
    rw [div_le_iff₀ (by linarith)]
    have : ((n - 1 : ℕ) : ℝ) = (n : ℝ) - 1 := by push_cast [Nat.cast_sub (show 1 ≤ n by omega)]; ring
    rw [this]
    nlinarith
  have := Nat.ceil_le.2 h1
  omega

/-- C61, C22. Under the same conditions there are two layers or more exactly if there are at least as many vectors as the
layer multiplier (by default 15). -/
theorem C61_two_layers (hsrt : IsSortByDist srt) (hgood : c.Good) (hm : ∀ m, c.layerMultiplier = some m → 4 ≤ m)
    (hexp : c.expectedNumElements = none) {w0 w w' : World} {calls : List PyCall}
    (hr : PyRun checked srt w0 (.newBuilder t c none none :: calls) w)
    (hne : ∀ raw ∈ appendedTo w0.objects.length calls, raw ≠ []) (hsome : appendedTo w0.objects.length calls ≠ [])
    (hb : ∀ num, PyCall.build w0.objects.length num ∉ calls)
    (hs : PyStep checked srt w (.build w0.objects.length (2 ^ 64 - 1)) w') (n : Nat)
    (hn : w'.Answers checked w0.objects.length .numLayers (.num n)) :
    2 ≤ n ↔ c.layerMultiplier.getD 15 ≤ ((appendedTo w0.objects.length calls).length : ℝ) := by
  obtain ⟨hc, _, _⟩ := hgood.config
  have hm4 : 4 ≤ c.layerMultiplier.getD 15 := by
    rcases Option.eq_none_or_eq_some c.layerMultiplier with e | ⟨m, e⟩
    · rw [e]; norm_num
    · rw [e]; exact hm m e
  cases hr with
  | cons _ w1 _ _ _ hst hr =>
    obtain ⟨rows, v, ho, hsh⟩ := (At.new hst).layers_kept hr hne hb
    rw [List.nil_append] at hsh
    have hlt := (List.getElem?_eq_some_iff.1 ho).1
    generalize hh : w0.objects.length = h at *
    generalize hnum : 2 ^ 64 - 1 = num at hs
    cases hs with
    | build h num o o' e1 e2 =>
      rw [ho] at e1; cases e1
      obtain ⟨v', b', e3, e4, rfl⟩ := e2
      cases e3
      rw [if_pos hnum.symm, hsh.elements] at e4
      obtain ⟨d, hd, _⟩ := hsh.shows
      rw [hd.len] at e4
      have hlen := hsh.conv.length_eq
      have hrows : rows ≠ [] := by
        intro hx
        rw [hx, List.length_nil, List.length_eq_zero_iff] at hlen
        exact hsome hlen
      obtain ⟨k1, k2⟩ := C22_build_layers hsrt _ b' hsh.reach.reachable (c.layerMultiplier.getD 15) (by linarith) rfl hexp
        hc.neighbors hc.search rfl hrows e4
      simp only at k1 k2
      have hfull : lastLen b'.layers = rows.length := by
        obtain ⟨b'', e, hx, _⟩ := (C14_build_partial_exact hsrt _ hsh.reach.reachable hc rows.length _ e4).2.2
          (by simpa using hrows) (Nat.zero_le _) le_rfl
        cases e; exact hx
      have hnl : n = b'.layers.length := by
        unfold World.Answers at hn
        simp only [List.getElem?_set_self hlt, Option.some.injEq, exists_eq_left', PyObj.Answers, PyObj.layers, Layers.answer,
          Layers.num] at hn
        simpa [eq_comm] using hn
      rw [hnl, hlen]
      have hpos : 0 < rows.length := List.length_pos_iff.2 hrows
      constructor
      · intro h2
        by_contra hlt
        have : Real.logb (c.layerMultiplier.getD 15) rows.length < 1 := by
          rw [Real.logb_lt_iff_lt_rpow (by linarith) (by exact_mod_cast hpos)]
          simpa using hlt
        have h3 : ⌊Real.logb (c.layerMultiplier.getD 15) rows.length⌋ < 1 := by
          rw [Int.floor_lt]; exact_mod_cast this
        omega
      · intro hge
        by_contra hlt
        have hlast : lastLen b'.layers = (b'.layers[0]?.map fun l => l.rows.length).getD 0 := by
          unfold lastLen
          rcases hb' : b'.layers with _ | ⟨a, _ | ⟨b, l⟩⟩
          · rfl
          · rfl
          · rw [hb'] at hlt; simp at hlt
        rcases Option.eq_none_or_eq_some b'.layers[0]? with e | ⟨a, e⟩
        · rw [e] at hlast
          simp at hlast
          omega
        · rw [e] at hlast
          simp only [Option.map_some, Option.getD_some] at hlast
          have := k1 0 a e
          have := sched_first_lt hm4 hge
          omega

/-! ### The usual session -/

theorem appendedTo_map (h : Nat) (vectors : List (List UInt32)) :
    appendedTo h (vectors.map (PyCall.append h)) = vectors := by
  induction vectors with
  | nil => rfl
  | cons x l ih => simp [appendedTo, ih]

theorem appendedTo_build (h num : Nat) (calls : List PyCall) :
    appendedTo h (calls ++ [.build h num]) = appendedTo h calls := by
  rw [appendedTo_append]; simp [appendedTo]

theorem Spec.PyRun.snoc {w w' w'' : World} {calls : List PyCall} {call : PyCall} (h : PyRun checked srt w calls w')
    (h' : PyStep checked srt w' call w'') : PyRun checked srt w (calls ++ [call]) w'' :=
  h.append (.cons _ _ _ _ _ h' (.nil _))

theorem appends_return (vectors : List (List UInt32)) (dim : Nat) (hdim : dim ≠ 0)
    (hlen : ∀ raw ∈ vectors, raw.length = dim) (hconv : ∀ raw ∈ vectors, ∃ row, Convert t raw row)
    (hroom : vectors.length ≤ 4294967294) (w0 : World) :
    ∃ w, PyRun checked srt w0 (.newBuilder t c none none :: vectors.map (PyCall.append w0.objects.length)) w := by
  induction vectors using List.reverseRecOn with
  | nil =>
    have hb : newBuilder checked w0.files t c.config none none = some (.builder t (.owned FixVec.new) [] c.config) := by
      unfold newBuilder
      simp only
      have : (vecElements checked (FixVec.new : FixVec (Scal t))).data.length < 4294967295 := by
        simp [vecElements, FixVec.len, FixVec.new]
      rw [show Builder.new c.config (vecElements checked (FixVec.new : FixVec (Scal t))) = some _ from if_pos this]
    exact ⟨_, .cons _ _ _ _ _ (.newBuilder w0 t c none none _ hb) (.nil _)⟩
  | append_singleton l x ih =>
    simp only [List.mem_append, List.mem_singleton, List.length_append, List.length_cons, List.length_nil] at hlen hconv hroom
    obtain ⟨w, hr⟩ := ih (fun raw h => hlen raw (Or.inl h)) (fun raw h => hconv raw (Or.inl h)) (by omega)
    have hne : ∀ raw ∈ appendedTo w0.objects.length (l.map (PyCall.append w0.objects.length)), raw ≠ [] := by
      rw [appendedTo_map]
      rintro raw hm rfl
      exact hdim (hlen _ (Or.inl hm)).symm
    obtain ⟨w', hs⟩ := (C61_append_returns hr hne x (by rintro rfl; exact hdim (hlen _ (Or.inr rfl)).symm)).2 ⟨
      hconv x (Or.inr rfl), by
        rw [appendedTo_map]
        intro r hr
        rw [hlen r (Or.inl hr), hlen x (Or.inr rfl)], by
        rw [appendedTo_map]; omega⟩
    refine ⟨w', ?_⟩
    rw [List.map_append, ← List.cons_append]
    exact hr.snoc hs

/-- C61. The usual session returns: a new builder, any vectors of one dimension appended (less than `2^32 - 1`), everything
built, index and elements saved. So there is a session for the theorems above, for all vectors, and with all of them in
the index. -/
theorem C61_session (hsrt : IsSortByDist srt) (hgood : c.Good) (hm : ∀ m, c.layerMultiplier = some m → 4 ≤ m)
    (hexp : c.expectedNumElements = none) (vectors : List (List UInt32)) (dim : Nat) (hdim : dim ≠ 0)
    (hsome : vectors ≠ []) (hlen : ∀ raw ∈ vectors, raw.length = dim)
    (hconv : ∀ raw ∈ vectors, ∃ row, Convert t raw row) (hroom : vectors.length ≤ 4294967294)
    (ip ep : String) (hpath : ip ≠ ep) (w0 : World) :
    ∃ wi w, PyRun checked srt w0 (.newBuilder t c none none :: (vectors.map (PyCall.append w0.objects.length) ++
        [.build w0.objects.length (2 ^ 64 - 1)])) wi ∧
      PyRun checked srt wi [.saveIndex w0.objects.length ip, .saveElements w0.objects.length ep] w ∧
      Saved checked srt t c w0.objects.length ip ep wi w vectors vectors ∧
      wi.Answers checked w0.objects.length .len (.num vectors.length) ∧
      ∃ l, wi.Answers checked w0.objects.length .numLayers (.num l) ∧
        (2 ≤ l ↔ c.layerMultiplier.getD 15 ≤ (vectors.length : ℝ)) := by
  generalize hall : 2 ^ 64 - 1 = all
  have hne : ∀ raw ∈ vectors, raw ≠ [] := by
    rintro raw hm rfl
    exact hdim (hlen _ hm).symm
  obtain ⟨w1, hr1⟩ := appends_return (checked := checked) (srt := srt) (c := c) vectors dim hdim hlen hconv hroom w0
  have ha1 := appendedTo_map w0.objects.length vectors
  obtain ⟨rows, v, layers, hat⟩ := At.filled hr1 (by rw [ha1]; exact hne)
  have hidx := (builder_len (checked := checked) hat.1 (.num (lastLen layers))).2 rfl
  have hle : lastLen layers ≤ vectors.length := by
    have hi := hat.2.reach.reachable.inv hsrt hgood.config.1
    have h1 : rows.length = vectors.length := by
      have := hat.2.conv.length_eq
      rw [ha1] at this
      exact this.symm
    rw [← h1]
    exact hi.lastLen_le
  obtain ⟨⟨w2, hs2⟩, _, hafter⟩ := C61_build hsrt hgood hr1 (by rw [ha1]; exact hne) all _ vectors.length hidx
    (by rw [ha1, if_pos hall.symm]) hle (by rw [ha1])
  have hr2 := hr1.snoc hs2
  rw [List.cons_append] at hr2
  have ha2 : appendedTo w0.objects.length (vectors.map (PyCall.append w0.objects.length) ++ [.build w0.objects.length all]) =
      vectors := by rw [appendedTo_build, ha1]
  obtain ⟨rows2, v2, layers2, hat2⟩ := At.filled hr2 (by rw [ha2]; exact hne)
  have hnum : w2.Answers checked w0.objects.length .numLayers (.num layers2.length) := by
    unfold World.Answers
    simp only [hat2.1, Option.some.injEq, exists_eq_left', PyObj.Answers, PyObj.layers, Layers.answer, Layers.num]
    simp
  have h17 := C61_few_layers hsrt hgood hm hexp hr1 (by rw [ha1]; exact hne) (by rw [ha1]; exact hsome) (by simp)
    (by rw [hall]; exact hs2) _ hnum
  obtain ⟨w3, hs3⟩ := (C61_save_returns hsrt hgood hr2 (by rw [ha2]; exact hne) ip).2 _ hnum (by omega)
  have hr3 := hr2.snoc hs3
  rw [List.cons_append] at hr3
  have ha3 : appendedTo w0.objects.length (vectors.map (PyCall.append w0.objects.length) ++ [.build w0.objects.length all] ++
      [.saveIndex w0.objects.length ip]) = vectors := by
    rw [appendedTo_append, ha2]; simp [appendedTo]
  obtain ⟨w4, hs4⟩ := (C61_save_returns hsrt hgood hr3 (by rw [ha3]; exact hne) ep).1
  have hrun : PyRun checked srt w2 [.saveIndex w0.objects.length ip, .saveElements w0.objects.length ep] w4 :=
    .cons _ _ _ _ _ hs3 (.cons _ _ _ _ _ hs4 (.nil _))
  have htwo := C61_two_layers hsrt hgood hm hexp hr1 (by rw [ha1]; exact hne) (by rw [ha1]; exact hsome) (by simp)
    (by rw [hall]; exact hs2) _ hnum
  rw [ha1] at htwo
  refine ⟨w2, w4, hr2, hrun, ?_, (hafter w2 hs2 _).2 rfl, _, hnum, htwo⟩
  have := Saved.indexFirst (checked := checked) (srt := srt) (t := t) (c := c) w0 w2 w3 w4 _ [] [] rfl hpath hr2
    (.cons _ _ _ _ _ hs3 (.nil _)) (.cons _ _ _ _ _ hs4 (.nil _)) (by simp) (by simp)
  rw [ha2] at this
  simpa [appendedTo] using this

/-! ### An example -/

theorem ofBits_one : F32.ofBits 0x3f800000 = .fin 1 := by
  unfold F32.ofBits
  rw [show (0x3f800000 : UInt32).toNat = 0x3f800000 from rfl]
  norm_num
theorem ofBits_minus_one : F32.ofBits 0xbf800000 = .fin (-1) := by
  unfold F32.ofBits
  rw [show (0xbf800000 : UInt32).toNat = 0xbf800000 from rfl]
  norm_num
theorem ofBits_minus_four : F32.ofBits 0xc0800000 = .fin (-4) := by
  unfold F32.ofBits
  rw [show (0xc0800000 : UInt32).toNat = 0xc0800000 from rfl]
  norm_num
theorem ofBits_zero : F32.ofBits 0 = .fin 0 := by unfold F32.ofBits; norm_num

/-- The bit patterns of `exRaw`. -/
def exBits : List (List UInt32) := [[0x3f800000, 0], [0, 0xc0800000], [0, 0], [0xbf800000, 0]]

theorem exBits_decode : List.Forall₂ Decodes exBits exRaw := by
  unfold exBits exRaw Decodes
  simp [ofBits_one, ofBits_minus_one, ofBits_minus_four, ofBits_zero]

theorem exPyConfig_good : ({} : PyConfig).Good := ⟨by simp, by simp, by simp⟩

/-- Non-vacuity of C61: from any state, with the default configuration, four vectors are appended, indexed and saved, for
both element types; the hypotheses of `C61_search_angular`, `C61_small_exact_angular` and `C61_search_angular_int` hold. -/
example (w0 : World) (t : ElementType) : ∃ wi w,
    Saved true exSortReal t {} w0.objects.length "index" "elements" wi w exBits exBits ∧ Sensible exBits ∧
    wi.Answers true w0.objects.length .len (.num 4) ∧ List.Forall₂ Decodes exBits exRaw ∧ F32Input exRaw 2 ∧
    4 ≤ ({} : PyConfig).numNeighbors.getD 30 / 2 / 2 + 1 := by
  have hlen : ∀ raw ∈ exBits, raw.length = 2 := by decide
  obtain ⟨wi, w, _, _, h3, h4, _⟩ := C61_session (checked := true) (t := t) exSortReal_sorts exPyConfig_good (by simp) rfl
    exBits 2 (by decide) (by decide) hlen (by
      intro raw hraw
      cases t with
      | angular => exact (C61_convertible raw).1
      | angularInt =>
        refine (C61_convertible raw).2.2 fun u hu hn => ?_
        simp only [exBits, List.mem_cons, List.not_mem_nil, or_false] at hraw
        rcases hraw with rfl | rfl | rfl | rfl <;> simp only [List.mem_cons, List.not_mem_nil, or_false] at hu <;>
          rcases hu with rfl | rfl <;>
          simp [ofBits_one, ofBits_minus_one, ofBits_minus_four, ofBits_zero] at hn) (by decide) "index" "elements"
    (by decide) w0
  exact ⟨wi, w, h3, ⟨by decide, by decide⟩, h4, exBits_decode, exRaw_input, by decide⟩

end Granne
