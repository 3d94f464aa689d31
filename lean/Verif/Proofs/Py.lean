import Verif.Spec.Py
import Verif.Proofs.Bits
import Verif.Props.Elements
import Verif.Props.Storage
import Verif.Props.Schedule

/-! Sessions of the Python module: what becomes of a builder. -/
namespace Granne
open Spec

variable {checked : Bool} {srt : List (Nat × ℝ) → List (Nat × ℝ)} {t : ElementType} {c : PyConfig}

theorem quantize_length {x : List F32} {q : List Int} (h : quantize x = some q) : q.length = x.length := by
  unfold quantize at h
  split at h
  · cases h
  · cases h; simp

theorem convertF32_length {raw row : List UInt32} (h : ConvertF32 raw row) : row.length = raw.length := by
  have := congrArg List.length h
  rw [normalize_length] at this
  simpa using this

theorem convertI8_length {raw : List UInt32} {row : List UInt8} (h : ConvertI8 raw row) : row.length = raw.length := by
  have := quantize_length h
  simpa using this

theorem Convert.length {raw : List UInt32} {row : List (Scal t)} (h : Convert t raw row) : row.length = raw.length := by
  cases t with
  | angular => exact convertF32_length h
  | angularInt => exact convertI8_length h

theorem filterMap_range {α : Type} (rows : List α) (f : Nat → Option α)
    (h : ∀ (i : Nat) (r : α), rows[i]? = some r → f i = some r) : (List.range rows.length).filterMap f = rows := by
  induction rows using List.reverseRecOn with
  | nil => rfl
  | append_singleton l x ih =>
    rw [List.length_append, List.length_singleton, List.range_succ, List.filterMap_append, ih]
    · simp [h l.length x (by simp)]
    · intro i r hr
      exact h i r (by rw [List.getElem?_append_left (List.getElem?_eq_some_iff.1 hr).1, hr])

theorem vecElements_eq {v : FixVec (Scal t)} {d : Nat} {rows : List (List (Scal t))} (h : ShowsVectors v d rows) :
    vecElements checked v = ⟨rows, rowDist checked t⟩ := by
  unfold vecElements
  rw [h.len, filterMap_range rows _ h.get]

/-- A builder filled with the converted `raws`, in memory. -/
structure PyShape (checked : Bool) (srt : List (Nat × ℝ) → List (Nat × ℝ)) (t : ElementType) (c : PyConfig)
    (raws : List (List UInt32)) (rows : List (List (Scal t))) (v : FixVec (Scal t)) (layers : List Layer) : Prop where
  conv : List.Forall₂ (Convert t) raws rows
  empty : raws = [] → v = FixVec.new
  shows : ∃ d, ShowsVectors v d rows ∧ (raws ≠ [] → 0 < d ∧ ∀ raw ∈ raws, raw.length = d)
  reach : ReachableBy srt (fun c' => c' = c.config) (⟨⟨rows, rowDist checked t⟩, layers, c.config⟩ : Builder (List (Scal t)) ℝ)

theorem PyShape.elements {raws rows v layers} (h : PyShape checked srt t c raws rows v layers) :
    vecElements checked v = ⟨rows, rowDist checked t⟩ := by
  obtain ⟨d, h1, _⟩ := h.shows
  exact vecElements_eq h1

theorem PyShape.new : PyShape checked srt t c [] [] FixVec.new [] := by
  refine ⟨.nil, fun _ => rfl, ⟨0, shows_empty, fun h => absurd rfl h⟩,
    .new c.config ⟨[], rowDist checked t⟩ _ rfl (if_pos (by simp [UNUSED]))⟩

theorem PyShape.append {raws rows v layers} (h : PyShape checked srt t c raws rows v layers) {raw row}
    {v' : FixVec (Scal t)} (hne : raw ≠ []) (hc : Convert t raw row) (hroom : v.len < UNUSED - 1)
    (hp : v.push row = some v') : PyShape checked srt t c (raws ++ [raw]) (rows ++ [row]) v' layers := by
  have hl := hc.length
  have hpos : 0 < raw.length := List.length_pos_iff.2 hne
  obtain ⟨d, hs, hd⟩ := h.shows
  have hlen : v.len = rows.length := hs.len
  refine ⟨List.rel_append h.conv (.cons hc .nil), fun hx => absurd hx (by simp), ?_, ?_⟩
  · by_cases h0 : raws = []
    · subst h0
      obtain rfl := h.empty rfl
      have hr : rows = [] := by cases h.conv; rfl
      subst hr
      obtain ⟨v'', e1, e2⟩ := FixRepr.push_new (T := Scal t) (x := row) (by omega)
      rw [hp] at e1; cases e1
      exact ⟨row.length, by simpa using e2.shows, fun _ => ⟨by omega, by simp [hl]⟩⟩
    · obtain ⟨d0, hdl⟩ := hd h0
      have hr := hs.repr d0
      by_cases hx : row.length = d
      · obtain ⟨v'', e1, e2⟩ := hr.push hx
        rw [hp] at e1; cases e1
        refine ⟨d, e2.shows, fun _ => ⟨d0, fun r hr' => ?_⟩⟩
        rcases List.mem_append.1 hr' with hr' | hr'
        · exact hdl r hr'
        · rw [List.mem_singleton] at hr'; subst hr'; omega
      · rw [hr.push_none hx] at hp; cases hp
  · refine .push _ _ row h.reach ?_
    unfold Builder.push
    simp only
    rw [if_pos (by omega)]

/-! ### Building keeps elements and configuration -/

section
variable {E D : Type} [LinearOrder D] {srt : List (Nat × D) → List (Nat × D)}

theorem indexLast_same {b b' : Builder E D} {num : Nat} (h : IndexLast srt b num (some b')) :
    b'.elements = b.elements ∧ b'.config = b.config := by
  generalize ho : some b' = out at h
  cases h with
  | noLayer => cases ho
  | nothing => cases ho; exact ⟨rfl, rfl⟩
  | firstPanics => cases ho
  | once => cases ho; exact ⟨rfl, rfl⟩
  | twice upper layer layer' out =>
    cases out with
    | none => cases ho
    | some l => cases ho; exact ⟨rfl, rfl⟩

theorem buildLoop_same {b : Builder E D} {out : Option (Builder E D)} {num : Nat} (h : BuildLoop srt num b out) :
    ∀ b', out = some b' → b'.elements = b.elements ∧ b'.config = b.config := by
  induction h with
  | done b => rintro b' ⟨⟩; exact ⟨rfl, rfl⟩
  | panic => rintro b' ⟨⟩
  | round b b1 out _ h1 _ ih =>
    intro b' hb'
    obtain ⟨e1, e2⟩ := ih b' hb'
    obtain ⟨e3, e4⟩ := indexLast_same h1
    exact ⟨e1.trans e3, e2.trans e4⟩

theorem buildPartial_same {b b' : Builder E D} {num : Nat} (h : BuildPartial srt b num (some b')) :
    b'.elements = b.elements ∧ b'.config = b.config := by
  generalize ho : some b' = out at h
  cases h with
  | zero => cases ho; exact ⟨rfl, rfl⟩
  | fewer => cases ho
  | more => cases ho
  | fresh _ _ _ _ _ h => exact buildLoop_same h b' ho.symm
  | lastPanics => cases ho
  | «continue» b1 out _ _ _ _ h1 h2 =>
    obtain ⟨e1, e2⟩ := buildLoop_same h2 b' ho.symm
    obtain ⟨e3, e4⟩ := indexLast_same h1
    exact ⟨e1.trans e3, e2.trans e4⟩

end

theorem PyShape.build {raws rows v layers} (h : PyShape checked srt t c raws rows v layers) {num : Nat}
    {b' : Builder (List (Scal t)) ℝ} (hb : BuildPartial srt ⟨vecElements checked v, layers, c.config⟩ num (some b')) :
    PyShape checked srt t c raws rows v b'.layers := by
  rw [h.elements] at hb
  obtain ⟨e1, e2⟩ := buildPartial_same hb
  refine ⟨h.conv, h.empty, h.shows, ?_⟩
  have := ReachableBy.build _ _ _ h.reach hb
  rcases b' with ⟨es, ls, cf⟩
  cases e1; cases e2
  exact this

/-! ### Runs -/

/-- Object `h` is such a builder. -/
def At (checked : Bool) (srt : List (Nat × ℝ) → List (Nat × ℝ)) (t : ElementType) (c : PyConfig) (w : World) (h : Nat)
    (raws : List (List UInt32)) (rows : List (List (Scal t))) (v : FixVec (Scal t)) (layers : List Layer) : Prop :=
  w.objects[h]? = some (.builder t (.owned v) layers c.config) ∧ PyShape checked srt t c raws rows v layers

theorem PyStep.other {w w' : World} {call : PyCall} (hs : PyStep checked srt w call w') {h : Nat} {o : PyObj}
    (ho : w.objects[h]? = some o) (hc : ¬ Changes h call) : w'.objects[h]? = some o := by
  have hlt := (List.getElem?_eq_some_iff.1 ho).1
  cases hs with
  | newBuilder => simp only; rw [List.getElem?_append_left hlt, ho]
  | openIndex => simp only; rw [List.getElem?_append_left hlt, ho]
  | append h' raw o1 o' h1 h2 => simp only; rw [List.getElem?_set_ne (by simpa [Changes] using hc), ho]
  | build h' n o1 o' h1 h2 => simp only; rw [List.getElem?_set_ne (by simpa [Changes] using hc), ho]
  | reorder h' o1 o' order h1 h2 => simp only; rw [List.getElem?_set_ne (by simpa [Changes] using hc), ho]
  | saveIndex => exact ho
  | saveElements => exact ho

theorem PyStep.file {w w' : World} {call : PyCall} (hs : PyStep checked srt w call w') {p : String}
    (hc : ¬ Writes p call) : w'.files p = w.files p := by
  cases hs with
  | newBuilder => rfl
  | openIndex => rfl
  | append => rfl
  | build => rfl
  | reorder => rfl
  | saveIndex h path o files h1 h2 =>
    have hne : p ≠ path := fun e => hc e.symm
    simp only [PyObj.saveIndex] at h2
    split at h2
    · cases h2
    · rw [← (Prod.mk.inj h2).1]
      simp [Files.put, hne]
  | saveElements h path o files h1 h2 =>
    have hne : p ≠ path := fun e => hc e.symm
    simp only [PyObj.saveElements] at h2
    split at h2 <;> cases h2
    simp [Files.put, hne]

theorem Spec.PyRun.file {w w' : World} {calls : List PyCall} (hr : PyRun checked srt w calls w') {p : String}
    (hc : ∀ call ∈ calls, ¬ Writes p call) : w'.files p = w.files p := by
  induction hr with
  | nil => rfl
  | cons w w1 w' call calls hs _ ih =>
    rw [ih fun c hc' => hc c (by simp [hc']), hs.file (hc call (by simp))]

theorem Spec.PyRun.other {w w' : World} {calls : List PyCall} (hr : PyRun checked srt w calls w') {h : Nat} {o : PyObj}
    (ho : w.objects[h]? = some o) (hc : ∀ call ∈ calls, ¬ Changes h call) : w'.objects[h]? = some o := by
  induction hr with
  | nil => exact ho
  | cons w w1 w' call calls hs _ ih =>
    exact ih (hs.other ho (hc call (by simp))) fun c hc' => hc c (by simp [hc'])

theorem Spec.PyRun.append {w w' w'' : World} {calls calls' : List PyCall} (h : PyRun checked srt w calls w')
    (h' : PyRun checked srt w' calls' w'') : PyRun checked srt w (calls ++ calls') w'' := by
  induction h with
  | nil => exact h'
  | cons w w1 w' call calls hs _ ih => exact .cons _ _ _ _ _ hs (ih h')

theorem appendedTo_append (h : Nat) (l l' : List PyCall) : appendedTo h (l ++ l') = appendedTo h l ++ appendedTo h l' := by
  induction l with
  | nil => rfl
  | cons a l ih =>
    cases a <;> simp only [List.cons_append, appendedTo, ih]
    split <;> simp

theorem At.step {w w' : World} {call : PyCall} {h : Nat} {raws rows v layers}
    (ha : At checked srt t c w h raws rows v layers) (hs : PyStep checked srt w call w')
    (hne : ∀ raw ∈ appendedTo h [call], raw ≠ []) :
    ∃ rows' v' layers', At checked srt t c w' h (raws ++ appendedTo h [call]) (rows ++ rows') v' layers' ∧
      (appendedTo h [call] = [] → v' = v ∧ rows' = []) := by
  obtain ⟨ho, hsh⟩ := ha
  have hlt := (List.getElem?_eq_some_iff.1 ho).1
  by_cases hc : Changes h call
  · cases hs with
    | newBuilder => exact absurd hc (by simp [Changes])
    | openIndex => exact absurd hc (by simp [Changes])
    | append h' raw o1 o' h1 h2 =>
      obtain rfl : h' = h := hc
      rw [ho] at h1; cases h1
      obtain ⟨v0, v', row, e1, e2, e3, e4, rfl⟩ := h2
      simp only [Src.vectors, Option.some.injEq] at e1
      subst e1
      have hap : appendedTo h' [PyCall.append h' raw] = [raw] := by simp [appendedTo]
      rw [hap] at hne ⊢
      refine ⟨[row], v', layers, ⟨?_, hsh.append (hne raw (by simp)) e2 e3 e4⟩, fun hx => by cases hx⟩
      simp only; rw [List.getElem?_set_self hlt]
    | build h' n o1 o' h1 h2 =>
      obtain rfl : h' = h := hc
      rw [ho] at h1; cases h1
      obtain ⟨v0, b', e1, e2, rfl⟩ := h2
      simp only [Src.vectors, Option.some.injEq] at e1
      subst e1
      have hap : appendedTo h' [PyCall.build h' n] = [] := by simp [appendedTo]
      rw [hap, List.append_nil]
      refine ⟨[], v, b'.layers, ⟨?_, by rw [List.append_nil]; exact hsh.build e2⟩, fun _ => ⟨rfl, rfl⟩⟩
      simp only; rw [List.getElem?_set_self hlt]
    | reorder h' o1 o' order h1 h2 =>
      obtain rfl : h' = h := hc
      rw [ho] at h1; cases h1
      simp [PyObj.reorder] at h2
    | saveIndex => exact absurd hc (by simp [Changes])
    | saveElements => exact absurd hc (by simp [Changes])
  · have hap : appendedTo h [call] = [] := by
      cases call <;> simp_all [appendedTo, Changes]
    rw [hap, List.append_nil]
    exact ⟨[], v, layers, ⟨hs.other ho hc, by rw [List.append_nil]; exact hsh⟩, fun _ => ⟨rfl, rfl⟩⟩

theorem At.run {w w' : World} {calls : List PyCall} {h : Nat} {raws rows v layers}
    (hr : PyRun checked srt w calls w') (ha : At checked srt t c w h raws rows v layers)
    (hne : ∀ raw ∈ appendedTo h calls, raw ≠ []) :
    ∃ rows' v' layers', At checked srt t c w' h (raws ++ appendedTo h calls) (rows ++ rows') v' layers' ∧
      (appendedTo h calls = [] → v' = v ∧ rows' = []) := by
  induction hr generalizing raws rows v layers with
  | nil => exact ⟨[], v, layers, by simpa [appendedTo] using ha, fun _ => ⟨rfl, rfl⟩⟩
  | cons w w1 w' call calls hs _ ih =>
    have e : appendedTo h (call :: calls) = appendedTo h [call] ++ appendedTo h calls :=
      appendedTo_append h [call] calls
    rw [e] at hne ⊢
    obtain ⟨r1, v1, l1, a1, b1⟩ := ha.step hs fun raw hr => hne raw (List.mem_append_left _ hr)
    obtain ⟨r2, v2, l2, a2, b2⟩ := ih a1 fun raw hr => hne raw (List.mem_append_right _ hr)
    refine ⟨r1 ++ r2, v2, l2, by simpa [List.append_assoc] using a2, fun hx => ?_⟩
    obtain ⟨x1, x2⟩ := List.append_eq_nil_iff.1 hx
    obtain ⟨rfl, rfl⟩ := b2 x2
    obtain ⟨rfl, rfl⟩ := b1 x1
    exact ⟨rfl, rfl⟩

theorem At.new {w w' : World} (hs : PyStep checked srt w (.newBuilder t c none none) w') :
    At checked srt t c w' w.objects.length [] [] FixVec.new [] := by
  cases hs with
  | newBuilder t c ep ip o h =>
    simp only [newBuilder] at h
    split at h
    · cases h
      exact ⟨by simp, PyShape.new⟩
    · cases h

/-- A builder that was created empty and filled. -/
theorem At.filled {w w' : World} {calls : List PyCall}
    (hr : PyRun checked srt w (.newBuilder t c none none :: calls) w')
    (hne : ∀ raw ∈ appendedTo w.objects.length calls, raw ≠ []) :
    ∃ rows v layers, At checked srt t c w' w.objects.length (appendedTo w.objects.length calls) rows v layers := by
  cases hr with
  | cons _ w1 _ _ _ hs hr =>
    obtain ⟨r, v, l, a, _⟩ := (At.new hs).run hr hne
    exact ⟨r, v, l, by simpa using a⟩

/-! ### The saved files -/

section
variable {E D : Type} [LinearOrder D] {srt : List (Nat × D) → List (Nat × D)} {P : BuildConfig D → Prop}

omit [LinearOrder D] in
theorem builderNew_size {config : BuildConfig D} {es : Elements E D} {b : Builder E D}
    (h : Builder.new config es = some b) : b.elements.data.length < UNUSED := by
  unfold Builder.new at h
  split at h
  · cases h; assumption
  · cases h

theorem reachableBy_size {b : Builder E D} (h : ReachableBy srt P b) : b.elements.data.length < UNUSED := by
  induction h with
  | new config es b _ h => exact builderNew_size h
  | push b b' e _ h ih =>
    unfold Builder.push at h
    split at h
    · cases h
      simp only [List.length_append, List.length_singleton]
      unfold UNUSED at *
      omega
    · cases h
  | build b b' num _ h ih => rw [(buildPartial_same h).1]; exact ih
  | reload b b' f f' start config es _ _ _ _ _ _ _ h _ =>
    unfold Builder.fromBytes at h
    split at h
    · cases h
    · next b0 h0 =>
      have := builderNew_size h0
      split at h
      · cases h
      · split at h
        · cases h
        · cases h; exact this
  | reorder b b' f f' g g' start start' vs es ix order config elements _ _ _ _ _ _ _ _ h _ =>
    obtain ⟨_, h1, h2⟩ := fromBytes_config h
    rw [h1]; exact h2

theorem reachableBy_extend {rows more : List E} {dist : E → E → D} {layers : List Layer} {c : BuildConfig D}
    (h : ReachableBy srt P (⟨⟨rows, dist⟩, layers, c⟩ : Builder E D)) (hlen : (rows ++ more).length < UNUSED) :
    ReachableBy srt P (⟨⟨rows ++ more, dist⟩, layers, c⟩ : Builder E D) := by
  induction more using List.reverseRecOn with
  | nil => simpa using h
  | append_singleton l x ih =>
    have h1 := ih (by simp only [List.length_append, List.length_singleton] at hlen ⊢; omega)
    refine .push _ _ x h1 ?_
    unfold Builder.push
    simp only
    rw [if_pos (by simp only [List.length_append, List.length_singleton] at hlen ⊢; omega), List.append_assoc]

end

/-- What is in the files. -/
structure FilesHave (checked : Bool) (srt : List (Nat × ℝ) → List (Nat × ℝ)) (t : ElementType) (c : PyConfig)
    (files : Files) (ip ep : String) (vectors : List (List UInt32)) (rows : List (List (Scal t))) (layers : List Layer)
    (d : Nat) (v : FixVec (Scal t)) (f : Bytes) : Prop where
  index : files ip = some f
  saved : saveIndex (.fixWidth layers) [] 0 = (f, true)
  elements : files ep = some v.bytes
  conv : List.Forall₂ (Convert t) vectors rows
  shows : ShowsVectors v d rows
  dim : vectors ≠ [] → 0 < d ∧ ∀ raw ∈ vectors, raw.length = d
  reach : ReachableBy srt (fun c' => c' = c.config) (⟨⟨rows, rowDist checked t⟩, layers, c.config⟩ : Builder (List (Scal t)) ℝ)

theorem At.saveIndex_step {w w' : World} {h : Nat} {raws rows v layers} {ip : String}
    (ha : At checked srt t c w h raws rows v layers) (hs : PyStep checked srt w (.saveIndex h ip) w') :
    ∃ f, w'.files ip = some f ∧ saveIndex (.fixWidth layers) [] 0 = (f, true) := by
  cases hs with
  | saveIndex h path o files h1 h2 =>
    rw [ha.1] at h1; cases h1
    simp only [PyObj.saveIndex, PyObj.layers] at h2
    obtain ⟨e1, e2⟩ := Prod.mk.inj h2
    exact ⟨_, by rw [← e1]; simp [Files.put], Prod.ext rfl e2⟩

theorem At.saveElements_step {w w' : World} {h : Nat} {raws rows v layers} {ep : String}
    (ha : At checked srt t c w h raws rows v layers) (hs : PyStep checked srt w (.saveElements h ep) w') :
    w'.files ep = some v.bytes := by
  cases hs with
  | saveElements h path o files h1 h2 =>
    rw [ha.1] at h1; cases h1
    simp only [PyObj.saveElements, PyObj.elementBytes, Src.vectors, Option.map_some] at h2
    rw [← (Prod.mk.inj h2).1]; simp [Files.put]

theorem Spec.Saved.facts {h : Nat} {ip ep : String} {wi w : World} {indexed vectors : List (List UInt32)}
    (hs : Saved checked srt t c h ip ep wi w indexed vectors) (hne : ∀ raw ∈ vectors, raw ≠ []) :
    ∃ rowsi vi layers rows d v f, At checked srt t c wi h indexed rowsi vi layers ∧
      FilesHave checked srt t c w.files ip ep vectors rows layers d v f := by
  cases hs with
  | indexFirst w0 wi we w calls between after hh hpe h1 h2 h3 hb ha =>
    subst hh
    obtain ⟨rowsi, vi, layers, ai⟩ := At.filled h1 fun raw hr => hne raw (List.mem_append_left _ hr)
    obtain ⟨more, v, layers', ae, _⟩ := ai.run h2 fun raw hr => hne raw (List.mem_append_right _ (by
      rwa [show appendedTo w0.objects.length (.saveIndex w0.objects.length ip :: between) =
        appendedTo w0.objects.length between from rfl] at hr))
    rw [show appendedTo w0.objects.length (.saveIndex w0.objects.length ip :: between) =
        appendedTo w0.objects.length between from rfl] at ae
    obtain ⟨d, hd1, hd2⟩ := ae.2.shows
    have hwe : ∃ f, we.files ip = some f ∧ saveIndex (.fixWidth layers) [] 0 = (f, true) := by
      cases h2 with
      | cons _ w1 _ _ _ hst hr =>
        obtain ⟨f, e1, e2⟩ := ai.saveIndex_step hst
        exact ⟨f, by rw [hr.file hb, e1], e2⟩
    obtain ⟨f, hf1, hf2⟩ := hwe
    refine ⟨rowsi, vi, layers, rowsi ++ more, d, v, f, ai, ?_, hf2, ?_, ae.2.conv, hd1, hd2, ?_⟩
    · rw [h3.file, hf1]
      intro call hcall
      rcases List.mem_cons.1 hcall with rfl | hcall
      · exact fun e => hpe e.symm
      · exact (ha call hcall).1
    · cases h3 with
      | cons _ w1 _ _ _ hst hr => rw [hr.file fun call hcall => (ha call hcall).2, ae.saveElements_step hst]
    · exact reachableBy_extend ai.2.reach (reachableBy_size ae.2.reach)
  | elementsFirst w0 we wi w calls between after hh hpe h1 h2 h3 hb ha hbet =>
    subst hh
    obtain ⟨rows, v, layers', ae⟩ := At.filled h1 hne
    have hx : appendedTo w0.objects.length (.saveElements w0.objects.length ep :: between) = [] := hbet
    obtain ⟨more, v', layers, ai, hsame⟩ := ae.run h2 (by rw [hx]; simp)
    obtain ⟨rfl, rfl⟩ := hsame hx
    rw [hx, List.append_nil, List.append_nil] at ai
    obtain ⟨d, hd1, hd2⟩ := ai.2.shows
    have hwe : wi.files ep = some v'.bytes := by
      cases h2 with
      | cons _ w1 _ _ _ hst hr => rw [hr.file hb, ae.saveElements_step hst]
    cases h3 with
    | cons _ w1 _ _ _ hst hr =>
      obtain ⟨f, e1, e2⟩ := ai.saveIndex_step hst
      refine ⟨rows, v', layers, rows, d, v', f, ai, by rw [hr.file fun call hcall => (ha call hcall).1, e1], e2, ?_,
        ai.2.conv, hd1, hd2, ai.2.reach⟩
      rw [hr.file fun call hcall => (ha call hcall).2, hst.file (p := ep) (fun e => hpe e), hwe]

/-! ### Opening the saved files -/

/-- The compressed layers `vs` show the graph of `ls`, with sorted neighbors. -/
def LayersSame (ls : List Layer) (vs : List SetVec) : Prop :=
  List.Forall₂ (fun l v => v.len = some l.rows.length ∧
    ∀ (i : Nat) (row : Row), l.rows[i]? = some row → v.get i = some (sortIds (visible row))) ls vs

theorem forall₂_get? {α β : Type} {R : α → β → Prop} {l : List α} {m : List β} (h : List.Forall₂ R l m) (i : Nat) :
    (l[i]? = none ∧ m[i]? = none) ∨ ∃ a b, l[i]? = some a ∧ m[i]? = some b ∧ R a b := by
  induction h generalizing i with
  | nil => left; simp
  | cons hab _ ih =>
    cases i with
    | zero => right; exact ⟨_, _, rfl, rfl, hab⟩
    | succ i => simpa using ih i

theorem LayersSame.num {ls : List Layer} {vs : List SetVec} (h : LayersSame ls vs) :
    (Layers.compressed vs).num = (Layers.fixWidth ls).num := h.length_eq.symm

theorem LayersSame.layerLen {ls : List Layer} {vs : List SetVec} (h : LayersSame ls vs) (l : Nat) :
    (Layers.compressed vs).layerLen l = (Layers.fixWidth ls).layerLen l := by
  unfold Layers.layerLen
  rcases forall₂_get? h l with ⟨e1, e2⟩ | ⟨a, b, e1, e2, h1, _⟩
  · simp [e1, e2]
  · simp [e1, e2, h1]

theorem LayersSame.neighbors {ls : List Layer} {vs : List SetVec} (h : LayersSame ls vs) {l i : Nat} {ns : List Nat}
    (hn : (Layers.fixWidth ls).neighbors l i = some ns) :
    (Layers.compressed vs).neighbors l i = some (sortIds ns) := by
  unfold Layers.neighbors at hn ⊢
  rcases forall₂_get? h l with ⟨e1, e2⟩ | ⟨a, b, e1, e2, _, h2⟩
  · simp [e1] at hn
  · simp only [e1, Option.map_eq_some_iff] at hn
    obtain ⟨row, hr, rfl⟩ := hn
    simp only [e2]
    exact h2 i row hr

theorem holdsLists_same {ls : List Layer} {vs : List SetVec}
    (hv : List.Forall₂ HoldsLists vs (ls.map fun l => l.rows.map fun row => row.filter (· != UNUSED)))
    (hp : ∀ l ∈ ls, ∀ row ∈ l.rows, Padded row) (h255 : ∀ l ∈ ls, ∀ row ∈ l.rows, (visible row).length ≤ 255) :
    LayersSame ls vs := by
  rw [List.forall₂_map_right_iff] at hv
  induction hv with
  | nil => exact .nil
  | @cons v l vs ls h1 _ ih =>
    refine .cons ⟨by rw [h1.len]; simp, fun i row hr => ?_⟩
      (ih (fun l hl => hp l (by simp [hl])) fun l hl => h255 l (by simp [hl]))
    have hm := List.mem_of_getElem? hr
    have hvis := (hp l (by simp) row hm).visible
    have hle := h255 l (by simp) row hm
    rw [← hvis] at hle ⊢
    rw [h1.get (l := row.filter (· != UNUSED)) (by simp [hr]), List.take_of_length_le]
    rw [(sortIds_perm _).length_eq]
    exact hle

theorem encodeAll_ne {α : Type} [Scalar α] (v : FixVec α) : v.bytes ≠ [] := by
  intro h
  have := congrArg List.length h
  rw [FixVec.bytes, List.length_append, leBytes_length] at this
  simp at this

theorem mappedBytes_full {files : Files} {p : String} {b : Bytes} (h : files p = some b) :
    mappedBytes files p b.length = some b := by
  simp [mappedBytes, h]

theorem mapFile_some {files : Files} {p : String} {b : Bytes} (h : files p = some b) (hne : b ≠ []) :
    mapFile files p = some b.length := by
  simp [mapFile, h, hne]

theorem loadMmap_of_fromBytes {α : Type} [Scalar α] {b : Bytes} {v : FixVec α} (h : FixVec.fromBytes b = some v) :
    FixVec.loadMmap b = some v := by
  unfold FixVec.fromBytes at h
  split at h
  · next v' hv =>
    split at h
    · rw [hv, h]
    · cases h
  · cases h

/-- What is read from a saved index. -/
theorem saved_loaded {E : Type} {b : Builder E ℝ} (hb : Reachable srt b) (hsrt : IsSortByDist srt) (hc : GoodConfig b.config)
    (h255 : b.config.numNeighbors ≤ 255) {f : Bytes} (hs : saveIndex (.fixWidth b.layers) [] 0 = (f, true))
    (hf : f.length < 2 ^ 64) :
    f ≠ [] ∧ ∃ vs gs, loadLayers f = some vs ∧ LayersSame b.layers vs ∧ (Layers.compressed vs).graphs = some gs ∧
      ∀ {E D : Type} [LinearOrder D] (es : Elements E D) (q : E) (maxSearch k : Nat),
        search gs es q maxSearch k = search (b.layers.map fun l => graphOf l.rows) es q maxSearch k := by
  have hinv := hb.inv hsrt hc
  have hlists := HasLists.fix b.layers (fun l hl row hr => (hinv.padded l hl row hr).1)
    fun l hl row hr => (hinv.padded l hl row hr).2
  have h255' : ∀ l ∈ b.layers, ∀ row ∈ l.rows, (visible row).length ≤ 255 := by
    intro la hla row hrow
    have hi := hinv.stack.layer la.rows (List.mem_map_of_mem hla)
    obtain ⟨i, hlt, he⟩ := List.getElem_of_mem hrow
    exact le_trans (hi.1.rows i row (by rw [List.getElem?_eq_getElem hlt, he])).len h255
  obtain ⟨vs, nn, h1, _, _, hfit, h5, h6⟩ := save_load hlists hs
  have hload : loadLayers f = some vs := by have := h6 hf; rwa [List.drop_zero] at this
  have hg255 : ∀ g ∈ b.layers.map fun l => graphOf l.rows, ∀ l ∈ g, l.length ≤ 255 := by
    intro g hg l hl
    obtain ⟨la, hla, rfl⟩ := List.mem_map.1 hg
    obtain ⟨row, hrow, rfl⟩ := List.mem_map.1 hl
    exact h255' la hla row hrow
  refine ⟨?_, vs, _, hload, holdsLists_same h1 (fun l hl row hr => (hinv.padded l hl row hr).2) h255',
    loaded_graphs hlists h1 (gs := b.layers.map fun l => graphOf l.rows) rfl hg255, ?_⟩
  · rintro rfl
    simp [loadLayers, readLayerSizes, asc] at hload
  · intro E D _ es q maxSearch k
    obtain ⟨vs', gs', e1, e2, e3⟩ := C07_save_load_preserves_search (E := E) (D := D) _ hinv.indexState
      (b.layers.map fun l => graphOf l.rows) rfl hg255 [] f 0 hs hf
    rw [List.drop_zero, hload] at e1
    cases e1
    rw [loaded_graphs hlists h1 (gs := b.layers.map fun l => graphOf l.rows) rfl hg255] at e2
    cases e2
    exact e3 es q maxSearch k

section
variable {files : Files} {ip ep : String} {vectors : List (List UInt32)} {rows : List (List (Scal t))}
  {layers : List Layer} {d : Nat} {v : FixVec (Scal t)} {f : Bytes}

theorem FilesHave.load (h : FilesHave checked srt t c files ip ep vectors rows layers d v f) (hne : vectors ≠ [])
    (hlen : ∀ raw ∈ vectors, raw.length < 2 ^ 64) : FixVec.fromBytes v.bytes = some v := by
  obtain ⟨h0, h1⟩ := h.dim hne
  obtain ⟨raw, hr⟩ := List.exists_mem_of_ne_nil _ hne
  exact C30_write_load_partial v d rows h.shows h0 (by rw [← h1 raw hr]; exact hlen raw hr)

theorem FilesHave.openVectors (h : FilesHave checked srt t c files ip ep vectors rows layers d v f) (hne : vectors ≠ [])
    (hlen : ∀ raw ∈ vectors, raw.length < 2 ^ 64) :
    openVectors t files ep = some (.mapped ep v.bytes.length) ∧
    (Src.mapped ep v.bytes.length : Src (FixVec (Scal t))).vectors files = some v := by
  have hl := h.load hne hlen
  constructor
  · unfold Granne.openVectors
    rw [mapFile_some h.elements (encodeAll_ne v), h.elements]
    simp only
    rw [hl]
  · unfold Src.vectors
    simp only
    rw [mappedBytes_full h.elements]
    simp only
    rw [loadMmap_of_fromBytes hl]

theorem FilesHave.loaded (h : FilesHave checked srt t c files ip ep vectors rows layers d v f) (hsrt : IsSortByDist srt)
    (hc : GoodConfig c.config) (h255 : c.config.numNeighbors ≤ 255) (hf : f.length < 2 ^ 64) :
    f ≠ [] ∧ ∃ vs gs, loadLayers f = some vs ∧ LayersSame layers vs ∧ (Layers.compressed vs).graphs = some gs ∧
      ∀ {E D : Type} [LinearOrder D] (es : Elements E D) (q : E) (maxSearch k : Nat),
        search gs es q maxSearch k = search (layers.map fun l => graphOf l.rows) es q maxSearch k :=
  saved_loaded h.reach.reachable hsrt hc h255 h.saved hf

/-- The opened object. -/
theorem FilesHave.openIndex (h : FilesHave checked srt t c files ip ep vectors rows layers d v f) (hsrt : IsSortByDist srt)
    (hc : GoodConfig c.config) (h255 : c.config.numNeighbors ≤ 255) (hf : f.length < 2 ^ 64) (hne : vectors ≠ [])
    (hlen : ∀ raw ∈ vectors, raw.length < 2 ^ 64) :
    openIndex files t ip ep = some (.index t (.mapped ip f.length) (.mapped ep v.bytes.length)) := by
  obtain ⟨hf0, vs, gs, h1, h2, _⟩ := h.loaded hsrt hc h255 hf
  unfold Granne.openIndex
  rw [(h.openVectors hne hlen).1, mapFile_some h.index hf0, h.index]
  simp only
  rw [h1]
  simp only
  have : ∀ v ∈ vs, ∃ n, v.len = some n := by
    intro v hv
    obtain ⟨i, hi, rfl⟩ := List.getElem_of_mem hv
    rcases forall₂_get? h2 i with ⟨_, e2⟩ | ⟨a, b, _, e2, h3, _⟩
    · rw [List.getElem?_eq_getElem hi] at e2; cases e2
    · rw [List.getElem?_eq_getElem hi] at e2; cases e2; exact ⟨_, h3⟩
  rcases Option.eq_none_or_eq_some vs.getLast? with hn | ⟨u, hu⟩
  · rw [hn]; rfl
  · obtain ⟨n, hn⟩ := this u (List.mem_of_getLast? hu)
    rw [hu, Option.map_some, hn]

theorem FilesHave.srcLayers (h : FilesHave checked srt t c files ip ep vectors rows layers d v f) {vs : List SetVec}
    (hv : loadLayers f = some vs) : (Src.mapped ip f.length : Src Layers).layers files = some (.compressed vs) := by
  unfold Src.layers
  simp only
  rw [mappedBytes_full h.index]
  simp [hv]

end

end Granne
