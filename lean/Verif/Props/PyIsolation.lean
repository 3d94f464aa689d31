import Verif.Props.Py

/-!
C62: objects of a Python session do not influence each other, except through the files they are opened from.
-/
namespace Granne
open Spec

variable {checked : Bool} {srt : List (Nat × ℝ) → List (Nat × ℝ)} {t : ElementType} {c : PyConfig}

/-- The files an object still reads. -/
def Src.paths {α : Type} : Src α → List String
  | .mapped p _ => [p]
  | .owned _ => []

def PyObj.paths : PyObj → List String
  | .builder _ vecs _ _ => vecs.paths
  | .index _ layers vecs => layers.paths ++ vecs.paths

theorem Src.vectors_congr {files files' : Files} {s : Src (FixVec (Scal t))} (h : ∀ p ∈ s.paths, files' p = files p) :
    s.vectors files' = s.vectors files := by
  cases s with
  | owned v => rfl
  | mapped p n => simp only [Src.vectors, mappedBytes, h p (by simp [Src.paths])]

theorem Src.layers_congr {files files' : Files} {s : Src Layers} (h : ∀ p ∈ s.paths, files' p = files p) :
    s.layers files' = s.layers files := by
  cases s with
  | owned v => rfl
  | mapped p n => simp only [Src.layers, mappedBytes, h p (by simp [Src.paths])]

theorem PyObj.answers_congr {files files' : Files} {o : PyObj} (h : ∀ p ∈ o.paths, files' p = files p) (q : PyQuery)
    (a : PyAnswer) : o.Answers checked files' q a ↔ o.Answers checked files q a := by
  cases o with
  | builder t vecs layers cfg =>
    have h1 := Src.vectors_congr (files := files) (files' := files') (s := vecs) h
    cases q <;> simp only [PyObj.Answers, PyObj.layers, h1]
  | index t layers vecs =>
    have h1 := Src.vectors_congr (files := files) (files' := files') (s := vecs) fun p hp =>
      h p (by simp [PyObj.paths, hp])
    have h2 := Src.layers_congr (files := files) (files' := files') (s := layers) fun p hp =>
      h p (by simp [PyObj.paths, hp])
    cases q <;> simp only [PyObj.Answers, PyObj.layers, h1, h2]

/-- Objects stay, and read no more files than before. -/
theorem PyStep.paths {w w' : World} {call : PyCall} (hs : PyStep checked srt w call w') {h : Nat} {o : PyObj}
    (ho : w.objects[h]? = some o) : ∃ o', w'.objects[h]? = some o' ∧ o'.paths ⊆ o.paths ∧
      ((∃ raw, call = .append h raw) ∨ call = .reorder h → o'.paths = []) := by
  have hlt := (List.getElem?_eq_some_iff.1 ho).1
  by_cases hc : Changes h call
  · cases hs with
    | append h' raw o1 o' h1 h2 =>
      obtain rfl : h' = h := hc
      rw [ho] at h1; cases h1
      refine ⟨o', by simp only; rw [List.getElem?_set_self hlt], ?_⟩
      cases o with
      | builder t vecs layers cfg =>
        obtain ⟨v0, v', row, _, _, _, _, rfl⟩ := h2
        simp [PyObj.paths, Src.paths]
      | index => exact absurd h2 (by simp [PyObj.Append])
    | build h' n o1 o' h1 h2 =>
      obtain rfl : h' = h := hc
      rw [ho] at h1; cases h1
      refine ⟨o', by simp only; rw [List.getElem?_set_self hlt], ?_⟩
      cases o with
      | builder t vecs layers cfg =>
        obtain ⟨v, b', _, _, rfl⟩ := h2
        simp [PyObj.paths]
      | index => exact absurd h2 (by simp [PyObj.Build])
    | reorder h' o1 o' order h1 h2 =>
      obtain rfl : h' = h := hc
      rw [ho] at h1; cases h1
      refine ⟨o', by simp only; rw [List.getElem?_set_self hlt], ?_⟩
      have : o'.paths = [] := by
        cases o with
        | builder => simp [PyObj.reorder] at h2
        | index t layers vecs =>
          unfold PyObj.reorder at h2
          simp only at h2
          split at h2 <;> try cases h2
          split at h2 <;> try cases h2
          split at h2 <;> try cases h2
          split at h2 <;> cases h2
          rfl
      simp [this]
    | _ => exact absurd hc (by simp [Changes])
  · refine ⟨o, hs.other ho hc, fun _ h => h, ?_⟩
    rintro (⟨raw, rfl⟩ | rfl) <;> exact absurd rfl hc

theorem Spec.PyRun.paths {w w' : World} {calls : List PyCall} (hr : PyRun checked srt w calls w') {h : Nat} {o : PyObj}
    (ho : w.objects[h]? = some o) : ∃ o', w'.objects[h]? = some o' ∧ o'.paths ⊆ o.paths ∧
      ((∃ raw, .append h raw ∈ calls) ∨ .reorder h ∈ calls → o'.paths = []) := by
  induction hr generalizing o with
  | nil => exact ⟨o, ho, fun _ h => h, by simp⟩
  | cons w w1 w' call calls hs _ ih =>
    obtain ⟨o1, a1, a2, a3⟩ := hs.paths ho
    obtain ⟨o2, b1, b2, b3⟩ := ih a1
    refine ⟨o2, b1, fun _ h => a2 (b2 h), ?_⟩
    have key : o1.paths = [] → o2.paths = [] := fun e => by rw [e] at b2; exact List.subset_nil.1 b2
    rintro (⟨raw, hm⟩ | hm)
    · rcases List.mem_cons.1 hm with rfl | hm
      · exact key (a3 (Or.inl ⟨raw, rfl⟩))
      · exact b3 (Or.inl ⟨raw, hm⟩)
    · rcases List.mem_cons.1 hm with rfl | hm
      · exact key (a3 (Or.inr rfl))
      · exact b3 (Or.inr hm)

/-- The answers of an object stay the same while neither it nor the files it reads are changed. -/
theorem Spec.PyRun.answers {w w' : World} {calls : List PyCall} (hr : PyRun checked srt w calls w') {h : Nat} {o : PyObj}
    (ho : w.objects[h]? = some o) (hc : ∀ call ∈ calls, ¬ Changes h call)
    (hp : ∀ p ∈ o.paths, ∀ call ∈ calls, ¬ Writes p call) (q : PyQuery) (a : PyAnswer) :
    w'.Answers checked h q a ↔ w.Answers checked h q a := by
  unfold World.Answers
  rw [hr.other ho hc, ho]
  simp only [Option.some.injEq, exists_eq_left']
  exact PyObj.answers_congr (fun p hpm => hr.file (hp p hpm)) q a

theorem openVectors_paths {files : Files} {path : String} {src : Src (FixVec (Scal t))}
    (h : openVectors t files path = some src) : ∃ n, 0 < n ∧ src = .mapped path n := by
  unfold openVectors mapFile at h
  rcases Option.eq_none_or_eq_some (files path) with e | ⟨b, e⟩
  · simp [e] at h
  · by_cases hb : b = []
    · simp [e, hb] at h
    · simp only [e, if_neg hb] at h
      split at h
      · cases h
        exact ⟨b.length, List.length_pos_iff.2 hb, rfl⟩
      · cases h

theorem openIndex_paths {files : Files} {ip ep : String} {o : PyObj} (h : openIndex files t ip ep = some o) :
    ∃ n m, 0 < n ∧ 0 < m ∧ o = .index t (.mapped ip n) (.mapped ep m) := by
  unfold openIndex at h
  split at h
  · next src n b h1 h2 h3 =>
    obtain ⟨m, hm, rfl⟩ := openVectors_paths h1
    have hn : 0 < n := by
      unfold mapFile at h2
      rw [h3] at h2
      simp only at h2
      split at h2
      · cases h2
      · next hb => cases h2; exact List.length_pos_iff.2 hb
    split at h
    · split at h
      · cases h
      · cases h; exact ⟨n, m, hn, hm, rfl⟩
    · cases h
  · cases h

theorem newBuilder_paths {files : Files} {cfg : BuildConfig ℝ} {eo io : Option String} {o : PyObj}
    (h : newBuilder checked files t cfg eo io = some o) :
    ∃ (src : Src (FixVec (Scal t))) (layers : List Layer), o = .builder t src layers cfg ∧
      ∀ p ∈ src.paths, eo = some p := by
  unfold newBuilder at h
  split at h
  · split at h <;> cases h
    exact ⟨_, _, rfl, by simp [Src.paths]⟩
  · split at h
    · cases h
    · next src hsrc =>
      obtain ⟨n, _, rfl⟩ := openVectors_paths hsrc
      split at h
      · cases h
      · split at h <;> cases h
        exact ⟨_, _, rfl, by simp [Src.paths]⟩
  · split at h
    · next src _ _ hsrc _ _ =>
      obtain ⟨n, _, rfl⟩ := openVectors_paths hsrc
      split at h
      · cases h
      · split at h <;> cases h
        exact ⟨_, _, rfl, by simp [Src.paths]⟩
    · cases h
  · cases h

theorem newBuilder_mapped {files : Files} {cfg : BuildConfig ℝ} {ep : String} {io : Option String} {o : PyObj}
    (h : newBuilder checked files t cfg (some ep) io = some o) :
    ∃ n layers, 0 < n ∧ o = .builder t (.mapped ep n) layers cfg := by
  cases io with
  | none =>
    unfold newBuilder at h
    simp only at h
    split at h
    · cases h
    · next src hsrc =>
      obtain ⟨n, hn, rfl⟩ := openVectors_paths hsrc
      split at h
      · cases h
      · split at h <;> cases h
        exact ⟨n, _, hn, rfl⟩
  | some ip =>
    unfold newBuilder at h
    simp only at h
    split at h
    · next src _ _ hsrc _ _ =>
      obtain ⟨n, hn, rfl⟩ := openVectors_paths hsrc
      split at h
      · cases h
      · split at h <;> cases h
        exact ⟨n, _, hn, rfl⟩
    · cases h

/-- C62. An index opened from two files answers the same whatever else happens in the session, to other objects or other
files, as long as it is not reordered and nothing is saved to these two files. -/
theorem C62_index {w0 w w' : World} {ip ep : String} {calls calls' : List PyCall}
    (hr : PyRun checked srt w0 (.openIndex t ip ep :: calls) w) (hr' : PyRun checked srt w calls' w')
    (hc : ∀ call ∈ calls', ¬ Changes w0.objects.length call)
    (hp : ∀ call ∈ calls', ¬ Writes ip call ∧ ¬ Writes ep call) (q : PyQuery) (a : PyAnswer) :
    w'.Answers checked w0.objects.length q a ↔ w.Answers checked w0.objects.length q a := by
  cases hr with
  | cons _ w1 _ _ _ hst hr =>
    cases hst with
    | openIndex t ip ep o ho =>
      obtain ⟨n, m, _, _, rfl⟩ := openIndex_paths ho
      obtain ⟨o', h1, h2, _⟩ := hr.paths (h := w0.objects.length) (o := .index t (.mapped ip n) (.mapped ep m)) (by simp)
      refine hr'.answers h1 hc (fun p hpm call hcall => ?_) q a
      have := h2 hpm
      simp only [PyObj.paths, Src.paths, List.cons_append, List.nil_append, List.mem_cons, List.not_mem_nil, or_false] at this
      rcases this with rfl | rfl
      · exact (hp call hcall).1
      · exact (hp call hcall).2

/-- C62. Once it has been reordered, it does not depend on any files. -/
theorem C62_reordered {w0 w w' : World} {ip ep : String} {calls calls' : List PyCall}
    (hr : PyRun checked srt w0 (.openIndex t ip ep :: calls) w) (hre : .reorder w0.objects.length ∈ calls)
    (hr' : PyRun checked srt w calls' w') (hc : ∀ call ∈ calls', ¬ Changes w0.objects.length call)
    (q : PyQuery) (a : PyAnswer) :
    w'.Answers checked w0.objects.length q a ↔ w.Answers checked w0.objects.length q a := by
  cases hr with
  | cons _ w1 _ _ _ hst hr =>
    cases hst with
    | openIndex t ip ep o ho =>
      obtain ⟨o', h1, _, h3⟩ := hr.paths (h := w0.objects.length) (o := o) (by simp)
      exact hr'.answers h1 hc (by rw [h3 (Or.inr hre)]; simp) q a

/-- C62. A builder answers the same whatever else happens, as long as nothing is appended to it, it is not built, and
nothing is saved to the file its elements were opened from (if there is one, and nothing has been appended so far). The
file its index was opened from may be overwritten. -/
theorem C62_builder {w0 w w' : World} {eo io : Option String} {calls calls' : List PyCall}
    (hr : PyRun checked srt w0 (.newBuilder t c eo io :: calls) w) (hr' : PyRun checked srt w calls' w')
    (hc : ∀ call ∈ calls', ¬ Changes w0.objects.length call)
    (hp : (∃ raw, .append w0.objects.length raw ∈ calls) ∨ ∀ ep, eo = some ep → ∀ call ∈ calls', ¬ Writes ep call)
    (q : PyQuery) (a : PyAnswer) :
    w'.Answers checked w0.objects.length q a ↔ w.Answers checked w0.objects.length q a := by
  cases hr with
  | cons _ w1 _ _ _ hst hr =>
    cases hst with
    | newBuilder t c eo io o ho =>
      obtain ⟨src, layers, rfl, hsrc⟩ := newBuilder_paths ho
      obtain ⟨o', h1, h2, h3⟩ := hr.paths (h := w0.objects.length) (o := .builder t src layers c.config) (by simp)
      refine hr'.answers h1 hc (fun p hpm => ?_) q a
      rcases hp with hp | hp
      · rw [h3 (Or.inl hp)] at hpm; simp at hpm
      · exact hp p (hsrc p (h2 hpm))

theorem mappedBytes_put {files : Files} {p : String} {n : Nat} (h : 0 < n) : mappedBytes (files.put p []) p n = none := by
  simp [mappedBytes, Files.put]; omega

/-- C62. Saving index or elements of an index to the file they were opened from destroys the file: it is empty afterwards,
and the process is dead. (After `reorder` it works: `C62_detached_save`.) -/
theorem C62_overwrite_index {w0 w : World} {ip ep : String} {calls : List PyCall}
    (hr : PyRun checked srt w0 (.openIndex t ip ep :: calls) w) (hre : .reorder w0.objects.length ∉ calls) :
    ∃ o, w.objects[w0.objects.length]? = some o ∧
      (∃ files, o.saveIndex w.files ip = (files, false) ∧ files ip = some []) ∧
      (∃ files, o.saveElements w.files ep = (files, false) ∧ files ep = some []) := by
  cases hr with
  | cons _ w1 _ _ _ hst hr =>
    cases hst with
    | openIndex t ip ep o ho =>
      obtain ⟨n, m, hn, hm, rfl⟩ := openIndex_paths ho
      have hkept : w.objects[w0.objects.length]? = some (.index t (.mapped ip n) (.mapped ep m)) := by
        have h0 : (w0.objects ++ [PyObj.index t (.mapped ip n) (.mapped ep m)])[w0.objects.length]? =
          some (.index t (.mapped ip n) (.mapped ep m)) := by simp
        clear ho
        generalize hw : (⟨w0.files, w0.objects ++ [PyObj.index t (.mapped ip n) (.mapped ep m)]⟩ : World) = w1 at hr
        have h1 : w1.objects[w0.objects.length]? = some (.index t (.mapped ip n) (.mapped ep m)) := by rw [← hw]; exact h0
        clear hw h0
        induction hr with
        | nil => exact h1
        | cons w1 w2 w' call calls hs _ ih =>
          refine ih (fun hm => hre (by simp [hm])) ?_
          by_cases hc : Changes w0.objects.length call
          · cases hs with
            | append h' raw o1 o' e1 e2 =>
              obtain rfl : h' = _ := hc
              rw [h1] at e1; cases e1
              exact absurd e2 (by simp [PyObj.Append])
            | build h' k o1 o' e1 e2 =>
              obtain rfl : h' = _ := hc
              rw [h1] at e1; cases e1
              exact absurd e2 (by simp [PyObj.Build])
            | reorder h' o1 o' order e1 e2 =>
              obtain rfl : h' = _ := hc
              exact absurd (List.mem_cons_self) hre
            | _ => exact absurd hc (by simp [Changes])
          · exact hs.other h1 hc
      refine ⟨_, hkept, ⟨w.files.put ip [], ?_, by simp [Files.put]⟩, ⟨w.files.put ep [], ?_, by simp [Files.put]⟩⟩
      · simp only [PyObj.saveIndex, PyObj.layers, Src.layers, mappedBytes_put hn]
      · simp only [PyObj.saveElements, PyObj.elementBytes, Src.vectors, mappedBytes_put hm, Option.map_none]

/-- C62. The same for a builder to which nothing has been appended, and the file its elements were opened from. -/
theorem C62_overwrite_builder {w0 w : World} {ep : String} {io : Option String} {calls : List PyCall}
    (hr : PyRun checked srt w0 (.newBuilder t c (some ep) io :: calls) w)
    (hre : ∀ raw, .append w0.objects.length raw ∉ calls) :
    ∃ o, w.objects[w0.objects.length]? = some o ∧
      ∃ files, o.saveElements w.files ep = (files, false) ∧ files ep = some [] := by
  cases hr with
  | cons _ w1 _ _ _ hst hr =>
    cases hst with
    | newBuilder t c eo io o ho =>
      obtain ⟨n, layers, hn, rfl⟩ := newBuilder_mapped ho
      have h0 : (w0.objects ++ [PyObj.builder t (.mapped ep n) layers c.config])[w0.objects.length]? =
        some (.builder t (.mapped ep n) layers c.config) := by simp
      clear ho
      generalize hw : (⟨w0.files, w0.objects ++ [PyObj.builder t (.mapped ep n) layers c.config]⟩ : World) = w1 at hr
      have h1 : ∃ ls, w1.objects[w0.objects.length]? = some (.builder t (.mapped ep n) ls c.config) := by
        rw [← hw]; exact ⟨_, h0⟩
      clear hw h0
      obtain ⟨ls, hkept⟩ : ∃ ls, w.objects[w0.objects.length]? = some (.builder t (.mapped ep n) ls c.config) := by
        induction hr with
        | nil => exact h1
        | cons w1 w2 w' call calls hs _ ih =>
          refine ih (fun raw hm => hre raw (by simp [hm])) ?_
          obtain ⟨ls, h1⟩ := h1
          have hlt := (List.getElem?_eq_some_iff.1 h1).1
          by_cases hc : Changes w0.objects.length call
          · cases hs with
            | append h' raw o1 o' e1 e2 =>
              obtain rfl : h' = _ := hc
              exact absurd (List.mem_cons_self) (hre raw)
            | build h' k o1 o' e1 e2 =>
              obtain rfl : h' = _ := hc
              rw [h1] at e1; cases e1
              obtain ⟨v, b', _, _, rfl⟩ := e2
              exact ⟨b'.layers, by simp only; rw [List.getElem?_set_self hlt]⟩
            | reorder h' o1 o' order e1 e2 =>
              obtain rfl : h' = _ := hc
              rw [h1] at e1; cases e1
              simp [PyObj.reorder] at e2
            | _ => exact absurd hc (by simp [Changes])
          · exact ⟨ls, hs.other h1 hc⟩
      refine ⟨_, hkept, w.files.put ep [], ?_, by simp [Files.put]⟩
      simp only [PyObj.saveElements, PyObj.elementBytes, Src.vectors, mappedBytes_put hn, Option.map_none]

/-- C62. An object that reads no files any more (an index after `reorder`, a builder created empty or after `append`) saves
the same bytes to whatever file. -/
theorem C62_detached_save {w0 w : World} {first : PyCall} {calls : List PyCall}
    (hr : PyRun checked srt w0 (first :: calls) w)
    (hfirst : (∃ ip ep, first = .openIndex t ip ep ∧ .reorder w0.objects.length ∈ calls) ∨
      (∃ eo io, first = .newBuilder t c eo io ∧ (eo = none ∨ ∃ raw, .append w0.objects.length raw ∈ calls))) :
    ∃ o, w.objects[w0.objects.length]? = some o ∧
      (∃ b ok, ∀ path, o.saveIndex w.files path = (w.files.put path b, ok)) ∧
      (∃ b, ∀ path, o.saveElements w.files path = (w.files.put path b, true)) := by
  obtain ⟨o, ho, hp⟩ : ∃ o, w.objects[w0.objects.length]? = some o ∧ o.paths = [] := by
    cases hr with
    | cons _ w1 _ _ _ hst hr =>
      rcases hfirst with ⟨ip, ep, rfl, hre⟩ | ⟨eo, io, rfl, he⟩
      · cases hst with
        | openIndex t ip ep o ho =>
          obtain ⟨o', h1, _, h3⟩ := hr.paths (h := w0.objects.length) (o := o) (by simp)
          exact ⟨o', h1, h3 (Or.inr hre)⟩
      · cases hst with
        | newBuilder t c eo io o ho =>
          obtain ⟨src, layers, rfl, hsrc⟩ := newBuilder_paths ho
          obtain ⟨o', h1, h2, h3⟩ := hr.paths (h := w0.objects.length) (o := .builder t src layers c.config) (by simp)
          refine ⟨o', h1, ?_⟩
          rcases he with rfl | he
          · refine List.subset_nil.1 fun p hp => ?_
            have := hsrc p (h2 hp)
            cases this
          · exact h3 (Or.inl he)
  refine ⟨o, ho, ?_⟩
  cases o with
  | builder t vecs layers cfg =>
    cases vecs with
    | mapped p n => simp [PyObj.paths, Src.paths] at hp
    | owned v =>
      exact ⟨⟨_, _, fun path => rfl⟩, ⟨v.bytes, fun path => rfl⟩⟩
  | index t layers vecs =>
    cases layers with
    | mapped p n => simp [PyObj.paths, Src.paths] at hp
    | owned L =>
      cases vecs with
      | mapped p n => simp [PyObj.paths, Src.paths] at hp
      | owned v => exact ⟨⟨_, _, fun path => rfl⟩, ⟨v.bytes, fun path => rfl⟩⟩

end Granne
