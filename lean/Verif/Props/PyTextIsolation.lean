import Verif.Props.PyTextReorder
import Verif.Props.PyIsolation

/-!
C67: objects of a session with texts do not influence each other, except through the files they are opened from.
-/
namespace Granne
open Spec

variable {srt : List (Nat × ℝ) → List (Nat × ℝ)}

/-- The files an object still reads. -/
def TObj.paths : TObj → List String
  | .embeddings emb _ => emb.paths
  | .builder emb elems _ _ _ => emb.paths ++ elems.paths
  | .index layers emb elems _ => layers.paths ++ emb.paths ++ elems.paths

theorem TObj.answers_congr {files files' : Files} {o : TObj} (h : ∀ p ∈ o.paths, files' p = files p) (q : TQuery)
    (a : TAnswer) : o.Answers files' q a ↔ o.Answers files q a := by
  cases o with
  | embeddings emb d =>
    have h1 := Src.embeddings_congr (files := files) (files' := files') (s := emb) h
    cases q <;> simp only [TObj.Answers, h1]
  | builder emb elems d layers cfg =>
    have h2 := Src.terms_congr (files := files) (files' := files') (s := elems) fun p hp => h p (by simp [TObj.paths, hp])
    cases q with
    | graph q => cases q <;> simp only [TObj.Answers, TObj.layers, h2]
    | _ => simp only [TObj.Answers]
  | index layers emb elems d =>
    have h0 := Src.layers_congr (files := files) (files' := files') (s := layers) fun p hp => h p (by simp [TObj.paths, hp])
    have h1 := Src.embeddings_congr (files := files) (files' := files') (s := emb) fun p hp => h p (by simp [TObj.paths, hp])
    have h2 := Src.terms_congr (files := files) (files' := files') (s := elems) fun p hp => h p (by simp [TObj.paths, hp])
    cases q <;> simp only [TObj.Answers, TObj.layers, textElements, h0, h1, h2]

/-- What can happen to an object in one step: the parts are the same, or have been copied into memory. -/
inductive TObj.After : TObj → TObj → Prop
  | embeddings (emb d emb' d') : (emb' = emb ∨ emb'.paths = []) → TObj.After (.embeddings emb d) (.embeddings emb' d')
  | builder (emb elems d layers cfg elems' layers') : (elems' = elems ∨ elems'.paths = []) →
      TObj.After (.builder emb elems d layers cfg) (.builder emb elems' d layers' cfg)
  | index (layers emb elems d layers' elems') : (layers' = layers ∧ elems' = elems ∨ layers'.paths = [] ∧ elems'.paths = []) →
      TObj.After (.index layers emb elems d) (.index layers' emb elems' d)

theorem TObj.After.refl (o : TObj) : o.After o := by
  cases o with
  | embeddings => exact .embeddings _ _ _ _ (Or.inl rfl)
  | builder => exact .builder _ _ _ _ _ _ _ (Or.inl rfl)
  | index => exact .index _ _ _ _ _ _ (Or.inl ⟨rfl, rfl⟩)

theorem TObj.After.trans {o o' o'' : TObj} (h : o.After o') (h' : o'.After o'') : o.After o'' := by
  cases h with
  | embeddings emb d emb' d' h =>
    cases h' with
    | embeddings _ _ emb'' d'' h' =>
      refine .embeddings _ _ _ _ ?_
      rcases h' with rfl | h'
      · exact h
      · exact Or.inr h'
  | builder emb elems d layers cfg elems' layers' h =>
    cases h' with
    | builder _ _ _ _ _ elems'' layers'' h' =>
      refine .builder _ _ _ _ _ _ _ ?_
      rcases h' with rfl | h'
      · exact h
      · exact Or.inr h'
  | index layers emb elems d layers' elems' h =>
    cases h' with
    | index _ _ _ _ layers'' elems'' h' =>
      refine .index _ _ _ _ _ _ ?_
      rcases h' with ⟨rfl, rfl⟩ | h'
      · exact h
      · exact Or.inr h'

theorem appendWord_after {files : Files} {v : List UInt32} {word : Text} {o o' : TObj} {b : Bool}
    (h : o.appendWord files v word = some (o', b)) : o.After o' ∧ (b = true → o'.paths = []) := by
  cases o with
  | embeddings emb d =>
    unfold TObj.appendWord at h
    simp only at h
    split at h
    · split at h
      · split at h
        · cases h
          exact ⟨.embeddings _ _ _ _ (Or.inr rfl), fun _ => rfl⟩
        · cases h
      · cases h
    · cases h
      exact ⟨.embeddings _ _ _ _ (Or.inl rfl), fun e => by cases e⟩
  | _ => simp [TObj.appendWord] at h

theorem appendText_after {files : Files} {q : Text} {o o' : TObj} (h : o.appendText files q = some o') :
    ∃ emb elems d layers cfg x, o = .builder emb elems d layers cfg ∧ o' = .builder emb (.owned x) d layers cfg := by
  cases o with
  | builder emb elems d layers cfg =>
    unfold TObj.appendText at h
    simp only at h
    split at h
    · split at h
      · cases h
        exact ⟨_, _, _, _, _, _, rfl, rfl⟩
      · cases h
    · cases h
  | _ => simp [TObj.appendText] at h

theorem reorder_after {files : Files} {o o' : TObj} {order : List Nat} (h : o.reorder files = some (o', order)) :
    ∃ layers emb elems d L x, o = .index layers emb elems d ∧ o' = .index (.owned L) emb (.owned x) d := by
  cases o with
  | index layers emb elems d =>
    unfold TObj.reorder at h
    simp only at h
    split at h
    · split at h
      · cases h
        exact ⟨_, _, _, _, _, _, rfl, rfl⟩
      · cases h
    · cases h
  | _ => simp [TObj.reorder] at h

theorem TStep.after {w w' : TWorld} {call : TCall} {out : TOut} (hs : TStep srt w call out w') {h : Nat} {o : TObj}
    (ho : w.objects[h]? = some o) : ∃ o', w'.objects[h]? = some o' ∧ o.After o' ∧
      ((∃ v word, call = .appendWord h v word) ∧ out = .inserted true → o'.paths = []) ∧
      ((∃ q, call = .append h q) → ∃ emb elems d layers cfg, o' = .builder emb elems d layers cfg ∧ elems.paths = []) ∧
      (call = .reorder h → ∃ layers emb elems d, o' = .index layers emb elems d ∧ layers.paths = [] ∧ elems.paths = []) := by
  have hlt := (List.getElem?_eq_some_iff.1 ho).1
  by_cases hc : TChanges h call
  · cases hs with
    | appendWord h' v word o1 o' b h1 h2 =>
      obtain rfl : h' = h := hc
      rw [ho] at h1; cases h1
      obtain ⟨a1, a2⟩ := appendWord_after h2
      exact ⟨o', by simp only; rw [List.getElem?_set_self hlt], a1, fun e => a2 (by simpa using e.2), by simp, by simp⟩
    | append h' q o1 o' h1 h2 =>
      obtain rfl : h' = h := hc
      rw [ho] at h1; cases h1
      obtain ⟨emb, elems, d, layers, cfg, x, rfl, rfl⟩ := appendText_after h2
      exact ⟨_, by simp only; rw [List.getElem?_set_self hlt], .builder _ _ _ _ _ _ _ (Or.inr rfl), by simp,
        fun _ => ⟨_, _, _, _, _, rfl, rfl⟩, by simp⟩
    | build h' n o1 o' h1 h2 =>
      obtain rfl : h' = h := hc
      rw [ho] at h1; cases h1
      refine ⟨o', by simp only; rw [List.getElem?_set_self hlt], ?_, by simp, by simp, by simp⟩
      cases o with
      | builder emb elems d layers cfg =>
        obtain ⟨es, b', _, _, rfl⟩ := h2
        exact .builder _ _ _ _ _ _ _ (Or.inl rfl)
      | _ => exact absurd h2 (by simp [TObj.Build])
    | reorder h' o1 o' order h1 h2 =>
      obtain rfl : h' = h := hc
      rw [ho] at h1; cases h1
      obtain ⟨layers, emb, elems, d, L, x, rfl, rfl⟩ := reorder_after h2
      exact ⟨_, by simp only; rw [List.getElem?_set_self hlt], .index _ _ _ _ _ _ (Or.inr ⟨rfl, rfl⟩), by simp, by simp,
        fun _ => ⟨_, _, _, _, rfl, rfl, rfl⟩⟩
    | _ => exact absurd hc (by simp [TChanges])
  · refine ⟨o, hs.other_object ho hc, .refl o, ?_, ?_, ?_⟩
    · rintro ⟨⟨v, word, rfl⟩, _⟩; exact absurd rfl hc
    · rintro ⟨q, rfl⟩; exact absurd rfl hc
    · rintro rfl; exact absurd rfl hc

theorem Spec.TRun.after {w w' : TWorld} {calls : List TCall} (hr : TRun srt w calls w') {h : Nat} {o : TObj}
    (ho : w.objects[h]? = some o) : ∃ o', w'.objects[h]? = some o' ∧ o.After o' ∧
      ((∃ q, .append h q ∈ calls) → ∃ emb elems d layers cfg, o' = .builder emb elems d layers cfg ∧ elems.paths = []) ∧
      (.reorder h ∈ calls → ∃ layers emb elems d, o' = .index layers emb elems d ∧ layers.paths = [] ∧ elems.paths = []) := by
  induction hr generalizing o with
  | nil => exact ⟨o, ho, .refl o, by simp, by simp⟩
  | cons w w1 w' call out calls hs _ ih =>
    obtain ⟨o1, a1, a2, _, a3, a4⟩ := hs.after ho
    obtain ⟨o2, b1, b2, b3, b4⟩ := ih a1
    refine ⟨o2, b1, a2.trans b2, ?_, ?_⟩
    · rintro ⟨q, hm⟩
      rcases List.mem_cons.1 hm with rfl | hm
      · obtain ⟨emb, elems, d, layers, cfg, rfl, e⟩ := a3 ⟨q, rfl⟩
        cases b2 with
        | builder _ _ _ _ _ elems' layers' h' =>
          refine ⟨_, _, _, _, _, rfl, ?_⟩
          rcases h' with rfl | h'
          · exact e
          · exact h'
      · exact b3 ⟨q, hm⟩
    · intro hm
      rcases List.mem_cons.1 hm with rfl | hm
      · obtain ⟨layers, emb, elems, d, rfl, e1, e2⟩ := a4 rfl
        cases b2 with
        | index _ _ _ _ layers' elems' h' =>
          refine ⟨_, _, _, _, rfl, ?_⟩
          rcases h' with ⟨rfl, rfl⟩ | h'
          · exact ⟨e1, e2⟩
          · exact h'
      · exact b4 hm

/-- The answers of an object stay the same while neither it nor the files it reads are changed. -/
theorem Spec.TRun.answers {w w' : TWorld} {calls : List TCall} (hr : TRun srt w calls w') {h : Nat} {o : TObj}
    (ho : w.objects[h]? = some o) (hc : ∀ call ∈ calls, ¬ TChanges h call)
    (hp : ∀ p ∈ o.paths, ∀ call ∈ calls, ¬ TWrites p call) (q : TQuery) (a : TAnswer) :
    w'.Answers h q a ↔ w.Answers h q a := by
  unfold TWorld.Answers
  rw [hr.other_object ho hc, ho]
  simp only [Option.some.injEq, exists_eq_left']
  exact TObj.answers_congr (fun p hpm => hr.file (hp p hpm)) q a

theorem mapFile_pos {files : Files} {path : String} {n : Nat} (h : mapFile files path = some n) : 0 < n := by
  unfold mapFile at h
  rcases Option.eq_none_or_eq_some (files path) with e | ⟨b, e⟩
  · simp [e] at h
  · by_cases hb : b = []
    · simp [e, hb] at h
    · simp only [e, if_neg hb] at h
      cases h
      exact List.length_pos_iff.2 hb

theorem openEmbeddings_paths {files : Files} {path : String} {src : Src (FixVec UInt32)}
    (h : openEmbeddings files path = some src) : ∃ n, 0 < n ∧ mapFile files path = some n ∧ src = .mapped path n := by
  unfold openEmbeddings at h
  split at h
  · next n b h1 h2 =>
    split at h
    · cases h
      exact ⟨n, mapFile_pos h1, h1, rfl⟩
    · cases h
  · cases h

theorem openTerms_paths {files : Files} {path : String} {src : Src Elems}
    (h : openTerms files (some path) = some src) : ∃ n, 0 < n ∧ src = .mapped path n := by
  unfold openTerms at h
  simp only at h
  split at h
  · next n b h1 h2 =>
    split at h
    · cases h
      exact ⟨n, mapFile_pos h1, rfl⟩
    · cases h
  · cases h

theorem openTextIndex_paths {files : Files} {ip xp ep wp : String} {o : TObj} (h : openTextIndex files ip xp ep wp = some o) :
    ∃ n m k d, 0 < n ∧ 0 < m ∧ 0 < k ∧ mapFile files ep = some m ∧
      o = .index (.mapped ip n) (.mapped ep m) (.mapped xp k) d := by
  unfold openTextIndex at h
  split at h
  · next d e xs h1 h2 h3 =>
    obtain ⟨m, hm, hm', rfl⟩ := openEmbeddings_paths h2
    obtain ⟨k, hk, rfl⟩ := openTerms_paths h3
    split at h
    · next n b h4 h5 =>
      split at h
      · split at h
        · cases h
        · cases h
          exact ⟨n, m, k, d, mapFile_pos h4, hm, hk, hm', rfl⟩
      · cases h
    · cases h
  · cases h

theorem newTextBuilder_paths {files : Files} {cfg : BuildConfig ℝ} {xp : Option String} {ep wp : String} {ip : Option String}
    {o : TObj} (h : newTextBuilder files cfg xp ep wp ip = some o) :
    ∃ n elems d layers, 0 < n ∧ mapFile files ep = some n ∧ openTerms files xp = some elems ∧
      o = .builder (.mapped ep n) elems d layers cfg := by
  unfold newTextBuilder at h
  split at h
  · next d e xs h1 h2 h3 =>
    obtain ⟨m, hm, hm', rfl⟩ := openEmbeddings_paths h2
    split at h
    · cases h
    · split at h
      · split at h
        · cases h
          exact ⟨m, xs, d, _, hm, hm', h3, rfl⟩
        · cases h
      · split at h
        · split at h
          · cases h
            exact ⟨m, xs, d, _, hm, hm', h3, rfl⟩
          · cases h
        · cases h
  · cases h

theorem openTerms_none_paths {files : Files} {src : Src Elems} (h : openTerms files none = some src) : src.paths = [] := by
  simp only [openTerms, Option.map_eq_some_iff] at h
  obtain ⟨x, _, rfl⟩ := h
  rfl

/-- C67. An `Embeddings` answers the same whatever else happens in the session, to other objects or other files, as long as
nothing is appended to it and the file its embeddings were opened from (if any) does not change. The words file may
change. -/
theorem C67_embeddings {w0 w w' : TWorld} {epo wpo : Option String} {calls calls' : List TCall}
    (hr : TRun srt w0 (.newEmbeddings epo wpo :: calls) w) (hr' : TRun srt w calls' w')
    (hc : ∀ call ∈ calls', ¬ TChanges w0.objects.length call)
    (hp : ∀ ep, epo = some ep → ∀ call ∈ calls', ¬ TWrites ep call) (q : TQuery) (a : TAnswer) :
    w'.Answers w0.objects.length q a ↔ w.Answers w0.objects.length q a := by
  cases hr with
  | cons _ w1 _ _ _ _ hst hr =>
    cases hst with
    | newEmbeddings epo wpo o ho =>
      obtain ⟨emb, d, rfl, hemb⟩ : ∃ emb d, o = .embeddings emb d ∧ ∀ p ∈ emb.paths, epo = some p := by
        unfold newEmbeddings at ho
        split at ho
        · cases ho; exact ⟨_, _, rfl, by simp [Src.paths]⟩
        · split at ho
          · next e h1 h2 =>
            cases ho
            obtain ⟨n, _, _, rfl⟩ := openEmbeddings_paths h2
            exact ⟨_, _, rfl, by simp [Src.paths]⟩
          · cases ho
        · cases ho
      obtain ⟨o', h1, h2, _⟩ := hr.after (h := w0.objects.length) (o := .embeddings emb d) (by simp)
      refine hr'.answers h1 hc (fun p hpm => ?_) q a
      cases h2 with
      | embeddings _ _ emb' d' h2 =>
        rcases h2 with rfl | h2
        · exact hp p (hemb p hpm)
        · simp [TObj.paths, h2] at hpm

/-- C67. Once a word has been added (an `append` has returned true), it does not depend on any file. -/
theorem C67_embeddings_detached {w0 w1 w w' : TWorld} {h : Nat} {v : List UInt32} {word : Text} {calls calls' : List TCall}
    (hst : TStep srt w0 (.appendWord h v word) (.inserted true) w1) (hr : TRun srt w1 calls w) (hr' : TRun srt w calls' w')
    (hc : ∀ call ∈ calls', ¬ TChanges h call) (q : TQuery) (a : TAnswer) :
    w'.Answers h q a ↔ w.Answers h q a := by
  have hlt : ∃ o, w0.objects[h]? = some o := by cases hst with | appendWord _ _ _ o o' b h1 h2 => exact ⟨o, h1⟩
  obtain ⟨o, ho⟩ := hlt
  obtain ⟨o1, h1, h2, h3, _⟩ := hst.after ho
  have h3 := h3 ⟨⟨v, word, rfl⟩, rfl⟩
  obtain ⟨o', h1', h2', _⟩ := hr.after h1
  refine hr'.answers h1' hc (fun p hpm => ?_) q a
  have hemb : ∃ emb d, o1 = .embeddings emb d := by
    cases hst with
    | appendWord _ _ _ o2 o2' b e1 e2 =>
      rw [ho] at e1; cases e1
      simp only at h1
      rw [List.getElem?_set_self (List.getElem?_eq_some_iff.1 ho).1] at h1
      cases h1
      cases o with
      | embeddings emb d => cases h2 with | embeddings _ _ emb' d' _ => exact ⟨_, _, rfl⟩
      | _ => simp [TObj.appendWord] at e2
  obtain ⟨emb, d, rfl⟩ := hemb
  cases h2' with
  | embeddings _ _ emb' d' h2 =>
    rcases h2 with rfl | h2
    · simp only [TObj.paths] at h3 hpm
      rw [h3] at hpm; simp at hpm
    · simp [TObj.paths, h2] at hpm

/-- C67. A builder over texts answers the same whatever else happens, as long as nothing is appended to it, it is not built,
and neither the embeddings file nor the file its elements were opened from changes (the latter only if there is one, and
nothing has been appended so far). The words file and the index file may change. -/
theorem C67_builder {w0 w w' : TWorld} {c : PyConfig} {xpo ipo : Option String} {ep wp : String} {calls calls' : List TCall}
    (hr : TRun srt w0 (.newBuilder c xpo ep wp ipo :: calls) w) (hr' : TRun srt w calls' w')
    (hc : ∀ call ∈ calls', ¬ TChanges w0.objects.length call) (he : ∀ call ∈ calls', ¬ TWrites ep call)
    (hp : (∃ q, .append w0.objects.length q ∈ calls) ∨ ∀ xp, xpo = some xp → ∀ call ∈ calls', ¬ TWrites xp call)
    (q : TQuery) (a : TAnswer) :
    w'.Answers w0.objects.length q a ↔ w.Answers w0.objects.length q a := by
  cases hr with
  | cons _ w1 _ _ _ _ hst hr =>
    cases hst with
    | newBuilder c xpo ep wp ipo o ho =>
      obtain ⟨n, elems, d, layers, _, _, hel, rfl⟩ := newTextBuilder_paths ho
      have hx : ∀ p ∈ elems.paths, xpo = some p := by
        cases xpo with
        | none => rw [openTerms_none_paths hel]; simp
        | some xp =>
          obtain ⟨k, _, rfl⟩ := openTerms_paths hel
          simp [Src.paths]
      obtain ⟨o', h1, h2, h3, _⟩ := hr.after (h := w0.objects.length) (o := .builder (.mapped ep n) elems d layers c.config)
        (by simp)
      refine hr'.answers h1 hc (fun p hpm => ?_) q a
      cases h2 with
      | builder _ _ _ _ _ elems' layers' h2 =>
        simp only [TObj.paths, List.mem_append] at hpm
        rcases hpm with hpm | hpm
        · simp only [Src.paths, List.mem_singleton] at hpm
          subst hpm
          exact he
        · rcases hp with hp | hp
          · obtain ⟨_, _, _, _, _, e1, e2⟩ := h3 hp
            cases e1
            rw [e2] at hpm; simp at hpm
          · rcases h2 with rfl | h2
            · exact hp p (hx p hpm)
            · rw [h2] at hpm; simp at hpm

/-- C67. A text index answers the same whatever else happens, as long as it is not reordered and the files of index, elements
and embeddings do not change. The words file may change. -/
theorem C67_index {w0 w w' : TWorld} {ip xp ep wp : String} {calls calls' : List TCall}
    (hr : TRun srt w0 (.openIndex ip xp ep wp :: calls) w) (hr' : TRun srt w calls' w')
    (hc : ∀ call ∈ calls', ¬ TChanges w0.objects.length call) (he : ∀ call ∈ calls', ¬ TWrites ep call)
    (hp : .reorder w0.objects.length ∈ calls ∨ ∀ call ∈ calls', ¬ TWrites ip call ∧ ¬ TWrites xp call)
    (q : TQuery) (a : TAnswer) :
    w'.Answers w0.objects.length q a ↔ w.Answers w0.objects.length q a := by
  cases hr with
  | cons _ w1 _ _ _ _ hst hr =>
    cases hst with
    | openIndex ip xp ep wp o ho =>
      obtain ⟨n, m, k, d, _, _, _, _, rfl⟩ := openTextIndex_paths ho
      obtain ⟨o', h1, h2, _, h3⟩ := hr.after (h := w0.objects.length)
        (o := .index (.mapped ip n) (.mapped ep m) (.mapped xp k) d) (by simp)
      refine hr'.answers h1 hc (fun p hpm => ?_) q a
      cases h2 with
      | index _ _ _ _ layers' elems' h2 =>
        simp only [TObj.paths, List.mem_append] at hpm
        rcases hp with hp | hp
        · obtain ⟨_, _, _, _, e1, e2, e3⟩ := h3 hp
          cases e1
          rw [e2, e3] at hpm
          simp only [List.not_mem_nil, false_or, or_false, Src.paths, List.mem_singleton] at hpm
          subst hpm
          exact he
        · rcases h2 with ⟨rfl, rfl⟩ | ⟨e2, e3⟩
          · simp only [Src.paths, List.mem_singleton] at hpm
            rcases hpm with (rfl | rfl) | rfl
            · exact fun call hcall => (hp call hcall).1
            · exact he
            · exact fun call hcall => (hp call hcall).2
          · rw [e2, e3] at hpm
            simp only [List.not_mem_nil, false_or, or_false, Src.paths, List.mem_singleton] at hpm
            subst hpm
            exact he

/-- An index that has not been reordered is what was opened. -/
theorem index_kept {w1 w : TWorld} {calls : List TCall} {h : Nat} (hr : TRun srt w1 calls w) (hre : .reorder h ∉ calls)
    {layers emb elems d} (ho : w1.objects[h]? = some (.index layers emb elems d)) :
    w.objects[h]? = some (.index layers emb elems d) := by
  induction hr with
  | nil => exact ho
  | cons w1 w2 w' call out calls hs _ ih =>
    refine ih (fun hm => hre (by simp [hm])) ?_
    by_cases hc : TChanges h call
    · cases hs with
      | appendWord h' v word o1 o' b e1 e2 =>
        obtain rfl : h' = _ := hc
        rw [ho] at e1; cases e1
        simp [TObj.appendWord] at e2
      | append h' q o1 o' e1 e2 =>
        obtain rfl : h' = _ := hc
        rw [ho] at e1; cases e1
        simp [TObj.appendText] at e2
      | build h' k o1 o' e1 e2 =>
        obtain rfl : h' = _ := hc
        rw [ho] at e1; cases e1
        exact absurd e2 (by simp [TObj.Build])
      | reorder h' o1 o' order e1 e2 =>
        obtain rfl : h' = _ := hc
        exact absurd (List.mem_cons_self) hre
      | _ => exact absurd hc (by simp [TChanges])
    · exact hs.other_object ho hc

/-- C67 (negative). Saving the index or the elements of a text index to the file they were opened from destroys the file: it
is empty afterwards, and the process is dead. (After `reorder` it works: `C67_detached_save`.) -/
theorem C67_overwrite_index {w0 w : TWorld} {ip xp ep wp : String} {calls : List TCall}
    (hr : TRun srt w0 (.openIndex ip xp ep wp :: calls) w) (hre : .reorder w0.objects.length ∉ calls) :
    ∃ o, w.objects[w0.objects.length]? = some o ∧
      (∃ files, o.saveIndex w.files ip = (files, false) ∧ files ip = some []) ∧
      (∃ files, o.saveElements w.files xp = (files, false) ∧ files xp = some []) := by
  cases hr with
  | cons _ w1 _ _ _ _ hst hr =>
    cases hst with
    | openIndex ip xp ep wp o ho =>
      obtain ⟨n, m, k, d, hn, _, hk, _, rfl⟩ := openTextIndex_paths ho
      have hkept := index_kept (h := w0.objects.length) hr hre (layers := .mapped ip n) (emb := .mapped ep m) (elems := .mapped xp k)
        (d := d) (by simp)
      refine ⟨_, hkept, ⟨w.files.put ip [], ?_, by simp [Files.put]⟩, ⟨w.files.put xp [], ?_, by simp [Files.put]⟩⟩
      · simp only [TObj.saveIndex, TObj.layers, Src.layers, mappedBytes_put hn]
      · simp only [TObj.saveElements, TObj.elementBytes, Src.terms, mappedBytes_put hk, Option.map_none]

/-- C67 (negative). The same for a builder to which nothing has been appended, and the file its elements were opened
from. -/
theorem C67_overwrite_builder {w0 w : TWorld} {c : PyConfig} {xp ep wp : String} {ipo : Option String} {calls : List TCall}
    (hr : TRun srt w0 (.newBuilder c (some xp) ep wp ipo :: calls) w) (hre : ∀ q, .append w0.objects.length q ∉ calls) :
    ∃ o, w.objects[w0.objects.length]? = some o ∧
      ∃ files, o.saveElements w.files xp = (files, false) ∧ files xp = some [] := by
  cases hr with
  | cons _ w1 _ _ _ _ hst hr =>
    cases hst with
    | newBuilder c xpo ep wp ipo o ho =>
      obtain ⟨n, elems, d, layers, _, _, hel, rfl⟩ := newTextBuilder_paths ho
      obtain ⟨k, hk, rfl⟩ := openTerms_paths hel
      have h0 : (w0.objects ++ [TObj.builder (.mapped ep n) (.mapped xp k) d layers c.config])[w0.objects.length]? =
        some (.builder (.mapped ep n) (.mapped xp k) d layers c.config) := by simp
      clear ho
      generalize hw : (⟨w0.files, w0.objects ++ [TObj.builder (.mapped ep n) (.mapped xp k) d layers c.config]⟩ : TWorld) = w1 at hr
      have h1 : ∃ ls, w1.objects[w0.objects.length]? = some (.builder (.mapped ep n) (.mapped xp k) d ls c.config) := by
        rw [← hw]; exact ⟨_, h0⟩
      clear hw h0
      obtain ⟨ls, hkept⟩ : ∃ ls, w.objects[w0.objects.length]? = some (.builder (.mapped ep n) (.mapped xp k) d ls c.config) := by
        induction hr with
        | nil => exact h1
        | cons w1 w2 w' call out calls hs _ ih =>
          refine ih (fun q hm => hre q (by simp [hm])) ?_
          obtain ⟨ls, h1⟩ := h1
          have hlt := (List.getElem?_eq_some_iff.1 h1).1
          by_cases hc : TChanges w0.objects.length call
          · cases hs with
            | appendWord h' v word o1 o' b e1 e2 =>
              obtain rfl : h' = _ := hc
              rw [h1] at e1; cases e1
              simp [TObj.appendWord] at e2
            | append h' q o1 o' e1 e2 =>
              obtain rfl : h' = _ := hc
              exact absurd (List.mem_cons_self) (hre q)
            | build h' k o1 o' e1 e2 =>
              obtain rfl : h' = _ := hc
              rw [h1] at e1; cases e1
              obtain ⟨v, b', _, _, rfl⟩ := e2
              exact ⟨b'.layers, by simp only; rw [List.getElem?_set_self hlt]⟩
            | reorder h' o1 o' order e1 e2 =>
              obtain rfl : h' = _ := hc
              rw [h1] at e1; cases e1
              simp [TObj.reorder] at e2
            | _ => exact absurd hc (by simp [TChanges])
          · exact ⟨ls, hs.other_object h1 hc⟩
      refine ⟨_, hkept, w.files.put xp [], ?_, by simp [Files.put]⟩
      simp only [TObj.saveElements, TObj.elementBytes, Src.terms, mappedBytes_put hk, Option.map_none]

/-- C67 (negative). If the embeddings file of a text index is replaced by a shorter one (in place), no element can be computed
and no search answered any more, whether or not the index was reordered. -/
theorem C67_embeddings_file_lost {w0 w : TWorld} {ip xp ep wp : String} {calls : List TCall} {b b' : Bytes}
    (hr : TRun srt w0 (.openIndex ip xp ep wp :: calls) w) (hb : w0.files ep = some b) (hb' : w.files ep = some b')
    (hlen : b'.length < b.length) (a : TAnswer) :
    (∀ i, ¬ w.Answers w0.objects.length (.element i) a) ∧
    (∀ t m k, ¬ w.Answers w0.objects.length (.search t m k) a) ∧
    (∀ raw m k, ¬ w.Answers w0.objects.length (.searchVector raw m k) a) := by
  cases hr with
  | cons _ w1 _ _ _ _ hst hr =>
    cases hst with
    | openIndex ip xp ep wp o ho =>
      obtain ⟨n, m, k, d, hn, _, hk, hm, rfl⟩ := openTextIndex_paths ho
      have hmb : m = b.length := by
        unfold mapFile at hm
        rw [hb] at hm
        simp only at hm
        split at hm
        · cases hm
        · cases hm; rfl
      obtain ⟨o', h1, h2, _⟩ := hr.after (h := w0.objects.length)
        (o := .index (.mapped ip n) (.mapped ep m) (.mapped xp k) d) (by simp)
      have hnone : (Src.mapped ep m : Src (FixVec UInt32)).embeddings w.files = none := by
        simp only [Src.embeddings, mappedBytes, hb']
        rw [if_neg (by omega)]
      cases h2 with
      | index _ _ _ _ layers' elems' h2 =>
        refine ⟨?_, ?_, ?_⟩ <;> intros <;> unfold TWorld.Answers <;> rw [h1] <;>
          simp [TObj.Answers, textElements, hnone]

/-- C67. A reordered text index, and a builder created without elements or after an `append`, save the same bytes to whatever
file. -/
theorem C67_detached_save {w0 w : TWorld} {first : TCall} {calls : List TCall} (hr : TRun srt w0 (first :: calls) w)
    (hfirst : (∃ ip xp ep wp, first = .openIndex ip xp ep wp ∧ .reorder w0.objects.length ∈ calls) ∨
      (∃ c xpo ep wp ipo, first = .newBuilder c xpo ep wp ipo ∧ (xpo = none ∨ ∃ q, .append w0.objects.length q ∈ calls))) :
    ∃ o, w.objects[w0.objects.length]? = some o ∧
      (∃ b ok, ∀ path, o.saveIndex w.files path = (w.files.put path b, ok)) ∧
      (∃ b, ∀ path, o.saveElements w.files path = (w.files.put path b, true)) := by
  cases hr with
  | cons _ w1 _ _ _ _ hst hr =>
    rcases hfirst with ⟨ip, xp, ep, wp, rfl, hre⟩ | ⟨c, xpo, ep, wp, ipo, rfl, he⟩
    · cases hst with
      | openIndex ip xp ep wp o ho =>
        obtain ⟨o', h1, _, _, h3⟩ := hr.after (h := w0.objects.length) (o := o) (by simp)
        obtain ⟨layers, emb, elems, d, rfl, e1, e2⟩ := h3 hre
        cases layers with
        | mapped p n => simp [Src.paths] at e1
        | owned L =>
          cases elems with
          | mapped p n => simp [Src.paths] at e2
          | owned x => exact ⟨_, h1, ⟨_, _, fun path => rfl⟩, ⟨x.bytes, fun path => rfl⟩⟩
    · cases hst with
      | newBuilder c xpo ep wp ipo o ho =>
        obtain ⟨n, elems, d, layers, _, _, hel, rfl⟩ := newTextBuilder_paths ho
        obtain ⟨o', h1, h2, h3, _⟩ := hr.after (h := w0.objects.length) (o := .builder (.mapped ep n) elems d layers c.config)
          (by simp)
        have : ∃ emb x d layers cfg, o' = .builder emb (.owned x) d layers cfg := by
          rcases he with rfl | he
          · have e0 := openTerms_none_paths hel
            cases h2 with
            | builder _ _ _ _ _ elems' layers' h2 =>
              have : elems'.paths = [] := by
                rcases h2 with rfl | h2
                · exact e0
                · exact h2
              cases elems' with
              | mapped p n => simp [Src.paths] at this
              | owned x => exact ⟨_, _, _, _, _, rfl⟩
          · obtain ⟨_, elems', _, _, _, rfl, e2⟩ := h3 he
            cases elems' with
            | mapped p n => simp [Src.paths] at e2
            | owned x => exact ⟨_, _, _, _, _, rfl⟩
        obtain ⟨emb, x, d', layers', cfg', rfl⟩ := this
        exact ⟨_, h1, ⟨_, _, fun path => rfl⟩, ⟨x.bytes, fun path => rfl⟩⟩

end Granne
