import Verif.Props.PyText
import Verif.Props.PyTextIndex
import Verif.Props.SumIndex

/-!
Sessions for C64 and C65: for all words and texts within the stated limits, the usual calls return, so that the hypotheses of
the theorems of C64 and C65 are met.
-/
namespace Granne
open Spec

variable {srt : List (Nat × ℝ) → List (Nat × ℝ)} {P : PyConfig → Prop}

theorem Spec.TRun.snoc {w w' w'' : TWorld} {calls : List TCall} {call : TCall} {out : TOut} (h : TRun srt w calls w')
    (hs : TStep srt w' call out w'') : TRun srt w (calls ++ [call]) w'' :=
  h.append (.cons _ _ _ _ _ _ hs (.nil _))

theorem wordsTo_map (h : Nat) (pairs : List (List UInt32 × Text)) :
    wordsTo h (pairs.map fun p => TCall.appendWord h p.1 p.2) = pairs := by
  induction pairs with
  | nil => rfl
  | cons p l ih => simp [wordsTo, ih]

theorem textsTo_map (h : Nat) (texts : List Text) : textsTo h (texts.map fun q => TCall.append h q) = texts := by
  induction texts with
  | nil => rfl
  | cons p l ih => simp [textsTo, ih]

theorem firstPairs_nodup {S : Type} : ∀ (l : List (List S × Text)) (seen : List Text), (l.map Prod.snd).Nodup →
    (∀ p ∈ l, p.2 ∉ seen) → firstPairs seen l = l
  | [], _, _, _ => rfl
  | p :: l, seen, hn, hs => by
    rw [List.map_cons, List.nodup_cons] at hn
    rw [firstPairs, if_neg (hs p (by simp)), firstPairs_nodup l _ hn.2]
    intro q hq
    rw [List.mem_append, List.mem_singleton]
    rintro (h | h)
    · exact hs q (by simp [hq]) h
    · exact hn.1 (h ▸ List.mem_map_of_mem hq)

/-- C64. An `Embeddings` can be created, filled with any pairs of one dimension and different words, and saved. -/
theorem C64_session (w0 : TWorld) (pairs : List (List UInt32 × Text)) (dim : Nat) (hd : dim ≠ 0) (hd' : dim < 2 ^ 64)
    (hdim : ∀ p ∈ pairs, p.1.length = dim) (hnd : (pairs.map Prod.snd).Nodup) (ep wp : String) (hne : ep ≠ wp) :
    ∃ w1 w, TRun srt w0 (.newEmbeddings none none :: pairs.map fun p => .appendWord w0.objects.length p.1 p.2) w1 ∧
      TRun srt w1 [.saveEmbeddings w0.objects.length ep, .saveWords w0.objects.length wp] w ∧
      HoldsPairs srt w1 w0.objects.length pairs ∧ PairsSaved srt w1 w0.objects.length w ep wp pairs := by
  have hfill : ∀ l : List (List UInt32 × Text), (∀ p ∈ l, p.1.length = dim) → (l.map Prod.snd).Nodup →
      ∃ w1, TRun srt w0 (.newEmbeddings none none :: l.map fun p => .appendWord w0.objects.length p.1 p.2) w1 ∧
        HoldsPairs srt w1 w0.objects.length l ∧ ∃ e d, w1.objects[w0.objects.length]? = some (.embeddings (.owned e) d) := by
    intro l
    induction l using List.reverseRecOn with
    | nil =>
      intro _ _
      have hst := TStep.newEmbeddings (srt := srt) w0 none none _ rfl
      have hr : TRun srt w0 [.newEmbeddings none none] _ := .cons _ _ _ _ _ _ hst (.nil _)
      exact ⟨_, hr, .new _ _ _ hr, FixVec.new, WordDict.empty, by simp⟩
    | append_singleton l p ih =>
      intro h1 h2
      rw [List.map_append, List.nodup_append] at h2
      obtain ⟨w1, hr, hh, _⟩ := ih (fun q hq => h1 q (by simp [hq])) h2.1
      have hp0 : p.1 ≠ [] := by
        intro hx
        have := h1 p (by simp)
        rw [hx] at this
        exact hd this.symm
      have hprop : ProperPairs l := fun q hq => ⟨by
        intro hx
        have := h1 q (by simp [hq])
        rw [hx] at this
        exact hd this.symm, by rw [h1 q (by simp [hq])]; exact hd'⟩
      have hnew : p.2 ∉ l.map Prod.snd := by
        intro hx
        exact h2.2.2 _ hx p.2 (by simp) rfl
      obtain ⟨out, w', hs⟩ := (C64_append hh hprop p.1 hp0 p.2).1.2 (Or.inr fun q hq => by
        rw [h1 q (by simp [hq]), h1 p (by simp)])
      have ho := (C64_append hh hprop p.1 hp0 p.2).2 _ _ hs
      have hr' := hr.snoc hs
      rw [List.cons_append] at hr'
      have hcalls : (l.map fun p => TCall.appendWord w0.objects.length p.1 p.2) ++ [.appendWord w0.objects.length p.1 p.2] =
          (l ++ [p]).map fun p => TCall.appendWord w0.objects.length p.1 p.2 := by simp
      rw [hcalls] at hr'
      refine ⟨w', hr', ?_, ?_⟩
      · have := HoldsPairs.new _ _ _ hr'
        rw [wordsTo_map, firstPairs_nodup _ _ (by
          rw [List.map_append, List.nodup_append]; exact h2) (by simp)] at this
        exact this
      · obtain ⟨ep', src, e, d, ho', he, _, hl⟩ := hh.embAt hprop
        rw [decide_eq_true hnew] at ho
        subst ho
        have hlt := (List.getElem?_eq_some_iff.1 ho').1
        cases hs with
        | appendWord h v word o o' b e1 e2 =>
          rw [ho'] at e1; cases e1
          simp only [TObj.appendWord] at e2
          split at e2
          · rw [he] at e2
            simp only at e2
            split at e2
            · cases e2
              exact ⟨_, _, List.getElem?_set_self hlt⟩
            · cases e2
          · cases e2
  obtain ⟨w1, hr, hh, e, d, ho⟩ := hfill pairs hdim hnd
  have hprop : ProperPairs pairs := fun q hq => ⟨by
    intro hx
    have := hdim q hq
    rw [hx] at this
    exact hd this.symm, by rw [hdim q hq]; exact hd'⟩
  obtain ⟨out, w2, hs2⟩ := (C64_save_returns hh hprop ep).2 (by
    intro n d' hx
    rw [ho] at hx; cases hx)
  have ho2 := hs2.other_object ho (by simp [TChanges])
  obtain ⟨o3, w3, hs3⟩ : ∃ out w', TStep srt w2 (.saveWords w0.objects.length wp) out w' :=
    ⟨_, _, .saveWords w2 _ wp _ _ ho2 rfl⟩
  have hrun : TRun srt w1 [.saveEmbeddings w0.objects.length ep, .saveWords w0.objects.length wp] w3 :=
    .cons _ _ _ _ _ _ hs2 (.cons _ _ _ _ _ _ hs3 (.nil _))
  exact ⟨w1, w3, hr, hrun, hh, w3, [], hh, hne, hrun, .nil _, by simp⟩

/-- The positions an input of `get_embedding` or `dist` stands for. -/
def inputIds (words : List Text) : EmbInput → List Nat
  | .text q => wordIds words q
  | .ids l => l

/-- C64. The distance of two texts (or lists of positions) whose embeddings do not nearly cancel out is answered, is not
negative, and equals 1 minus the cosine of the exact sums of the embeddings of the known words, up to 100 times
`f32::EPSILON` and the rounding errors of the sums. -/
theorem C64_dist_cosine {w : TWorld} {h : Nat} {pairs : List (List UInt32 × Text)} (hp : HoldsPairs srt w h pairs)
    (hs : SensiblePairs pairs) (emb : List (List ℝ)) (dim : Nat) (hdec : List.Forall₂ Decodes (pairs.map Prod.fst) emb)
    (hdim : ∀ v ∈ emb, v.length = dim) (hsmall : ModestDim dim) (l r : EmbInput)
    (hl : SumRange emb dim (inputIds (pairs.map Prod.snd) l)) (hr : SumRange emb dim (inputIds (pairs.map Prod.snd) r)) :
    ∃ d : ℝ, (∀ a, w.Answers h (.dist l r) a ↔ a = .dist (.fin d)) ∧ 0 ≤ d ∧
      |d - (1 - cosine (exactSum emb dim (inputIds (pairs.map Prod.snd) l)) (exactSum emb dim (inputIds (pairs.map Prod.snd) r)))| <
        zeroThreshold + 2 * sumError emb dim (inputIds (pairs.map Prod.snd) l) +
          2 * sumError emb dim (inputIds (pairs.map Prod.snd) r) := by
  obtain ⟨ep, src, e, d, ho, he, _, hlock⟩ := hp.embAt hs.proper
  obtain ⟨x, hx, hrep⟩ := TermRepr.new
  have hin : TextInput pairs emb dim [] 0 := ⟨hdec, hdim, hsmall, by simp, by simp⟩
  have hsum : SumInput (sumOf e x) emb dim [] := hin.sumInput' hs hlock (by simpa using hrep)
  obtain ⟨v, u, δ, h1, h2, h3, h4, h5⟩ := C57_distance _ emb dim [] hsum _ _ hl hr
  have hget : ∀ input, getEmbedding e d input = (sumOf e x).createEmbedding (inputIds (pairs.map Prod.snd) input) := by
    intro input
    cases input with
    | text q =>
      rw [getEmbedding, hx]
      simp only [inputIds]
      rw [wordIds_dict (d := d) hlock.words]
    | ids l => rw [getEmbedding, hx, inputIds]
  refine ⟨δ, fun a => ?_, h4, h5⟩
  unfold TWorld.Answers
  simp only [ho, Option.some.injEq, exists_eq_left', TObj.Answers, he, embeddingDist]
  constructor
  · rintro ⟨_, z, rfl, hz, rfl⟩
    rw [hget, hget, h1, h2] at hz
    simp only [h3, Option.some.injEq] at hz
    rw [hz]
  · rintro rfl
    exact ⟨e, _, rfl, by rw [hget, hget, h1, h2]; exact h3, rfl⟩

theorem Spec.PairsSaved.run {w0 w w' : TWorld} {hp : Nat} {ep wp : String} {pairs : List (List UInt32 × Text)}
    (h : PairsSaved srt w0 hp w ep wp pairs) {calls : List TCall} (hr : TRun srt w calls w')
    (hc : ∀ call ∈ calls, ¬ TWrites ep call ∧ ¬ TWrites wp call) : PairsSaved srt w0 hp w' ep wp pairs := by
  obtain ⟨w1, after, h1, h2, h3, h4, h5⟩ := h
  refine ⟨w1, after ++ calls, h1, h2, h3, h4.append hr, fun call hcall => ?_⟩
  rcases List.mem_append.1 hcall with hm | hm
  · exact h5 call hm
  · exact hc call hm

/-- The texts can be appended: see `C65_append_returns`. -/
structure FittingTexts (pairs : List (List UInt32 × Text)) (texts : List Text) : Prop where
  count : texts.length ≤ 4294967294
  ids : ∀ q ∈ texts, ∀ (word : Text) (i : Nat), word ∈ splitWs q → (pairs.map Prod.snd)[i]? = some word → i < 2 ^ 24
  total : (texts.map (knownWords (pairs.map Prod.snd))).flatten.length < 2 ^ 40

/-- C65. From saved embeddings and words: a new builder, any texts within the limits appended, everything built, index and
elements saved. So there is a session for the theorems of C65, for all texts, and with all of them in the index, which has
one layer if they are fewer than the layer multiplier. -/
theorem C65_session (hsrt : IsSortByDist srt) (hP : ∀ c, P c → c.Good) {pairs : List (List UInt32 × Text)}
    (hs : SensiblePairs pairs) (c : PyConfig) (hc : P c) (hm : ∀ m, c.layerMultiplier = some m → 4 ≤ m)
    (hexp : c.expectedNumElements = none) {wp0 w0 : TWorld} {hp : Nat} {ep wp : String}
    (hpairs : PairsSaved srt wp0 hp w0 ep wp pairs) (texts : List Text) (hsome : texts ≠ []) (hfit : FittingTexts pairs texts)
    (ip xp : String) (hpath : ip ≠ xp) (hi : ip ≠ ep ∧ ip ≠ wp) (hx : xp ≠ ep ∧ xp ≠ wp) :
    ∃ wi w, TRun srt w0 (.newBuilder c none ep wp none :: (texts.map (TCall.append w0.objects.length) ++
        [.build w0.objects.length (2 ^ 64 - 1)])) wi ∧
      TRun srt wi [.saveIndex w0.objects.length ip, .saveElements w0.objects.length xp] w ∧
      TextSaved srt P pairs ip xp w0.objects.length wi w texts ∧ PairsSaved srt wp0 hp w ep wp pairs ∧
      wi.Answers w0.objects.length (.graph .len) (.graph (.num texts.length)) ∧
      ((texts.length : ℝ) < c.layerMultiplier.getD 15 →
        wi.Answers w0.objects.length (.graph .numLayers) (.graph (.num 1))) := by
  generalize hall : 2 ^ 64 - 1 = all
  have hfill : ∀ l : List Text, FittingTexts pairs l →
      ∃ w1, TRun srt w0 (.newBuilder c none ep wp none :: l.map (TCall.append w0.objects.length)) w1 ∧
        TextBuilder srt P pairs c [ep] w1 w0.objects.length l ∧
        ∃ src xs d, w1.objects[w0.objects.length]? = some (.builder src xs d [] c.config) := by
    intro l
    induction l using List.reverseRecOn with
    | nil =>
      intro _
      obtain ⟨out, w1, hst⟩ := C65_new_returns hpairs hs c
      have hr : TRun srt w0 [.newBuilder c none ep wp none] w1 := .cons _ _ _ _ _ _ hst (.nil _)
      refine ⟨w1, hr, .new c ep wp wp0 w0 w1 hp [] hc hpairs hr (by simp), ?_⟩
      cases hst with
      | newBuilder c xp' ep' wp' ip' o ho =>
        obtain ⟨e, d, hf, _⟩ := hpairs.files hs.proper
        simp only [newTextBuilder] at ho
        split at ho
        · split at ho
          · cases ho
          · split at ho
            · cases ho
              exact ⟨_, _, _, by simp; exact ⟨rfl, rfl, rfl⟩⟩
            · cases ho
        · cases ho
    | append_singleton l q ih =>
      intro hf
      have hcount : l.length < 4294967294 := by
        have := hf.count
        simp only [List.length_append, List.length_cons, List.length_nil] at this
        omega
      have hl : FittingTexts pairs l := by
        refine ⟨hcount.le, fun q' hq' => hf.ids q' (by simp [hq']), ?_⟩
        have := hf.total
        rw [List.map_append, List.flatten_append, List.length_append] at this
        omega
      obtain ⟨w1, hr, hb, src, xs, d, ho⟩ := ih hl
      obtain ⟨out, w2, hst⟩ := (C65_append_returns hsrt hP hs hb q).2 ⟨hcount, hf.ids q (by simp), hf.total⟩
      have hr' := hr.snoc hst
      have hcalls : TCall.newBuilder c none ep wp none :: l.map (TCall.append w0.objects.length) ++ [.append w0.objects.length q] =
          .newBuilder c none ep wp none :: (l ++ [q]).map (TCall.append w0.objects.length) := by simp
      rw [hcalls] at hr'
      refine ⟨w2, hr', ?_, ?_⟩
      · have := TextBuilder.new c ep wp wp0 w0 w2 hp _ hc hpairs hr' (by
          intro call hcall
          obtain ⟨t, _, rfl⟩ := List.mem_map.1 hcall
          simp [TWrites])
        rw [show (l ++ [q]).map (TCall.append w0.objects.length) = (l ++ [q]).map fun q => TCall.append w0.objects.length q
          from rfl, textsTo_map] at this
        exact this
      · have hlt := (List.getElem?_eq_some_iff.1 ho).1
        cases hst with
        | append h q o o' e1 e2 =>
          rw [ho] at e1; cases e1
          simp only [TObj.appendText] at e2
          split at e2
          · split at e2
            · cases e2
              exact ⟨_, _, _, List.getElem?_set_self hlt⟩
            · cases e2
          · cases e2
  obtain ⟨w1, hr1, hb1, src, xs, d, ho⟩ := hfill texts hfit
  obtain ⟨⟨out, w2, hs2⟩, _, hafter⟩ := C65_build hsrt hP hs hb1 all 0 texts.length ((textBuilder_len ho _).2 rfl)
    (by rw [if_pos hall.symm]) (Nat.zero_le _) le_rfl
  have hlen := (hafter _ _ hs2 _).2 rfl
  have hr2 := hr1.snoc hs2
  rw [List.cons_append] at hr2
  have hb2 : TextBuilder srt P pairs c [ep] w2 w0.objects.length texts := by
    have := TextBuilder.new c ep wp wp0 w0 w2 hp _ hc hpairs hr2 (by
      intro call hcall
      rcases List.mem_append.1 hcall with hcall | hcall
      · obtain ⟨t, _, rfl⟩ := List.mem_map.1 hcall
        simp [TWrites]
      · rw [List.mem_singleton] at hcall
        subst hcall
        simp [TWrites])
    rw [textsTo_append, show texts.map (TCall.append w0.objects.length) = texts.map fun q => TCall.append w0.objects.length q
      from rfl, textsTo_map] at this
    simpa [textsTo] using this
  obtain ⟨src1, xs1, d1, e1, x1, vecs1, layers1, ha1⟩ := hb1.textAt hsrt hP hs
  have hl1 : layers1 = [] := by
    have := ha1.object
    rw [ho] at this
    cases this; rfl
  subst hl1
  have hlt := (List.getElem?_eq_some_iff.1 ha1.object).1
  obtain ⟨layers2, ho2, h17, hone⟩ : ∃ layers2, w2.objects[w0.objects.length]? = some (.builder src1 xs1 d1 layers2 c.config) ∧
      layers2.length ≤ 17 ∧ ((texts.length : ℝ) < c.layerMultiplier.getD 15 → layers2.length ≤ 1) := by
    obtain ⟨hcb, _, _⟩ := (hP c hc).config
    cases hs2 with
    | build h num o o' g1 g2 =>
      rw [ha1.object] at g1; cases g1
      obtain ⟨es, b', g3, g4, rfl⟩ := g2
      rw [ha1.elements] at g3; cases g3
      rw [if_pos hall.symm] at g4
      have hm4 : 4 ≤ c.layerMultiplier.getD 15 := by
        rcases Option.eq_none_or_eq_some c.layerMultiplier with e | ⟨m, e⟩
        · rw [e]; norm_num
        · rw [e]; exact hm m e
      have hv := ha1.shape.vlen
      have hne : (angularElements (vecs1.map normalize)).data ≠ [] := by
        intro hnil
        have : vecs1 = [] := by simpa [angularElements] using hnil
        rw [this, List.length_nil] at hv
        exact hsome (List.length_eq_zero_iff.1 hv.symm)
      refine ⟨b'.layers, List.getElem?_set_self hlt, ?_, fun hlt' => ?_⟩
      · exact C22_few_layers hsrt _ b' ha1.shape.reach.reachable (c.layerMultiplier.getD 15) hm4 rfl hexp hcb.neighbors
          hcb.search rfl hne g4
      · have hk := (C22_build_layers hsrt _ b' ha1.shape.reach.reachable (c.layerMultiplier.getD 15) (by linarith) rfl hexp
          hcb.neighbors hcb.search rfl hne g4).2
        simp only [angularElements, List.length_map, hv] at hk
        have hpos : 0 < texts.length := List.length_pos_iff.2 hsome
        have : Real.logb (c.layerMultiplier.getD 15) texts.length < 1 := by
          rw [Real.logb_lt_iff_lt_rpow (by linarith) (by exact_mod_cast hpos)]
          simpa using hlt'
        have h3 : ⌊Real.logb (c.layerMultiplier.getD 15) texts.length⌋ < 1 := by
          rw [Int.floor_lt]; exact_mod_cast this
        omega
  have hnum : w2.Answers w0.objects.length (.graph .numLayers) (.graph (.num layers2.length)) :=
    (textBuilder_graph ho2 _ (by simp) _).2 ⟨_, rfl, by simp [Layers.num]⟩
  obtain ⟨out3, w3, hs3⟩ := (C65_save_returns hsrt hP hs hb2 ip).2 _ hnum (by omega)
  have hr3 := hr2.snoc hs3
  have hb3 : TextBuilder srt P pairs c [ep] w3 w0.objects.length texts := by
    rw [List.cons_append] at hr3
    have := TextBuilder.new c ep wp wp0 w0 w3 hp _ hc hpairs hr3 (by
      intro call hcall
      rcases List.mem_append.1 hcall with hcall | hcall
      · rcases List.mem_append.1 hcall with hcall | hcall
        · obtain ⟨t, _, rfl⟩ := List.mem_map.1 hcall
          simp [TWrites]
        · rw [List.mem_singleton] at hcall
          subst hcall
          simp [TWrites]
      · rw [List.mem_singleton] at hcall
        subst hcall
        exact hi.1)
    rw [textsTo_append, textsTo_append, show texts.map (TCall.append w0.objects.length) =
      texts.map fun q => TCall.append w0.objects.length q from rfl, textsTo_map] at this
    simpa [textsTo] using this
  obtain ⟨out4, w4, hs4⟩ := (C65_save_returns hsrt hP hs hb3 xp).1 (by simpa using hx.1)
  have hrun : TRun srt w2 [.saveIndex w0.objects.length ip, .saveElements w0.objects.length xp] w4 :=
    .cons _ _ _ _ _ _ hs3 (.cons _ _ _ _ _ _ hs4 (.nil _))
  have hpos2 : layers2 ≠ [] := by
    rintro rfl
    have := (textBuilder_len ho2 _).1 hlen
    simp only [lastLen, List.getLast?_nil, TAnswer.graph.injEq, PyAnswer.num.injEq] at this
    exact hsome (List.length_eq_zero_iff.1 this)
  refine ⟨w2, w4, hr2, hrun, ?_, ?_, hlen, fun hlt' => ?_⟩
  · have := TextSaved.saved (srt := srt) (ip := ip) (xp := xp) (h := w0.objects.length) c [ep] w2 w3 w4 texts [] [] hb2 hpath
      (by simpa using hi.1) (.cons _ _ _ _ _ _ hs3 (.nil _)) (by simp) (.cons _ _ _ _ _ _ hs4 (.nil _)) (by simp)
    simpa [textsTo] using this
  · refine (hpairs.run hr2 ?_).run hrun ?_
    · intro call hcall
      simp only [List.mem_cons, List.mem_append, List.mem_map, List.not_mem_nil, or_false] at hcall
      rcases hcall with rfl | ⟨t, _, rfl⟩ | rfl <;> simp [TWrites]
    · intro call hcall
      simp only [List.mem_cons, List.not_mem_nil, or_false] at hcall
      rcases hcall with rfl | rfl
      · exact hi
      · exact hx
  · have h1 := hone hlt'
    have h2 := List.length_pos_iff.2 hpos2
    rw [show layers2.length = 1 by omega] at hnum
    exact hnum

/-- The words of `exWords` with the bit patterns of the embeddings `exSumEmb`. -/
def exPairs : List (List UInt32 × Text) :=
  [([0x3f800000, 0], "north".toList), ([0, 0x3f800000], "east".toList), ([0xbf800000, 0], "south".toList),
    ([0, 0xbf800000], "west".toList)]

def exTexts : List Text := ["north".toList, " east ".toList, "nowhere".toList, "south by west".toList]

theorem exPairs_words : exPairs.map Prod.snd = exWords := rfl

theorem exTexts_ids : exTexts.map (wordIds (exPairs.map Prod.snd)) = exTerms := by decide +kernel

theorem exTextInput : TextInput exPairs exSumEmb 2 exTexts (2 * 2 ^ (-24 : Int)) := by
  have hids : ∀ q ∈ exTexts, wordIds (exPairs.map Prod.snd) q ∈ exTerms := by
    intro q hq
    rw [← exTexts_ids]
    exact List.mem_map_of_mem hq
  refine ⟨?_, ?_, by norm_num, fun q hq => (exRange _ (hids q hq)).1, fun q hq => (exRange _ (hids q hq)).2⟩
  · unfold exPairs exSumEmb Decodes
    simp [ofBits_one, ofBits_minus_one, ofBits_zero]
  · simp [exSumEmb]

theorem exPairs_sensible : SensiblePairs exPairs := ⟨by decide, by decide⟩

theorem exFitting : FittingTexts exPairs exTexts := by
  refine ⟨by decide, ?_, by decide +kernel⟩
  intro q _ word i _ hi
  have := (List.getElem?_eq_some_iff.1 hi).1
  simp only [exPairs, List.map_cons, List.map_nil, List.length_cons, List.length_nil] at this
  omega

/-- Non-vacuity of C64 and C65: from any state, four words and their embeddings are stored and saved, four texts (one
without known words) appended to a builder with the default configuration, indexed and saved, and opened; the hypotheses of
the theorems on searching hold, also for a query. -/
example (w0 : TWorld) : ∃ wp wi w wo out hb, PairsSaved exSortReal wp w0.objects.length w "embeddings" "words" exPairs ∧
    TextSaved exSortReal (· = {}) exPairs "index" "elements" hb wi w exTexts ∧
    TStep exSortReal w (.openIndex "index" "elements" "embeddings" "words") out wo ∧
    wi.Answers hb (.graph .len) (.graph (.num 4)) ∧ SensiblePairs exPairs ∧
    (∀ c, c = ({} : PyConfig) → c.Good) ∧ (∀ c, c = ({} : PyConfig) → 12 ≤ c.numNeighbors.getD 30) ∧ 4 ≤ 12 / 2 / 2 + 1 ∧
    TextInput exPairs exSumEmb 2 exTexts (2 * 2 ^ (-24 : Int)) ∧
    SumRange exSumEmb 2 (wordIds (exPairs.map Prod.snd) "south of west".toList) := by
  obtain ⟨wp, w1, hr1, hr2, _, hp1⟩ := C64_session (srt := exSortReal) w0 exPairs 2 (by decide) (by decide) (by decide)
    (by decide +kernel) "embeddings" "words" (by decide)
  obtain ⟨wi, w, _, _, hs, hp, hn, _⟩ := C65_session (P := (· = {})) exSortReal_sorts (fun c hc => hc ▸ exPyConfig_good) exPairs_sensible {}
    rfl (by simp) rfl hp1 exTexts (by decide) exFitting "index" "elements" (by decide) (by decide) (by decide)
  obtain ⟨⟨out, wo, hst⟩, _⟩ := C65_open exSortReal_sorts (fun c (hc : c = {}) => hc ▸ exPyConfig_good) exPairs_sensible hs hp
  refine ⟨wp, wi, w, wo, out, _, hp, hs, hst, hn, exPairs_sensible, fun c hc => hc ▸ exPyConfig_good, fun c hc => by
    rw [hc]; decide, by decide, exTextInput, ?_⟩
  have : wordIds (exPairs.map Prod.snd) "south of west".toList = [2, 3] := by decide +kernel
  rw [this]
  exact (exRange _ (by simp [exTerms])).1

end Granne
