import Verif.Props.Format
import Verif.Proofs.JsonText
import Verif.Props.Words
import Verif.Model.PyText

/-!
C47, continued: a file of words that was cut off (by a crash while it was written, or a copy that was interrupted).
-/
namespace Granne
open Spec

variable {S : Type}

theorem encode_prefix {a b : Char} {x y : Bytes} (h : String.utf8EncodeChar a ++ x = String.utf8EncodeChar b ++ y) : a = b := by
  have h1 := ByteArray.utf8DecodeChar?_utf8EncodeChar_append (b := x.toByteArray) (c := a)
  have h2 := ByteArray.utf8DecodeChar?_utf8EncodeChar_append (b := y.toByteArray) (c := b)
  rw [← List.toByteArray_append] at h1 h2
  rw [h, h2] at h1
  exact (Option.some.inj h1).symm

/-- UTF-8 is a prefix code. -/
theorem utf8_prefix : ∀ (t c : Text) (z : Bytes), utf8 t ++ z = utf8 c → ∃ r, c = t ++ r ∧ z = utf8 r
  | [], c, z, h => ⟨c, rfl, h⟩
  | a :: t, [], z, h => by
    exfalso
    rw [utf8_cons, List.append_assoc] at h
    have := congrArg List.length h
    have hp := Char.utf8Size_pos a
    simp [utf8] at this
    omega
  | a :: t, b :: c, z, h => by
    rw [utf8_cons, utf8_cons, List.append_assoc] at h
    obtain rfl := encode_prefix h
    obtain ⟨r, h1, h2⟩ := utf8_prefix t c z (List.append_cancel_left h)
    exact ⟨r, by rw [h1, List.cons_append], h2⟩

/-- What is cut off a quoted string is no JSON string. -/
theorem jsonString_cut {w t r x : Text} (h : jsonQuote w = t ++ r) (hx : jsonString t = some x) : r = [] ∧ x = w := by
  cases t with
  | nil => simp [jsonString] at hx
  | cons c t =>
    rw [jsonQuote, List.cons_append, List.cons_append, List.cons.injEq] at h
    obtain ⟨rfl, h⟩ := h
    rw [jsonString, List.dropWhile_cons_of_neg (by decide)] at hx
    simp only at hx
    split at hx
    · next u rest hu =>
      split at hx
      · obtain ⟨body, rfl, hb⟩ := jsonUnquote_sound _ _ _ _ hu
        have h1 := jsonUnquote_complete hb (body.length + 1 + w.length) (rest ++ r) (by omega)
        have h2 := jsonUnquote_quoted w (body.length + 1 + w.length) [] (by omega)
        rw [h, List.append_assoc, List.cons_append, h1] at h2
        simp only [Option.some.injEq, Prod.mk.injEq, List.append_eq_nil_iff] at h2
        exact ⟨h2.2.2, by rw [← Option.some.inj hx, h2.1]⟩
      · cases hx
    · cases hx

theorem textLines_one : ∀ (l : Text), '\n' ∉ l → l ≠ [] → textLines l = [l]
  | [], _, h => absurd rfl h
  | [c], h, _ => by
    have : c ≠ '\n' := fun e => h (by simp [e])
    simp [textLines, this]
  | c :: d :: t, h, _ => by
    have h1 : c ≠ '\n' := fun e => h (by simp [e])
    have h2 : d ≠ '\n' := fun e => h (by simp [e])
    have ih := textLines_one (d :: t) (fun e => h (List.mem_cons_of_mem _ e)) (by simp)
    rw [textLines, if_neg h1, if_neg (by simp [h2]), ih]

/-- The content of the file with these words. -/
theorem content_append (a b : List Text) : ((a ++ b).flatMap fun w => jsonQuote w ++ ['\n']) =
    (a.flatMap fun w => jsonQuote w ++ ['\n']) ++ b.flatMap fun w => jsonQuote w ++ ['\n'] := List.flatMap_append

/-- The lines of a text that was cut off, if all of them can be parsed. -/
theorem lines_cut : ∀ (words : List Text) (t r : Text) (ws : List Text),
    (words.flatMap fun w => jsonQuote w ++ ['\n']) = t ++ r → seqOpt ((textLines t).map jsonString) = some ws →
    ∃ k, k ≤ words.length ∧ ws = words.take k ∧ (((words.take k).flatMap fun w => jsonQuote w ++ ['\n']) = t ∨
      ((words.take k).flatMap fun w => jsonQuote w ++ ['\n']) = t ++ ['\n'])
  | [], t, r, ws, h, hs => by
    simp only [List.flatMap_nil] at h
    obtain ⟨rfl, -⟩ := List.append_eq_nil_iff.1 h.symm
    exact ⟨0, le_refl _, by simpa [textLines, seqOpt] using hs.symm, .inl rfl⟩
  | w :: words, t, r, ws, h, hs => by
    have hnb := jsonQuote_no_break w
    rw [List.flatMap_cons, List.append_assoc, List.singleton_append] at h
    rcases List.append_eq_append_iff.1 h with ⟨m, rfl, hm⟩ | ⟨m, hm, hm'⟩
    · cases m with
      | nil =>
        rw [List.append_nil] at hs ⊢
        rw [textLines_one _ hnb.1 (by simp [jsonQuote]), List.map_singleton, jsonString_quote] at hs
        exact ⟨1, by simp, by simpa [seqOpt] using hs.symm, .inr (by simp)⟩
      | cons c m =>
        rw [List.cons_append, List.cons.injEq] at hm
        obtain ⟨rfl, hm⟩ := hm
        rw [textLines_cons_line hnb.1 hnb.2, List.map_cons, jsonString_quote] at hs
        rcases hq : seqOpt ((textLines m).map jsonString) with _ | ws'
        · rw [seqOpt, hq] at hs; cases hs
        · rw [seqOpt, hq] at hs
          obtain ⟨k, h0, h1, h2⟩ := lines_cut words m r ws' hm hq
          refine ⟨k + 1, by simpa using h0, ?_, ?_⟩
          · rw [List.take_succ_cons, ← h1]; exact (Option.some.inj hs).symm
          · rw [List.take_succ_cons, List.flatMap_cons]
            rcases h2 with h2 | h2 <;> rw [h2] <;> simp
    · by_cases ht : t = []
      · subst ht
        exact ⟨0, Nat.zero_le _, by simpa [textLines, seqOpt] using hs.symm, .inl rfl⟩
      · rw [textLines_one t (fun e => hnb.1 (by rw [hm]; simp [e])) ht, List.map_singleton] at hs
        rcases hq : jsonString t with _ | x
        · rw [hq] at hs; simp [seqOpt] at hs
        · obtain ⟨rfl, rfl⟩ := jsonString_cut hm hq
          rw [List.append_nil] at hm
          subst hm
          rw [hq] at hs
          exact ⟨1, by simp, by simpa [seqOpt] using hs.symm, .inr (by simp)⟩

/-- The lines of a text that lacks its last line break are those of the text. -/
theorem lines_unfinished (words : List Text) (t : Text)
    (h : (words.flatMap fun w => jsonQuote w ++ ['\n']) = t ++ ['\n']) :
    seqOpt ((textLines t).map jsonString) = some words := by
  induction words generalizing t with
  | nil => simp at h
  | cons w words ih =>
    have hnb := jsonQuote_no_break w
    rw [List.flatMap_cons, List.append_assoc, List.singleton_append] at h
    rcases words.eq_nil_or_concat with rfl | ⟨l, x, rfl⟩
    · rw [List.flatMap_nil] at h
      rw [← List.append_cancel_right h, textLines_one _ hnb.1 (by simp [jsonQuote])]
      exact seqOpt_some (by simp [jsonString_quote])
    · have e : ((l.concat x).flatMap fun w => jsonQuote w ++ ['\n']) =
          ((l.flatMap fun w => jsonQuote w ++ ['\n']) ++ jsonQuote x) ++ ['\n'] := by simp
      have h' := h
      rw [e, ← List.cons_append, ← List.append_assoc] at h'
      rw [← List.append_cancel_right h', textLines_cons_line hnb.1 hnb.2]
      rw [List.map_cons, jsonString_quote, seqOpt, ih _ e]

/-- How many bytes the first `k` words take up in the file. -/
def wordsBytes (words : List Text) (k : Nat) : Nat := ((words.take k).map fun w => (utf8 (jsonQuote w)).length + 1).sum

theorem wordsBytes_eq (words : List Text) (k : Nat) :
    wordsBytes words k = (utf8 ((words.take k).flatMap fun w => jsonQuote w ++ ['\n'])).length := by
  have hn : (utf8 ['\n']).length = 1 := by decide
  unfold wordsBytes
  induction words.take k with
  | nil => rfl
  | cons w t ih =>
    rw [List.map_cons, List.sum_cons, List.flatMap_cons, utf8_append, utf8_append, ih]
    simp only [List.length_append, hn]

/-- C47. A file of words that was cut off after `n` bytes is opened exactly if the cut is at the end of a line, before or after
its line break. The object then has the words whose lines are complete, with the ids they had; every other cut (within a word,
within an escape sequence, within the encoding of a character) is noticed. -/
theorem C47_truncated (d : WordDict) (words : List Text) (h : HoldsWords d words) (n : Nat) (hn : n < (utf8 d.content).length)
    (files : Files) (path : String) (hf : files path = some ((utf8 d.content).take n)) :
    (∀ k ≤ words.length, n = wordsBytes words k ∨ n + 1 = wordsBytes words k →
      ∃ d', openWords files path = some d' ∧ HoldsWords d' (words.take k)) ∧
    ((∀ k ≤ words.length, n ≠ wordsBytes words k ∧ n + 1 ≠ wordsBytes words k) → openWords files path = none) := by
  have hcont : d.content = words.flatMap fun w => jsonQuote w ++ ['\n'] := by rw [WordDict.content, h.list]
  have hsplit : ∀ k, d.content = ((words.take k).flatMap fun w => jsonQuote w ++ ['\n']) ++
      ((words.drop k).flatMap fun w => jsonQuote w ++ ['\n']) := by
    intro k
    rw [hcont, ← content_append, List.take_append_drop]
  have hholds : ∀ k, HoldsWords ⟨collectIds 0 (words.take k) (fun _ => none), words.take k⟩ (words.take k) := fun k =>
    have hnd : (words.take k).Nodup := h.nodup.sublist (List.take_sublist _ _)
    ⟨hnd, rfl, fun w i => collectIds_nodup hnd w i⟩
  constructor
  · rintro k hk (rfl | hk')
    · refine ⟨_, ?_, hholds k⟩
      rw [openWords, hf, hsplit k, utf8_append, wordsBytes_eq, List.take_left]
      simp only [fromUtf8_utf8]
      rw [WordDict.new, lines_json]
    · rcases Nat.eq_zero_or_pos k with rfl | hpos
      · simp [wordsBytes] at hk'
      · refine ⟨_, ?_, hholds k⟩
        obtain ⟨t, ht⟩ : ∃ t, ((words.take k).flatMap fun w => jsonQuote w ++ ['\n']) = t ++ ['\n'] := by
          rcases (words.take k).eq_nil_or_concat with e | ⟨l, x, e⟩
          · have := congrArg List.length e
            rw [List.length_take, List.length_nil] at this
            omega
          · exact ⟨(l.flatMap fun w => jsonQuote w ++ ['\n']) ++ jsonQuote x, by rw [e]; simp⟩
        have hlen : n = (utf8 t).length := by
          rw [wordsBytes_eq, ht, utf8_append, List.length_append] at hk'
          have : (utf8 ['\n']).length = 1 := by decide
          omega
        rw [openWords, hf, hsplit k, ht, List.append_assoc, utf8_append, hlen, List.take_left]
        simp only [fromUtf8_utf8]
        rw [WordDict.new, lines_unfinished _ _ ht]
  · intro hne
    rw [openWords, hf]
    simp only
    rcases hu : fromUtf8 ((utf8 d.content).take n) with _ | t
    · rfl
    · simp only
      have e := fromUtf8_eq_some hu
      obtain ⟨r, hr, -⟩ := utf8_prefix t d.content ((utf8 d.content).drop n) (by rw [← e, List.take_append_drop])
      have hlen : (utf8 t).length = n := by rw [← e, List.length_take]; omega
      rw [WordDict.new]
      rcases hq : seqOpt ((textLines t).map jsonString) with _ | ws
      · rfl
      · exfalso
        obtain ⟨k, h0, -, h2⟩ := lines_cut words t r ws (by rw [← hcont, hr]) hq
        obtain ⟨n1, n2⟩ := hne k h0
        rw [wordsBytes_eq] at n1 n2
        rcases h2 with h2 | h2
        · exact n1 (by rw [h2, hlen])
        · refine n2 ?_
          rw [h2, utf8_append, List.length_append, hlen]
          have : (utf8 ['\n']).length = 1 := by decide
          omega

/-- C47. After a crash both files of an object may be cut off. If the constructor accepts them, the vectors are a prefix of the
vectors and the words a prefix of the words, and no word has moved to another vector: the id of a word is the position of its
vector, if the latter is there. The two prefixes may differ in length, and this is not noticed: the id of a word then lies behind
the last vector. -/
theorem C47_truncated_pair [Scalar S] (p : PyEmbeddings S) (dim : Nat) (rows : List (List S)) (words : List Text)
    (hv : ShowsVectors p.embeddings dim rows) (hd : 0 < dim) (hd' : dim < 2 ^ 64) (hw : HoldsWords p.words words) (m n : Nat) (t : Text)
    (ht : fromUtf8 ((utf8 p.words.content).take n) = some t) (p' : PyEmbeddings S)
    (h : PyEmbeddings.load (p.embeddings.bytes.take m) t = some p') :
    ∃ j k, ShowsVectors p'.embeddings dim (rows.take j) ∧ HoldsWords p'.words (words.take k) ∧
      ∀ (w : Text) (i : Nat), p'.words.wordToId w = some i → p.words.wordToId w = some i ∧
        (i < j → p'.embeddings.get i = p.embeddings.get i) := by
  have hcont : p.words.content = words.flatMap fun w => jsonQuote w ++ ['\n'] := by rw [WordDict.content, hw.list]
  rw [PyEmbeddings.load] at h
  split at h
  · next d' e hd1 he =>
    obtain rfl := (Option.some.inj h).symm
    have hu := fromUtf8_eq_some ht
    obtain ⟨r, hr, -⟩ := utf8_prefix t p.words.content ((utf8 p.words.content).drop n) (by rw [← hu, List.take_append_drop])
    rcases C30_truncated p.embeddings dim rows hv hd hd' m with hn | ⟨j, v', hv1, hv2⟩
    · rw [hn] at he; cases he
    · rw [hv1] at he
      obtain rfl := Option.some.inj he
      rw [WordDict.new] at hd1
      split at hd1
      · next ws hq =>
        obtain ⟨k, -, rfl, -⟩ := lines_cut words t r ws (by rw [← hcont, hr]) hq
        have hnd : (words.take k).Nodup := hw.nodup.sublist (List.take_sublist _ _)
        have hd2 : HoldsWords d' (words.take k) := by
          rw [← Option.some.inj hd1]
          exact ⟨hnd, rfl, fun w i => collectIds_nodup hnd w i⟩
        refine ⟨j, k, hv2, hd2, fun w i hi => ?_⟩
        have h1 := (hd2.ids w i).1 hi
        rw [List.getElem?_take] at h1
        split at h1
        · refine ⟨(hw.ids w i).2 h1, fun hj => ?_⟩
          rcases hi' : rows[i]? with _ | x
          · have hle := List.getElem?_eq_none_iff.1 hi'
            rw [hv.outside i hle hd, hv2.outside i (by rw [List.length_take]; omega) hd]
          · rw [hv.get i x hi', hv2.get i x (by rw [List.getElem?_take, if_pos hj, hi'])]
        · cases h1
      · cases hd1
  · cases h

/-- Non-vacuity: two words (one with an escape, one that is not ASCII), and every cut of their file: those after 0, 6,
7, 13 and 14 bytes are accepted. -/
def exWordsCut : WordDict := ((WordDict.empty.push "a\"b".toList).1.push "xéz".toList).1

theorem exWordsCut_holds : HoldsWords exWordsCut ["a\"b".toList, "xéz".toList] :=
  ((HoldsWords.empty.push_new (w := "a\"b".toList) (by simp)).2.push_new (w := "xéz".toList) (by decide)).2

example : (utf8 exWordsCut.content).length = 14 ∧
    ((List.range 15).map fun n => ((fromUtf8 ((utf8 exWordsCut.content).take n)).bind fun t => (WordDict.new t)).map WordDict.len) =
      [some 0, none, none, none, none, none, some 1, some 1, none, none, none, none, none, some 2, some 2] := by
  decide +kernel

end Granne
