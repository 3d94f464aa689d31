import Verif.Proofs.Format
import Verif.Props.Words

/-!
C58: the text files are read as what they stand for. The formats are specified in Spec/Format.
-/
namespace Granne
open Spec

/-- The lines of a text file and the texts they stand for: every line is a JSON string. -/
def JsonLines (file : Text) (texts : List Text) : Prop := ∃ ls, LinesOf file ls ∧ List.Forall₂ IsJsonString ls texts

/-- The text behind the last colon, or all of it if there is none. -/
def TailOf (text tail : Text) : Prop := ':' ∉ tail ∧ (text = tail ∨ ∃ pre, text = pre ++ ':' :: tail)

/-- The line stands for an element with these terms. -/
def LineTerms (ids : Text → Option Nat) (line : Text) (terms : List Nat) : Prop :=
  ∃ text tail words, IsJsonString line text ∧ TailOf text tail ∧ WordsOf tail words ∧ terms = words.filterMap ids

theorem tailOf_iff (text tail : Text) : TailOf text tail ↔ afterColon text = tail := by
  constructor
  · rintro ⟨h, rfl | ⟨pre, rfl⟩⟩
    · exact afterColon_of_not_mem h
    · exact afterColon_colon h pre
  · rintro rfl
    unfold afterColon
    refine ⟨?_, ?_⟩
    · intro h
      have := List.all_eq_true.1 (List.all_takeWhile (p := fun c : Char => decide (c ≠ ':')) (l := text.reverse)) ':'
        (List.mem_reverse.1 h)
      simp at this
    · have e := congrArg List.reverse (List.takeWhile_append_dropWhile (p := fun c : Char => decide (c ≠ ':')) (l := text.reverse))
      rw [List.reverse_append, List.reverse_reverse] at e
      rcases hd : text.reverse.dropWhile (fun c : Char => decide (c ≠ ':')) with _ | ⟨c, t⟩
      · left
        rw [hd] at e
        exact e.symm
      · right
        have hc : c = ':' := by
          have := List.head_dropWhile_not (fun c : Char => decide (c ≠ ':')) (l := text.reverse) (by rw [hd]; simp)
          simp only [hd, List.head_cons] at this
          simpa using this
        rw [hd, hc, List.reverse_cons, List.append_assoc, List.singleton_append] at e
        exact ⟨t.reverse, e.symm⟩

theorem jsonLines_iff (file : Text) (texts : List Text) :
    JsonLines file texts ↔ (textLines file).map jsonString = texts.map some := by
  constructor
  · rintro ⟨ls, h1, h2⟩
    rw [(textLines_iff _ _).2 h1]
    clear h1
    induction h2 with
    | nil => rfl
    | cons h _ ih => rw [List.map_cons, List.map_cons, (jsonString_iff _ _).2 h, ih]
  · intro h
    refine ⟨_, (textLines_iff _ _).1 rfl, ?_⟩
    generalize textLines file = ls at h
    induction ls generalizing texts with
    | nil =>
      cases texts with
      | nil => exact .nil
      | cons _ _ => cases h
    | cons l ls ih =>
      cases texts with
      | nil => cases h
      | cons t ts =>
        rw [List.map_cons, List.map_cons, List.cons.injEq] at h
        exact .cons ((jsonString_iff _ _).1 h.1) (ih ts h.2)

theorem lineTerms_iff (ids : Text → Option Nat) (line : Text) (terms : List Nat) :
    LineTerms ids line terms ↔ ∃ q, jsonString line = some q ∧ terms = lineIds ids q := by
  constructor
  · rintro ⟨text, tail, words, h1, h2, h3, rfl⟩
    refine ⟨text, (jsonString_iff _ _).2 h1, ?_⟩
    rw [lineIds, (tailOf_iff _ _).1 h2, (splitWs_iff _ _).2 h3]
  · rintro ⟨q, h1, rfl⟩
    exact ⟨q, _, _, (jsonString_iff _ _).1 h1, (tailOf_iff _ _).2 rfl, (splitWs_iff _ _).1 rfl, rfl⟩

/-- C58. Every text has exactly one list of lines and exactly one list of words, and a line stands for at most one text:
the formats are unambiguous. -/
theorem C58_unambiguous (t : Text) :
    (∃ ls, LinesOf t ls ∧ ∀ ls', LinesOf t ls' → ls' = ls) ∧ (∃ ws, WordsOf t ws ∧ ∀ ws', WordsOf t ws' → ws' = ws) ∧
    ∀ a b, IsJsonString t a → IsJsonString t b → a = b := by
  refine ⟨⟨_, (textLines_iff _ _).1 rfl, fun ls' h => h.sound.symm⟩, ⟨_, (splitWs_iff _ _).1 rfl, fun ws' h => h.sound.symm⟩, ?_⟩
  intro a b ha hb
  have h1 := (jsonString_iff _ _).2 ha
  have h2 := (jsonString_iff _ _).2 hb
  rw [h1] at h2
  exact Option.some.inj h2

/-- C58. A file of words loads exactly if each of its lines is a JSON string, and then holds the words these lines stand
for; a word that occurs more than once has the last of its numbers. -/
theorem C58_words_file (file : Text) :
    (∀ d, WordDict.new file = some d → JsonLines file d.idToWord ∧
      ∀ (w : Text) (i : Nat), d.wordToId w = some i ↔ d.idToWord[i]? = some w ∧ ∀ j : Nat, i < j → d.idToWord[j]? ≠ some w) ∧
    (WordDict.new file = none ↔ ¬ ∃ texts, JsonLines file texts) := by
  have key : ∀ texts, JsonLines file texts → WordDict.new file = some ⟨collectIds 0 texts fun _ => none, texts⟩ := by
    intro texts h
    rw [WordDict.new, seqOpt_some ((jsonLines_iff _ _).1 h)]
  constructor
  · intro d hd
    have hj : JsonLines file d.idToWord ∧ d.wordToId = collectIds 0 d.idToWord fun _ => none := by
      unfold WordDict.new at hd
      rcases Option.eq_none_or_eq_some (seqOpt ((textLines file).map jsonString)) with hn | ⟨ws, hs⟩
      · rw [hn] at hd; cases hd
      · rw [hs] at hd
        obtain rfl := Option.some.inj hd
        exact ⟨(jsonLines_iff _ _).2 (seqOpt_eq_some hs), rfl⟩
    refine ⟨hj.1, fun w i => ?_⟩
    rw [hj.2]
    constructor
    · intro h
      by_cases hw : w ∈ d.idToWord
      · obtain ⟨j, hj1, hj2⟩ : ∃ j : Nat, d.idToWord[j]? = some w ∧ ∀ k : Nat, j < k → d.idToWord[k]? ≠ some w := by
          clear h hj key
          generalize d.idToWord = l at hw
          induction l with
          | nil => cases hw
          | cons a l ih =>
            by_cases hl : w ∈ l
            · obtain ⟨j, h1, h2⟩ := ih hl
              refine ⟨j + 1, by simpa using h1, fun k hk => ?_⟩
              obtain ⟨k, rfl⟩ : ∃ k', k = k' + 1 := ⟨k - 1, by omega⟩
              simpa using h2 k (by omega)
            · have ha : a = w := by
                rcases List.mem_cons.1 hw with h | h
                · exact h.symm
                · exact absurd h hl
              refine ⟨0, by simp [ha], fun k hk => ?_⟩
              obtain ⟨k, rfl⟩ : ∃ k', k = k' + 1 := ⟨k - 1, by omega⟩
              rw [List.getElem?_cons_succ]
              exact fun hc => hl (List.mem_of_getElem? hc)
        have := collectIds_last d.idToWord 0 (fun _ => none) j hj1 hj2
        rw [this, Nat.zero_add] at h
        obtain rfl := Option.some.inj h
        exact ⟨hj1, hj2⟩
      · rw [collectIds_not_mem _ _ _ hw] at h
        cases h
    · rintro ⟨h1, h2⟩
      rw [collectIds_last d.idToWord 0 (fun _ => none) i h1 h2, Nat.zero_add]
  · constructor
    · rintro hn ⟨texts, h⟩
      rw [key texts h] at hn
      cases hn
    · intro h
      rcases Option.eq_none_or_eq_some (WordDict.new file) with hn | ⟨d, hd⟩
      · exact hn
      · unfold WordDict.new at hd
        rcases Option.eq_none_or_eq_some (seqOpt ((textLines file).map jsonString)) with hn | ⟨ws, hs⟩
        · rw [hn] at hd; cases hd
        · exact absurd ⟨ws, (jsonLines_iff _ _).2 (seqOpt_eq_some hs)⟩ h

/-- C58. The ids of a text are those of its known words, in order. -/
theorem C58_text_ids (d : WordDict) (q : Text) (words : List Text) (h : WordsOf q words) :
    d.getWordIds q = words.filterMap d.wordToId := by
  rw [WordDict.getWordIds, h.sound]

/-- C58. Element files are parsed exactly if each of their lines is a JSON string, with numbers of words below `2^24`
and fewer than `2^40` terms in total; element `k` has the terms line `k` stands for, the files counting in order. -/
theorem C58_element_files {S : Type} (ids : Text → Option Nat) (parts : List Text) (lines : List (List Text))
    (hl : List.Forall₂ LinesOf parts lines) :
    (∀ e, parseElements ids parts = some e → ∃ terms, List.Forall₂ (LineTerms ids) lines.flatten terms ∧
      ShowsTerms (⟨FixVec.new, e⟩ : SumEmb S) terms) ∧
    ((∃ e, parseElements ids parts = some e) ↔ ∃ terms, List.Forall₂ (LineTerms ids) lines.flatten terms ∧
      (∀ ts ∈ terms, ∀ n ∈ ts, n < 2 ^ 24) ∧ terms.flatten.length < 2 ^ 40) := by
  have hlines : lines.flatten = parts.flatMap textLines := by
    clear ids
    induction hl with
    | nil => rfl
    | cons h _ ih => rw [List.flatten_cons, List.flatMap_cons, h.sound, ih]
  have fwd : ∀ (ls qs : List Text), ls.map jsonString = qs.map some →
      List.Forall₂ (LineTerms ids) ls (qs.map (lineIds ids)) := by
    intro ls qs h
    induction ls generalizing qs with
    | nil =>
      cases qs with
      | nil => exact .nil
      | cons _ _ => cases h
    | cons l ls ih =>
      cases qs with
      | nil => cases h
      | cons q qs =>
        rw [List.map_cons, List.map_cons, List.cons.injEq] at h
        exact .cons ((lineTerms_iff _ _ _).2 ⟨q, h.1, rfl⟩) (ih qs h.2)
  have bwd : ∀ (ls : List Text) (terms : List (List Nat)), List.Forall₂ (LineTerms ids) ls terms →
      ∃ qs : List Text, ls.map jsonString = qs.map some ∧ terms = qs.map (lineIds ids) := by
    intro ls terms h
    induction h with
    | nil => exact ⟨[], rfl, rfl⟩
    | cons h _ ih =>
      obtain ⟨qs, h1, h2⟩ := ih
      obtain ⟨q, e1, e2⟩ := (lineTerms_iff _ _ _).1 h
      exact ⟨q :: qs, by rw [List.map_cons, List.map_cons, e1, h1], by rw [List.map_cons, ← e2, ← h2]⟩
  rw [hlines]
  constructor
  · intro e he
    obtain ⟨qs, h1, h2⟩ := C48_parse (S := S) ids parts e he
    exact ⟨_, fwd _ _ h1, h2⟩
  · rw [C48_parse_succeeds_iff]
    constructor
    · rintro ⟨qs, h1, h2, h3⟩
      refine ⟨_, fwd _ _ h1, ?_, h3⟩
      intro ts hts
      obtain ⟨q, hq, rfl⟩ := List.mem_map.1 hts
      exact h2 q hq
    · rintro ⟨terms, h1, h2, h3⟩
      obtain ⟨qs, e1, rfl⟩ := bwd _ _ h1
      exact ⟨qs, e1, fun q hq => h2 _ (List.mem_map_of_mem hq), h3⟩

/-- Non-vacuity: escapes of all kinds, a surrogate pair, white space that is not ASCII, both line ends. -/
example : IsJsonString " \"a\\/\\u00e9\\uD83D\\uDE00\\t\"\t".toList "a/é😀\t".toList ∧
    WordsOf "a\u3000\u00a0 b".toList ["a".toList, "b".toList] ∧
    LinesOf "a\r\n\nb\r".toList ["a".toList, [], "b\r".toList] := by
  refine ⟨(jsonString_iff _ _).1 (by decide +kernel), (splitWs_iff _ _).1 (by decide +kernel),
    (textLines_iff _ _).1 (by decide +kernel)⟩

/-- A lone surrogate is not a character: the line is not a JSON string. -/
example : ¬ ∃ t, IsJsonString "\"\\uD83D\"".toList t := by
  rintro ⟨t, h⟩
  have := (jsonString_iff _ _).2 h
  have hn : jsonString "\"\\uD83D\"".toList = none := by decide +kernel
  rw [hn] at this
  cases this

end Granne
