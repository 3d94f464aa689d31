import Verif.Model.Words
import Verif.Proofs.VarWidth

/-! Lines, JSON strings and words. -/
namespace Granne

/-! ### UTF-8 -/

theorem fromUtf8_utf8 (t : Text) : fromUtf8 (utf8 t) = some t := by
  have h : (utf8 t).toByteArray = t.utf8Encode := rfl
  rw [fromUtf8, h, List.utf8Decode?_utf8Encode]
  simp

theorem fromUtf8_eq_some {b : Bytes} {t : Text} (h : fromUtf8 b = some t) : b = utf8 t := by
  unfold fromUtf8 at h
  rw [Option.map_eq_some_iff] at h
  obtain ⟨a, ha, rfl⟩ := h
  have := ByteArray.utf8Encode_get_utf8Decode? (b := b.toByteArray) (h := by rw [ha]; rfl)
  simp only [ha, Option.get_some] at this
  have e : (utf8 a.toList).toByteArray = a.toList.utf8Encode := rfl
  rw [← e] at this
  have := congrArg (fun x : ByteArray => x.data.toList) this
  simpa [utf8] using this.symm

theorem textLines_cons_line {l t : Text} (h1 : '\n' ∉ l) (h2 : '\r' ∉ l) :
    textLines (l ++ '\n' :: t) = l :: textLines t := by
  induction l with
  | nil => simp [textLines]
  | cons c l ih =>
    have hc1 : c ≠ '\n' := fun h => h1 (by simp [h])
    have hc2 : c ≠ '\r' := fun h => h2 (by simp [h])
    rw [List.cons_append, textLines, if_neg hc1, if_neg (fun h => hc2 h.1),
      ih (fun h => h1 (by simp [h])) (fun h => h2 (by simp [h]))]

theorem hexDigit_facts : ∀ n : Nat, n < 16 → hexDigit n ≠ '\n' ∧ hexDigit n ≠ '\r' ∧ hexVal (hexDigit n) = some n := by
  decide

theorem escapeChar_no_break (c : Char) : '\n' ∉ escapeChar c ∧ '\r' ∉ escapeChar c := by
  unfold escapeChar
  split
  · decide
  split
  · decide
  split
  · decide
  split
  · decide
  split
  · decide
  split
  · decide
  split
  · decide
  split
  · rename_i h
    obtain ⟨a1, a2, _⟩ := hexDigit_facts (c.toNat / 16) (by omega)
    obtain ⟨b1, b2, _⟩ := hexDigit_facts (c.toNat % 16) (by omega)
    simp only [List.mem_cons, List.not_mem_nil, or_false, not_or]
    exact ⟨⟨by decide, by decide, by decide, by decide, a1.symm, b1.symm⟩,
      ⟨by decide, by decide, by decide, by decide, a2.symm, b2.symm⟩⟩
  · rename_i h1 h2 h3 h4 h5 h6 h7 h8
    simp only [List.mem_cons, List.not_mem_nil, or_false]
    exact ⟨fun h => h3 h.symm, fun h => h4 h.symm⟩

theorem escapeChar_length (c : Char) : 1 ≤ (escapeChar c).length := by
  unfold escapeChar
  repeat' split
  all_goals simp

theorem jsonQuote_no_break (w : Text) : '\n' ∉ jsonQuote w ∧ '\r' ∉ jsonQuote w := by
  constructor <;>
  · intro h
    rw [jsonQuote, List.cons_append, List.mem_cons, List.mem_append, List.mem_flatMap] at h
    rcases h with h | ⟨c, _, h⟩ | h
    · revert h; decide
    · first | exact (escapeChar_no_break c).1 h | exact (escapeChar_no_break c).2 h
    · revert h; decide

theorem jsonUnquote_escapeChar (c : Char) (fuel : Nat) (t : Text) :
    jsonUnquote (fuel + 1) (escapeChar c ++ t) = (jsonUnquote fuel t).map fun r => (c :: r.1, r.2) := by
  have hcof : Char.ofNat c.toNat = c := Char.ofNat_toNat c
  unfold escapeChar
  split
  · rename_i h; subst h; rfl
  split
  · rename_i h; subst h; rfl
  split
  · rename_i h; subst h; rfl
  split
  · rename_i h; subst h; rfl
  split
  · rename_i h; subst h; rfl
  split
  · rename_i h
    rw [h] at hcof
    rw [← hcof]; rfl
  split
  · rename_i h
    rw [h] at hcof
    rw [← hcof]; rfl
  split
  · rename_i h
    obtain ⟨_, _, a3⟩ := hexDigit_facts (c.toNat / 16) (by omega)
    obtain ⟨_, _, b3⟩ := hexDigit_facts (c.toNat % 16) (by omega)
    have h4 : hex4 '0' '0' (hexDigit (c.toNat / 16)) (hexDigit (c.toNat % 16)) = some c.toNat := by
      rw [hex4, a3, b3]
      simp only [show hexVal '0' = some 0 from rfl]
      congr 1
      omega
    rw [List.cons_append, jsonUnquote.eq_def]
    simp only [List.cons_append, List.nil_append]
    rw [if_neg (by decide), if_pos trivial, show simpleEscape 'u' = none from rfl]
    simp only [h4]
    rw [if_pos trivial, if_pos (Or.inl (by omega)), hcof]
  · rename_i h1 h2 h3 h4 h5 h6 h7 h8
    rw [List.cons_append, List.nil_append, jsonUnquote.eq_def]
    simp only
    rw [if_neg h1, if_neg h2, if_neg h8]

theorem jsonUnquote_quoted (w : Text) : ∀ (fuel : Nat) (rest : Text), w.length < fuel →
    jsonUnquote fuel (w.flatMap escapeChar ++ '"' :: rest) = some (w, rest) := by
  induction w with
  | nil =>
    intro fuel rest h
    obtain ⟨f, rfl⟩ : ∃ f, fuel = f + 1 := ⟨fuel - 1, by simp at h; omega⟩
    rfl
  | cons c w ih =>
    intro fuel rest h
    rw [List.length_cons] at h
    obtain ⟨f, rfl⟩ : ∃ f, fuel = f + 1 := ⟨fuel - 1, by omega⟩
    rw [List.flatMap_cons, List.append_assoc, jsonUnquote_escapeChar, ih f rest (by omega)]
    rfl

theorem flatMap_escape_length (w : Text) : w.length ≤ (w.flatMap escapeChar).length := by
  induction w with
  | nil => simp
  | cons c w ih =>
    rw [List.flatMap_cons, List.length_append, List.length_cons]
    have := escapeChar_length c
    omega

/-- serde_json reads back what it writes. -/
theorem jsonString_quote (w : Text) : jsonString (jsonQuote w) = some w := by
  rw [jsonString, jsonQuote, List.cons_append, List.dropWhile_cons_of_neg (by decide)]
  simp only
  rw [jsonUnquote_quoted w _ [] (by
    have := flatMap_escape_length w
    rw [List.length_append, List.length_singleton]; omega)]
  rfl

theorem textLines_content (words : List Text) :
    textLines (words.flatMap fun w => jsonQuote w ++ ['\n']) = words.map jsonQuote := by
  induction words with
  | nil => rfl
  | cons w t ih =>
    rw [List.flatMap_cons, List.append_assoc, List.singleton_append,
      textLines_cons_line (jsonQuote_no_break w).1 (jsonQuote_no_break w).2, ih, List.map_cons]

/-- A text of lines of JSON strings, as written one per line, is read back. -/
theorem lines_json (words : List Text) :
    seqOpt ((textLines (words.flatMap fun w => jsonQuote w ++ ['\n'])).map jsonString) = some words := by
  rw [textLines_content, List.map_map]
  apply seqOpt_some
  apply List.map_congr_left
  intro w _
  exact jsonString_quote w

/-! ### Words -/

theorem splitWs_space {t : Text} : splitWs (' ' :: t) = splitWs t := by
  rw [splitWs.eq_def]
  simp only
  rw [if_pos (by decide)]

theorem splitWs_word {w t : Text} (hne : w ≠ []) (h : ∀ c ∈ w, isWhite c = false) :
    splitWs (w ++ ' ' :: t) = w :: splitWs t ∧ splitWs w = [w] := by
  induction w with
  | nil => exact absurd rfl hne
  | cons c w ih =>
    have hc : ¬ isWhite c = true := by rw [h c (by simp)]; simp
    cases w with
    | nil =>
      constructor
      · rw [List.cons_append, List.nil_append, splitWs.eq_def]
        simp only
        rw [if_neg hc]
        rw [if_pos (by decide), splitWs_space]
      · rw [splitWs.eq_def]
        simp only
        rw [if_neg hc]
    | cons d w =>
      obtain ⟨h1, h2⟩ := ih (by simp) (fun x hx => h x (by simp [hx]))
      have hd : ¬ isWhite d = true := by rw [h d (by simp)]; simp
      constructor
      · rw [List.cons_append] at h1
        rw [List.cons_append, List.cons_append, splitWs.eq_def]
        simp only
        rw [if_neg hc]
        rw [if_neg hd, h1]
      · rw [splitWs.eq_def]
        simp only
        rw [if_neg hc]
        rw [if_neg hd, h2]

end Granne
