import Verif.Spec.Format
import Verif.Proofs.Text
import Mathlib.Tactic.IntervalCases
import Mathlib.Tactic.Ring

/-! The readers of text read exactly the formats of Spec/Format. -/
namespace Granne
open Spec

/-! ### Lines -/

theorem textLines_last {l : Text} (h : l ≠ []) (hn : '\n' ∉ l) : textLines l = [l] := by
  induction l with
  | nil => exact absurd rfl h
  | cons c t ih =>
    have hc : c ≠ '\n' := fun e => hn (by simp [e])
    have ht : '\n' ∉ t := fun e => hn (by simp [e])
    rw [textLines, if_neg hc, if_neg (by
      rintro ⟨_, h2⟩
      cases t with
      | nil => simp at h2
      | cons d t =>
        rw [List.head?_cons, Option.some.injEq] at h2
        exact ht (by simp [h2]))]
    cases t with
    | nil => rfl
    | cons d t => rw [ih (by simp) ht]

theorem textLines_lf {l t : Text} (h1 : '\n' ∉ l) (h2 : l.getLast? ≠ some '\r') :
    textLines (l ++ '\n' :: t) = l :: textLines t := by
  induction l with
  | nil => simp [textLines]
  | cons c l ih =>
    have hc1 : c ≠ '\n' := fun h => h1 (by simp [h])
    rw [List.cons_append, textLines, if_neg hc1, if_neg, ih (fun h => h1 (by simp [h]))]
    · intro h
      apply h2
      cases l with
      | nil => simp at h
      | cons d l => rw [List.getLast?_cons_cons]; exact h
    · rintro ⟨rfl, h⟩
      cases l with
      | nil => exact h2 rfl
      | cons d l =>
        rw [List.cons_append, List.head?_cons, Option.some.injEq] at h
        exact h1 (by simp [h])

theorem textLines_crlf {l t : Text} (h1 : '\n' ∉ l) :
    textLines (l ++ '\r' :: '\n' :: t) = l :: textLines t := by
  induction l with
  | nil => simp [textLines]
  | cons c l ih =>
    have hc1 : c ≠ '\n' := fun h => h1 (by simp [h])
    rw [List.cons_append, textLines, if_neg hc1, if_neg, ih (fun h => h1 (by simp [h]))]
    rintro ⟨rfl, h⟩
    cases l with
    | nil => simp at h
    | cons d l =>
      rw [List.cons_append, List.head?_cons, Option.some.injEq] at h
      exact h1 (by simp [h])

theorem Spec.LinesOf.sound {t : Text} {ls : List Text} (h : LinesOf t ls) : textLines t = ls := by
  induction h with
  | nil => rfl
  | last l h1 h2 => exact textLines_last h1 h2
  | lf l t ls h1 h2 _ ih => rw [textLines_lf h1 h2, ih]
  | crlf l t ls h1 _ ih => rw [textLines_crlf h1, ih]

theorem Spec.LinesOf.exists : ∀ (n : Nat) (t : Text), t.length ≤ n → ∃ ls, LinesOf t ls
  | 0, t, h => by
    obtain rfl := List.length_eq_zero_iff.1 (Nat.le_zero.1 h)
    exact ⟨[], .nil⟩
  | n + 1, t, h => by
    by_cases hn : '\n' ∈ t
    · obtain ⟨l, r, e, hl⟩ : ∃ l r, t = l ++ '\n' :: r ∧ '\n' ∉ l := by
        clear h
        induction t with
        | nil => cases hn
        | cons c t ih =>
          by_cases hc : c = '\n'
          · exact ⟨[], t, by rw [hc]; rfl, by simp⟩
          · rcases List.mem_cons.1 hn with h | h
            · exact absurd h.symm hc
            · obtain ⟨l', r', e, hl⟩ := ih h
              exact ⟨c :: l', r', by rw [e]; rfl, by simp [hl, Ne.symm hc]⟩
      subst e
      rw [List.length_append, List.length_cons] at h
      obtain ⟨ls, hls⟩ := LinesOf.exists n r (by omega)
      by_cases hr : l.getLast? = some '\r'
      · obtain ⟨l', rfl⟩ := List.getLast?_eq_some_iff.1 hr
        refine ⟨l' :: ls, ?_⟩
        rw [List.append_assoc]
        exact .crlf l' r ls (fun hc => hl (by simp [hc])) hls
      · exact ⟨l :: ls, .lf l r ls hl hr hls⟩
    · cases t with
      | nil => exact ⟨[], .nil⟩
      | cons c t => exact ⟨_, .last _ (by simp) hn⟩

theorem textLines_iff (t : Text) (ls : List Text) : textLines t = ls ↔ LinesOf t ls := by
  constructor
  · rintro rfl
    obtain ⟨ls, h⟩ := LinesOf.exists t.length t le_rfl
    rw [h.sound]
    exact h
  · exact LinesOf.sound

/-! ### Words -/

theorem isWhite_iff (c : Char) : isWhite c = true ↔ c.toNat ∈ whiteSpace := by
  unfold isWhite whiteSpace
  simp only [Bool.or_eq_true, Bool.and_eq_true, decide_eq_true_eq, beq_iff_eq, List.mem_cons, List.not_mem_nil, or_false]
  omega

theorem isWhite_false_iff (c : Char) : isWhite c = false ↔ c.toNat ∉ whiteSpace := by
  rw [← isWhite_iff, Bool.not_eq_true]

theorem splitWs_white {c : Char} {t : Text} (h : isWhite c = true) : splitWs (c :: t) = splitWs t := by
  rw [splitWs.eq_def]
  simp [h]

theorem splitWs_run {w : Text} (hne : w ≠ []) (hw : ∀ c ∈ w, isWhite c = false) :
    splitWs w = [w] ∧ ∀ (c : Char) (t : Text), isWhite c = true → splitWs (w ++ c :: t) = w :: splitWs t := by
  induction w with
  | nil => exact absurd rfl hne
  | cons a w ih =>
    have ha := hw a (by simp)
    cases w with
    | nil =>
      constructor
      · rw [splitWs.eq_def]; simp [ha]
      · intro c t hc
        rw [List.singleton_append, splitWs.eq_def]
        simp only
        rw [if_neg (by simp [ha]), if_pos hc, splitWs_white hc]
    | cons b w =>
      obtain ⟨i1, i2⟩ := ih (by simp) fun c hc => hw c (by simp [List.mem_cons.1 hc])
      have hb := hw b (by simp)
      constructor
      · rw [splitWs.eq_def]
        simp only
        rw [if_neg (by simp [ha]), if_neg (by simp [hb]), i1]
      · intro c t hc
        have := i2 c t hc
        rw [List.cons_append] at this
        rw [List.cons_append, List.cons_append, splitWs.eq_def]
        simp only
        rw [if_neg (by simp [ha]), if_neg (by simp [hb]), this]

theorem Spec.WordsOf.sound {t : Text} {ws : List Text} (h : WordsOf t ws) : splitWs t = ws := by
  induction h with
  | nil => rfl
  | white c t ws hc _ ih => rw [splitWs_white ((isWhite_iff c).2 hc), ih]
  | last w h1 h2 => exact (splitWs_run h1 fun c hc => (isWhite_false_iff c).2 (h2 c hc)).1
  | word w c t ws h1 h2 hc _ ih =>
    rw [(splitWs_run h1 fun c hc => (isWhite_false_iff c).2 (h2 c hc)).2 c t ((isWhite_iff c).2 hc), ih]

theorem Spec.WordsOf.exists : ∀ (n : Nat) (t : Text), t.length ≤ n → ∃ ws, WordsOf t ws
  | 0, t, h => by
    obtain rfl := List.length_eq_zero_iff.1 (Nat.le_zero.1 h)
    exact ⟨[], .nil⟩
  | n + 1, [], _ => ⟨[], .nil⟩
  | n + 1, a :: t, h => by
    by_cases ha : a.toNat ∈ whiteSpace
    · obtain ⟨ws, hws⟩ := WordsOf.exists n t (by simpa using h)
      exact ⟨ws, .white a t ws ha hws⟩
    · have key : (∀ c ∈ t, c.toNat ∉ whiteSpace) ∨ ∃ (u : Text) (c : Char) (r : Text), t = u ++ c :: r ∧
          (∀ c ∈ u, c.toNat ∉ whiteSpace) ∧ c.toNat ∈ whiteSpace := by
        clear h
        induction t with
        | nil => left; simp
        | cons d t ih =>
          by_cases hd : d.toNat ∈ whiteSpace
          · exact Or.inr ⟨[], d, t, rfl, by simp, hd⟩
          · rcases ih with h | ⟨u, c, r, e, h1, h2⟩
            · left
              intro c hc
              rcases List.mem_cons.1 hc with rfl | hc
              · exact hd
              · exact h c hc
            · refine Or.inr ⟨d :: u, c, r, by rw [e]; rfl, ?_, h2⟩
              intro x hx
              rcases List.mem_cons.1 hx with rfl | hx
              · exact hd
              · exact h1 x hx
      rcases key with hk | ⟨u, c, r, rfl, h1, h2⟩
      · refine ⟨[a :: t], .last _ (by simp) ?_⟩
        intro c hc
        rcases List.mem_cons.1 hc with rfl | hc
        · exact ha
        · exact hk c hc
      · rw [List.length_cons, List.length_append, List.length_cons] at h
        obtain ⟨ws, hws⟩ := WordsOf.exists n r (by omega)
        refine ⟨(a :: u) :: ws, .word (a :: u) c r ws (by simp) ?_ h2 hws⟩
        intro x hx
        rcases List.mem_cons.1 hx with rfl | hx
        · exact ha
        · exact h1 x hx

theorem splitWs_iff (t : Text) (ws : List Text) : splitWs t = ws ↔ WordsOf t ws := by
  constructor
  · rintro rfl
    obtain ⟨ws, h⟩ := WordsOf.exists t.length t le_rfl
    rw [h.sound]
    exact h
  · exact WordsOf.sound

/-! ### JSON strings -/

theorem char_ext {a b : Char} (h : a.toNat = b.toNat) : a = b := by
  rw [← Char.ofNat_toNat a, h, Char.ofNat_toNat]

theorem hexVal_iff (c : Char) (n : Nat) : hexVal c = some n ↔ IsHex c n := by
  constructor
  · intro h
    unfold hexVal at h
    simp only at h
    have hc := Char.ofNat_toNat c
    generalize c.toNat = m at h hc
    subst hc
    split at h
    · next hm =>
      obtain rfl := Option.some.inj h
      obtain ⟨h1, h2⟩ := hm
      left
      interval_cases m <;> rfl
    · split at h
      · next hm =>
        obtain rfl := Option.some.inj h
        obtain ⟨h1, h2⟩ := hm
        left
        interval_cases m <;> rfl
      · split at h
        · next hm =>
          obtain rfl := Option.some.inj h
          obtain ⟨h1, h2⟩ := hm
          right
          interval_cases m <;> rfl
        · cases h
  · intro h
    have hn : n < 16 := by
      rcases h with h | h
      · exact (List.getElem?_eq_some_iff.1 h).1
      · exact (List.getElem?_eq_some_iff.1 h).1
    rcases h with h | h <;> interval_cases n <;>
      · have := Option.some.inj h
        subst this
        rfl

theorem hexVal_lt {c : Char} {n : Nat} (h : hexVal c = some n) : n < 16 := by
  rcases (hexVal_iff c n).1 h with h | h
  · exact (List.getElem?_eq_some_iff.1 h).1
  · exact (List.getElem?_eq_some_iff.1 h).1

theorem hex4_iff (a b c d : Char) (n : Nat) : hex4 a b c d = some n ↔ IsHex4 [a, b, c, d] n := by
  constructor
  · intro h
    unfold hex4 at h
    split at h
    · next i j k l h1 h2 h3 h4 =>
      have e : n = 4096 * i + 256 * j + 16 * k + l := by
        rw [← Option.some.inj h]; ring
      rw [e]
      exact .mk a b c d i j k l ((hexVal_iff _ _).1 h1) ((hexVal_iff _ _).1 h2) ((hexVal_iff _ _).1 h3) ((hexVal_iff _ _).1 h4)
    · cases h
  · intro h
    cases h with
    | mk _ _ _ _ i j k l h1 h2 h3 h4 =>
      rw [hex4, (hexVal_iff _ _).2 h1, (hexVal_iff _ _).2 h2, (hexVal_iff _ _).2 h3, (hexVal_iff _ _).2 h4]
      simp only
      congr 1
      ring

theorem hex4_lt {a b c d : Char} {n : Nat} (h : hex4 a b c d = some n) : n < 65536 := by
  unfold hex4 at h
  split at h
  · next i j k l h1 h2 h3 h4 =>
    have := hexVal_lt h1
    have := hexVal_lt h2
    have := hexVal_lt h3
    have := hexVal_lt h4
    have e := Option.some.inj h
    omega
  · cases h

theorem simpleEscape_iff (e ch : Char) : simpleEscape e = some ch ↔ (e, ch.toNat) ∈ shortEscapes := by
  unfold simpleEscape shortEscapes
  constructor
  · intro h
    repeat' split at h
    all_goals first | (next he => subst he; rw [← Option.some.inj h]; decide) | cases h
  · intro h
    have hc := Char.ofNat_toNat ch
    generalize ch.toNat = m at h hc
    subst hc
    simp only [List.mem_cons, Prod.mk.injEq, List.not_mem_nil, or_false] at h
    rcases h with ⟨rfl, rfl⟩ | ⟨rfl, rfl⟩ | ⟨rfl, rfl⟩ | ⟨rfl, rfl⟩ | ⟨rfl, rfl⟩ | ⟨rfl, rfl⟩ | ⟨rfl, rfl⟩ | ⟨rfl, rfl⟩ <;> rfl

theorem ofNat_toNat_valid {n : Nat} (h : n < 0xD800 ∨ 0xE000 ≤ n) (h2 : n < 0x110000) : (Char.ofNat n).toNat = n := by
  have hv : n.isValidChar := by
    rcases h with h | h
    · exact Or.inl h
    · exact Or.inr ⟨by omega, h2⟩
  rw [Char.ofNat, dif_pos hv]
  simp [Char.ofNatAux, Char.toNat]

theorem toNat_valid (c : Char) : (c.toNat < 0xD800 ∨ 0xE000 ≤ c.toNat) ∧ c.toNat < 0x110000 := by
  have := c.valid
  rcases this with h | ⟨h1, h2⟩
  · have : c.toNat < 0xD800 := h
    omega
  · have h1 : 0xDFFF < c.toNat := h1
    have h2 : c.toNat < 0x110000 := h2
    omega

theorem map_cons_some {x : Option (Text × Text)} {c : Char} {w rest : Text}
    (h : (x.map fun r => (c :: r.1, r.2)) = some (w, rest)) : ∃ w', x = some (w', rest) ∧ w = c :: w' := by
  rcases x with _ | ⟨a, b⟩
  · cases h
  · simp only [Option.map_some, Option.some.injEq, Prod.mk.injEq] at h
    exact ⟨a, by rw [← h.2], h.1.symm⟩

theorem jsonUnquote_sound : ∀ (fuel : Nat) (s w rest : Text), jsonUnquote fuel s = some (w, rest) →
    ∃ body, s = body ++ '"' :: rest ∧ JsonBody body w
  | 0, s, w, rest, h => by cases h
  | fuel + 1, s, w, rest, h => by
    rw [jsonUnquote.eq_def] at h
    simp only at h
    split at h
    · cases h
    · next c t =>
      split at h
      · next hc =>
        simp only [Option.some.injEq, Prod.mk.injEq] at h
        exact ⟨[], by rw [hc, ← h.2]; rfl, by rw [← h.1]; exact .nil⟩
      split at h
      · next hc1 hc =>
        subst hc
        split at h
        · cases h
        · next e t =>
          split at h
          · next ch he =>
            obtain ⟨w', h1, rfl⟩ := map_cons_some h
            obtain ⟨body, rfl, hb⟩ := jsonUnquote_sound fuel _ _ _ h1
            exact ⟨'\\' :: e :: body, rfl, .short e ch body w' ((simpleEscape_iff e ch).1 he) hb⟩
          · split at h
            · next he =>
              subst he
              split at h
              · next a b c d t =>
                split at h
                · cases h
                · next n hn =>
                  have hlt := hex4_lt hn
                  split at h
                  · next hs =>
                    obtain ⟨w', h1, rfl⟩ := map_cons_some h
                    obtain ⟨body, rfl, hb⟩ := jsonUnquote_sound fuel _ _ _ h1
                    refine ⟨'\\' :: 'u' :: ([a, b, c, d] ++ body), rfl, .code [a, b, c, d] _ body w' ?_ hb⟩
                    rw [ofNat_toNat_valid hs (by omega)]
                    exact (hex4_iff a b c d n).1 hn
                  · next hs =>
                    split at h
                    · cases h
                    · next hs2 =>
                      split at h
                      · next a' b' c' d' t' =>
                        split at h
                        · cases h
                        · next m hm =>
                          split at h
                          · next hr =>
                            obtain ⟨w', h1, rfl⟩ := map_cons_some h
                            obtain ⟨body, rfl, hb⟩ := jsonUnquote_sound fuel _ _ _ h1
                            refine ⟨'\\' :: 'u' :: ([a, b, c, d] ++ '\\' :: 'u' :: ([a', b', c', d'] ++ body)), rfl,
                              .pair [a, b, c, d] [a', b', c', d'] (n - 0xD800) (m - 0xDC00) _ body w' ?_ ?_ (by omega) (by omega)
                                ?_ hb⟩
                            · rw [show 0xD800 + (n - 0xD800) = n by omega]
                              exact (hex4_iff a b c d n).1 hn
                            · rw [show 0xDC00 + (m - 0xDC00) = m by omega]
                              exact (hex4_iff a' b' c' d' m).1 hm
                            · rw [ofNat_toNat_valid (by omega) (by omega)]
                              ring
                          · cases h
                      · cases h
              · cases h
            · cases h
      split at h
      · cases h
      · next hc1 hc2 hc3 =>
        obtain ⟨w', h1, rfl⟩ := map_cons_some h
        obtain ⟨body, rfl, hb⟩ := jsonUnquote_sound fuel _ _ _ h1
        exact ⟨c :: body, rfl, .plain c body w' hc1 hc2 (by omega) hb⟩

theorem isHex4_cases {h : Text} {n : Nat} (hh : IsHex4 h n) : ∃ a b c d, h = [a, b, c, d] ∧ hex4 a b c d = some n := by
  cases hh with
  | mk a b c d i j k l h1 h2 h3 h4 => exact ⟨a, b, c, d, rfl, (hex4_iff a b c d _).2 (.mk a b c d i j k l h1 h2 h3 h4)⟩

theorem jsonUnquote_complete {body w : Text} (hb : JsonBody body w) :
    ∀ (fuel : Nat) (rest : Text), body.length < fuel → jsonUnquote fuel (body ++ '"' :: rest) = some (w, rest) := by
  induction hb with
  | nil =>
    intro fuel rest h
    obtain ⟨f, rfl⟩ : ∃ f, fuel = f + 1 := ⟨fuel - 1, by simp at h; omega⟩
    rfl
  | plain c s t h1 h2 h3 _ ih =>
    intro fuel rest h
    rw [List.length_cons] at h
    obtain ⟨f, rfl⟩ : ∃ f, fuel = f + 1 := ⟨fuel - 1, by omega⟩
    rw [List.cons_append, jsonUnquote.eq_def]
    simp only
    rw [if_neg h1, if_neg h2, if_neg (by omega), ih f rest (by omega)]
    rfl
  | short e ch s t h1 _ ih =>
    intro fuel rest h
    rw [List.length_cons, List.length_cons] at h
    obtain ⟨f, rfl⟩ : ∃ f, fuel = f + 1 := ⟨fuel - 1, by omega⟩
    rw [List.cons_append, List.cons_append, jsonUnquote.eq_def]
    simp only
    rw [if_neg (by decide), if_pos trivial, (simpleEscape_iff e ch).2 h1]
    simp only
    rw [ih f rest (by omega)]
    rfl
  | code hx ch s t h1 _ ih =>
    intro fuel rest h
    obtain ⟨a, b, c, d, rfl, h4⟩ := isHex4_cases h1
    simp only [List.length_cons, List.length_append, List.length_nil] at h
    obtain ⟨f, rfl⟩ : ∃ f, fuel = f + 1 := ⟨fuel - 1, by omega⟩
    simp only [List.cons_append, List.nil_append]
    rw [jsonUnquote.eq_def]
    simp only
    rw [if_neg (by decide), if_pos trivial, show simpleEscape 'u' = none from rfl]
    simp only [h4]
    rw [if_pos trivial, if_pos (toNat_valid ch).1, ih f rest (by omega), Char.ofNat_toNat]
    rfl
  | pair hx lx hi lo ch s t h1 h2 h3 h5 h6 _ ih =>
    intro fuel rest h
    obtain ⟨a, b, c, d, rfl, h4⟩ := isHex4_cases h1
    obtain ⟨a', b', c', d', rfl, h4'⟩ := isHex4_cases h2
    simp only [List.length_cons, List.length_append, List.length_nil] at h
    obtain ⟨f, rfl⟩ : ∃ f, fuel = f + 1 := ⟨fuel - 1, by omega⟩
    simp only [List.cons_append, List.nil_append]
    rw [jsonUnquote.eq_def]
    simp only
    rw [if_neg (by decide), if_pos trivial, show simpleEscape 'u' = none from rfl]
    simp only [h4]
    rw [if_pos trivial, if_neg (by omega), if_neg (by omega)]
    simp only [h4']
    rw [if_pos (by omega), ih f rest (by omega)]
    have e : 0x10000 + (0xD800 + hi - 0xD800) * 0x400 + (0xDC00 + lo - 0xDC00) = ch.toNat := by omega
    rw [e, Char.ofNat_toNat]
    rfl

theorem isJsonWs_iff (c : Char) : isJsonWs c = true ↔ c ∈ [' ', '\t', '\n', '\r'] := by
  unfold isJsonWs
  simp [or_assoc]

theorem jsonString_iff (line t : Text) : jsonString line = some t ↔ IsJsonString line t := by
  constructor
  · intro h
    unfold jsonString at h
    split at h
    · next s hs =>
      split at h
      · next w rest hj =>
        split at h
        · next hall =>
          obtain rfl := Option.some.inj h
          obtain ⟨body, rfl, hb⟩ := jsonUnquote_sound _ _ _ _ hj
          refine ⟨line.takeWhile isJsonWs, body, rest, ?_, hb, ?_⟩
          · rw [← hs, List.takeWhile_append_dropWhile]
          · intro c hc
            rw [← isJsonWs_iff]
            rcases List.mem_append.1 hc with hc | hc
            · exact List.all_eq_true.1 (List.all_takeWhile (p := isJsonWs) (l := line)) c hc
            · exact List.all_eq_true.1 hall c hc
        · cases h
      · cases h
    · cases h
  · rintro ⟨pre, body, post, rfl, hb, hw⟩
    have hpre : (pre ++ '"' :: (body ++ '"' :: post)).dropWhile isJsonWs = '"' :: (body ++ '"' :: post) := by
      rw [List.dropWhile_append_of_pos (fun c hc => (isJsonWs_iff c).2 (hw c (by simp [hc])))]
      rfl
    unfold jsonString
    rw [hpre]
    simp only
    rw [jsonUnquote_complete hb _ _ (by simp)]
    simp only
    rw [if_pos]
    rw [List.all_eq_true]
    exact fun c hc => (isJsonWs_iff c).2 (hw c (by simp [hc]))

end Granne
