import Verif.Proofs.Json

/-! The JSON reader reads exactly the texts of Spec/Json: strings, arrays and objects. -/
namespace Granne
open Spec

/-! ### Strings -/

/-- A byte that can stand in a string as it is. -/
def PlainByte (b : UInt8) : Prop := b ≠ 34 ∧ b ≠ 92 ∧ ¬ b < 32

theorem plainByte_of_toNat {b : UInt8} (h : 32 ≤ b.toNat) (h1 : b.toNat ≠ 34) (h2 : b.toNat ≠ 92) : PlainByte b := by
  refine ⟨fun h => h1 (by rw [h]; rfl), fun h => h2 (by rw [h]; rfl), fun hlt => ?_⟩
  rw [UInt8.lt_iff_toNat_lt] at hlt
  have : (32 : UInt8).toNat = 32 := rfl
  omega

theorem utf8EncodeChar_ascii {c : Char} (h : c.toNat < 128) : String.utf8EncodeChar c = [UInt8.ofNat c.toNat] := by
  unfold String.utf8EncodeChar
  simp only
  rw [if_pos (by change c.toNat ≤ 127; omega)]
  rfl

theorem utf8EncodeChar_high {c : Char} (h : 128 ≤ c.toNat) : ∀ b ∈ String.utf8EncodeChar c, 128 ≤ b.toNat := by
  have hv : c.val.toNat = c.toNat := rfl
  have hmax : c.toNat < 0x110000 := by
    have := c.valid
    simp only [UInt32.isValidChar, Nat.isValidChar] at this
    rw [hv] at this
    omega
  unfold String.utf8EncodeChar
  simp only [hv]
  intro b hb
  split at hb
  · omega
  split at hb
  · simp only [List.mem_cons, List.not_mem_nil, or_false] at hb
    rcases hb with rfl | rfl <;> simp only [UInt8.toNat_ofNat'] <;> omega
  split at hb
  · simp only [List.mem_cons, List.not_mem_nil, or_false] at hb
    rcases hb with rfl | rfl | rfl <;> simp only [UInt8.toNat_ofNat'] <;> omega
  · simp only [List.mem_cons, List.not_mem_nil, or_false] at hb
    rcases hb with rfl | rfl | rfl | rfl <;> simp only [UInt8.toNat_ofNat'] <;> omega

theorem utf8_cons (c : Char) (t : Text) : utf8 (c :: t) = String.utf8EncodeChar c ++ utf8 t := rfl

theorem utf8_append (s t : Text) : utf8 (s ++ t) = utf8 s ++ utf8 t := by simp [utf8]

theorem plainByte_encode {c : Char} (h1 : c ≠ '"') (h2 : c ≠ '\\') (h3 : 32 ≤ c.toNat) :
    ∀ b ∈ String.utf8EncodeChar c, PlainByte b := by
  intro b hb
  by_cases h : c.toNat < 128
  · rw [utf8EncodeChar_ascii h, List.mem_singleton] at hb
    subst hb
    have e : (UInt8.ofNat c.toNat).toNat = c.toNat := by simp only [UInt8.toNat_ofNat']; omega
    refine plainByte_of_toNat (by rw [e]; exact h3) (fun hc => h1 ?_) (fun hc => h2 ?_)
    · rw [e] at hc; exact Char.toNat_inj.1 hc
    · rw [e] at hc; exact Char.toNat_inj.1 hc
  · have := utf8EncodeChar_high (by omega) b hb
    exact plainByte_of_toNat (by omega) (by omega) (by omega)

theorem rawStr_plain {p : Bytes} (hp : ∀ b ∈ p, PlainByte b) {s raw rest : Bytes} (h : rawStr s = some (raw, rest)) :
    rawStr (p ++ s) = some (p ++ raw, rest) := by
  induction p with
  | nil => exact h
  | cons b t ih =>
    obtain ⟨h1, h2, h3⟩ := hp b (by simp)
    rw [List.cons_append]
    unfold rawStr
    rw [if_neg h1, if_neg h3, if_neg h2, ih fun b hb => hp b (by simp [hb])]
    rfl

theorem rawStr_escape {c : UInt8} (hc : ¬ c < 32) {s raw rest : Bytes} (h : rawStr s = some (raw, rest)) :
    rawStr (92 :: c :: s) = some (92 :: c :: raw, rest) := by
  unfold rawStr
  rw [if_neg (by decide), if_neg (by decide), if_pos rfl]
  simp only
  rw [if_neg hc, h]
  rfl

theorem isHex_plain {c : Char} {n : Nat} (h : IsHex c n) : ∀ b ∈ String.utf8EncodeChar c, PlainByte b := by
  have hm : c ∈ "0123456789abcdef".toList ∨ c ∈ "0123456789ABCDEF".toList := by
    rcases h with h | h
    · exact Or.inl (List.mem_of_getElem? h)
    · exact Or.inr (List.mem_of_getElem? h)
  have h32 : ∀ c ∈ "0123456789abcdef".toList ++ "0123456789ABCDEF".toList, c ≠ '"' ∧ c ≠ '\\' ∧ 32 ≤ c.toNat := by
    decide +kernel
  obtain ⟨h1, h2, h3⟩ := h32 c (List.mem_append.2 hm)
  exact plainByte_encode h1 h2 h3

theorem isHex4_plain {h : Text} {n : Nat} (hh : IsHex4 h n) : ∀ b ∈ utf8 h, PlainByte b := by
  cases hh with
  | mk a b c d i j k l h1 h2 h3 h4 =>
    intro x hx
    simp only [utf8, List.flatMap_cons, List.flatMap_nil, List.append_nil, List.mem_append] at hx
    rcases hx with hx | hx | hx | hx
    · exact isHex_plain h1 x hx
    · exact isHex_plain h2 x hx
    · exact isHex_plain h3 x hx
    · exact isHex_plain h4 x hx

theorem rawStr_body {body t : Text} (h : JsonBody body t) (rest : Bytes) :
    rawStr (utf8 body ++ 34 :: rest) = some (utf8 body, rest) := by
  have hbs : String.utf8EncodeChar '\\' = [92] := by rw [utf8EncodeChar_ascii (by decide)]; rfl
  have hu : String.utf8EncodeChar 'u' = [117] := by rw [utf8EncodeChar_ascii (by decide)]; rfl
  induction h with
  | nil =>
    rw [show utf8 [] = [] from rfl, List.nil_append]
    unfold rawStr
    rw [if_pos rfl]
  | plain c s t h1 h2 h3 _ ih =>
    rw [utf8_cons, List.append_assoc]
    exact rawStr_plain (plainByte_encode h1 h2 h3) ih
  | short e ch s t he _ ih =>
    have hlist : ∀ x ∈ shortEscapes, x.1.toNat < 128 ∧ 32 ≤ x.1.toNat := by decide +kernel
    obtain ⟨h1, h2⟩ := hlist _ he
    simp only at h1 h2
    rw [utf8_cons, utf8_cons, hbs, utf8EncodeChar_ascii h1]
    simp only [List.cons_append, List.nil_append]
    refine rawStr_escape ?_ ih
    rw [UInt8.lt_iff_toNat_lt]
    simp only [UInt8.toNat_ofNat']
    have : (32 : UInt8).toNat = 32 := rfl
    omega
  | code h ch s t hh _ ih =>
    rw [utf8_cons, utf8_cons, hbs, hu, utf8_append]
    simp only [List.cons_append, List.nil_append, List.append_assoc]
    exact rawStr_escape (by decide) (rawStr_plain (isHex4_plain hh) ih)
  | pair h l hi lo ch s t hh hl _ _ _ _ ih =>
    rw [utf8_cons, utf8_cons, utf8_append, utf8_cons, utf8_cons, utf8_append, hbs, hu]
    simp only [List.cons_append, List.nil_append, List.append_assoc]
    exact rawStr_escape (by decide) (rawStr_plain (isHex4_plain hh) (rawStr_escape (by decide) (rawStr_plain (isHex4_plain hl) ih)))

theorem rawStr_sound : ∀ (n : Nat) (s raw rest : Bytes), s.length ≤ n → rawStr s = some (raw, rest) → s = raw ++ 34 :: rest := by
  intro n
  induction n with
  | zero =>
    intro s raw rest hn h
    obtain rfl : s = [] := List.length_eq_zero_iff.1 (by omega)
    simp [rawStr] at h
  | succ n ih =>
    intro s raw rest hn h
    cases s with
    | nil => simp [rawStr] at h
    | cons b t =>
      unfold rawStr at h
      split at h
      · next hb =>
        simp only [Option.some.injEq, Prod.mk.injEq] at h
        rw [← h.1, ← h.2, hb]; rfl
      split at h
      · cases h
      · split at h
        · split at h
          · cases h
          · next c t' =>
            split at h
            · cases h
            · rcases Option.eq_none_or_eq_some (rawStr t') with hp | ⟨p, hp⟩
              · simp [hp] at h
              · simp only [hp, Option.map_some, Option.some.injEq, Prod.mk.injEq] at h
                rw [← h.1, ← h.2, ih t' p.1 p.2 (by simp at hn; omega) hp]; rfl
        · rcases Option.eq_none_or_eq_some (rawStr t) with hp | ⟨p, hp⟩
          · simp [hp] at h
          · simp only [hp, Option.map_some, Option.some.injEq, Prod.mk.injEq] at h
            rw [← h.1, ← h.2, ih t p.1 p.2 (by simp at hn; omega) hp]; rfl

theorem parseStr_complete {body t : Text} (h : JsonBody body t) (rest : Bytes) :
    parseStr (utf8 body ++ 34 :: rest) = some (utf8 t, rest) := by
  unfold parseStr
  rw [rawStr_body h]
  simp only
  rw [fromUtf8_utf8]
  simp only
  rw [jsonUnquote_complete h _ _ (by omega)]

theorem parseStr_sound {s k rest : Bytes} (h : parseStr s = some (k, rest)) :
    ∃ body t, s = utf8 body ++ 34 :: rest ∧ JsonBody body t ∧ k = utf8 t := by
  unfold parseStr at h
  split at h
  · cases h
  · next raw r hr =>
    split at h
    · cases h
    · next body hb =>
      split at h
      · next w hw =>
        simp only [Option.some.injEq, Prod.mk.injEq] at h
        obtain ⟨rfl, rfl⟩ := h
        obtain ⟨body', e, hj⟩ := jsonUnquote_sound _ _ _ _ hw
        have : body = body' := List.append_cancel_right e
        subst this
        exact ⟨body, w, by rw [rawStr_sound _ _ _ _ (Nat.le_refl _) hr, fromUtf8_eq_some hb], hj, rfl⟩
      · cases h

/-! ### Values -/

theorem expect_some {w s r : Bytes} (h : expect w s = some r) : s = w ++ r := by
  unfold expect at h
  split at h
  · next he => cases h; conv_lhs => rw [← List.take_append_drop w.length s, he]
  · cases h

theorem expect_append (w r : Bytes) : expect w (w ++ r) = some r := by
  unfold expect
  rw [List.take_left, if_pos rfl, List.drop_left]

theorem map_eq {α β : Type} {o : Option (α × Bytes)} {f : α → β} {v : β} {r : Bytes}
    (h : (o.map fun r => (f r.1, r.2)) = some (v, r)) : ∃ a, o = some (a, r) ∧ v = f a := by
  rcases o with _ | ⟨a, b⟩
  · cases h
  · simp only [Option.map_some, Option.some.injEq, Prod.mk.injEq] at h
    exact ⟨a, by rw [h.2], h.1.symm⟩

theorem asc_true : asc "true" = 116 :: asc "rue" := by decide +kernel
theorem asc_false : asc "false" = 102 :: asc "alse" := by decide +kernel
theorem asc_null : asc "null" = 110 :: asc "ull" := by decide +kernel

theorem parse_sound (fuel : Nat) :
    (∀ depth s v r, parseValue fuel depth s = some (v, r) → ∃ w b, IsBlank w ∧ s = w ++ b ++ r ∧ JsonValue (depth - 1) v b) ∧
    (∀ depth s l r, parseItems fuel depth s = some (l, r) → ∃ b, s = b ++ 93 :: r ∧ JsonItems (depth - 1) l b) ∧
    (∀ depth s l r, parseMembers fuel depth s = some (l, r) → ∃ b, s = b ++ 125 :: r ∧ JsonMembers (depth - 1) l b) := by
  induction fuel with
  | zero =>
    refine ⟨fun d s v r h => ?_, fun d s v r h => ?_, fun d s v r h => ?_⟩
    · simp [parseValue] at h
    · simp [parseItems] at h
    · simp [parseMembers] at h
  | succ fuel ih =>
    obtain ⟨ihv, ihi, ihm⟩ := ih
    refine ⟨fun d s v r h => ?_, fun d s v r h => ?_, fun d s v r h => ?_⟩
    · rw [parseValue] at h
      obtain ⟨w, hw, hs⟩ := skipWs_split s
      -- it suffices to find the value after the white space
      suffices hx : ∃ b, skipWs s = b ++ r ∧ JsonValue (d - 1) v b by
        obtain ⟨b, h1, h2⟩ := hx
        exact ⟨w, b, hw, by rw [hs, h1, List.append_assoc], h2⟩
      generalize skipWs s = u at h
      cases u with
      | nil => cases h
      | cons b t =>
        simp only at h
        split at h
        · next hb =>
          subst hb
          split at h
          · cases h
          · next hd =>
            obtain ⟨d', rfl⟩ : ∃ d', d = d' + 2 := ⟨d - 2, by omega⟩
            obtain ⟨w', hw', ht⟩ := skipWs_split t
            split at h
            · next t' ht' =>
              simp only [Option.some.injEq, Prod.mk.injEq] at h
              obtain ⟨rfl, rfl⟩ := h
              exact ⟨123 :: (w' ++ [125]), by rw [ht, ht']; simp, .emptyObject _ _ hw'⟩
            · obtain ⟨l, hl, rfl⟩ := map_eq h
              obtain ⟨x, hx1, hx2⟩ := ihm _ _ _ _ hl
              refine ⟨123 :: ((w' ++ x) ++ [125]), by rw [ht, hx1]; simp, .object _ _ _ ?_⟩
              have hx3 : JsonMembers d' l x := by simpa using hx2
              cases hx3 with
              | one _ v body key w1 w2 w3 b w4 h1 h2 h3 h4 h5 h6 =>
                rw [← List.append_assoc]
                exact .one _ _ _ _ _ _ _ _ _ (fun c hc => by
                  rcases List.mem_append.1 hc with hc | hc
                  · exact hw' c hc
                  · exact h1 c hc) h2 h3 h4 h5 h6
              | more _ v body key w1 w2 w3 b w4 l c h1 h2 h3 h4 h5 h6 h7 =>
                rw [← List.append_assoc]
                exact .more _ _ _ _ _ _ _ _ _ _ _ (fun c hc => by
                  rcases List.mem_append.1 hc with hc | hc
                  · exact hw' c hc
                  · exact h1 c hc) h2 h3 h4 h5 h6 h7
        split at h
        · next hb =>
          subst hb
          split at h
          · cases h
          · next hd =>
            obtain ⟨d', rfl⟩ : ∃ d', d = d' + 2 := ⟨d - 2, by omega⟩
            obtain ⟨w', hw', ht⟩ := skipWs_split t
            split at h
            · next t' ht' =>
              simp only [Option.some.injEq, Prod.mk.injEq] at h
              obtain ⟨rfl, rfl⟩ := h
              exact ⟨91 :: (w' ++ [93]), by rw [ht, ht']; simp, .emptyArray _ _ hw'⟩
            · obtain ⟨l, hl, rfl⟩ := map_eq h
              obtain ⟨x, hx1, hx2⟩ := ihi _ _ _ _ hl
              refine ⟨91 :: ((w' ++ x) ++ [93]), by rw [ht, hx1]; simp, .array _ _ _ ?_⟩
              have hx3 : JsonItems d' l x := by simpa using hx2
              have hww : ∀ w1, IsBlank w1 → IsBlank (w' ++ w1) := fun w1 h1 c hc => by
                rcases List.mem_append.1 hc with hc | hc
                · exact hw' c hc
                · exact h1 c hc
              cases hx3 with
              | one _ v w1 b w2 h1 h2 h3 =>
                rw [← List.append_assoc, ← List.append_assoc]
                exact .one _ _ _ _ _ (hww _ h1) h2 h3
              | more _ v w1 b w2 l c h1 h2 h3 h4 =>
                rw [← List.append_assoc, ← List.append_assoc, ← List.append_assoc]
                exact .more _ _ _ _ _ _ _ (hww _ h1) h2 h3 h4
        split at h
        · next hb =>
          subst hb
          obtain ⟨k, hk, rfl⟩ := map_eq h
          obtain ⟨body, tx, e, hj, rfl⟩ := parseStr_sound hk
          exact ⟨34 :: (utf8 body ++ [34]), by rw [e]; simp, .string _ _ _ hj⟩
        split at h
        · next hb =>
          subst hb
          rcases Option.eq_none_or_eq_some (expect (asc "rue") t) with he | ⟨r', he⟩
          · rw [he] at h; cases h
          · rw [he] at h
            simp only [Option.map_some, Option.some.injEq, Prod.mk.injEq] at h
            obtain ⟨rfl, rfl⟩ := h
            exact ⟨asc "true", by rw [expect_some he, asc_true]; rfl, .true _⟩
        split at h
        · next hb =>
          subst hb
          rcases Option.eq_none_or_eq_some (expect (asc "alse") t) with he | ⟨r', he⟩
          · rw [he] at h; cases h
          · rw [he] at h
            simp only [Option.map_some, Option.some.injEq, Prod.mk.injEq] at h
            obtain ⟨rfl, rfl⟩ := h
            exact ⟨asc "false", by rw [expect_some he, asc_false]; rfl, .false _⟩
        split at h
        · next hb =>
          subst hb
          rcases Option.eq_none_or_eq_some (expect (asc "ull") t) with he | ⟨r', he⟩
          · rw [he] at h; cases h
          · rw [he] at h
            simp only [Option.map_some, Option.some.injEq, Prod.mk.injEq] at h
            obtain ⟨rfl, rfl⟩ := h
            exact ⟨asc "null", by rw [expect_some he, asc_null]; rfl, .null _⟩
        split at h
        · obtain ⟨x, e, hj⟩ := parseNum_sound h
          exact ⟨x, e, .number _ _ _ hj⟩
        · cases h
    · rw [parseItems] at h
      split at h
      · cases h
      · next v1 s1 h1 =>
        obtain ⟨w, b, hw, hs, hv⟩ := ihv _ _ _ _ h1
        obtain ⟨w', hw', hs1⟩ := skipWs_split s1
        split at h
        · next s2 hs2 =>
          obtain ⟨l, hl, rfl⟩ := map_eq h
          obtain ⟨x, hx1, hx2⟩ := ihi _ _ _ _ hl
          exact ⟨w ++ b ++ w' ++ 44 :: x, by rw [hs, hs1, hs2, hx1]; simp, .more _ _ _ _ _ _ _ hw hv hw' hx2⟩
        · next s2 hs2 =>
          simp only [Option.some.injEq, Prod.mk.injEq] at h
          obtain ⟨rfl, rfl⟩ := h
          exact ⟨w ++ b ++ w', by rw [hs, hs1, hs2]; simp, .one _ _ _ _ _ hw hv hw'⟩
        · cases h
    · rw [parseMembers] at h
      obtain ⟨w1, hw1, hs⟩ := skipWs_split s
      split at h
      · next t ht =>
        split at h
        · cases h
        · next k s1 hk =>
          obtain ⟨body, tx, e, hj, rfl⟩ := parseStr_sound hk
          obtain ⟨w2, hw2, hs1⟩ := skipWs_split s1
          split at h
          · next s2 hs2 =>
            split at h
            · cases h
            · next v3 s3 hv3 =>
              obtain ⟨w3, b, hw3, hs3, hv⟩ := ihv _ _ _ _ hv3
              obtain ⟨w4, hw4, hs4⟩ := skipWs_split s3
              split at h
              · next s4 hs5 =>
                obtain ⟨l, hl, rfl⟩ := map_eq h
                obtain ⟨x, hx1, hx2⟩ := ihm _ _ _ _ hl
                refine ⟨_, ?_, .more _ v3 body tx w1 w2 w3 b w4 l x hw1 hj hw2 hw3 hv hw4 hx2⟩
                rw [hs, ht, e, hs1, hs2, hs3, hs4, hs5, hx1]; simp
              · next s4 hs5 =>
                simp only [Option.some.injEq, Prod.mk.injEq] at h
                obtain ⟨rfl, rfl⟩ := h
                refine ⟨_, ?_, .one _ v3 body tx w1 w2 w3 b w4 hw1 hj hw2 hw3 hv hw4⟩
                rw [hs, ht, e, hs1, hs2, hs3, hs4, hs5]; simp
              · cases h
          · cases h
      · cases h

theorem jsonNumber_head {v : Json} {b : Bytes} (h : JsonNumber v b) : ∃ c t, b = c :: t ∧ (isDigit c = true ∨ c = 45) := by
  have hd : ∀ {ds : Bytes} {n : Nat}, IsDecimal ds n → ∃ c t, ds = c :: t ∧ isDigit c = true := by
    intro ds n hi
    obtain ⟨c, t, e⟩ := List.exists_cons_of_ne_nil (isDecimal_ne_nil hi)
    exact ⟨c, t, e, isDecimal_isDigit hi c (by simp [e])⟩
  cases h with
  | nat _ n hi => obtain ⟨c, t, e, hc⟩ := hd hi.1; exact ⟨c, t, e, Or.inl hc⟩
  | other minus int frac expo n hm hi hf he hne =>
    obtain ⟨c, t, e, hc⟩ := hd hi.1
    rcases hm with rfl | rfl
    · exact ⟨c, t ++ frac ++ expo, by rw [e]; simp, Or.inl hc⟩
    · exact ⟨45, int ++ frac ++ expo, by simp, Or.inr rfl⟩

/-- The first byte of a value is not white space and does not close anything. -/
theorem jsonValue_head {d : Nat} {v : Json} {b : Bytes} (h : JsonValue d v b) :
    ∃ c t, b = c :: t ∧ isWs c = false ∧ c ≠ 93 ∧ c ≠ 125 := by
  cases h with
  | null => exact ⟨110, asc "ull", asc_null, by decide⟩
  | true => exact ⟨116, asc "rue", asc_true, by decide⟩
  | false => exact ⟨102, asc "alse", asc_false, by decide⟩
  | number _ _ _ hn =>
    obtain ⟨c, t, e, hc⟩ := jsonNumber_head hn
    refine ⟨c, t, e, ?_⟩
    rcases hc with hc | rfl
    · exact ⟨isDigit_not_ws hc, isDigit_ne hc (by decide), isDigit_ne hc (by decide)⟩
    · decide
  | string _ body text hj => exact ⟨34, _, rfl, by decide⟩
  | emptyArray => exact ⟨91, _, rfl, by decide⟩
  | array => exact ⟨91, _, rfl, by decide⟩
  | emptyObject => exact ⟨123, _, rfl, by decide⟩
  | object => exact ⟨123, _, rfl, by decide⟩

theorem parse_complete (n : Nat) :
    (∀ d v b, b.length ≤ n → JsonValue d v b → ∀ (fuel : Nat) (w r : Bytes), b.length ≤ fuel → IsBlank w → EndsNumber r →
      parseValue fuel (d + 1) (w ++ b ++ r) = some (v, r)) ∧
    (∀ d l b, b.length ≤ n → JsonItems d l b → ∀ (fuel : Nat) (r : Bytes), b.length + 1 ≤ fuel →
      parseItems fuel (d + 1) (b ++ 93 :: r) = some (l, r)) ∧
    (∀ d l b, b.length ≤ n → JsonMembers d l b → ∀ (fuel : Nat) (r : Bytes), b.length + 1 ≤ fuel →
      parseMembers fuel (d + 1) (b ++ 125 :: r) = some (l, r)) := by
  induction n with
  | zero =>
    refine ⟨fun d v b hn h => ?_, fun d v b hn h => ?_, fun d v b hn h => ?_⟩
    · obtain ⟨c, t, rfl, _⟩ := jsonValue_head h
      simp at hn
    · exfalso
      cases h with
      | one _ v w b w' h1 h2 h3 =>
        obtain ⟨c, t, rfl, _⟩ := jsonValue_head h2
        simp at hn
      | more => simp at hn
    · exfalso
      cases h with
      | one => simp at hn
      | more => simp at hn
  | succ n ih =>
    obtain ⟨ihv, ihi, ihm⟩ := ih
    have hv : ∀ d v b, b.length ≤ n + 1 → JsonValue d v b → ∀ (fuel : Nat) (w r : Bytes), b.length ≤ fuel → IsBlank w → EndsNumber r →
        parseValue fuel (d + 1) (w ++ b ++ r) = some (v, r) := by
      intro d v b hn h fuel w r hf hw hr
      obtain ⟨c, t, hb, hc, _⟩ := jsonValue_head h
      have hb1 : 1 ≤ b.length := by rw [hb]; simp
      obtain ⟨g, rfl⟩ : ∃ g, fuel = g + 1 := ⟨fuel - 1, by omega⟩
      rw [parseValue, List.append_assoc, skipWs_blank hw]
      have hsk : skipWs (b ++ r) = b ++ r := by rw [hb, List.cons_append]; exact skipWs_cons hc _
      rw [hsk]
      cases h with
      | null =>
        rw [asc_null]
        simp only [List.cons_append]
        rw [expect_append]
        rfl
      | true =>
        rw [asc_true]
        simp only [List.cons_append]
        rw [expect_append]
        rfl
      | false =>
        rw [asc_false]
        simp only [List.cons_append]
        rw [expect_append]
        rfl
      | number _ _ _ hnum =>
        have hp := parseNum_complete hnum hr
        obtain ⟨c', t', hb', hc'⟩ := jsonNumber_head hnum
        rw [hb', List.cons_append] at hp ⊢
        have hne : ∀ x : UInt8, (x.toNat < 48 ∨ 57 < x.toNat) → x ≠ 45 → c' ≠ x := by
          intro x hx hx2
          rcases hc' with hc' | rfl
          · exact isDigit_ne hc' hx
          · exact fun h => hx2 h.symm
        simp only
        rw [if_neg (hne _ (by decide) (by decide)), if_neg (hne _ (by decide) (by decide)), if_neg (hne _ (by decide) (by decide)),
          if_neg (hne _ (by decide) (by decide)), if_neg (hne _ (by decide) (by decide)), if_neg (hne _ (by decide) (by decide)),
          if_pos (by rcases hc' with hc' | rfl <;> simp [*]), hp]
      | string _ body text hj =>
        have := parseStr_complete hj r
        simp only [List.cons_append, List.append_assoc, List.nil_append]
        rw [if_neg (by decide), if_neg (by decide), if_pos (by trivial), this]
        rfl
      | emptyArray d w' hw' =>
        simp only [List.cons_append, List.append_assoc, List.nil_append]
        rw [if_neg (by decide), if_pos (by trivial), if_neg (by omega), skipWs_blank hw', skipWs_cons (by decide)]
        rfl
      | emptyObject d w' hw' =>
        simp only [List.cons_append, List.append_assoc, List.nil_append]
        rw [if_pos (by trivial), if_neg (by omega), skipWs_blank hw', skipWs_cons (by decide)]
        rfl
      | array d l x hl =>
        simp only [List.length_cons, List.length_append, List.length_nil] at hn hf
        simp only [List.cons_append, List.append_assoc, List.nil_append]
        rw [if_neg (by decide), if_pos (by trivial), if_neg (by omega)]
        -- white space in front of the items
        obtain ⟨w1, x', hx', hw1, hl', c', t', hct, hws, hne⟩ : ∃ w1 x', x = w1 ++ x' ∧ IsBlank w1 ∧ JsonItems d l x' ∧
            ∃ c' t', x' = c' :: t' ∧ isWs c' = false ∧ c' ≠ 93 := by
          cases hl with
          | one _ v w1 b w2 h1 h2 h3 =>
            obtain ⟨c', t', e, hq1, hq2, _⟩ := jsonValue_head h2
            exact ⟨w1, [] ++ b ++ w2, by simp, h1, .one _ _ _ _ _ (by intro c hc; simp at hc) h2 h3, c', t' ++ w2, by simp [e], hq1, hq2⟩
          | more _ v w1 b w2 l c h1 h2 h3 h4 =>
            obtain ⟨c', t', e, hq1, hq2, _⟩ := jsonValue_head h2
            exact ⟨w1, [] ++ b ++ w2 ++ 44 :: c, by simp, h1, .more _ _ _ _ _ _ _ (by intro c hc; simp at hc) h2 h3 h4, c',
              t' ++ w2 ++ 44 :: c, by simp [e], hq1, hq2⟩
        have hlen : x'.length ≤ x.length := by rw [hx']; simp
        have hi := ihi d l x' (by omega) hl' g r (by omega)
        rw [hx', List.append_assoc, skipWs_blank hw1]
        rw [hct, List.cons_append] at hi ⊢
        rw [skipWs_cons hws]
        split
        · next he => rw [List.cons.injEq] at he; exact absurd he.1 hne
        · show (parseItems g (d + 1) _).map _ = _
          rw [hi]; rfl
      | object d l x hl =>
        simp only [List.length_cons, List.length_append, List.length_nil] at hn hf
        simp only [List.cons_append, List.append_assoc, List.nil_append]
        rw [if_pos (by trivial), if_neg (by omega)]
        obtain ⟨w1, x', hx', hw1, hl', t', hct⟩ : ∃ w1 x', x = w1 ++ x' ∧ IsBlank w1 ∧ JsonMembers d l x' ∧ ∃ t', x' = 34 :: t' := by
          cases hl with
          | one _ v body key w1 w2 w3 b w4 h1 h2 h3 h4 h5 h6 =>
            exact ⟨w1, _, rfl, h1, .one _ _ _ _ [] _ _ _ _ (by intro c hc; simp at hc) h2 h3 h4 h5 h6, _, rfl⟩
          | more _ v body key w1 w2 w3 b w4 l c h1 h2 h3 h4 h5 h6 h7 =>
            exact ⟨w1, _, rfl, h1, .more _ _ _ _ [] _ _ _ _ _ _ (by intro c hc; simp at hc) h2 h3 h4 h5 h6 h7, _, rfl⟩
        have hlen : x'.length ≤ x.length := by rw [hx']; simp
        have hi := ihm d l x' (by omega) hl' g r (by omega)
        rw [hx', List.append_assoc, skipWs_blank hw1]
        rw [hct, List.cons_append] at hi ⊢
        rw [skipWs_cons (by decide)]
        show (parseMembers g (d + 1) _).map _ = _
        rw [hi]; rfl
    refine ⟨hv, ?_, ?_⟩
    · intro d l b hn h fuel r hf
      obtain ⟨g, rfl⟩ : ∃ g, fuel = g + 1 := ⟨fuel - 1, by omega⟩
      rw [parseItems]
      cases h with
      | one _ v w x w' h1 h2 h3 =>
        simp only [List.length_append] at hn hf
        have := hv d v x (by omega) h2 g w (w' ++ 93 :: r) (by omega) h1 (endsNumber_blank h3 (endsNumber_cons _ (by decide)))
        rw [List.append_assoc, this]
        simp only
        rw [skipWs_blank h3, skipWs_cons (by decide)]
        rfl
      | more _ v w x w' l c h1 h2 h3 h4 =>
        simp only [List.length_append, List.length_cons] at hn hf
        have := hv d v x (by omega) h2 g w (w' ++ 44 :: (c ++ 93 :: r)) (by omega) h1 (endsNumber_blank h3 (endsNumber_cons _ (by decide)))
        have e : w ++ x ++ w' ++ 44 :: c ++ 93 :: r = w ++ x ++ (w' ++ 44 :: (c ++ 93 :: r)) := by simp
        rw [e, this]
        simp only
        rw [skipWs_blank h3, skipWs_cons (by decide)]
        simp only
        rw [ihi d l c (by omega) h4 g r (by omega)]
        rfl
    · intro d l b hn h fuel r hf
      obtain ⟨g, rfl⟩ : ∃ g, fuel = g + 1 := ⟨fuel - 1, by omega⟩
      rw [parseMembers]
      cases h with
      | one _ v body key w1 w2 w3 x w4 h1 h2 h3 h4 h5 h6 =>
        simp only [List.length_append, List.length_cons] at hn hf
        have hx := hv d v x (by omega) h5 g w3 (w4 ++ 125 :: r) (by omega) h4 (endsNumber_blank h6 (endsNumber_cons _ (by decide)))
        have e : w1 ++ 34 :: (utf8 body ++ 34 :: (w2 ++ 58 :: (w3 ++ x ++ w4))) ++ 125 :: r =
            w1 ++ 34 :: (utf8 body ++ 34 :: (w2 ++ 58 :: (w3 ++ x ++ (w4 ++ 125 :: r)))) := by simp
        rw [e, skipWs_blank h1, skipWs_cons (by decide)]
        simp only
        rw [parseStr_complete h2]
        simp only
        rw [skipWs_blank h3, skipWs_cons (by decide)]
        simp only
        rw [hx]
        simp only
        rw [skipWs_blank h6, skipWs_cons (by decide)]
        rfl
      | more _ v body key w1 w2 w3 x w4 l c h1 h2 h3 h4 h5 h6 h7 =>
        simp only [List.length_append, List.length_cons] at hn hf
        have hx := hv d v x (by omega) h5 g w3 (w4 ++ 44 :: (c ++ 125 :: r)) (by omega) h4
          (endsNumber_blank h6 (endsNumber_cons _ (by decide)))
        have e : w1 ++ 34 :: (utf8 body ++ 34 :: (w2 ++ 58 :: (w3 ++ x ++ w4 ++ 44 :: c))) ++ 125 :: r =
            w1 ++ 34 :: (utf8 body ++ 34 :: (w2 ++ 58 :: (w3 ++ x ++ (w4 ++ 44 :: (c ++ 125 :: r))))) := by simp
        rw [e, skipWs_blank h1, skipWs_cons (by decide)]
        simp only
        rw [parseStr_complete h2]
        simp only
        rw [skipWs_blank h3, skipWs_cons (by decide)]
        simp only
        rw [hx]
        simp only
        rw [skipWs_blank h6, skipWs_cons (by decide)]
        simp only
        rw [ihm d l c (by omega) h7 g r (by omega)]
        rfl

/-- The reader accepts exactly the JSON texts nested at most 127 deep. -/
theorem parseJson_iff (s : Bytes) (v : Json) : parseJson s = some v ↔ JsonText 127 v s := by
  unfold parseJson
  constructor
  · intro h
    split at h
    · next v' rest hp =>
      split at h
      · next hw =>
        obtain rfl := Option.some.inj h
        obtain ⟨w, b, h1, h2, h3⟩ := (parse_sound _).1 _ _ _ _ hp
        exact ⟨w, b, rest, h1, h3, (skipWs_nil_iff rest).1 hw, h2⟩
      · cases h
    · cases h
  · rintro ⟨w, b, w', h1, h2, h3, rfl⟩
    have := (parse_complete b.length).1 127 v b (Nat.le_refl _) h2 ((w ++ b ++ w').length + 1) w w' (by simp; omega) h1
      (by simpa using endsNumber_blank h3 endsNumber_nil)
    rw [this]
    simp only
    rw [if_pos ((skipWs_nil_iff w').2 h3)]

end Granne
