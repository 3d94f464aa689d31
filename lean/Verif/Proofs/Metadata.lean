import Verif.Proofs.JsonText
import Verif.Model.IndexIO

/-! The metadata block is read back. -/
namespace Granne
open Spec

/-! ### No NUL bytes -/

theorem utf8_no_nul {body t : Text} (h : JsonBody body t) : (0 : UInt8) ∉ utf8 body := by
  intro h0
  have hr := rawStr_body h []
  obtain ⟨a, b, e⟩ := List.append_of_mem h0
  rw [e] at hr
  have key : ∀ (n : Nat) (a c : Bytes), a.length ≤ n → (∀ raw, rawStr (a ++ 0 :: c) = some (raw, []) → raw.length ≤ a.length) := by
    intro n
    induction n with
    | zero =>
      intro a c hn raw h
      obtain rfl : a = [] := List.length_eq_zero_iff.1 (by omega)
      rw [List.nil_append] at h
      unfold rawStr at h
      rw [if_neg (by decide), if_pos (by decide)] at h
      cases h
    | succ n ih =>
      intro a c hn raw h
      cases a with
      | nil =>
        rw [List.nil_append] at h
        unfold rawStr at h
        rw [if_neg (by decide), if_pos (by decide)] at h
        cases h
      | cons x a =>
        rw [List.cons_append] at h
        unfold rawStr at h
        split at h
        · simp only [Option.some.injEq, Prod.mk.injEq] at h
          rw [← h.1]; simp
        split at h
        · cases h
        split at h
        · cases a with
          | nil =>
            simp only [List.nil_append] at h
            rw [if_pos (by decide)] at h
            cases h
          | cons y a =>
            simp only [List.cons_append] at h
            split at h
            · cases h
            · rcases Option.eq_none_or_eq_some (rawStr (a ++ 0 :: c)) with hp | ⟨⟨p, q⟩, hp⟩
              · rw [hp] at h; cases h
              · rw [hp] at h
                simp only [Option.map_some, Option.some.injEq, Prod.mk.injEq] at h
                have := ih a c (by simp at hn; omega) p (by rw [hp, h.2])
                rw [← h.1]; simpa using this
        · rcases Option.eq_none_or_eq_some (rawStr (a ++ 0 :: c)) with hp | ⟨⟨p, q⟩, hp⟩
          · rw [hp] at h; cases h
          · rw [hp] at h
            simp only [Option.map_some, Option.some.injEq, Prod.mk.injEq] at h
            have := ih a c (by simp at hn; omega) p (by rw [hp, h.2])
            rw [← h.1]; simpa using this
  rw [List.append_assoc, List.cons_append] at hr
  have := key _ a _ (Nat.le_refl _) _ hr
  simp at this

theorem blank_no_nul {w : Bytes} (h : IsBlank w) : (0 : UInt8) ∉ w := fun h0 => absurd (h 0 h0) (by decide)

theorem decimal_no_nul {b : Bytes} {n : Nat} (h : IsDecimal b n) : (0 : UInt8) ∉ b :=
  fun h0 => absurd (isDecimal_isDigit h 0 h0) (by decide)

theorem number_no_nul {v : Json} {b : Bytes} (h : JsonNumber v b) : (0 : UInt8) ∉ b := by
  cases h with
  | nat _ n hi => exact decimal_no_nul hi.1
  | other minus int frac expo n hm hi hf he hne =>
    have h1 : (0 : UInt8) ∉ minus := by rcases hm with rfl | rfl <;> decide
    have h2 := decimal_no_nul hi.1
    have h3 : (0 : UInt8) ∉ frac := by
      rcases hf with rfl | ⟨ds, m, hd, rfl⟩
      · simp
      · have := decimal_no_nul hd
        simpa using this
    have h4 : (0 : UInt8) ∉ expo := by
      rcases he with rfl | ⟨e, sg, ds, m, hd, he, hs, rfl⟩
      · simp
      · have := decimal_no_nul hd
        have hs' : (0 : UInt8) ∉ sg := by
          simp only [List.mem_cons, List.not_mem_nil, or_false] at hs
          rcases hs with rfl | rfl | rfl <;> decide
        have he' : (0 : UInt8) ≠ e := by
          simp only [List.mem_cons, List.not_mem_nil, or_false] at he
          rcases he with rfl | rfl <;> decide
        simp [this, hs', he']
    simp [h1, h2, h3, h4]

theorem json_no_nul (n : Nat) :
    (∀ d v b, b.length ≤ n → JsonValue d v b → (0 : UInt8) ∉ b) ∧ (∀ d l b, b.length ≤ n → JsonItems d l b → (0 : UInt8) ∉ b) ∧
    (∀ d l b, b.length ≤ n → JsonMembers d l b → (0 : UInt8) ∉ b) := by
  induction n with
  | zero =>
    have hz : ∀ b : Bytes, b.length ≤ 0 → (0 : UInt8) ∉ b := by
      intro b hb
      obtain rfl : b = [] := List.length_eq_zero_iff.1 (by omega)
      simp
    exact ⟨fun _ _ b hb _ => hz b hb, fun _ _ b hb _ => hz b hb, fun _ _ b hb _ => hz b hb⟩
  | succ n ih =>
    obtain ⟨ihv, ihi, ihm⟩ := ih
    have hv : ∀ d v b, b.length ≤ n + 1 → JsonValue d v b → (0 : UInt8) ∉ b := by
      intro d v b hn h
      cases h with
      | null => decide +kernel
      | true => decide +kernel
      | false => decide +kernel
      | number _ _ _ hn => exact number_no_nul hn
      | string _ body t hj => have := utf8_no_nul hj; simp [this]
      | emptyArray _ w hw => have := blank_no_nul hw; simp [this]
      | emptyObject _ w hw => have := blank_no_nul hw; simp [this]
      | array _ l x hl => have := ihi _ _ _ (by simp at hn; omega) hl; simp [this]
      | object _ l x hl => have := ihm _ _ _ (by simp at hn; omega) hl; simp [this]
    refine ⟨hv, ?_, ?_⟩
    · intro d l b hn h
      cases h with
      | one _ v w x w' h1 h2 h3 =>
        have := hv _ _ _ (by simp at hn; omega) h2
        simp [this, blank_no_nul h1, blank_no_nul h3]
      | more _ v w x w' l c h1 h2 h3 h4 =>
        have := hv _ _ _ (by simp at hn; omega) h2
        have h4 := ihi _ _ _ (by simp at hn; omega) h4
        simp [this, blank_no_nul h1, blank_no_nul h3, h4]
    · intro d l b hn h
      cases h with
      | one _ v body key w1 w2 w3 x w4 h1 h2 h3 h4 h5 h6 =>
        have := hv _ _ _ (by simp at hn; omega) h5
        simp [this, utf8_no_nul h2, blank_no_nul h1, blank_no_nul h3, blank_no_nul h4, blank_no_nul h6]
      | more _ v body key w1 w2 w3 x w4 l c h1 h2 h3 h4 h5 h6 h7 =>
        have := hv _ _ _ (by simp at hn; omega) h5
        have h7 := ihm _ _ _ (by simp at hn; omega) h7
        simp [this, utf8_no_nul h2, blank_no_nul h1, blank_no_nul h3, blank_no_nul h4, blank_no_nul h6, h7]

/-- A text with a NUL byte is not accepted. -/
theorem parseJson_no_nul {s : Bytes} {v : Json} (h : parseJson s = some v) : (0 : UInt8) ∉ s := by
  obtain ⟨w, c, w', h1, h2, h3, rfl⟩ := (parseJson_iff s v).1 h
  have := (json_no_nul c.length).1 _ _ _ (Nat.le_refl _) h2
  simp [this, blank_no_nul h1, blank_no_nul h3]

/-! ### The text that is written -/

theorem isBlank_nil : IsBlank [] := by intro c hc; simp at hc

/-- Text of printable ASCII characters without quotes and backslashes. -/
def plain (key : String) : Bool := key.toList.all fun c => !(c == '"') && !(c == '\\') && decide (32 ≤ c.toNat) && decide (c.toNat < 128)

theorem asc_utf8 {key : String} (h : plain key = true) : asc key = utf8 key.toList := by
  unfold asc plain at *
  generalize key.toList = l at h ⊢
  induction l with
  | nil => rfl
  | cons c t ih =>
    rw [List.all_cons, Bool.and_eq_true] at h
    simp only [Bool.and_eq_true, decide_eq_true_eq] at h
    rw [List.map_cons, utf8_cons, utf8EncodeChar_ascii h.1.2, ih h.2]
    rfl

theorem jsonBody_plain {key : String} (h : plain key = true) : JsonBody key.toList key.toList := by
  unfold plain at h
  generalize key.toList = l at h ⊢
  induction l with
  | nil => exact .nil
  | cons c t ih =>
    rw [List.all_cons, Bool.and_eq_true] at h
    simp only [Bool.and_eq_true, Bool.not_eq_true', beq_eq_false_iff_ne, ne_eq, decide_eq_true_eq] at h
    exact .plain c t t h.1.1.1.1 h.1.1.1.2 h.1.1.2 (ih h.2)

/-- `"key":value`. -/
def member (key value : Bytes) : Bytes := 34 :: (key ++ 34 :: 58 :: value)

theorem member_more {d : Nat} {key : String} {vt c : Bytes} {v : Json} {l : List (Bytes × Json)} (hk : plain key = true)
    (hv : JsonValue d v vt) (hl : JsonMembers d l c) : JsonMembers d ((asc key, v) :: l) (member (asc key) vt ++ 44 :: c) := by
  have := JsonMembers.more d v key.toList key.toList [] [] [] vt [] l c isBlank_nil (jsonBody_plain hk) isBlank_nil isBlank_nil hv
    isBlank_nil hl
  rw [← asc_utf8 hk] at this
  simpa [member] using this

theorem member_last {d : Nat} {key : String} {vt : Bytes} {v : Json} (hk : plain key = true) (hv : JsonValue d v vt) :
    JsonMembers d [(asc key, v)] (member (asc key) vt) := by
  have := JsonMembers.one d v key.toList key.toList [] [] [] vt [] isBlank_nil (jsonBody_plain hk) isBlank_nil isBlank_nil hv
    isBlank_nil
  rw [← asc_utf8 hk] at this
  simpa [member] using this

theorem value_num (d n : Nat) : JsonValue d (.num n) (natDigits n) := .number _ _ _ (.nat _ _ (isInt_natDigits n))

theorem items_nums (d : Nat) (l : List Nat) (hl : l ≠ []) : JsonItems d (l.map .num) (sepBy (l.map natDigits)) := by
  induction l with
  | nil => exact absurd rfl hl
  | cons n t ih =>
    cases t with
    | nil =>
      have := JsonItems.one d (.num n) [] (natDigits n) [] isBlank_nil (value_num d n) isBlank_nil
      simpa [sepBy] using this
    | cons m t =>
      have := JsonItems.more d (.num n) [] (natDigits n) [] _ _ isBlank_nil (value_num d n) isBlank_nil (ih (by simp))
      have hc : asc "," = [44] := by decide +kernel
      simpa [sepBy, hc] using this

theorem value_nums (d : Nat) (l : List Nat) : JsonValue (d + 1) (.arr (l.map .num)) (printNums l) := by
  have ho : asc "[" = [91] := by decide +kernel
  have hc : asc "]" = [93] := by decide +kernel
  rw [printNums, ho, hc]
  by_cases hl : l = []
  · subst hl
    exact .emptyArray d [] isBlank_nil
  · exact .array d _ _ (items_nums d l hl)

/-- The JSON object in the metadata. -/
def metaObj (numNeighbors : Nat) (counts sizes : List Nat) : Json := .obj [
  (asc "compressed", .bool true), (asc "granne_version", .str (asc "0.5.2")),
  (asc "layer_counts", .arr (counts.map Json.num)), (asc "layer_sizes", .arr (sizes.map Json.num)),
  (asc "num_elements", .num (counts.getLast?.getD 0)), (asc "num_layers", .num counts.length),
  (asc "num_neighbors", .num numNeighbors), (asc "version", .num 2)]

theorem metadataText_eq (nn : Nat) (counts sizes : List Nat) :
    metadataText nn counts sizes = asc "granne" ++ 123 :: (
      member (asc "compressed") (asc "true") ++ 44 :: (
      member (asc "granne_version") (asc "\"0.5.2\"") ++ 44 :: (
      member (asc "layer_counts") (printNums counts) ++ 44 :: (
      member (asc "layer_sizes") (printNums sizes) ++ 44 :: (
      member (asc "num_elements") (natDigits (counts.getLast?.getD 0)) ++ 44 :: (
      member (asc "num_layers") (natDigits counts.length) ++ 44 :: (
      member (asc "num_neighbors") (natDigits nn) ++ 44 :: (
      member (asc "version") (natDigits 2) ++ 125 :: [])))))))) := by
  have e1 : asc "{\"compressed\":true,\"granne_version\":\"0.5.2\",\"layer_counts\":" =
      123 :: (member (asc "compressed") (asc "true") ++ 44 ::
        (member (asc "granne_version") (asc "\"0.5.2\"") ++ 44 :: member (asc "layer_counts") [])) := by decide +kernel
  have e2 : asc ",\"layer_sizes\":" = 44 :: member (asc "layer_sizes") [] := by decide +kernel
  have e3 : asc ",\"num_elements\":" = 44 :: member (asc "num_elements") [] := by decide +kernel
  have e4 : asc ",\"num_layers\":" = 44 :: member (asc "num_layers") [] := by decide +kernel
  have e5 : asc ",\"num_neighbors\":" = 44 :: member (asc "num_neighbors") [] := by decide +kernel
  have e6 : asc ",\"version\":2}" = 44 :: (member (asc "version") (natDigits 2) ++ 125 :: []) := by decide +kernel
  have em : ∀ k v, member k v = member k [] ++ v := by intro k v; simp [member]
  unfold metadataText
  rw [e1, e2, e3, e4, e5, e6, em _ (printNums counts), em _ (printNums sizes),
    em _ (natDigits (counts.getLast?.getD 0)), em _ (natDigits counts.length), em _ (natDigits nn)]
  simp only [List.append_assoc, List.cons_append]

theorem printNums_length (l : List Nat) : l.length ≤ (printNums l).length := by
  have := sepBy_length l
  simp only [printNums, List.length_append]; omega

theorem mapM_some {α β : Type} {f : α → Option β} {l : List α} {m : List β} (h : l.mapM f = some m) :
    List.Forall₂ (fun a b => f a = some b) l m := by
  induction l generalizing m with
  | nil => simp at h; subst h; exact .nil
  | cons a l ih =>
    rw [List.mapM_cons] at h
    rcases Option.eq_none_or_eq_some (f a) with e | ⟨b, e⟩
    · simp [e] at h
    · rcases Option.eq_none_or_eq_some (l.mapM f) with e2 | ⟨bs, e2⟩
      · simp [e, e2] at h
      · simp [e, e2] at h
        subst h
        exact .cons e (ih e2)

theorem mapM_map_some {α β : Type} {f : α → β} {g : β → Option α} {l : List α}
    (h : ∀ a ∈ l, g (f a) = some a) : (l.map f).mapM g = some l := by
  induction l with
  | nil => rfl
  | cons a t ih => simp [List.mapM_cons, h a (by simp), ih fun b hb => h b (by simp [hb])]

theorem value_metadata (nn : Nat) (counts sizes : List Nat) :
    JsonValue 2 (metaObj nn counts sizes) ((metadataText nn counts sizes).drop 6) := by
  rw [metadataText_eq, List.drop_left' (show (asc "granne").length = 6 by decide +kernel)]
  have hm : JsonMembers 1 _ _ :=
    member_more (d := 1) (key := "compressed") (by decide +kernel) (.true 1) <|
    member_more (key := "granne_version") (v := .str (asc "0.5.2")) (vt := asc "\"0.5.2\"") (by decide +kernel)
      (by
        have := JsonValue.string 1 _ _ (jsonBody_plain (key := "0.5.2") (by decide +kernel))
        rw [← asc_utf8 (key := "0.5.2") (by decide +kernel)] at this
        have e : asc "\"0.5.2\"" = 34 :: (asc "0.5.2" ++ [34]) := by decide +kernel
        rw [e]
        exact this) <|
    member_more (key := "layer_counts") (by decide +kernel) (value_nums 0 counts) <|
    member_more (key := "layer_sizes") (by decide +kernel) (value_nums 0 sizes) <|
    member_more (key := "num_elements") (by decide +kernel) (value_num 1 (counts.getLast?.getD 0)) <|
    member_more (key := "num_layers") (by decide +kernel) (value_num 1 counts.length) <|
    member_more (key := "num_neighbors") (by decide +kernel) (value_num 1 nn) <|
    member_last (key := "version") (by decide +kernel) (value_num 1 2)
  have := JsonValue.object 1 _ _ hm
  simp only [List.append_assoc, List.cons_append] at this ⊢
  exact this

theorem json_mono (n : Nat) :
    (∀ d v b, b.length ≤ n → JsonValue d v b → ∀ d', d ≤ d' → JsonValue d' v b) ∧
    (∀ d l b, b.length ≤ n → JsonItems d l b → ∀ d', d ≤ d' → JsonItems d' l b) ∧
    (∀ d l b, b.length ≤ n → JsonMembers d l b → ∀ d', d ≤ d' → JsonMembers d' l b) := by
  induction n with
  | zero =>
    refine ⟨fun d v b hn h => ?_, fun d v b hn h => ?_, fun d v b hn h => ?_⟩
    · obtain ⟨c, t, rfl, _⟩ := jsonValue_head h
      simp at hn
    · exfalso
      cases h with
      | one _ v w b w' h1 h2 h3 =>
        obtain ⟨c, t, rfl, _⟩ := jsonValue_head h2
        simp at hn
      | more => simp at hn
    · exfalso
      cases h with
      | one => simp at hn
      | more => simp at hn
  | succ n ih =>
    obtain ⟨ihv, ihi, ihm⟩ := ih
    have hv : ∀ d v b, b.length ≤ n + 1 → JsonValue d v b → ∀ d', d ≤ d' → JsonValue d' v b := by
      intro d v b hn h d' hd
      cases h with
      | null => exact .null _
      | true => exact .true _
      | false => exact .false _
      | number _ _ _ hn => exact .number _ _ _ hn
      | string _ body t hj => exact .string _ _ _ hj
      | emptyArray _ w hw =>
        obtain ⟨e, rfl⟩ : ∃ e, d' = e + 1 := ⟨d' - 1, by omega⟩
        exact .emptyArray _ _ hw
      | emptyObject _ w hw =>
        obtain ⟨e, rfl⟩ : ∃ e, d' = e + 1 := ⟨d' - 1, by omega⟩
        exact .emptyObject _ _ hw
      | array _ l x hl =>
        obtain ⟨e, rfl⟩ : ∃ e, d' = e + 1 := ⟨d' - 1, by omega⟩
        exact .array _ _ _ (ihi _ _ _ (by simp at hn; omega) hl _ (by omega))
      | object _ l x hl =>
        obtain ⟨e, rfl⟩ : ∃ e, d' = e + 1 := ⟨d' - 1, by omega⟩
        exact .object _ _ _ (ihm _ _ _ (by simp at hn; omega) hl _ (by omega))
    refine ⟨hv, ?_, ?_⟩
    · intro d l b hn h d' hd
      cases h with
      | one _ v w x w' h1 h2 h3 => exact .one _ _ _ _ _ h1 (hv _ _ _ (by simp at hn; omega) h2 _ hd) h3
      | more _ v w x w' l c h1 h2 h3 h4 =>
        exact .more _ _ _ _ _ _ _ h1 (hv _ _ _ (by simp at hn; omega) h2 _ hd) h3 (ihi _ _ _ (by simp at hn; omega) h4 _ hd)
    · intro d l b hn h d' hd
      cases h with
      | one _ v body key w1 w2 w3 x w4 h1 h2 h3 h4 h5 h6 =>
        exact .one _ _ _ _ _ _ _ _ _ h1 h2 h3 h4 (hv _ _ _ (by simp at hn; omega) h5 _ hd) h6
      | more _ v body key w1 w2 w3 x w4 l c h1 h2 h3 h4 h5 h6 h7 =>
        exact .more _ _ _ _ _ _ _ _ _ _ _ h1 h2 h3 h4 (hv _ _ _ (by simp at hn; omega) h5 _ hd) h6
          (ihm _ _ _ (by simp at hn; omega) h7 _ hd)

theorem Spec.JsonValue.mono {d d' : Nat} {v : Json} {b : Bytes} (h : JsonValue d v b) (hd : d ≤ d') : JsonValue d' v b :=
  (json_mono b.length).1 d v b (Nat.le_refl _) h d' hd

theorem isBlank_blanks (k : Nat) : IsBlank (List.replicate k 32) := by
  intro c hc
  rw [(List.mem_replicate.1 hc).2]; simp

theorem parseMetadata (nn : Nat) (counts sizes : List Nat) (k : Nat) :
    parseJson ((metadataText nn counts sizes ++ List.replicate k 32).drop 6) = some (metaObj nn counts sizes) := by
  have hl : 6 ≤ (metadataText nn counts sizes).length := by
    have h3 : 6 ≤ (asc "{\"compressed\":true,\"granne_version\":\"0.5.2\",\"layer_counts\":").length := by decide +kernel
    simp only [metadataText, List.length_append]; omega
  rw [parseJson_iff, List.drop_append_of_le_length hl]
  exact ⟨[], _, List.replicate k 32, isBlank_nil, (value_metadata nn counts sizes).mono (by omega), isBlank_blanks k, rfl⟩

theorem readLayerSizes_metadata {nn : Nat} {counts sizes : List Nat}
    (hfit : (metadataText nn counts sizes).length ≤ METADATA_LEN) (hnum : counts.length < 2 ^ 64)
    (hc : ∀ n ∈ counts, n < 2 ^ 64) (hs : ∀ n ∈ sizes, n < 2 ^ 64) (rest : Bytes) :
    readLayerSizes (padMetadata (metadataText nn counts sizes) ++ rest) = some sizes := by
  have hpl : (padMetadata (metadataText nn counts sizes)).length = METADATA_LEN := by
    simp only [padMetadata, List.length_append, List.length_replicate]; omega
  unfold readLayerSizes
  simp only
  rw [List.take_left' hpl, if_pos, padMetadata, parseMetadata]
  · simp only [metaObj]
    have f1 : ∀ l : List Nat, (∀ n ∈ l, n < 2 ^ 64) → (Json.arr (l.map Json.num)).toUsizes = some l := by
      intro l hl
      rw [Json.toUsizes, mapM_map_some]
      intro n hn
      rw [Json.toUsize, if_pos (hl n hn)]
    have g1 : (metaObj nn counts sizes).field (asc "num_layers") = .num counts.length := by rfl
    have g2 : (metaObj nn counts sizes).field (asc "layer_counts") = .arr (counts.map Json.num) := by rfl
    have g3 : (metaObj nn counts sizes).field (asc "layer_sizes") = .arr (sizes.map Json.num) := by rfl
    rw [metaObj] at g1 g2 g3
    rw [g1, g2, g3, f1 _ hc, f1 _ hs]
    rw [Json.toUsize, if_pos hnum]
    simp
  · rw [padMetadata, metadataText_eq, List.append_assoc]
    exact List.take_left' (by decide +kernel)

end Granne
