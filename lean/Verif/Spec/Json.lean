import Verif.Spec.Format

/-!
JSON texts (RFC 8259), independently of how they are read. A text is given by its bytes; the values are those of
`Granne.Json`, which does not tell numbers apart that are not plain natural numbers (`-1`, `0.5`, `1e3`, …).
-/
namespace Granne.Spec
open Granne

/-- White space. -/
def IsBlank (b : Bytes) : Prop := ∀ c ∈ b, c ∈ ([0x20, 0x09, 0x0A, 0x0D] : Bytes)

/-- `b` consists of decimal digits and has the value `n` (leading zeros are allowed). -/
inductive IsDecimal : Bytes → Nat → Prop
  | one (d : Nat) : d < 10 → IsDecimal [UInt8.ofNat (48 + d)] d
  | snoc (b : Bytes) (n d : Nat) : IsDecimal b n → d < 10 → IsDecimal (b ++ [UInt8.ofNat (48 + d)]) (10 * n + d)

/-- A natural number without leading zeros. -/
def IsInt (b : Bytes) (n : Nat) : Prop := IsDecimal b n ∧ (b.head? = some 48 → b = [48])

/-- The fraction part of a number: a point and digits, or nothing. -/
def IsFraction (b : Bytes) : Prop := b = [] ∨ ∃ ds n, IsDecimal ds n ∧ b = 46 :: ds

/-- The exponent part of a number: `e` or `E`, possibly a sign, and digits; or nothing. -/
def IsExponent (b : Bytes) : Prop :=
  b = [] ∨ ∃ (e : UInt8) (sign ds : Bytes) (n : Nat), IsDecimal ds n ∧ e ∈ ([101, 69] : Bytes) ∧
    sign ∈ ([[], [43], [45]] : List Bytes) ∧ b = e :: (sign ++ ds)

/-- A number. -/
inductive JsonNumber : Json → Bytes → Prop
  | nat (b : Bytes) (n : Nat) : IsInt b n → JsonNumber (.num n) b
  | other (minus int frac expo : Bytes) (n : Nat) : minus = [] ∨ minus = [45] → IsInt int n → IsFraction frac → IsExponent expo →
      minus ++ frac ++ expo ≠ [] → JsonNumber .other (minus ++ int ++ frac ++ expo)

mutual
/-- The text of a value, without white space around it, in which arrays and objects are nested at most `d` deep. -/
inductive JsonValue : Nat → Json → Bytes → Prop
  | null (d : Nat) : JsonValue d .null (asc "null")
  | true (d : Nat) : JsonValue d (.bool true) (asc "true")
  | false (d : Nat) : JsonValue d (.bool false) (asc "false")
  | number (d : Nat) (v : Json) (b : Bytes) : JsonNumber v b → JsonValue d v b
  | string (d : Nat) (body text : Text) : JsonBody body text → JsonValue d (.str (utf8 text)) (34 :: (utf8 body ++ [34]))
  | emptyArray (d : Nat) (w : Bytes) : IsBlank w → JsonValue (d + 1) (.arr []) (91 :: (w ++ [93]))
  | array (d : Nat) (l : List Json) (b : Bytes) : JsonItems d l b → JsonValue (d + 1) (.arr l) (91 :: (b ++ [93]))
  | emptyObject (d : Nat) (w : Bytes) : IsBlank w → JsonValue (d + 1) (.obj []) (123 :: (w ++ [125]))
  | object (d : Nat) (l : List (Bytes × Json)) (b : Bytes) : JsonMembers d l b → JsonValue (d + 1) (.obj l) (123 :: (b ++ [125]))
/-- One or more items, separated by commas. -/
inductive JsonItems : Nat → List Json → Bytes → Prop
  | one (d : Nat) (v : Json) (w b w' : Bytes) : IsBlank w → JsonValue d v b → IsBlank w' → JsonItems d [v] (w ++ b ++ w')
  | more (d : Nat) (v : Json) (w b w' : Bytes) (l : List Json) (c : Bytes) : IsBlank w → JsonValue d v b → IsBlank w' →
      JsonItems d l c → JsonItems d (v :: l) (w ++ b ++ w' ++ 44 :: c)
/-- One or more members `"key": value`, separated by commas. -/
inductive JsonMembers : Nat → List (Bytes × Json) → Bytes → Prop
  | one (d : Nat) (v : Json) (body key : Text) (w1 w2 w3 b w4 : Bytes) : IsBlank w1 → JsonBody body key → IsBlank w2 → IsBlank w3 →
      JsonValue d v b → IsBlank w4 →
      JsonMembers d [(utf8 key, v)] (w1 ++ 34 :: (utf8 body ++ 34 :: (w2 ++ 58 :: (w3 ++ b ++ w4))))
  | more (d : Nat) (v : Json) (body key : Text) (w1 w2 w3 b w4 : Bytes) (l : List (Bytes × Json)) (c : Bytes) : IsBlank w1 →
      JsonBody body key → IsBlank w2 → IsBlank w3 → JsonValue d v b → IsBlank w4 → JsonMembers d l c →
      JsonMembers d ((utf8 key, v) :: l) (w1 ++ 34 :: (utf8 body ++ 34 :: (w2 ++ 58 :: (w3 ++ b ++ w4 ++ 44 :: c))))
end

/-- A JSON text: a value, possibly with white space around it. -/
def JsonText (d : Nat) (v : Json) (b : Bytes) : Prop :=
  ∃ w c w', IsBlank w ∧ JsonValue d v c ∧ IsBlank w' ∧ b = w ++ c ++ w'

/-- The header of an index file: it names the library, and then a JSON text gives the sizes of the layers in bytes. It also has
to give the number of layers and their numbers of elements (of members with the same name the last one counts); other members
may be there as well, in any order. -/
def IndexHeader (block : Bytes) (counts sizes : List Nat) : Prop :=
  ∃ (text : Bytes) (members : List (Bytes × Json)), block = asc "granne" ++ text ∧ JsonText 127 (.obj members) text ∧
    LastMember members (asc "num_layers") (.num counts.length) ∧ LastMember members (asc "layer_counts") (.arr (counts.map .num)) ∧
    LastMember members (asc "layer_sizes") (.arr (sizes.map .num)) ∧ (∀ n ∈ counts ++ sizes, n < 2 ^ 64)

end Granne.Spec
