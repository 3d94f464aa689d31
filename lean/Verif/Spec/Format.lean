import Verif.Model.Text
import Verif.Model.Json

/-! The text formats, independently of how they are read. -/
namespace Granne.Spec
open Granne

/-- The lines of a text: each ends with a line feed, or a carriage return and a line feed; the last one may lack it. -/
inductive LinesOf : Text → List Text → Prop
  | nil : LinesOf [] []
  | last (l : Text) : l ≠ [] → '\n' ∉ l → LinesOf l [l]
  | lf (l t : Text) (ls : List Text) : '\n' ∉ l → l.getLast? ≠ some '\r' → LinesOf t ls → LinesOf (l ++ '\n' :: t) (l :: ls)
  | crlf (l t : Text) (ls : List Text) : '\n' ∉ l → LinesOf t ls → LinesOf (l ++ '\r' :: '\n' :: t) (l :: ls)

/-- The code points with the Unicode property `White_Space`. -/
def whiteSpace : List Nat :=
  [0x9, 0xA, 0xB, 0xC, 0xD, 0x20, 0x85, 0xA0, 0x1680, 0x2000, 0x2001, 0x2002, 0x2003, 0x2004, 0x2005, 0x2006, 0x2007, 0x2008,
    0x2009, 0x200A, 0x2028, 0x2029, 0x202F, 0x205F, 0x3000]

/-- The words of a text, separated by white space. -/
inductive WordsOf : Text → List Text → Prop
  | nil : WordsOf [] []
  | white (c : Char) (t : Text) (ws : List Text) : c.toNat ∈ whiteSpace → WordsOf t ws → WordsOf (c :: t) ws
  | last (w : Text) : w ≠ [] → (∀ c ∈ w, c.toNat ∉ whiteSpace) → WordsOf w [w]
  | word (w : Text) (c : Char) (t : Text) (ws : List Text) : w ≠ [] → (∀ c ∈ w, c.toNat ∉ whiteSpace) →
      c.toNat ∈ whiteSpace → WordsOf t ws → WordsOf (w ++ c :: t) (w :: ws)

/-- `c` is the hexadecimal digit of value `n`. -/
def IsHex (c : Char) (n : Nat) : Prop := "0123456789abcdef".toList[n]? = some c ∨ "0123456789ABCDEF".toList[n]? = some c

/-- Four hexadecimal digits of value `n`. -/
inductive IsHex4 : Text → Nat → Prop
  | mk (a b c d : Char) (i j k l : Nat) : IsHex a i → IsHex b j → IsHex c k → IsHex d l →
      IsHex4 [a, b, c, d] (4096 * i + 256 * j + 16 * k + l)

/-- The escapes of one letter, RFC 8259. -/
def shortEscapes : List (Char × Nat) :=
  [('"', 0x22), ('\\', 0x5C), ('/', 0x2F), ('b', 0x8), ('f', 0xC), ('n', 0xA), ('r', 0xD), ('t', 0x9)]

/-- `body`, between quotes, is a JSON string that stands for the text (RFC 8259, section 7). -/
inductive JsonBody : Text → Text → Prop
  | nil : JsonBody [] []
  | plain (c : Char) (s t : Text) : c ≠ '"' → c ≠ '\\' → 0x20 ≤ c.toNat → JsonBody s t → JsonBody (c :: s) (c :: t)
  | short (e ch : Char) (s t : Text) : (e, ch.toNat) ∈ shortEscapes → JsonBody s t → JsonBody ('\\' :: e :: s) (ch :: t)
  | code (h : Text) (ch : Char) (s t : Text) : IsHex4 h ch.toNat → JsonBody s t →
      JsonBody ('\\' :: 'u' :: (h ++ s)) (ch :: t)
  | pair (h l : Text) (hi lo : Nat) (ch : Char) (s t : Text) : IsHex4 h (0xD800 + hi) → IsHex4 l (0xDC00 + lo) →
      hi < 0x400 → lo < 0x400 → ch.toNat = 0x10000 + 0x400 * hi + lo → JsonBody s t →
      JsonBody ('\\' :: 'u' :: (h ++ '\\' :: 'u' :: (l ++ s))) (ch :: t)

/-- `line` is a JSON string, possibly surrounded by white space, that stands for the text. -/
def IsJsonString (line t : Text) : Prop :=
  ∃ pre body post : Text, line = pre ++ '"' :: (body ++ '"' :: post) ∧ JsonBody body t ∧
    ∀ c ∈ pre ++ post, c ∈ [' ', '\t', '\n', '\r']

/-- The value of the last member with this key. -/
def LastMember (members : List (Bytes × Json)) (key : Bytes) (v : Json) : Prop :=
  ∃ pre post, members = pre ++ (key, v) :: post ∧ ∀ p ∈ post, p.1 ≠ key

end Granne.Spec
