import Verif.Util.Bytes
import Mathlib.Data.List.Basic

/-!
Text as lists of characters: lines, JSON strings, words. Files of text hold its UTF-8 encoding (a file that is not valid
UTF-8 makes the code panic).
-/
namespace Granne

abbrev Text := List Char

/-- The bytes of a string (UTF-8). -/
def utf8 (t : Text) : Bytes := t.flatMap String.utf8EncodeChar

/-- std `String::from_utf8`; `none` if the bytes are not valid. -/
def fromUtf8 (b : Bytes) : Option Text := (b.toByteArray.utf8Decode?).map Array.toList

/-- std `BufRead::lines`: a line ends with `\n` or `\r\n`; the last one may lack it. -/
def textLines : Text → List Text
  | [] => []
  | c :: t =>
    if c = '\n' then [] :: textLines t
    else if c = '\r' ∧ t.head? = some '\n' then textLines t
    else match textLines t with
      | [] => [[c]]
      | l :: ls => (c :: l) :: ls

/-- std `char::is_whitespace` (Unicode `White_Space`). -/
def isWhite (c : Char) : Bool :=
  let n := c.toNat
  (9 ≤ n && n ≤ 13) || n == 0x20 || n == 0x85 || n == 0xA0 || n == 0x1680 || (0x2000 ≤ n && n ≤ 0x200A) ||
    n == 0x2028 || n == 0x2029 || n == 0x202F || n == 0x205F || n == 0x3000

/-- std `str::split_whitespace`: the maximal runs of characters that are not white space. -/
def splitWs : Text → List Text
  | [] => []
  | c :: t =>
    if isWhite c then splitWs t
    else match t with
      | [] => [[c]]
      | d :: _ =>
        if isWhite d then [c] :: splitWs t
        else match splitWs t with
          | [] => [[c]]
          | l :: ls => (c :: l) :: ls

/-- std `s.split(':').last().unwrap()`: what follows the last colon. -/
def afterColon (s : Text) : Text := (s.reverse.takeWhile (· ≠ ':')).reverse

/-- A lower-case hexadecimal digit. -/
def hexDigit (n : Nat) : Char := if n < 10 then Char.ofNat (48 + n) else Char.ofNat (87 + n)

/-- serde_json `format_escaped_str_contents`: one character. -/
def escapeChar (c : Char) : Text :=
  if c = '"' then ['\\', '"']
  else if c = '\\' then ['\\', '\\']
  else if c = '\n' then ['\\', 'n']
  else if c = '\r' then ['\\', 'r']
  else if c = '\t' then ['\\', 't']
  else if c.toNat = 8 then ['\\', 'b']
  else if c.toNat = 12 then ['\\', 'f']
  else if c.toNat < 32 then ['\\', 'u', '0', '0', hexDigit (c.toNat / 16), hexDigit (c.toNat % 16)]
  else [c]

/-- serde_json `to_string(&String)`. -/
def jsonQuote (s : Text) : Text := '"' :: s.flatMap escapeChar ++ ['"']

/-- The value of a hexadecimal digit. -/
def hexVal (c : Char) : Option Nat :=
  let n := c.toNat
  if 48 ≤ n ∧ n ≤ 57 then some (n - 48)
  else if 97 ≤ n ∧ n ≤ 102 then some (n - 87)
  else if 65 ≤ n ∧ n ≤ 70 then some (n - 55)
  else none

/-- Four hexadecimal digits. -/
def hex4 (a b c d : Char) : Option Nat :=
  match hexVal a, hexVal b, hexVal c, hexVal d with
  | some a, some b, some c, some d => some (((a * 16 + b) * 16 + c) * 16 + d)
  | _, _, _, _ => none

/-- The escapes of one letter. -/
def simpleEscape (e : Char) : Option Char :=
  if e = '"' then some '"'
  else if e = '\\' then some '\\'
  else if e = '/' then some '/'
  else if e = 'b' then some (Char.ofNat 8)
  else if e = 'f' then some (Char.ofNat 12)
  else if e = 'n' then some '\n'
  else if e = 'r' then some '\r'
  else if e = 't' then some '\t'
  else none

/-- The rest of a JSON string after its opening quote: its characters, and what follows the closing quote. `none`: not
valid JSON. `fuel` at least the length. -/
def jsonUnquote : Nat → Text → Option (Text × Text)
  | 0, _ => none
  | fuel + 1, s =>
    match s with
    | [] => none
    | c :: t =>
      if c = '"' then some ([], t)
      else if c = '\\' then
        match t with
        | [] => none
        | e :: t =>
          match simpleEscape e with
          | some ch => (jsonUnquote fuel t).map fun r => (ch :: r.1, r.2)
          | none =>
            if e = 'u' then
              match t with
              | a :: b :: c :: d :: t =>
                match hex4 a b c d with
                | none => none
                | some n =>
                  if n < 0xD800 ∨ 0xE000 ≤ n then (jsonUnquote fuel t).map fun r => (Char.ofNat n :: r.1, r.2)
                  else if 0xDC00 ≤ n then none
                  else match t with
                    | '\\' :: 'u' :: a :: b :: c :: d :: t =>
                      match hex4 a b c d with
                      | none => none
                      | some m =>
                        if 0xDC00 ≤ m ∧ m < 0xE000 then
                          (jsonUnquote fuel t).map fun r =>
                            (Char.ofNat (0x10000 + (n - 0xD800) * 0x400 + (m - 0xDC00)) :: r.1, r.2)
                        else none
                    | _ => none
              | _ => none
            else none
      else if c.toNat < 32 then none
      else (jsonUnquote fuel t).map fun r => (c :: r.1, r.2)

/-- JSON white space. -/
def isJsonWs (c : Char) : Bool := c = ' ' || c = '\t' || c = '\n' || c = '\r'

/-- serde_json `from_str::<String>`. `none` is an error (the callers panic). -/
def jsonString (s : Text) : Option Text :=
  match s.dropWhile isJsonWs with
  | '"' :: t => match jsonUnquote t.length t with
    | some (w, rest) => if rest.all isJsonWs then some w else none
    | none => none
  | _ => none

end Granne
