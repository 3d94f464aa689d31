import Verif.Util.Bytes
import Verif.Model.Text

/-!
The JSON text of the metadata block (serde_json, external): a printer for the values that are written and a reader
for arbitrary bytes, src/index/io.rs:48-59, 102-110. Not modelled: serde_json refuses numbers beyond the range of `f64`
(such as `1e999`), here they are numbers like others.
-/
namespace Granne

/-- ASCII text as bytes. -/
def asc (s : String) : Bytes := s.toList.map fun c => UInt8.ofNat c.toNat

/-- JSON values (`serde_json::Value`). Numbers that are not plain non-negative integers are not needed by the
program and only recorded as `other`. -/
inductive Json
  | null
  | bool (b : Bool)
  | num (n : Nat)
  | other
  | str (s : Bytes) -- the characters, in UTF-8
  | arr (l : List Json)
  | obj (l : List (Bytes × Json))

/-- Decimal digits. -/
def natDigitsAux : Nat → Nat → Bytes → Bytes
  | 0, _, acc => acc
  | fuel + 1, n, acc =>
    if n < 10 then UInt8.ofNat (48 + n) :: acc
    else natDigitsAux fuel (n / 10) (UInt8.ofNat (48 + n % 10) :: acc)
def natDigits (n : Nat) : Bytes := natDigitsAux (n + 1) n []

/-- Items separated by commas. -/
def sepBy : List Bytes → Bytes
  | [] => []
  | [a] => a
  | a :: t => a ++ asc "," ++ sepBy t

/-- A list of numbers as compact JSON. -/
def printNums (l : List Nat) : Bytes := asc "[" ++ sepBy (l.map natDigits) ++ asc "]"

/-! ### Reader -/

/-- JSON whitespace: space, tab, newline, carriage return. -/
def isWs (b : UInt8) : Bool := b == 32 || b == 9 || b == 10 || b == 13
def skipWs (s : Bytes) : Bytes := s.dropWhile isWs
def isDigit (b : UInt8) : Bool := 48 ≤ b && b ≤ 57
def digitsVal (ds : Bytes) : Nat := ds.foldl (fun n d => 10 * n + (d.toNat - 48)) 0

/-- A fixed word. -/
def expect (w : Bytes) (s : Bytes) : Option Bytes := if s.take w.length = w then some (s.drop w.length) else none

/-- A string after its opening quote, up to the closing quote: the bytes in between as they are, and what follows. A
control character is an error, a backslash takes the next byte along. -/
def rawStr : Bytes → Option (Bytes × Bytes)
  | [] => none
  | b :: t =>
    if b = 34 then some ([], t)
    else if b < 32 then none
    else if b = 92 then
      match t with
      | [] => none
      | c :: t' => if c < 32 then none else (rawStr t').map fun r => (b :: c :: r.1, r.2)
    else (rawStr t).map fun r => (b :: r.1, r.2)

/-- A string after its opening quote: its characters, in UTF-8, and what follows. Bytes that are not UTF-8 and escapes
that do not exist are errors. -/
def parseStr (s : Bytes) : Option (Bytes × Bytes) :=
  match rawStr s with
  | none => none
  | some (raw, rest) =>
    match fromUtf8 raw with
    | none => none
    | some body =>
      match jsonUnquote (body.length + 1) (body ++ ['"']) with
      | some (w, []) => some (utf8 w, rest)
      | _ => none

/-- Drops a sign. -/
def skipSign (u : Bytes) : Bytes := if u.head? == some 43 || u.head? == some 45 then u.drop 1 else u

/-- Digits, fraction and exponent of a number; the first byte is a digit or a minus sign. -/
def parseNum (s : Bytes) : Option (Json × Bytes) :=
  let neg := s.head? == some 45
  let s1 := if neg then s.drop 1 else s
  let ds := s1.takeWhile isDigit
  let s2 := s1.dropWhile isDigit
  if ds = [] then none
  else if ds.head? == some 48 && ds.length != 1 then none
  else
    match s2 with
    | 46 :: t => -- fraction
      let t' := t.dropWhile isDigit
      if t.takeWhile isDigit = [] then none
      else match t' with
        | 101 :: u => expo u
        | 69 :: u => expo u
        | _ => some (.other, t')
    | 101 :: u => expo u
    | 69 :: u => expo u
    | _ => some (if neg then .other else .num (digitsVal ds), s2)
where
  /-- After `e` or `E`. -/
  expo (u : Bytes) : Option (Json × Bytes) :=
    let u1 := skipSign u
    if u1.takeWhile isDigit = [] then none else some (.other, u1.dropWhile isDigit)

mutual
/-- A value, possibly after whitespace. `fuel` bounds the work; `depth` is serde_json's `remaining_depth`: an array or
object that would bring it to 0 is an error. -/
def parseValue : Nat → Nat → Bytes → Option (Json × Bytes)
  | 0, _, _ => none
  | fuel + 1, depth, s =>
    match skipWs s with
    | [] => none
    | b :: t =>
      if b = 123 then -- {
        if depth ≤ 1 then none
        else match skipWs t with
          | 125 :: t' => some (.obj [], t')
          | t' => (parseMembers fuel (depth - 1) t').map fun r => (.obj r.1, r.2)
      else if b = 91 then -- [
        if depth ≤ 1 then none
        else match skipWs t with
          | 93 :: t' => some (.arr [], t')
          | t' => (parseItems fuel (depth - 1) t').map fun r => (.arr r.1, r.2)
      else if b = 34 then (parseStr t).map fun r => (.str r.1, r.2)
      else if b = 116 then (expect (asc "rue") t).map fun r => (.bool true, r)
      else if b = 102 then (expect (asc "alse") t).map fun r => (.bool false, r)
      else if b = 110 then (expect (asc "ull") t).map fun r => (.null, r)
      else if isDigit b || b == 45 then parseNum (b :: t)
      else none
/-- One or more items up to `]`. -/
def parseItems : Nat → Nat → Bytes → Option (List Json × Bytes)
  | 0, _, _ => none
  | fuel + 1, depth, s =>
    match parseValue fuel depth s with
    | none => none
    | some (v, s1) =>
      match skipWs s1 with
      | 44 :: s2 => (parseItems fuel depth s2).map fun r => (v :: r.1, r.2)
      | 93 :: s2 => some ([v], s2)
      | _ => none
/-- One or more members up to `}`. -/
def parseMembers : Nat → Nat → Bytes → Option (List (Bytes × Json) × Bytes)
  | 0, _, _ => none
  | fuel + 1, depth, s =>
    match skipWs s with
    | 34 :: t =>
      match parseStr t with
      | none => none
      | some (k, s1) =>
        match skipWs s1 with
        | 58 :: s2 =>
          match parseValue fuel depth s2 with
          | none => none
          | some (v, s3) =>
            match skipWs s3 with
            | 44 :: s4 => (parseMembers fuel depth s4).map fun r => ((k, v) :: r.1, r.2)
            | 125 :: s4 => some ([(k, v)], s4)
            | _ => none
        | _ => none
    | _ => none
end

/-- `serde_json::from_reader`: one value, then only whitespace. The recursion limit is 128. -/
def parseJson (s : Bytes) : Option Json :=
  match parseValue (s.length + 1) 128 s with
  | some (v, rest) => if skipWs rest = [] then some v else none
  | none => none

/-- `value[key]` on a `serde_json::Value` (`Null` if it is missing; the last duplicate wins). -/
def Json.field (v : Json) (key : Bytes) : Json :=
  match v with
  | .obj l => match l.reverse.find? fun p => p.1 == key with
    | some p => p.2
    | none => .null
  | _ => .null

/-- `serde_json::from_value::<usize>`. -/
def Json.toUsize : Json → Option Nat
  | .num n => if n < 2 ^ 64 then some n else none
  | _ => none

/-- `serde_json::from_value::<Vec<usize>>`. -/
def Json.toUsizes : Json → Option (List Nat)
  | .arr l => l.mapM Json.toUsize
  | _ => none

end Granne
