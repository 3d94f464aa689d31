import Verif.Util.Bytes

/-!
A seekable writer (`impl Write + Seek`: a file or `Cursor<Vec<u8>>`, external) and programs that write to it.
-/
namespace Granne

/-- The content of a file after writing `b` at position `pos` (POSIX `pwrite` / `Cursor<Vec<u8>>`: a gap behind
the end is filled with zeros; an empty write changes nothing). -/
def writeAt (f : Bytes) (pos : Nat) (b : Bytes) : Bytes :=
  if b = [] then f
  else f.take pos ++ List.replicate (pos - f.length) 0 ++ b ++ f.drop (pos + b.length)

/-- What a program does with its writer: `write_all` or `seek` to an absolute position. -/
inductive IoOp
  | write (b : Bytes)
  | seek (pos : Nat)
deriving DecidableEq

/-- The operations performed so far, and the position they lead to. -/
structure Sink where
  pos : Nat
  ops : List IoOp

/-- A program with access to a writer; `none` is a panic (the operations before it have been done). -/
abbrev Wr (α : Type) := Sink → Sink × Option α

namespace Wr

def pure {α : Type} (a : α) : Wr α := fun s => (s, some a)
def panic {α : Type} : Wr α := fun s => (s, none)
def bind {α β : Type} (m : Wr α) (k : α → Wr β) : Wr β := fun s =>
  match m s with
  | (s', some a) => k a s'
  | (s', none) => (s', none)

/-- `write_all`. -/
def write (b : Bytes) : Wr Unit := fun s => (⟨s.pos + b.length, s.ops ++ [.write b]⟩, some ())
/-- `seek(SeekFrom::Start(p))`. -/
def seekTo (p : Nat) : Wr Unit := fun s => (⟨p, s.ops ++ [.seek p]⟩, some ())
/-- `seek(SeekFrom::Current(0))`. -/
def tell : Wr Nat := fun s => (⟨s.pos, s.ops ++ [.seek s.pos]⟩, some s.pos)
/-- `assert!`. -/
def assert (b : Bool) : Wr Unit := if b then pure () else panic
/-- Lifts a panic. -/
def ofOption {α : Type} : Option α → Wr α
  | some a => pure a
  | none => panic

end Wr

/-- The effect of operations on a file (content and position). -/
def runOps : List IoOp → Bytes × Nat → Bytes × Nat
  | [], fp => fp
  | .write b :: t, (f, p) => runOps t (writeAt f p b, p + b.length)
  | .seek p :: t, (f, _) => runOps t (f, p)

/-- The operations as single-byte writes with their positions, in the order in which they reach the file. -/
def byteEffects : List IoOp → Nat → List (Nat × UInt8)
  | [], _ => []
  | .write b :: t, p => (List.range b.length).map (fun i => (p + i, b.getD i 0)) ++ byteEffects t (p + b.length)
  | .seek p :: t, _ => byteEffects t p

/-- A file after a list of single-byte writes. -/
def applyBytes (f : Bytes) (effects : List (Nat × UInt8)) : Bytes :=
  effects.foldl (fun f e => writeAt f e.1 [e.2]) f

end Granne
