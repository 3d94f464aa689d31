import Verif.Model.IndexIO

/-!
`std::io::BufWriter` (external, part of Rust's standard library) over a file whose operations can fail, and
`write_index` on top of it (src/index/io.rs:11-70).
-/
namespace Granne

/-- The default capacity of a `BufWriter`. -/
def BUF_CAP : Nat := 8192

/-- A file, its position, the bytes buffered in front of it and the number of calls it received so far. -/
structure BufState where
  file : Bytes
  pos : Nat
  buf : Bytes
  calls : Nat

/-- `write_all` on the file: call number `calls` fails if the oracle says so, leaving the file as it was
(simplification: a failing write writes nothing). -/
def innerWrite (fail : Nat → Bool) (s : BufState) (b : Bytes) : BufState × Bool :=
  if fail s.calls then ({ s with calls := s.calls + 1 }, false)
  else ({ s with file := writeAt s.file s.pos b, pos := s.pos + b.length, calls := s.calls + 1 }, true)

/-- `flush_buf`: nothing to do on an empty buffer; on failure the buffer is kept. -/
def flushBuf (fail : Nat → Bool) (s : BufState) : BufState × Bool :=
  if s.buf = [] then (s, true)
  else match innerWrite fail s s.buf with
    | (s', true) => ({ s' with buf := [] }, true)
    | (s', false) => (s', false)

/-- `BufWriter::write_all`: copy into the buffer if there is room, otherwise flush; large inputs bypass it. -/
def bufWrite (fail : Nat → Bool) (s : BufState) (b : Bytes) : BufState × Bool :=
  if s.buf.length + b.length < BUF_CAP then ({ s with buf := s.buf ++ b }, true)
  else match (if BUF_CAP < s.buf.length + b.length then flushBuf fail s else (s, true)) with
    | (s1, false) => (s1, false)
    | (s1, true) => if BUF_CAP ≤ b.length then innerWrite fail s1 b else ({ s1 with buf := s1.buf ++ b }, true)

/-- `BufWriter::seek`: flush, then seek in the file. -/
def bufSeek (fail : Nat → Bool) (s : BufState) (p : Nat) : BufState × Bool :=
  match flushBuf fail s with
  | (s1, false) => (s1, false)
  | (s1, true) =>
    if fail s1.calls then ({ s1 with calls := s1.calls + 1 }, false)
    else ({ s1 with pos := p, calls := s1.calls + 1 }, true)

/-- One operation of the program. -/
def bufOp (fail : Nat → Bool) (s : BufState) : IoOp → BufState × Bool
  | .write b => bufWrite fail s b
  | .seek p => bufSeek fail s p

/-- A sequence of operations; the first failure ends it (`?`). -/
def bufRun (fail : Nat → Bool) : List IoOp → BufState → BufState × Bool
  | [], s => (s, true)
  | o :: t, s => match bufOp fail s o with
    | (s', false) => (s', false)
    | (s', true) => bufRun fail t s'

/-- What the caller of `write_index` sees. -/
inductive SaveResult
  | ok
  | error
  | panic
deriving DecidableEq

/-- src/index/io.rs:11-70 `write_index` on a file with content `f` at position `start`, some of whose operations
fail. On return, `BufWriter`'s `Drop` flushes the buffer and ignores a failure. Result: the final content of the
file, what is returned, and the number of file operations before the `Drop`. -/
def saveFailing (layers : Layers) (fail : Nat → Bool) (f : Bytes) (start : Nat) : Bytes × SaveResult × Nat :=
  let r := writeIndex layers ⟨start, []⟩
  let (s, ok) := bufRun fail r.1.ops ⟨f, start, [], 0⟩
  ((flushBuf fail s).1.file, if ok then (if r.2.isSome then .ok else .panic) else .error, s.calls)

end Granne
