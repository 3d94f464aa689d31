import Verif.Model.Parsing
import Verif.Model.PyText
import Mathlib.Data.List.Lex
import Mathlib.Data.Char

/-!
The functions of src/elements/embeddings/parsing.rs on files: which files they read, where they write, and what is left after a
panic. Also py/src/lib.rs:102-117, 132-147, which only pass the paths on.

Simplifications: paths are absolute and normalised, without links; names are valid UTF-8 and compare by their characters, which is
the order of their UTF-8 bytes; creating a file fails exactly if there is a directory at the path or none to put it in; reading and
writing do not fail; nobody else changes the files. Progress output is left out.
-/
namespace Granne

/-- The names on the way from the root. -/
abbrev Path := List Text

/-- What is at a path. -/
inductive Node where
  | file (content : Bytes)
  | dir

/-- A file system. -/
abbrev Fs := Path → Option Node

/-- Puts a node at a path. -/
def Fs.set (fs : Fs) (p : Path) (n : Node) : Fs := fun q => if q = p then some n else fs q

/-- std `Path::is_dir`. -/
def Fs.IsDir (fs : Fs) (p : Path) : Prop := fs p = some .dir

/-- std `File::create` succeeds. -/
def Fs.CanCreate (fs : Fs) (p : Path) : Prop := p ≠ [] ∧ fs p ≠ some .dir ∧ fs p.dropLast = some .dir

/-- std `fs::read_dir` lists these names, in this order (which is arbitrary). -/
def Fs.Lists (fs : Fs) (p : Path) (names : List Text) : Prop := names.Nodup ∧ ∀ n : Text, n ∈ names ↔ fs (p ++ [n]) ≠ none

/-- std `sort` on the names of one directory. -/
def sortNames (names : List Text) : List Text := names.mergeSort fun a b => decide (a ≤ b)

/-- src/elements/embeddings/parsing.rs:159-165 the parts of the input. -/
def Parts (fs : Fs) (path : Path) (parts : List Path) : Prop :=
  (fs.IsDir path ∧ ∃ names, fs.Lists path names ∧ parts = (sortNames names).map fun n => path ++ [n]) ∨
    (¬ fs.IsDir path ∧ parts = [path])

/-- The text of a file read with `BufRead::lines`; `none` is a panic (no such file, a directory, not UTF-8). -/
def readText (fs : Fs) (p : Path) : Option Text :=
  match fs p with
  | some (.file b) => fromUtf8 b
  | _ => none

/-- src/elements/embeddings/parsing.rs:177-184 the text of one part. `gunzip` is flate2's `GzDecoder` (`none`: a read error). -/
def partText (gunzip : Bytes → Option Bytes) (fs : Fs) (p : Path) : Option Text :=
  if ".gz".toList <:+ p.getLastD [] then
    match fs p with
    | some (.file b) => match gunzip b with
      | some c => fromUtf8 c
      | none => none
    | _ => none
  else readText fs p

/-- src/elements/embeddings/parsing.rs:39-40, 70-72 the texts that are parsed: the words and the parts. -/
def Inputs (gunzip : Bytes → Option Bytes) (fs : Fs) (elements words : Path) (texts : Option (Text × List Text)) : Prop :=
  ∃ parts, Parts fs elements parts ∧
    texts = match readText fs words, seqOpt (parts.map (partText gunzip fs)) with
      | some w, some ts => some (w, ts)
      | _, _ => none

/-- src/elements/embeddings/parsing.rs:33-48 `parse_elements_and_save_to_disk`: what it returns (`none`: it panics) and the files
afterwards. -/
def ParseAndSave (gunzip : Bytes → Option Bytes) (fs : Fs) (elements words output : Path) (r : Option Nat) (fs' : Fs) : Prop :=
  ∃ texts, Inputs gunzip fs elements words texts ∧
    match texts with
    | none => r = none ∧ fs' = fs
    | some (w, ts) => match parseAndSave w ts with
      | none => r = none ∧ fs' = fs
      | some (b, n) => (fs.CanCreate output ∧ r = some n ∧ fs' = fs.set output (.file b)) ∨
          (¬ fs.CanCreate output ∧ r = none ∧ fs' = fs)

/-- A number in decimal. -/
def decimalText (n : Nat) : Text :=
  if n < 10 then [Char.ofNat (48 + n)] else decimalText (n / 10) ++ [Char.ofNat (48 + n % 10)]
termination_by n
decreasing_by omega

/-- std `Path::file_stem` and `Path::extension` of the last name: split at the last dot, unless there is none or nothing before it. -/
def splitName (name : Text) : Text × Option Text :=
  let ext := (name.reverse.takeWhile (· ≠ '.')).reverse
  let before := (name.take (name.length - (ext.length + 1)))
  if '.' ∉ name ∨ before = [] then (name, none) else (before, some ext)

open Classical in
/-- src/elements/embeddings/parsing.rs:50-61 `get_shard_name`. -/
noncomputable def shardPath (fs : Fs) (output : Path) (shard : Nat) : Path :=
  if fs.IsDir output then output ++ ["elements-".toList ++ decimalText shard ++ ".bin".toList]
  else
    let name := splitName (output.getLastD [])
    output.dropLast ++ [name.1 ++ "-".toList ++ decimalText shard ++ ".".toList ++ name.2.getD "bin".toList]

open Classical in
/-- src/elements/embeddings/parsing.rs:76-97 the files of the loop, from shard `i`; `false` if one could not be created. -/
noncomputable def putShards (output : Path) : Fs → Nat → List Bytes → Fs × Bool
  | fs, _, [] => (fs, true)
  | fs, i, b :: t =>
    if fs.CanCreate (shardPath fs output i) then putShards output (fs.set (shardPath fs output i) (.file b)) (i + 1) t
    else (fs, false)

/-- src/elements/embeddings/parsing.rs:63-100 `parse_elements_and_save_shards_to_disk`: what it returns (`none`: it panics) and the
files afterwards. -/
def ParseAndSaveShards (gunzip : Bytes → Option Bytes) (fs : Fs) (elements words output : Path) (shards : Nat) (r : Option Nat)
    (fs' : Fs) : Prop :=
  ∃ texts, Inputs gunzip fs elements words texts ∧
    match texts with
    | none => r = none ∧ fs' = fs
    | some (w, ts) => match parseWords w with
      | none => r = none ∧ fs' = fs
      | some ids => match parseElements ids ts with
        | none => r = none ∧ fs' = fs
        | some e =>
          let files := saveShards e shards
          let put := putShards output fs 0 files.1
          fs' = put.1 ∧ r = if put.2 && files.2 then some e.len else none

/-- The bytes of the chunks `0..k` before the first one that panics, and whether none does. -/
def chunksUntil (n : Nat) (vec : Nat → Option (List UInt8)) : Nat → Nat → Bytes × Bool
  | 0, _ => ([], true)
  | left + 1, i => match embeddingChunk n vec i with
    | none => ([], false)
    | some b => let r := chunksUntil n vec left (i + 1); (b ++ r.1, r.2)

/-- The quantised embedding of an element, as bytes (src/elements/embeddings/parsing.rs:133-134). -/
noncomputable def quantisedRow (s : SumEmb F32) (i : Nat) : Option (List UInt8) :=
  match s.getEmbedding i with
  | none => none
  | some v => match quantize v with
    | none => none
    | some q => some (q.map i8Bits)

/-- What a run of `compute_embeddings_and_save_to_disk` ends with. -/
inductive Ending where
  | returned
  | panicked
  | killed

/-- src/elements/embeddings/parsing.rs:103-152 `compute_embeddings_and_save_to_disk`: how it ends and the files afterwards. A panic unwinds
the `BufWriter`, which writes what it holds. The inputs are mapped: if the output is one of them, creating it empties the map, and
the process is killed if the first chunk reads it (before anything is written); if it does not, nothing is said. -/
def ComputeAndSave (fs : Fs) (elements embeddings output : Path) (r : Ending) (fs' : Fs) : Prop :=
  ∃ inputs : Option (SumEmb F32),
    (inputs = match fs embeddings, fs elements with
      | some (.file eb), some (.file tb) =>
        match (FixVec.fromBytes eb : Option (FixVec UInt32)), (VarVec.fromBytes tb : Option Elems) with
        | some e, some x => some (sumOf e x)
        | _, _ => none
      | _, _ => none) ∧
    match inputs with
    | none => r = .panicked ∧ fs' = fs
    | some s =>
      (¬ fs.CanCreate output ∧ r = .panicked ∧ fs' = fs) ∨
      (fs.CanCreate output ∧ output ≠ elements ∧ output ≠ embeddings ∧
        fs' = fs.set output (.file (chunksUntil s.len (quantisedRow s) 100 0).1) ∧
        r = if (chunksUntil s.len (quantisedRow s) 100 0).2 then .returned else .panicked) ∨
      (fs.CanCreate output ∧ (output = elements ∨ output = embeddings) ∧
        ((output = elements ∧ 0 < s.len ∨ ∃ i t, i < (s.len + 100 - 1) / 100 ∧ s.getTerms i = some t ∧ t ≠ []) →
          r = .killed ∧ fs' = fs.set output (.file [])))

end Granne
