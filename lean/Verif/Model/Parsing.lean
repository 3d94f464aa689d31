import Verif.Model.Words
import Verif.Model.Math

/-!
src/elements/embeddings/parsing.rs. Progress output, file names and decompression are not modelled; a file is its
content.
-/
namespace Granne

/-- src/elements/embeddings/parsing.rs:19-31 `parse_words`. -/
def parseWords (content : Text) : Option (Text → Option Nat) :=
  match seqOpt ((textLines content).map jsonString) with
  | some words => some (collectIds 0 words (fun _ => none))
  | none => none

/-- src/elements/embeddings/parsing.rs:225-234 the body of the loop of `parse_file`: the ids of one line. -/
def parseLine (ids : Text → Option Nat) (line : Text) : Option (List ThreeByteInt) :=
  match jsonString line with
  | none => none
  | some qs => seqOpt (((splitWs (afterColon qs)).filterMap ids).map idFrom)

/-- src/elements/embeddings/parsing.rs:224-237 the loop of `parse_file`. -/
def parseFileLoop (ids : Text → Option Nat) : Elems → List Text → Option Elems
  | e, [] => some e
  | e, l :: t => match parseLine ids l with
    | none => none
    | some data => match e.push data with
      | none => none
      | some e' => parseFileLoop ids e' t

/-- src/elements/embeddings/parsing.rs:219-240 `parse_file`. `none` is a panic. -/
def parseFile (ids : Text → Option Nat) (content : Text) : Option Elems :=
  match (VarVec.new : Option Elems) with
  | none => none
  | some e => parseFileLoop ids e (textLines content)

/-- src/elements/embeddings/parsing.rs:154-217 `parse_elements_in_directory_or_file`, from the contents of the parts in
the order of their paths. The parts are parsed in parallel, each on its own, and concatenated in order. -/
def parseElements (ids : Text → Option Nat) (parts : List Text) : Option Elems :=
  match seqOpt (parts.map (parseFile ids)), (VarVec.new : Option Elems) with
  | some es, some e => SumEmb.concatChunks e es
  | _, _ => none

/-- src/elements/embeddings/parsing.rs:33-48 `parse_elements_and_save_to_disk`: the file written and the number
returned. -/
def parseAndSave (wordsFile : Text) (parts : List Text) : Option (Bytes × Nat) :=
  match parseWords wordsFile with
  | none => none
  | some ids => match parseElements ids parts with
    | none => none
    | some e => some (e.bytes, e.len)

/-- src/elements/embeddings/parsing.rs:74 `shard_size`. -/
def shardSize (n shards : Nat) : Nat := (n + shards - 1) / shards

/-- src/elements/embeddings/parsing.rs:76-97 the loop over the shards `shard..`, `left` of them: the files written so
far, and whether all were written. A panic in `write_range` leaves the file of that shard empty. -/
def shardLoop (e : Elems) (size : Nat) : Nat → Nat → List Bytes × Bool
  | 0, _ => ([], true)
  | left + 1, shard =>
    match e.writeRange (shard * size) (min ((shard + 1) * size) e.len) with
    | some (b, _) => let r := shardLoop e size left (shard + 1); (b :: r.1, r.2)
    | none => ([[]], false)

/-- src/elements/embeddings/parsing.rs:63-100 `parse_elements_and_save_shards_to_disk`, after parsing: the shard files,
and `false` if it panics. 0 shards divide by zero. -/
def saveShards (e : Elems) (shards : Nat) : List Bytes × Bool :=
  if shards = 0 then ([], false) else shardLoop e (shardSize e.len shards) shards 0

/-- The range `begin..end` of `usize`s, empty if `end < begin`. -/
def rangeFromTo (b e : Nat) : List Nat := (List.range (e - b)).map (b + ·)

/-- src/elements/embeddings/parsing.rs:132-146 one pass of the loop of `compute_embeddings_and_save_to_disk`: the bytes
written for chunk `i`. `vec j` is the quantised embedding of element `j` (`none`: a panic); the embeddings of a chunk
are computed in parallel, each on its own. -/
def embeddingChunk (n : Nat) (vec : Nat → Option (List UInt8)) (i : Nat) : Option Bytes :=
  let size := (n + 100 - 1) / 100
  match seqOpt ((rangeFromTo (i * size) (min ((i + 1) * size) n)).map vec) with
  | none => none
  | some rows => match (FixVec.new : FixVec UInt8).pushAll rows with
    | none => none
    | some v => some (if i = 0 then v.bytes else encodeAll v.data)

/-- src/elements/embeddings/parsing.rs:128-151 the loop over 100 chunks: the content of the output file. -/
def embeddingFile (n : Nat) (vec : Nat → Option (List UInt8)) : Option Bytes :=
  match seqOpt ((List.range 100).map (embeddingChunk n vec)) with
  | some cs => some cs.flatten
  | none => none

/-- An `i8` as its bit pattern. -/
def i8Bits (v : Int) : UInt8 := UInt8.ofNat (v % 256).toNat

/-- src/elements/embeddings/parsing.rs:103-152 `compute_embeddings_and_save_to_disk`, from the loaded files. -/
def computeEmbeddings {F : Type} [FloatOps F] [Add F] [Zero F] (s : SumEmb F) : Option Bytes :=
  embeddingFile s.len fun i =>
    match s.getEmbedding i with
    | none => none
    | some v => match quantize v with
      | none => none
      | some q => some (q.map i8Bits)

end Granne
