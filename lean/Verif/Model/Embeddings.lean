import Verif.Model.FixedWidth
import Verif.Model.VarWidth

/-!
src/elements/embeddings/mod.rs: `SumEmbeddings`. `S` is the scalar type (`f32` in the code); only its addition and
its zero are used here.
-/
namespace Granne

/-- src/elements/embeddings/mod.rs:24 `Elements`. -/
abbrev Elems := VarVec ThreeByteInt FiveByteInt

/-- src/elements/embeddings/mod.rs:40-44; src/elements/embeddings/mod.rs:64-66 `from_parts` pairs the two,
src/elements/embeddings/mod.rs:89-94 `borrow` is the identity on values; src/elements/embeddings/mod.rs:56-61
`from_bytes` and src/elements/embeddings/mod.rs:186-188 `write` are those of the two parts (`Model/FixedWidth`,
`Model/Offsets`). -/
structure SumEmb (S : Type) where
  embeddings : FixVec S
  elements : Elems

/-- src/odd_byte_int.rs:24-31 `From<usize>` for `ThreeByteInt`: panics on more than three bytes. -/
def idFrom (n : Nat) : Option ThreeByteInt := if n < 256 ^ 3 then some ⟨leBytes 3 n, by simp⟩ else none

/-- src/odd_byte_int.rs:17-22 `Into<usize>`. -/
def idInto (b : ThreeByteInt) : Nat := leNat b.1

/-- `slice.chunks(k)` (std) for `k > 0`; `fuel` at least the length. -/
def chunksOf {α : Type} (k : Nat) : Nat → List α → List (List α)
  | 0, _ => []
  | fuel + 1, l => if l = [] then [] else l.take k :: chunksOf k fuel (l.drop k)

namespace SumEmb
variable {S : Type}

/-- src/elements/embeddings/mod.rs:48-53 `new`. -/
def new : Option (SumEmb S) :=
  match (VarVec.new : Option Elems) with
  | some e => some ⟨FixVec.new, e⟩
  | none => none

/-- src/elements/embeddings/mod.rs:97-100 `push`, also as src/elements/embeddings/mod.rs:180-182. -/
def push (s : SumEmb S) (ids : List Nat) : Option (SumEmb S) :=
  match seqOpt (ids.map idFrom) with
  | none => none
  | some data => match s.elements.push data with
    | some e => some { s with elements := e }
    | none => none

/-- A sequence of `push`es. -/
def pushAll (s : SumEmb S) : List (List Nat) → Option (SumEmb S)
  | [] => some s
  | x :: t => match s.push x with
    | some s' => s'.pushAll t
    | none => none

/-- src/elements/embeddings/mod.rs:103-105 `push_embedding`. -/
def pushEmbedding (s : SumEmb S) (v : List S) : Option (SumEmb S) :=
  match s.embeddings.push v with
  | some e => some { s with embeddings := e }
  | none => none

/-- src/elements/embeddings/mod.rs:108-110 `get_terms`. -/
def getTerms (s : SumEmb S) (i : Nat) : Option (List Nat) := (s.elements.get i).map fun l => l.map idInto

/-- src/elements/embeddings/mod.rs:146-148 `len`. -/
def len (s : SumEmb S) : Nat := s.elements.len

/-- src/elements/embeddings/mod.rs:151-153 `num_embeddings`. -/
def numEmbeddings (s : SumEmb S) : Nat := s.embeddings.len

/-- src/elements/embeddings/mod.rs:200-206 the closure of `permute`: gathers the elements of one chunk. -/
def gather (elements : Elems) (c : List Nat) : Option Elems :=
  match (VarVec.new : Option Elems), seqOpt (c.map elements.get) with
  | some v, some rows => v.pushAll rows
  | _, _ => none

/-- src/elements/embeddings/mod.rs:209-212 the loop of `permute` that concatenates the chunks. -/
def concatChunks : Elems → List Elems → Option Elems
  | v, [] => some v
  | v, c :: t => match v.extend c with
    | some v' => concatChunks v' t
    | none => none

/-- src/elements/embeddings/mod.rs:192-215 `permute`: chunks of the permutation are gathered in parallel (each
result depends only on its chunk, so the schedule does not matter) and concatenated in order. -/
def permute (s : SumEmb S) (perm : List Nat) : Option (SumEmb S) :=
  if s.len = perm.length then
    match (VarVec.new : Option Elems),
      seqOpt ((chunksOf (max 10000 (s.len / 400)) perm.length perm).map (gather s.elements)) with
    | some v0, some chunks => match concatChunks v0 chunks with
      | some v => some { s with elements := v }
      | none => none
    | _, _ => none
  else none

variable [Add S] [Zero S]

/-- src/math.rs:100-106 `sum_into_fallback` (the avx2 path, src/math.rs:95-97, calls it; the `blas` feature: `Model/Blas`): panics if
the lengths differ. -/
def sumInto (x y : List S) : Option (List S) :=
  if x.length = y.length then some (List.zipWith (· + ·) x y) else none

/-- src/elements/embeddings/mod.rs:136-140 the loop over the remaining ids. -/
def sumLoop (emb : FixVec S) : List S → List Nat → Option (List S)
  | data, [] => some data
  | data, w :: t => match emb.get w with
    | none => none
    | some e => match sumInto data e with
      | none => none
      | some d => sumLoop emb d t

/-- src/elements/embeddings/mod.rs:124-143 `get_embedding_internal`, which is `create_embedding`
(src/elements/embeddings/mod.rs:118-120). -/
def createEmbedding (s : SumEmb S) : List Nat → Option (List S)
  | [] => some (if 0 < s.embeddings.len then List.replicate s.embeddings.width 0 else [])
  | w :: t => match s.embeddings.get w with
    | none => none
    | some data => sumLoop s.embeddings data t

/-- src/elements/embeddings/mod.rs:113-115 `get_embedding`. -/
def getEmbedding (s : SumEmb S) (i : Nat) : Option (List S) :=
  match s.elements.get i with
  | none => none
  | some ids => s.createEmbedding (ids.map idInto)

end SumEmb
end Granne
