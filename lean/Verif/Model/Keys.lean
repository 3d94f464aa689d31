import Verif.Model.F32
import Verif.Model.Reorder

/-!
src/elements/embeddings/reorder.rs: `compute_keys_for_reordering`.
-/
namespace Granne

/-- `f32` addition as used by src/math.rs:100-106 `sum_into_fallback`. -/
noncomputable instance : Add F32 := ⟨F32.add⟩

/-- `0.0f32`. -/
noncomputable instance : Zero F32 := ⟨.fin 0⟩

section
variable {F : Type} [FloatOps F]
open FloatOps MulAddOps

/-- src/elements/embeddings/reorder.rs:34 `norm`: the squares are added up from left to right (std
`Iterator::sum`; it begins with a zero, whose sign does not matter here). -/
def embNorm (v : List F) : F := sqrt (v.foldl (fun s x => add s (mul x x)) zero)

/-- src/elements/embeddings/reorder.rs:35-38: the norms of all embeddings. `none` is the panic of the conversion to
`NotNan`, or of `create_embedding`. -/
def wordNorms [Add F] [Zero F] (s : SumEmb F) : Option (List F) :=
  seqOpt ((List.range s.numEmbeddings).map fun i => match s.createEmbedding [i] with
    | none => none
    | some v => if isNan (embNorm v) then none else some (embNorm v))

/-- src/elements/embeddings/reorder.rs:40. -/
def NUM_WORDS : Nat := 8

/-- src/elements/embeddings/reorder.rs:45-46: `sort_by_key` (std; stable) by the norm, then `reverse`. The key
function is called if and only if there are at least two terms; `none` is an index panic in it. -/
def sortTerms (norms : List F) (ids : List Nat) : Option (List Nat) :=
  if ids.length < 2 then some ids.reverse
  else if ids.all fun w => decide (w < norms.length) then
    some (ids.mergeSort fun a b => !gt (norms.getD a zero) (norms.getD b zero)).reverse
  else none

/-- src/elements/embeddings/reorder.rs:43-53 `get_key`. -/
def getKey [Add F] [Zero F] (s : SumEmb F) (norms : List F) (q : Nat) : Option (List Nat) :=
  match s.getTerms q with
  | none => none
  | some ids => match sortTerms norms ids with
    | none => none
    | some sorted =>
      let len := min sorted.length NUM_WORDS
      some (sorted.take len ++ List.replicate (NUM_WORDS - len) 0)

/-- src/elements/embeddings/reorder.rs:32-56 `compute_keys_for_reordering`. The keys are arrays of eight ids, compared
lexicographically. -/
def computeKeys [Add F] [Zero F] (s : SumEmb F) : Option (List (List Nat)) :=
  match wordNorms s with
  | none => none
  | some norms => seqOpt ((List.range s.len).map (getKey s norms))

end
end Granne
