import Verif.Model.Embeddings

/-! Vocabulary for element collections. -/
namespace Granne.Spec
open Granne

/-- What a list of equal-length vectors looks like through the API of `Vectors`: `dim`, `len`, `get_element`,
`as_slice`. -/
structure ShowsVectors {T : Type} (v : FixVec T) (dim : Nat) (rows : List (List T)) : Prop where
  equalLength : ∀ r ∈ rows, r.length = dim
  dimEq : v.width = dim
  len : v.len = rows.length
  get : ∀ (i : Nat) (r : List T), rows[i]? = some r → v.get i = some r
  outside : ∀ i : Nat, rows.length ≤ i → 0 < dim → v.get i = none
  asSlice : v.data = rows.flatten

/-- Ways to make a collection of vectors: `Vectors::new`, `Vectors::from_vec`/`from_slice`, `push`, `extend`. -/
inductive VecExpr (T : Type) where
  | new
  | fromVec (data : List T) (dim : Nat)
  | push (e : VecExpr T) (x : List T)
  | extend (e o : VecExpr T)

/-- No vector of dimension 0 is pushed. -/
def VecExpr.Proper {T : Type} : VecExpr T → Prop
  | .new => True
  | .fromVec _ _ => True
  | .push e x => e.Proper ∧ x ≠ []
  | .extend e o => e.Proper ∧ o.Proper

/-- The calls, one after the other; `none` is a panic. -/
def VecExpr.run {T : Type} : VecExpr T → Option (FixVec T)
  | .new => some FixVec.new
  | .fromVec data dim => FixVec.withData data dim
  | .push e x => match e.run with
    | some v => v.push x
    | none => none
  | .extend e o => match e.run, o.run with
    | some v, some w => v.extend w
    | _, _ => none

/-- The same with plain lists: the dimension (0 = not yet fixed) and the vectors; `none` where the dimensions do not
fit. -/
def VecExpr.spec {T : Type} : VecExpr T → Option (Nat × List (List T))
  | .new => some (0, [])
  | .fromVec data dim =>
    if 0 < dim ∧ dim ∣ data.length then
      some (dim, (List.range (data.length / dim)).map fun i => (data.drop (i * dim)).take dim)
    else none
  | .push e x => match e.spec with
    | some (dim, rows) => if dim = 0 ∨ dim = x.length then some (x.length, rows ++ [x]) else none
    | none => none
  | .extend e o => match e.spec, o.spec with
    | some (dim, rows), some (dim', rows') =>
      if dim = 0 ∨ dim = dim' then some (dim', rows ++ rows') else none
    | _, _ => none

/-- Calls that fill a `SumEmbeddings`. -/
inductive EmbOp (S : Type) where
  | push (ids : List Nat)
  | pushEmbedding (v : List S)

/-- The calls, one after the other, starting with `SumEmbeddings::new`; `none` is a panic. -/
def runEmb {S : Type} : SumEmb S → List (EmbOp S) → Option (SumEmb S)
  | s, [] => some s
  | s, .push ids :: t => match s.push ids with
    | some s' => runEmb s' t
    | none => none
  | s, .pushEmbedding v :: t => match s.pushEmbedding v with
    | some s' => runEmb s' t
    | none => none

/-- The term lists pushed. -/
def pushedTerms {S : Type} : List (EmbOp S) → List (List Nat)
  | [] => []
  | .push ids :: t => ids :: pushedTerms t
  | .pushEmbedding _ :: t => pushedTerms t

/-- The embeddings pushed. -/
def pushedEmbeddings {S : Type} : List (EmbOp S) → List (List S)
  | [] => []
  | .push _ :: t => pushedEmbeddings t
  | .pushEmbedding v :: t => v :: pushedEmbeddings t

/-- What a list of term lists looks like through the API: `len`, `get_terms`. -/
structure ShowsTerms {S : Type} (s : SumEmb S) (terms : List (List Nat)) : Prop where
  len : s.len = terms.length
  get : ∀ i : Nat, s.getTerms i = terms[i]?

/-- A `SumEmbeddings` that came about by pushing, permuting or loading. -/
inductive EmbState {S : Type} : SumEmb S → Prop
  | pushed (s0 s : SumEmb S) (ops : List (EmbOp S)) : SumEmb.new = some s0 → runEmb s0 ops = some s → EmbState s
  | push (s s' : SumEmb S) (ids : List Nat) : EmbState s → s.push ids = some s' → EmbState s'
  | permuted (s s' : SumEmb S) (perm : List Nat) : EmbState s → perm.Perm (List.range s.len) →
      s.permute perm = some s' → EmbState s'
  | loaded (s : SumEmb S) (emb : FixVec S) (e : Elems) : EmbState s → s.len < 2 ^ 64 →
      VarVec.fromBytes s.elements.bytes = some e → EmbState ⟨emb, e⟩

end Granne.Spec
