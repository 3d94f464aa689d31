import Verif.Model.Blas
import Verif.Spec.Math

/-! What is assumed of a BLAS library. -/
namespace Granne.Spec
open F32

/-- `v` is a sum of the products of the pairs in `l`, computed in some order, with or without fused operations; every product goes through
at most `k` roundings. -/
inductive SumInAnyOrder : List (F32 × F32) → Nat → F32 → Prop
  | nothing : SumInAnyOrder [] 0 (fin 0)
  | product (a b : F32) : SumInAnyOrder [(a, b)] 1 (mul a b)
  | fused {l : List (F32 × F32)} {k : Nat} {c : F32} (a b : F32) : SumInAnyOrder l k c → SumInAnyOrder ((a, b) :: l) (k + 1) (mulAdd a b c)
  | sum {l l' : List (F32 × F32)} {k k' : Nat} {v w : F32} : SumInAnyOrder l k v → SumInAnyOrder l' k' w →
      SumInAnyOrder (l ++ l') (max k k' + 1) (add v w)
  | reordered {l l' : List (F32 × F32)} {k : Nat} {v : F32} : SumInAnyOrder l k v → l.Perm l' → SumInAnyOrder l' k v

/-- A BLAS library for vectors of dimension `dim`: `sdot` adds the products in some order, at most `k` roundings on the way of each;
`snrm2` gives 0 for a zero vector, and the norm up to `e * 2^-24` of it if that is between `2^-50` and `2^63`. -/
structure GoodBlas (B : Blas) (dim k e : Nat) : Prop where
  sdot : ∀ x y : List F32, x.length = dim → y.length = dim → ∃ k' ≤ k, SumInAnyOrder (x.zip y) k' (B.sdot x y)
  zero : ∀ x : List ℝ, x.length = dim → norm x = 0 → B.snrm2 (x.map fin) = fin 0
  snrm2 : ∀ x : List ℝ, x.length = dim → 2 ^ (-50 : Int) ≤ norm x → norm x ≤ 2 ^ (63 : Int) →
    ∃ r : ℝ, B.snrm2 (x.map fin) = fin r ∧ |r - norm x| ≤ (e : ℝ) * 2 ^ (-24 : Int) * norm x

end Granne.Spec
