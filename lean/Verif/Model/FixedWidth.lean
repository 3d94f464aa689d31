import Verif.Model.Scalar

/-!
src/slice_vector/mod.rs:42-467 `FixedWidthSliceVector`, which is `angular::Vectors`, `angular_int::Vectors`
(src/elements/dense_vector.rs) and the embeddings of `SumEmbeddings`.

The variants `File` and `Memory` are identified: `load` (206-211) turns either into `(data, width)`.
`idx * width` is computed without overflow (in range it is at most the length of an allocation).
-/
namespace Granne

/-- src/slice_vector/mod.rs:42-45 through `load` (206-211). `Vectors` (src/elements/dense_vector.rs:37-39) is a wrapper with the same
contents, `borrow` and `into_owned` (src/elements/dense_vector.rs:80-82, 85-87) keep them, `as_slice` (src/elements/dense_vector.rs:115-117) is
`data`, `dim` (src/elements/dense_vector.rs:105-107) is `width`. One vector (`Vector`, src/elements/dense_vector.rs:4-33) is a list of
numbers; its `len`, `into_owned`, `into_vec`, `as_slice` (src/elements/dense_vector.rs:9-11, 14-16, 19-21, 24-26) are those of the list. -/
structure FixVec (T : Type) where
  data : List T
  width : Nat
deriving DecidableEq

/-- Replaces `row.length` entries of `l` from position `p` on (`clone_from_slice` into a sub-slice). -/
def patch {T : Type} (l : List T) (p : Nat) (row : List T) : List T := l.take p ++ row ++ l.drop (p + row.length)

namespace FixVec
variable {T : Type}

/-- src/slice_vector/mod.rs:79-81 `new` (src/elements/dense_vector.rs:43-45 `Vectors::new`). -/
def new : FixVec T := ⟨[], 0⟩

/-- src/slice_vector/mod.rs:84-86 `with_width`. -/
def withWidth (w : Nat) : FixVec T := ⟨[], w⟩

/-- src/slice_vector/mod.rs:101-108 `with_data` (src/elements/dense_vector.rs:68-70 and 75-77 `from_slice`, `from_vec`). `none` is a
panic. -/
def withData (data : List T) (w : Nat) : Option (FixVec T) :=
  if 0 < w ∧ data.length % w = 0 then some ⟨data, w⟩ else none

/-- src/slice_vector/mod.rs:410-417 `len` (src/elements/dense_vector.rs:100-102, 149-151). -/
def len (v : FixVec T) : Nat := if 0 < v.width then v.data.length / v.width else 0

/-- src/slice_vector/mod.rs:344-356 `get` (src/elements/dense_vector.rs:110-112 `get_element`, 141-143; release build). `none` is a panic: the slice is out of bounds. -/
def get (v : FixVec T) (idx : Nat) : Option (List T) :=
  if (idx + 1) * v.width ≤ v.data.length then some ((v.data.drop (idx * v.width)).take v.width) else none

/-- src/slice_vector/mod.rs:398-408 `push` (src/elements/dense_vector.rs:95-97, 169-171). `none` is a panic (a vector of a different dimension). -/
def push (v : FixVec T) (x : List T) : Option (FixVec T) :=
  let w := if v.width = 0 then x.length else v.width
  if w = x.length then some ⟨v.data ++ x, w⟩ else none

/-- src/elements/dense_vector.rs:120-129 `FromIterator for Vectors`: pushes one after the other. -/
def pushAll (v : FixVec T) : List (List T) → Option (FixVec T)
  | [] => some v
  | x :: t => match v.push x with
    | some v' => v'.pushAll t
    | none => none

/-- src/slice_vector/mod.rs:178-189 `extend_from_slice_vector` (src/elements/dense_vector.rs:90-92 `Vectors::extend`). -/
def extend (v o : FixVec T) : Option (FixVec T) :=
  let w := if v.width = 0 then o.width else v.width
  if w = o.width then some ⟨v.data ++ o.data, w⟩ else none

/-- src/slice_vector/mod.rs:151-158 `subslice`. `none`: out of bounds, `begin > end`, or width 0. -/
def subslice (v : FixVec T) (b e : Nat) : Option (FixVec T) :=
  if b * v.width ≤ e * v.width ∧ e * v.width ≤ v.data.length then
    withData ((v.data.drop (b * v.width)).take (e * v.width - b * v.width)) v.width
  else none

/-- src/slice_vector/mod.rs:170-173 `resize`. -/
def resize (v : FixVec T) (n : Nat) (x : T) : FixVec T :=
  ⟨v.data.take (n * v.width) ++ List.replicate (n * v.width - v.data.length) x, v.width⟩

/-- src/slice_vector/mod.rs:358-370 `get_mut(idx).clone_from_slice(row)`: panics out of bounds or if the lengths
differ. -/
def setRow (v : FixVec T) (idx : Nat) (row : List T) : Option (FixVec T) :=
  if idx * v.width + v.width ≤ v.data.length ∧ row.length = v.width then
    some ⟨patch v.data (idx * v.width) row, v.width⟩
  else none

/-- src/slice_vector/mod.rs:372-396 `get_two_mut(to, from)` and `to.clone_from_slice(from)` (450-451): panics if
the indices agree, or out of bounds (`split_at_mut` at the larger index; `right[..width]`). -/
def copyRow (v : FixVec T) (dst src : Nat) : Option (FixVec T) :=
  if dst = src then none
  else if max dst src * v.width ≤ v.data.length ∧ v.width ≤ v.data.length - max dst src * v.width then
    some ⟨patch v.data (dst * v.width) ((v.data.drop (src * v.width)).take v.width), v.width⟩
  else none

/-- src/slice_vector/mod.rs:448-456 the `while permutation[j] != i` loop of `permute` and the two statements after
it. `fuel` bounds the number of iterations; running out of it (or a panic) is `none`. -/
def permuteCycle (perm : List Nat) (i : Nat) (start : List T) :
    Nat → Nat → FixVec T → List Bool → Option (FixVec T × List Bool)
  | 0, _, _, _ => none
  | fuel + 1, j, v, vis => do
    let pj ← perm[j]?
    if pj ≠ i then
      let v' ← v.copyRow j pj
      if j < vis.length then permuteCycle perm i start fuel pj v' (vis.set j true) else none
    else
      let v' ← v.setRow j start
      if j < vis.length then some (v', vis.set j true) else none

/-- src/slice_vector/mod.rs:442-457 the outer loop of `permute` over the remaining positions `is`. -/
def permuteLoop (perm : List Nat) : List Nat → FixVec T → List Bool → Option (FixVec T)
  | [], v, _ => some v
  | i :: is, v, vis => do
    let b ← vis[i]?
    if b then permuteLoop perm is v vis
    else
      let start ← v.get i
      let (v', vis') ← permuteCycle perm i start (perm.length + 1) i v vis
      permuteLoop perm is v' vis'

/-- src/slice_vector/mod.rs:437-458 `permute` (src/elements/dense_vector.rs:177-179). `none`: a panic, or a cycle loop that does not end (only if
`perm` is not a permutation). -/
def permute (v : FixVec T) (perm : List Nat) : Option (FixVec T) :=
  if v.len = perm.length then permuteLoop perm (List.range perm.length) v (List.replicate v.len false) else none

/-- What a call has come to when the `while` loop in it may be run a bounded number of times: it returned, it panicked, or it still
runs. `permute` above takes the last two together. -/
inductive Run (α : Type) where
  | returned (a : α)
  | panicked
  | running

/-- src/slice_vector/mod.rs:448-456 as `permuteCycle`, panics and iterations kept apart. -/
def permuteCycleRun (perm : List Nat) (i : Nat) (start : List T) :
    Nat → Nat → FixVec T → List Bool → Run (FixVec T × List Bool)
  | 0, _, _, _ => .running
  | fuel + 1, j, v, vis =>
    match perm[j]? with
    | none => .panicked
    | some pj =>
      if pj ≠ i then
        match v.copyRow j pj with
        | none => .panicked
        | some v' => if j < vis.length then permuteCycleRun perm i start fuel pj v' (vis.set j true) else .panicked
      else
        match v.setRow j start with
        | none => .panicked
        | some v' => if j < vis.length then .returned (v', vis.set j true) else .panicked

/-- src/slice_vector/mod.rs:442-457 as `permuteLoop`, at most `fuel` iterations of the `while` loop for each position. -/
def permuteLoopRun (perm : List Nat) (fuel : Nat) : List Nat → FixVec T → List Bool → Run (FixVec T)
  | [], v, _ => .returned v
  | i :: is, v, vis =>
    match vis[i]? with
    | none => .panicked
    | some true => permuteLoopRun perm fuel is v vis
    | some false =>
      match v.get i with
      | none => .panicked
      | some start =>
        match permuteCycleRun perm i start fuel i v vis with
        | .panicked => .panicked
        | .running => .running
        | .returned (v', vis') => permuteLoopRun perm fuel is v' vis'

/-- src/slice_vector/mod.rs:437-458 `permute` as above, panics and endless loops kept apart. -/
def permuteRun (v : FixVec T) (perm : List Nat) (fuel : Nat) : Run (FixVec T) :=
  if v.len = perm.length then permuteLoopRun perm fuel (List.range perm.length) v (List.replicate v.len false) else .panicked

variable [Scalar T]

/-- src/slice_vector/mod.rs:460-466 `write` (src/elements/dense_vector.rs:133-135): the bytes written. -/
def bytes (v : FixVec T) : Bytes := leBytes 8 v.width ++ encodeAll v.data

/-- src/slice_vector/mod.rs:460-466 `write`: the number of bytes returned (`write_as_bytes` of the data only). -/
def writeResult (v : FixVec T) : Nat := v.data.length * Scalar.size T

/-- src/slice_vector/mod.rs:213-221 `load_mmap`. `none`: the buffer is shorter than the header. -/
def loadMmap (b : Bytes) : Option (FixVec T) :=
  if 8 ≤ b.length then some ⟨loadBytesAs T (b.drop 8), leNat (b.take 8)⟩ else none

/-- src/slice_vector/mod.rs:123-129 `from_bytes` and 110-121 `from_file` (src/elements/dense_vector.rs:50-52 and 61-63). `none` is a
panic. -/
def fromBytes (b : Bytes) : Option (FixVec T) :=
  match loadMmap b with
  | some v => if 0 < v.width ∧ v.data.length % v.width = 0 then some v else none
  | none => none

end FixVec
end Granne
