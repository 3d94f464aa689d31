import Verif.Model.File
import Verif.Model.Scalar

/-!
src/slice_vector/mod.rs:24-27, 498-677 `VariableWidthSliceVector`. `File` and `Memory` are identified through
`load` (638-643).
-/
namespace Granne

/-- src/slice_vector/mod.rs:24-27. Mapped and owned vectors are not told apart here, so src/slice_vector/mod.rs:30-38
`clone` is the identity; src/slice_vector/mod.rs:493-495 `default` is `new`. -/
structure VarVec (T O : Type) where
  offsets : List O
  data : List T
deriving DecidableEq

/-- The option of a list of options: `none` if one of them is (a panic in the loop). -/
def seqOpt {α : Type} : List (Option α) → Option (List α)
  | [] => some []
  | none :: _ => none
  | some a :: t => match seqOpt t with
    | some l => some (a :: l)
    | none => none

namespace VarVec
variable {T O : Type} [OffsetInt O]

/-- src/slice_vector/mod.rs:504-506 `new`. `none` is a panic. -/
def new : Option (VarVec T O) :=
  match OffsetInt.ofNat? 0 with
  | some z => some ⟨[z], []⟩
  | none => none

/-- src/slice_vector/mod.rs:608-611 `len` (`offsets` is never empty; in a release build an empty one wraps). -/
def len (v : VarVec T O) : Nat := v.offsets.length - 1

/-- `&data[b..e]`, `none` being a panic. -/
def slice (data : List T) (b e : Nat) : Option (List T) :=
  if b ≤ e ∧ e ≤ data.length then some ((data.drop b).take (e - b)) else none

/-- src/slice_vector/mod.rs:590-597 `get`. -/
def get (v : VarVec T O) (idx : Nat) : Option (List T) :=
  match v.offsets[idx]?, v.offsets[idx + 1]? with
  | some b, some e => slice v.data (OffsetInt.toNat b) (OffsetInt.toNat e)
  | _, _ => none

/-- src/slice_vector/mod.rs:544-556 `iter` (collected). -/
def iter (v : VarVec T O) : Option (List (List T)) :=
  seqOpt ((v.offsets.zip (v.offsets.drop 1)).map fun p =>
    slice v.data (OffsetInt.toNat p.1) (OffsetInt.toNat p.2))

/-- src/slice_vector/mod.rs:617-621 `push`. -/
def push (v : VarVec T O) (x : List T) : Option (VarVec T O) :=
  match OffsetInt.ofNat? (v.data.length + x.length) with
  | some o => some ⟨v.offsets ++ [o], v.data ++ x⟩
  | none => none

/-- A sequence of `push`es. -/
def pushAll (v : VarVec T O) : List (List T) → Option (VarVec T O)
  | [] => some v
  | x :: t => match v.push x with
    | some v' => v'.pushAll t
    | none => none

/-- src/slice_vector/mod.rs:525-542 `extend_from_slice_vector`. -/
def extend (v o : VarVec T O) : Option (VarVec T O) :=
  match v.offsets.getLast? with
  | none => none
  | some l =>
    match seqOpt ((o.offsets.drop 1).map fun x => OffsetInt.ofNat? (OffsetInt.toNat l + OffsetInt.toNat x)) with
    | some os => some ⟨v.offsets ++ os, v.data ++ o.data⟩
    | none => none

variable [Scalar T]

/-- src/slice_vector/mod.rs:623-634 `write`: the bytes. -/
def bytes (v : VarVec T O) : Bytes := leBytes 8 v.len ++ encodeAll v.offsets ++ encodeAll v.data

/-- src/slice_vector/mod.rs:623-634 `write`: the number of bytes returned. -/
def writeResult (v : VarVec T O) : Nat :=
  8 + v.offsets.length * Scalar.size O + v.data.length * Scalar.size T

/-- src/slice_vector/mod.rs:566-588 `write_range`: the bytes and the number returned (which is the size of the
data only). `none` is a panic. -/
def writeRange (v : VarVec T O) (b e : Nat) : Option (Bytes × Nat) :=
  if b ≤ e ∧ b ≤ v.len ∧ e ≤ v.len then
    match v.offsets[b]?, v.offsets[e]? with
    | some ob, some oe =>
      if OffsetInt.toNat ob ≤ OffsetInt.toNat oe then
      match seqOpt (((v.offsets.drop b).take (e + 1 - b)).map fun o =>
          if OffsetInt.toNat ob ≤ OffsetInt.toNat o then
            (OffsetInt.ofNat? (OffsetInt.toNat o - OffsetInt.toNat ob) : Option O) else none) with
      | some os =>
        match slice v.data (OffsetInt.toNat ob) (OffsetInt.toNat oe) with
        | some d => some (leBytes 8 (e - b) ++ encodeAll os ++ encodeAll d, d.length * Scalar.size T)
        | none => none
      | none => none
      else none
    | _, _ => none
  else none

/-- src/slice_vector/mod.rs:660-676 `load_mmap`, hence `from_bytes`/`from_file`. `none`: a panic, the buffer is too
short. -/
def fromBytes (buf : Bytes) : Option (VarVec T O) :=
  if 8 ≤ buf.length then
    let n := leNat (buf.take 8)
    let k := (1 + n) * Scalar.size O
    if k ≤ (buf.drop 8).length then
      some ⟨loadBytesAs O ((buf.drop 8).take k), loadBytesAs T ((buf.drop 8).drop k)⟩
    else none
  else none

end VarVec
end Granne
