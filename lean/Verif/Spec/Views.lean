import Verif.Model.Views

/-! What Rust demands of a slice made from raw parts. -/
namespace Granne.Spec

/-- All bytes of the slice are bytes of the buffer (`len` bytes at `base`). -/
def View.InBounds (v : View) (base len : Nat) : Prop := base ≤ v.addr ∧ v.addr + v.count * v.size ≤ base + len

/-- The address of the slice is a multiple of the alignment of its type. -/
def View.Aligned (v : View) : Prop := v.align ∣ v.addr

end Granne.Spec
