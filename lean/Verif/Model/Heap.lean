import Mathlib.Order.Defs.LinearOrder
import Mathlib.Data.Prod.Lex
import Mathlib.Data.List.Sort

/-!
Heaps used by the search.
-/
namespace Granne

/-- The tuple `(NotNan<f32>, usize)` stored in both heaps of `search_for_neighbors`
(src/index/mod.rs:1006-1014). `NotNan<f32>` is an arbitrary type `D` with a linear order. -/
structure Cand (D : Type) where
  d : D
  id : Nat
deriving DecidableEq, Repr

/-- Rust compares tuples lexicographically: first the distance, then the id. -/
instance {D : Type} [LinearOrder D] : LinearOrder (Cand D) :=
  LinearOrder.lift' (fun c => toLex (c.d, c.id)) (by
    intro a b h
    have h' : (a.d, a.id) = (b.d, b.id) := h
    cases a; cases b; simpa using h')

/-- src/max_size_heap.rs:5-8 `MaxSizeHeap { heap: BinaryHeap<T>, max_size }`.
Simplification: the binary heap is represented by the ascending list of its elements; only the
abstract behaviour of `BinaryHeap` (peek/pop return a maximum) is used. -/
structure MaxSizeHeap (T : Type) where
  heap : List T
  maxSize : Nat

variable {T : Type} [LinearOrder T]

/-- `BinaryHeap::push` on the ascending list representation. -/
def heapPush (x : T) (h : List T) : List T := h.orderedInsert (· ≤ ·) x

/-- src/max_size_heap.rs:11-16 `MaxSizeHeap::new`. -/
def MaxSizeHeap.new (T : Type) (maxSize : Nat) : MaxSizeHeap T := ⟨[], maxSize⟩

/-- src/max_size_heap.rs:34-36 `is_full`. -/
def MaxSizeHeap.isFull {T : Type} (h : MaxSizeHeap T) : Bool := h.maxSize ≤ h.heap.length

/-- src/max_size_heap.rs:38-40 `peek`: the maximum. -/
def MaxSizeHeap.peek {T : Type} (h : MaxSizeHeap T) : Option T := h.heap.getLast?

/-- src/max_size_heap.rs:18-32 `push`. `none` is the panic of `peek().unwrap()` (only reached when
`max_size == 0`). The returned bool is whether the element was added. -/
def MaxSizeHeap.push (h : MaxSizeHeap T) (x : T) : Option (MaxSizeHeap T × Bool) :=
  if !h.isFull then some ({ h with heap := heapPush x h.heap }, true)
  else match h.peek with
    | none => none
    | some top =>
      if x < top then
        let popped := if h.maxSize ≤ h.heap.length then h.heap.dropLast else h.heap
        some ({ h with heap := heapPush x popped }, true)
      else some (h, false)

/-- src/max_size_heap.rs:42-44 `into_sorted_vec`: ascending. -/
def MaxSizeHeap.intoSortedVec {T : Type} (h : MaxSizeHeap T) : List T := h.heap

end Granne
