/-! What the builder needs from the plan of layer sizes. -/
namespace Granne.Spec

/-- `schedule total i` elements are planned for layer `i` out of `total`: never more than there are, at least
one, and from some layer on all of them. -/
structure GoodSchedule (schedule : Nat → Nat → Nat) : Prop where
  le : ∀ total i, schedule total i ≤ total
  pos : ∀ total i, 1 ≤ total → 1 ≤ schedule total i
  all : ∀ total, ∃ i₀, ∀ i, i₀ ≤ i → schedule total i = total

end Granne.Spec
