import Verif.Model.Build

/-! Vocabulary for the single-threaded build: which interleavings one thread can produce. -/
namespace Granne.Spec
open Granne

/-- One step of the tasks of a layer on a single thread that takes the tasks in order: a task moves only when all
the tasks before it have returned. -/
inductive InOrder : Par → Par → Prop
  | mk (s : Par) (t : Nat) (p p' : Prog Unit) (rows' : Rows) :
      (∀ i < t, s.threads[i]? = some (.ret ())) →
      s.threads[t]? = some p → p.step s.rows = some (rows', p') →
      InOrder s ⟨rows', s.threads.set t p'⟩

/-- Any number of such steps. -/
inductive InOrders : Par → Par → Prop
  | refl (s : Par) : InOrders s s
  | head {s t u : Par} : InOrder s t → InOrders t u → InOrders s u

end Granne.Spec
