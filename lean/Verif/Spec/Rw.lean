import Verif.Model.Rw
import Verif.Model.History

/-! Vocabulary for the properties of the concurrent builder. -/
namespace Granne.Spec
open Granne

variable {E D : Type} [LinearOrder D]

/-- What a call to the concurrent builder gives: ids, a saved pair of elements and layers, search results,
the elements seen by a reader, or a panic. -/
inductive RwResult (E D : Type) where
  | ids (ids : List Nat)
  | saved (elements : List E) (layers : List Rows)
  | hits (hits : List (Nat × D))
  | seen (elements : List E)
  | panic

/-- The result of call number `t`, if it has returned. -/
def result (s : Rw E D) (t : Nat) : Option (RwResult E D) :=
  match s.threads[t]? with
  | some (.inserted f) => some (.ids f.got)
  | some (.wrote els layers) => some (.saved els layers)
  | some (.found _ _ _ r) => some (.hits r)
  | some (.looked els) => some (.seen els)
  | some .panicked => some .panic
  | _ => none

/-- The number of elements present. -/
def numElements (s : Rw E D) : Nat := s.data.elements.data.length

/-- No step is possible any more. -/
def Halted (srt : List (Nat × D) → List (Nat × D)) (s : Rw E D) : Prop := ∀ s', ¬ Rw.Step srt s s'

/-- A layer planned at this depth is at least as large as the layer that `b` has one level higher up. -/
def PlanFits (b : Builder E D) (maxElements : Nat) : Prop :=
  ∀ (i : Nat) (l : Layer), b.layers[i]? = some l → l.rows.length ≤ b.config.schedule maxElements (i + 1)

/-- The circumstances in which a concurrent builder for `maxElements` elements is made from `b`: any builder that can
come about, with a good configuration whose planned layers do not get smaller further down, ids that fit in 32 bits
and, if anything can be inserted at all, existing layers that fit the plan (`C41_fresh_fits`, `C41_multiplier_fits`). -/
structure RwSetup (srt : List (Nat × D) → List (Nat × D)) (b : Builder E D) (maxElements : Nat) : Prop where
  reachable : Reachable srt b
  config : GoodConfig b.config
  mono : ∀ i j, i ≤ j → b.config.schedule maxElements i ≤ b.config.schedule maxElements j
  limit : maxElements ≤ UNUSED
  fits : b.elements.data.length < maxElements → PlanFits b maxElements

/-- `s` is a state some time after the `calls` were started, each on its own thread, on a concurrent builder made from
`b`. Searches ask for at least one candidate. -/
structure RwRun (srt : List (Nat × D) → List (Nat × D)) (b : Builder E D) (maxElements : Nat) (calls : List (RwCall E))
    (s : Rw E D) : Prop where
  setup : RwSetup srt b maxElements
  searches : ∀ q ms k, RwCall.search q ms k ∈ calls ∨ RwCall.look (some (q, ms, k)) ∈ calls → 1 ≤ ms
  run : ∃ d, RwNew srt b maxElements (some d) ∧ Rw.Steps srt (Rw.start d calls) s

end Granne.Spec
