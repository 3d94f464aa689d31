import Verif.Proofs.Sequential
import Verif.Props.Build

/-!
C68: the single-threaded build (cargo feature `singlethreaded`) is reproducible; the parallel one is not.

`BuildPartialSeq srt b num out` is `b.build_partial(num)` on one thread, `BuildPartial srt b num out` the same call
with any number of threads; `none` is a panic.
-/
namespace Granne
open Spec

variable {E D : Type} [LinearOrder D] {srt : List (Nat × D) → List (Nat × D)}

/-- C68. Indexing one layer on one thread: whenever the thread, taking the tasks in order, gets to the end of all of
them, the layer is the one computed by the function `indexElementsSeq`, and when it runs into a panic that function
panics. And the thread does get to one of the two. -/
theorem C68_one_layer (cfg : LayerConfig D) (es : Elements E D) (num : Nat) (prev : List Graph) (layer : Layer)
    (reinsert : Bool) (hle : layer.rows.length ≤ num) :
    (∀ s, InOrders (indexPar cfg es srt num prev layer reinsert) s → s.Done →
      indexElementsSeq cfg es srt num prev layer reinsert =
        (limitPass cfg es srt s.rows).map fun rows => { layer with rows := rows }) ∧
    (∀ s, InOrders (indexPar cfg es srt num prev layer reinsert) s → s.Panicked →
      indexElementsSeq cfg es srt num prev layer reinsert = none) ∧
    ∃ s, InOrders (indexPar cfg es srt num prev layer reinsert) s ∧ (s.Done ∨ s.Panicked) := by
  refine ⟨fun s h1 h2 => ?_, fun s h1 h2 => ?_, ?_⟩
  · rw [indexElementsSeq, if_pos hle, indexSeq]
    simp only [h1.runSeq, runSeq_done h2]
  · rw [indexElementsSeq, if_pos hle, indexSeq]
    simp only [h1.runSeq, runSeq_panicked h2]
    rfl
  · have := runSeq_inOrder (indexPar cfg es srt num prev layer reinsert).threads []
      (indexPar cfg es srt num prev layer reinsert).rows (by simp)
    rwa [List.nil_append] at this

/-- C68. What the single-threaded build does, the parallel build may do: every guarantee about all outcomes of the
parallel build holds for the single-threaded one. -/
theorem C68_is_a_build (b : Builder E D) (num : Nat) (out : Option (Builder E D))
    (h : BuildPartialSeq srt b num out) : BuildPartial srt b num out := h.outcome

/-- C68. On one thread every call of `build_partial` has exactly one outcome. -/
theorem C68_deterministic (hsrt : IsSortByDist srt) (b : Builder E D) (hb : Reachable srt b)
    (hc : GoodConfig b.config) (num : Nat) : ∃! out, BuildPartialSeq srt b num out := by
  obtain ⟨out, h⟩ := buildPartialSeq_exists hsrt hc (hb.inv hsrt hc) num
  exact ⟨out, h, fun out' h' => h'.unique h⟩

/-- C68. It returns, with exactly the first `num` elements indexed, whenever `num` is neither smaller than what is
already indexed nor larger than the number of elements. -/
theorem C68_returns (hsrt : IsSortByDist srt) (b : Builder E D) (hb : Reachable srt b)
    (hc : GoodConfig b.config) (num : Nat) (h0 : 1 ≤ num) (hlo : lastLen b.layers ≤ num)
    (hhi : num ≤ b.elements.data.length) :
    ∃ b', BuildPartialSeq srt b num (some b') ∧ lastLen b'.layers = num ∧ b'.elements = b.elements ∧
      b'.config = b.config := by
  obtain ⟨out, h⟩ := buildPartialSeq_exists hsrt hc (hb.inv hsrt hc) num
  obtain ⟨b', rfl, _, h1, h2, h3, _⟩ :=
    (buildPartial_ok hsrt hc (hb.inv hsrt hc) hhi (by omega) hlo).2 out h.outcome
  exact ⟨b', h, h3, h1, h2⟩

/-- C68. Two runs, each on one thread, of the same program (any sequence of pushes and builds, starting from the same
configuration and elements) end with the same builder, and so write the same index file. -/
theorem C68_reproducible (b b1 b2 : Builder E D) (calls : List (BuilderCall E))
    (h1 : RunCalls (fun b c b' => c.RunsSeq srt b b') b calls b1)
    (h2 : RunCalls (fun b c b' => c.RunsSeq srt b b') b calls b2) :
    b1 = b2 ∧ ∀ f start, saveIndex (.fixWidth b1.layers) f start = saveIndex (.fixWidth b2.layers) f start := by
  have key : b1 = b2 := by
    induction h1 with
    | nil b => cases h2; rfl
    | cons b b1 b' c cs hs _ ih =>
      cases h2 with
      | cons _ b1' _ _ _ hs' hr' =>
        have : b1 = b1' := by
          cases hs with
          | push e _ h => cases hs' with | push _ _ h' => rw [h] at h'; simpa using h'
          | buildPartial num _ h => cases hs' with | buildPartial _ _ h' => simpa using h.unique h'
          | build _ h => cases hs' with | build _ h' => simpa using h.unique h'
        subst this
        exact ih hr'
  exact ⟨key, fun f start => by rw [key]⟩

/-- C68. Each of these runs is one the parallel builder could have made. -/
theorem C68_program_is_a_build (b b' : Builder E D) (calls : List (BuilderCall E))
    (h : RunCalls (fun b c b' => c.RunsSeq srt b b') b calls b') :
    RunCalls (fun b c b' => c.Runs srt b b') b calls b' := by
  induction h with
  | nil b => exact .nil b
  | cons b b1 b2 c cs hs _ ih =>
    refine .cons b b1 b2 c cs ?_ ih
    cases hs with
    | push e _ h => exact .push e _ h
    | buildPartial num _ h => exact .buildPartial num _ h.outcome
    | build _ h => exact .build _ h.outcome

/-! ### The parallel build is not reproducible -/

/-- Three elements on the line. -/
def exThree : Elements Int Nat := ⟨[0, 10, 11], fun a b => (a - b).natAbs⟩
/-- One layer, two neighbors per node. -/
def exThreeConfig : BuildConfig Nat := ⟨fun total _ => total, none, 2, 5, false, 0⟩
def exThreeBuilder : Builder Int Nat := ⟨exThree, [], exThreeConfig⟩

theorem exThree_reachable : Reachable exSort exThreeBuilder := .new exThreeConfig exThree _ rfl

theorem exThreeConfig_good : GoodConfig exThreeConfig :=
  ⟨by decide, by decide, ⟨fun t i => by simp [exThreeConfig], fun t i h => by simpa [exThreeConfig] using h,
    fun t => ⟨0, fun i _ => by simp [exThreeConfig]⟩⟩⟩

/-- Runs tasks in a given order of steps. -/
def runSchedule (s : Par) : List Nat → Option Par
  | [] => some s
  | t :: ts => match s.threads[t]? with
    | none => none
    | some p => match p.step s.rows with
      | none => none
      | some (rows', p') => runSchedule ⟨rows', s.threads.set t p'⟩ ts

theorem runSchedule_steps : ∀ (ts : List Nat) (s s' : Par), runSchedule s ts = some s' → Par.Steps s s'
  | [], s, s', h => by simp only [runSchedule, Option.some.injEq] at h; subst h; exact .refl _
  | t :: ts, s, s', h => by
    rw [runSchedule] at h
    rcases Option.eq_none_or_eq_some s.threads[t]? with h1 | ⟨p, h1⟩
    · simp [h1] at h
    · simp only [h1] at h
      rcases Option.eq_none_or_eq_some (p.step s.rows) with h2 | ⟨⟨rows', p'⟩, h2⟩
      · simp [h2] at h
      · simp only [h2] at h
        exact Par.Steps.trans (.tail (.refl _) (.mk s t p p' rows' h1 h2)) (runSchedule_steps ts _ s' h)

def isRet : Prog Unit → Bool
  | .ret _ => true
  | _ => false

theorem isRet_ret : ∀ {p : Prog Unit}, isRet p = true → p = .ret ()
  | .ret _, _ => rfl
  | .fail, h => by cases h
  | .nbrs _ _, h => by cases h
  | .unused _ _, h => by cases h
  | .upd _ _ _, h => by cases h

/-- On one thread. -/
def exThreeSeq : Builder Int Nat := { exThreeBuilder with layers := [⟨2, [[1, 2], [2, 0], [1, 0]]⟩] }
/-- When elements 1 and 2 look for neighbors at the same time. -/
def exThreePar : Builder Int Nat := { exThreeBuilder with layers := [⟨2, [[1, 2], [0, UNUSED], [0, UNUSED]]⟩] }

theorem exThree_seq : BuildPartialSeq exSort exThreeBuilder 3 (some exThreeSeq) := by
  refine .fresh _ (by decide) (by decide) (by decide) rfl (.round _ exThreeSeq _ (by decide) ?_ (.done _ (by decide)))
  have h : indexElementsSeq ⟨2, 5, 0⟩ exThree exSort 3 [] ⟨2, []⟩ false =
      some ⟨2, [[1, 2], [2, 0], [1, 0]]⟩ := by
    have : (indexSeq ⟨2, 5, 0⟩ exThree exSort 3 [] ⟨2, []⟩ false) = some [[1, 2], [2, 0], [1, 0]] := by
      decide +kernel
    rw [indexElementsSeq, if_pos (by decide), this]; rfl
  unfold indexLastSeq
  show (match indexElementsSeq ⟨2, 5, 0⟩ exThree exSort 3 [] ⟨2, []⟩ false with
    | none => none
    | some layer' => _) = _
  rw [h]
  rfl

theorem exThree_par : BuildPartial exSort exThreeBuilder 3 (some exThreePar) := by
  refine .fresh _ (by decide) (by decide) (by decide) rfl (.round _ exThreePar _ (by decide) ?_ (.done _ (by decide)))
  have h : ∃ s, runSchedule (indexPar ⟨2, 5, 0⟩ exThree exSort 3 [] ⟨2, []⟩ false)
      [1, 2, 0, 0, 0, 1, 1, 1, 2, 2, 2] = some s ∧ s.threads.all isRet = true ∧
      limitPass ⟨2, 5, 0⟩ exThree exSort s.rows = some [[1, 2], [0, UNUSED], [0, UNUSED]] := by
    have h1 : (runSchedule (indexPar ⟨2, 5, 0⟩ exThree exSort 3 [] ⟨2, []⟩ false)
      [1, 2, 0, 0, 0, 1, 1, 1, 2, 2, 2]).map (fun s => (s.threads.all isRet, limitPass ⟨2, 5, 0⟩ exThree exSort s.rows)) =
        some (true, some [[1, 2], [0, UNUSED], [0, UNUSED]]) := by decide +kernel
    obtain ⟨s, h2, h3⟩ := Option.map_eq_some_iff.1 h1
    exact ⟨s, h2, (Prod.mk.inj h3).1, (Prod.mk.inj h3).2⟩
  obtain ⟨s, h1, h2, h3⟩ := h
  have hd := IndexElements.done (cfg := (⟨2, 5, 0⟩ : LayerConfig Nat)) (es := exThree) (srt := exSort) (num := 3)
    (prev := []) (layer := ⟨2, []⟩) (reinsert := false) s (by decide) (runSchedule_steps _ _ _ h1)
    (fun p hp => isRet_ret (List.all_eq_true.1 h2 p hp))
  rw [h3] at hd
  exact .once [] ⟨2, []⟩ ⟨2, [[1, 2], [0, UNUSED], [0, UNUSED]]⟩ rfl (by decide) hd rfl

/-- C68. The parallel build is not reproducible: there are elements and a configuration (three points on the line,
one layer) for which two runs of the same `build()` can end with different neighbors and different index files. -/
theorem C68_parallel_differs : ∃ (b b1 b2 : Builder Int Nat), Reachable exSort b ∧ GoodConfig b.config ∧
    Build exSort b (some b1) ∧ Build exSort b (some b2) ∧
    (b1.graphs.map fun g => g[1]?) ≠ (b2.graphs.map fun g => g[1]?) ∧
    saveIndex (.fixWidth b1.layers) [] 0 ≠ saveIndex (.fixWidth b2.layers) [] 0 := by
  refine ⟨exThreeBuilder, exThreeSeq, exThreePar, exThree_reachable, exThreeConfig_good, exThree_seq.outcome,
    exThree_par, by decide, ?_⟩
  decide +kernel

/-- The hypotheses of the theorems above are met: a program that pushes a fourth point and builds twice, on one
thread. -/
example : ∃ b, RunCalls (fun b c b' => c.RunsSeq exSort b b') exThreeBuilder
    [.build, .push 5, .buildPartial 4] b ∧ lastLen b.layers = 4 := by
  have hr : Reachable exSort { exThreeSeq with elements := { exThree with data := [0, 10, 11, 5] } } :=
    .push _ _ 5 (.build _ _ 3 exThree_reachable exThree_seq.outcome) rfl
  obtain ⟨b', h1, h2, _⟩ := C68_returns exSort_sorts _ hr exThreeConfig_good 4 (by decide) (by decide) (by decide)
  exact ⟨b', .cons _ exThreeSeq _ _ _ (.build _ exThree_seq) (.cons _ _ _ _ _ (.push 5 _ rfl)
    (.cons _ _ _ _ _ (.buildPartial 4 _ h1) (.nil _))), h2⟩

end Granne
