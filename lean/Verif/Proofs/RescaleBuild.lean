import Verif.Proofs.Rescale
import Mathlib.Data.Set.List
import Mathlib.Data.List.Sort
import Mathlib.Data.List.Perm.Basic

/-! Whole builds with transformed distances, and functions between the distances of two containers. -/
namespace Granne
open List

variable {E D D' : Type} [LinearOrder D] [LinearOrder D'] {f : D → D'}
variable {srt : List (Nat × D) → List (Nat × D)} {srt' : List (Nat × D') → List (Nat × D')}

/-- A builder with its distances and its threshold transformed. -/
def Builder.lift (f : D → D') (b : Builder E D) : Builder E D' :=
  ⟨b.elements.lift f, b.layers, ⟨b.config.schedule, b.config.expectedNumElements, b.config.numNeighbors,
    b.config.maxSearch, b.config.reinsertElements, f b.config.eps⟩⟩

theorem addLayer_lift (b : Builder E D) : (b.lift f).addLayer = b.addLayer.lift f := rfl

theorem indexLast_lift (hf : StrictMono f) (hs : SortLift f srt srt') (b : Builder E D) (n : Nat)
    (out : Option (Builder E D)) (h : IndexLast srt b n out) :
    IndexLast srt' (b.lift f) n (out.map (Builder.lift f)) := by
  cases h with
  | noLayer h => exact .noLayer h
  | nothing h1 h2 => exact .nothing h1 h2
  | firstPanics upper layer h1 h2 h3 =>
    exact .firstPanics upper layer h1 h2 ((indexElements_lift hf hs _ _ _ _ _ _ _).2 h3)
  | once upper layer layer' h1 h2 h3 h4 =>
    exact .once (b := b.lift f) upper layer layer' h1 h2 ((indexElements_lift hf hs _ _ _ _ _ _ _).2 h3) h4
  | twice upper layer layer' out h1 h2 h3 h4 h5 =>
    have := IndexLast.twice (b := b.lift f) (srt := srt') (maxNum := n) upper layer layer' out h1 h2
      ((indexElements_lift hf hs _ _ _ _ _ _ _).2 h3) h4 ((indexElements_lift hf hs _ _ _ _ _ _ _).2 h5)
    cases out <;> exact this

theorem indexLast_unlift (hf : StrictMono f) (hs : SortLift f srt srt') (b : Builder E D) (n : Nat)
    (out' : Option (Builder E D')) (h : IndexLast srt' (b.lift f) n out') :
    ∃ out, IndexLast srt b n out ∧ out' = out.map (Builder.lift f) := by
  cases h with
  | noLayer h => exact ⟨none, .noLayer h, rfl⟩
  | nothing h1 h2 => exact ⟨some b, .nothing h1 h2, rfl⟩
  | firstPanics upper layer h1 h2 h3 =>
    exact ⟨none, .firstPanics upper layer h1 h2 ((indexElements_lift hf hs _ _ _ _ _ _ _).1 h3), rfl⟩
  | once upper layer layer' h1 h2 h3 h4 =>
    exact ⟨_, .once (b := b) upper layer layer' h1 h2
      ((indexElements_lift hf hs (b.layerConfig (b.ideal b.layers.length)) _ _ _ _ _ _).1 h3) h4, rfl⟩
  | twice upper layer layer' out h1 h2 h3 h4 h5 =>
    refine ⟨_, .twice (b := b) upper layer layer' out h1 h2
      ((indexElements_lift hf hs (b.layerConfig (b.ideal b.layers.length)) _ _ _ _ _ _).1 h3) h4
      ((indexElements_lift hf hs (b.layerConfig (b.ideal b.layers.length)).forReinsert _ _ _ _ _ _).1 h5), ?_⟩
    cases out <;> rfl

theorem buildLoop_lift (hf : StrictMono f) (hs : SortLift f srt srt') {n : Nat} {b : Builder E D}
    {out : Option (Builder E D)} (h : BuildLoop srt n b out) :
    BuildLoop srt' n (b.lift f) (out.map (Builder.lift f)) := by
  induction h with
  | done b h => exact .done _ h
  | panic b h1 h2 =>
    have := indexLast_lift hf hs _ _ _ h2
    exact .panic (b.lift f) h1 this
  | round b b' out h1 h2 _ ih => exact .round _ _ _ h1 (indexLast_lift hf hs _ _ _ h2) ih

theorem buildLoop_unlift (hf : StrictMono f) (hs : SortLift f srt srt') {n : Nat} {B : Builder E D'}
    {out' : Option (Builder E D')} (h : BuildLoop srt' n B out') :
    ∀ b : Builder E D, B = b.lift f → ∃ out, BuildLoop srt n b out ∧ out' = out.map (Builder.lift f) := by
  induction h with
  | done B h => rintro b rfl; exact ⟨some b, .done b h, rfl⟩
  | panic B h1 h2 =>
    rintro b rfl
    obtain ⟨out, h3, h4⟩ := indexLast_unlift hf hs b.addLayer n none h2
    cases out with
    | some o => exact absurd h4 (by simp)
    | none => exact ⟨none, .panic b h1 h3, rfl⟩
  | round B B' out' h1 h2 _ ih =>
    rintro b rfl
    obtain ⟨out, h3, h4⟩ := indexLast_unlift hf hs b.addLayer n (some B') h2
    cases out with
    | none => exact absurd h4 (by simp)
    | some b' =>
      obtain ⟨out, h5, h6⟩ := ih b' (by simpa using h4)
      exact ⟨out, .round b b' out h1 h3 h5, h6⟩

theorem buildPartial_lift (hf : StrictMono f) (hs : SortLift f srt srt') (b : Builder E D) (n : Nat)
    (out : Option (Builder E D)) (h : BuildPartial srt b n out) :
    BuildPartial srt' (b.lift f) n (out.map (Builder.lift f)) := by
  cases h with
  | zero h => exact .zero h
  | fewer h1 h2 => exact .fewer h1 h2
  | more h1 h2 h3 => exact .more h1 h2 h3
  | fresh out h1 h2 h3 h4 h5 => exact .fresh _ h1 h2 h3 h4 (buildLoop_lift hf hs h5)
  | lastPanics h1 h2 h3 h4 h5 => exact .lastPanics h1 h2 h3 h4 (indexLast_lift hf hs _ _ _ h5)
  | «continue» b' out h1 h2 h3 h4 h5 h6 =>
    exact .continue _ _ h1 h2 h3 h4 (indexLast_lift hf hs _ _ _ h5) (buildLoop_lift hf hs h6)

theorem buildPartial_unlift (hf : StrictMono f) (hs : SortLift f srt srt') (b : Builder E D) (n : Nat)
    (out' : Option (Builder E D')) (h : BuildPartial srt' (b.lift f) n out') :
    ∃ out, BuildPartial srt b n out ∧ out' = out.map (Builder.lift f) := by
  cases h with
  | zero h => exact ⟨some b, .zero h, rfl⟩
  | fewer h1 h2 => exact ⟨none, .fewer h1 h2, rfl⟩
  | more h1 h2 h3 => exact ⟨none, .more h1 h2 h3, rfl⟩
  | fresh out' h1 h2 h3 h4 h5 =>
    obtain ⟨out, h6, h7⟩ := buildLoop_unlift hf hs h5 b rfl
    exact ⟨out, .fresh out h1 h2 h3 h4 h6, h7⟩
  | lastPanics h1 h2 h3 h4 h5 =>
    obtain ⟨out, h6, h7⟩ := indexLast_unlift hf hs b n none h5
    cases out with
    | some o => exact absurd h7 (by simp)
    | none => exact ⟨none, .lastPanics h1 h2 h3 h4 h6, rfl⟩
  | «continue» B' out' h1 h2 h3 h4 h5 h6 =>
    obtain ⟨out, h7, h8⟩ := indexLast_unlift hf hs b n (some B') h5
    cases out with
    | none => exact absurd h8 (by simp)
    | some b' =>
      obtain ⟨out, h9, h10⟩ := buildLoop_unlift hf hs h6 b' (by simpa using h8)
      exact ⟨out, .continue b' out h1 h2 h3 h4 h7 h9, h10⟩

theorem push_builder_lift (b : Builder E D) (e : E) : (b.lift f).push e = (b.push e).map (Builder.lift f) := by
  unfold Builder.push
  show (if b.elements.data.length < UNUSED - 1 then _ else _) = _
  split <;> rfl

theorem runs_lift (hf : StrictMono f) (hs : SortLift f srt srt') (b b' : Builder E D) (c : BuilderCall E)
    (h : c.Runs srt b b') : c.Runs srt' (b.lift f) (b'.lift f) := by
  cases h with
  | push e b' h => exact .push e _ (by rw [push_builder_lift, h]; rfl)
  | buildPartial n b' h => exact .buildPartial n _ (buildPartial_lift hf hs b n (some b') h)
  | build b' h => exact .build _ (buildPartial_lift hf hs b _ (some b') h)

theorem runs_unlift (hf : StrictMono f) (hs : SortLift f srt srt') (b : Builder E D) (B : Builder E D')
    (c : BuilderCall E) (h : c.Runs srt' (b.lift f) B) : ∃ b', c.Runs srt b b' ∧ B = b'.lift f := by
  have key : ∀ n, BuildPartial srt' (b.lift f) n (some B) → ∃ b', BuildPartial srt b n (some b') ∧ B = b'.lift f := by
    intro n h
    obtain ⟨out, h1, h2⟩ := buildPartial_unlift hf hs b n _ h
    cases out with
    | none => exact absurd h2 (by simp)
    | some b' => exact ⟨b', h1, by simpa using h2⟩
  cases h with
  | push e _ h =>
    rw [push_builder_lift] at h
    obtain ⟨b', h1, h2⟩ := Option.map_eq_some_iff.1 h
    exact ⟨b', .push e b' h1, h2.symm⟩
  | buildPartial n _ h =>
    obtain ⟨b', h1, h2⟩ := key n h
    exact ⟨b', .buildPartial n b' h1, h2⟩
  | build _ h =>
    obtain ⟨b', h1, h2⟩ := key _ h
    exact ⟨b', .build b' h1, h2⟩

theorem runCalls_lift (hf : StrictMono f) (hs : SortLift f srt srt') {b b' : Builder E D}
    {cs : List (BuilderCall E)} (h : RunCalls (fun b c b' => c.Runs srt b b') b cs b') :
    RunCalls (fun b c b' => c.Runs srt' b b') (b.lift f) cs (b'.lift f) := by
  induction h with
  | nil b => exact .nil _
  | cons b b1 b2 c cs h1 _ ih => exact .cons _ _ _ c cs (runs_lift hf hs b b1 c h1) ih

theorem runCalls_unlift (hf : StrictMono f) (hs : SortLift f srt srt') {B B' : Builder E D'}
    {cs : List (BuilderCall E)} (h : RunCalls (fun b c b' => c.Runs srt' b b') B cs B') :
    ∀ b : Builder E D, B = b.lift f →
      ∃ b', RunCalls (fun b c b' => c.Runs srt b b') b cs b' ∧ B' = b'.lift f := by
  induction h with
  | nil B => intro b h; exact ⟨b, .nil b, h⟩
  | cons B B1 B2 c cs h1 _ ih =>
    rintro b rfl
    obtain ⟨b1, h2, h3⟩ := runs_unlift hf hs b B1 c h1
    obtain ⟨b2, h4, h5⟩ := ih b1 h3
    exact ⟨b2, .cons b b1 b2 c cs h2 h4, h5⟩

/-! ### On one thread -/

theorem indexElementsSeq_lift (hf : StrictMono f) (hs : SortLift f srt srt') (cfg : LayerConfig D) (es : Elements E D)
    (num : Nat) (prev : List Graph) (layer : Layer) (r : Bool) :
    indexElementsSeq (cfg.lift f) (es.lift f) srt' num prev layer r = indexElementsSeq cfg es srt num prev layer r := by
  unfold indexElementsSeq indexSeq
  rw [indexPar_lift hf hs]
  simp only [limitPass_lift hf hs]

theorem indexLastSeq_lift (hf : StrictMono f) (hs : SortLift f srt srt') (b : Builder E D) (n : Nat) :
    indexLastSeq srt' (b.lift f) n = (indexLastSeq srt b n).map (Builder.lift f) := by
  have h1 := indexElementsSeq_lift hf hs (b.layerConfig (b.ideal b.layers.length)) b.elements
    (min n (b.ideal b.layers.length)) (b.layers.dropLast.map fun l => graphOf l.rows)
  have h2 := indexElementsSeq_lift hf hs (b.layerConfig (b.ideal b.layers.length)).forReinsert b.elements
    (min n (b.ideal b.layers.length)) (b.layers.dropLast.map fun l => graphOf l.rows)
  unfold indexLastSeq
  show (match b.layers.getLast? with
    | none => none
    | some layer => _) = _
  cases b.layers.getLast? with
  | none => rfl
  | some layer =>
    simp only
    show (if b.ideal b.layers.length ≤ layer.rows.length then some (b.lift f) else
      match indexElementsSeq ((b.layerConfig (b.ideal b.layers.length)).lift f) (b.elements.lift f) srt'
        (min n (b.ideal b.layers.length)) (b.layers.dropLast.map fun l => graphOf l.rows) layer false with
      | none => none
      | some layer' =>
        if b.config.reinsertElements then
          (indexElementsSeq ((b.layerConfig (b.ideal b.layers.length)).forReinsert.lift f) (b.elements.lift f) srt'
            (min n (b.ideal b.layers.length)) (b.layers.dropLast.map fun l => graphOf l.rows) layer' true).map
            fun l => { b.lift f with layers := b.layers.dropLast ++ [l] }
        else some { b.lift f with layers := b.layers.dropLast ++ [layer'] }) = _
    rw [h1]
    split
    · rfl
    · cases indexElementsSeq (b.layerConfig (b.ideal b.layers.length)) b.elements srt
        (min n (b.ideal b.layers.length)) (b.layers.dropLast.map fun l => graphOf l.rows) layer false with
      | none => rfl
      | some layer' =>
        simp only
        rw [h2]
        split
        · cases indexElementsSeq (b.layerConfig (b.ideal b.layers.length)).forReinsert b.elements srt
            (min n (b.ideal b.layers.length)) (b.layers.dropLast.map fun l => graphOf l.rows) layer' true <;> rfl
        · rfl

theorem buildLoopSeq_lift (hf : StrictMono f) (hs : SortLift f srt srt') {n : Nat} {b : Builder E D}
    {out : Option (Builder E D)} (h : BuildLoopSeq srt n b out) :
    BuildLoopSeq srt' n (b.lift f) (out.map (Builder.lift f)) := by
  induction h with
  | done b h => exact .done _ h
  | panic b h1 h2 =>
    have := indexLastSeq_lift hf hs b.addLayer n
    rw [h2] at this
    exact .panic (b.lift f) h1 this
  | round b b' out h1 h2 _ ih =>
    have := indexLastSeq_lift hf hs b.addLayer n
    rw [h2] at this
    exact .round (b.lift f) _ _ h1 this ih

theorem buildPartialSeq_lift (hf : StrictMono f) (hs : SortLift f srt srt') (b : Builder E D) (n : Nat)
    (out : Option (Builder E D)) (h : BuildPartialSeq srt b n out) :
    BuildPartialSeq srt' (b.lift f) n (out.map (Builder.lift f)) := by
  cases h with
  | zero h => exact .zero h
  | fewer h1 h2 => exact .fewer h1 h2
  | more h1 h2 h3 => exact .more h1 h2 h3
  | fresh out h1 h2 h3 h4 h5 => exact .fresh _ h1 h2 h3 h4 (buildLoopSeq_lift hf hs h5)
  | lastPanics h1 h2 h3 h4 h5 => exact .lastPanics h1 h2 h3 h4 (by rw [indexLastSeq_lift hf hs, h5]; rfl)
  | «continue» b' out h1 h2 h3 h4 h5 h6 =>
    exact .continue _ _ h1 h2 h3 h4 (by rw [indexLastSeq_lift hf hs, h5]; rfl) (buildLoopSeq_lift hf hs h6)

theorem runCallsSeq_lift (hf : StrictMono f) (hs : SortLift f srt srt') {b b' : Builder E D}
    {cs : List (BuilderCall E)} (h : RunCalls (fun b c b' => c.RunsSeq srt b b') b cs b') :
    RunCalls (fun b c b' => c.RunsSeq srt' b b') (b.lift f) cs (b'.lift f) := by
  induction h with
  | nil b => exact .nil _
  | cons b b1 b2 c cs h1 _ ih =>
    refine .cons _ _ _ c cs ?_ ih
    cases h1 with
    | push e b' h => exact .push e _ (by rw [push_builder_lift, h]; rfl)
    | buildPartial n b' h => exact .buildPartial n _ (buildPartialSeq_lift hf hs b n (some b1) h)
    | build b' h => exact .build _ (buildPartialSeq_lift hf hs b _ (some b1) h)

theorem buildLoopSeq_unlift (hf : StrictMono f) (hs : SortLift f srt srt') {n : Nat} {B : Builder E D'}
    {out' : Option (Builder E D')} (h : BuildLoopSeq srt' n B out') :
    ∀ b : Builder E D, B = b.lift f → ∃ out, BuildLoopSeq srt n b out ∧ out' = out.map (Builder.lift f) := by
  induction h with
  | done B h => rintro b rfl; exact ⟨some b, .done b h, rfl⟩
  | panic B h1 h2 =>
    rintro b rfl
    rw [addLayer_lift, indexLastSeq_lift hf hs] at h2
    exact ⟨none, .panic b h1 (Option.map_eq_none_iff.1 h2), rfl⟩
  | round B B' out' h1 h2 _ ih =>
    rintro b rfl
    rw [addLayer_lift, indexLastSeq_lift hf hs] at h2
    obtain ⟨b', h3, h4⟩ := Option.map_eq_some_iff.1 h2
    obtain ⟨out, h5, h6⟩ := ih b' h4.symm
    exact ⟨out, .round b b' out h1 h3 h5, h6⟩

theorem buildPartialSeq_unlift (hf : StrictMono f) (hs : SortLift f srt srt') (b : Builder E D) (n : Nat)
    (out' : Option (Builder E D')) (h : BuildPartialSeq srt' (b.lift f) n out') :
    ∃ out, BuildPartialSeq srt b n out ∧ out' = out.map (Builder.lift f) := by
  cases h with
  | zero h => exact ⟨some b, .zero h, rfl⟩
  | fewer h1 h2 => exact ⟨none, .fewer h1 h2, rfl⟩
  | more h1 h2 h3 => exact ⟨none, .more h1 h2 h3, rfl⟩
  | fresh out' h1 h2 h3 h4 h5 =>
    obtain ⟨out, h6, h7⟩ := buildLoopSeq_unlift hf hs h5 b rfl
    exact ⟨out, .fresh out h1 h2 h3 h4 h6, h7⟩
  | lastPanics h1 h2 h3 h4 h5 =>
    rw [indexLastSeq_lift hf hs] at h5
    exact ⟨none, .lastPanics h1 h2 h3 h4 (Option.map_eq_none_iff.1 h5), rfl⟩
  | «continue» B' out' h1 h2 h3 h4 h5 h6 =>
    rw [indexLastSeq_lift hf hs] at h5
    obtain ⟨b', h7, h8⟩ := Option.map_eq_some_iff.1 h5
    obtain ⟨out, h9, h10⟩ := buildLoopSeq_unlift hf hs h6 b' h8.symm
    exact ⟨out, .continue b' out h1 h2 h3 h4 h7 h9, h10⟩

theorem runsSeq_unlift (hf : StrictMono f) (hs : SortLift f srt srt') (b : Builder E D) (B : Builder E D')
    (c : BuilderCall E) (h : c.RunsSeq srt' (b.lift f) B) : ∃ b', c.RunsSeq srt b b' ∧ B = b'.lift f := by
  have key : ∀ n, BuildPartialSeq srt' (b.lift f) n (some B) →
      ∃ b', BuildPartialSeq srt b n (some b') ∧ B = b'.lift f := by
    intro n h
    obtain ⟨out, h1, h2⟩ := buildPartialSeq_unlift hf hs b n _ h
    cases out with
    | none => exact absurd h2 (by simp)
    | some b' => exact ⟨b', h1, by simpa using h2⟩
  cases h with
  | push e _ h =>
    rw [push_builder_lift] at h
    obtain ⟨b', h1, h2⟩ := Option.map_eq_some_iff.1 h
    exact ⟨b', .push e b' h1, h2.symm⟩
  | buildPartial n _ h =>
    obtain ⟨b', h1, h2⟩ := key n h
    exact ⟨b', .buildPartial n b' h1, h2⟩
  | build _ h =>
    obtain ⟨b', h1, h2⟩ := key _ h
    exact ⟨b', .build b' h1, h2⟩

theorem runCallsSeq_unlift (hf : StrictMono f) (hs : SortLift f srt srt') {B B' : Builder E D'}
    {cs : List (BuilderCall E)} (h : RunCalls (fun b c b' => c.RunsSeq srt' b b') B cs B') :
    ∀ b : Builder E D, B = b.lift f →
      ∃ b', RunCalls (fun b c b' => c.RunsSeq srt b b') b cs b' ∧ B' = b'.lift f := by
  induction h with
  | nil B => intro b h; exact ⟨b, .nil b, h⟩
  | cons B B1 B2 c cs h1 _ ih =>
    rintro b rfl
    obtain ⟨b1, h2, h3⟩ := runsSeq_unlift hf hs b B1 c h1
    obtain ⟨b2, h4, h5⟩ := ih b1 h3
    exact ⟨b2, .cons b b1 b2 c cs h2 h4, h5⟩

/-! ### Sorting functions -/

theorem onDist_injective (hf : StrictMono f) : Function.Injective (onDist f) := by
  rintro ⟨i, d⟩ ⟨j, e⟩ h
  simp only [onDist, Prod.mk.injEq] at h
  rw [h.1, hf.injective h.2]

/-- A way of sorting on the larger type of distances is one on the smaller. -/
theorem exists_sort_down (hf : StrictMono f) (hs' : IsSortByDist srt') : ∃ srt, IsSortByDist srt ∧ SortLift f srt srt' := by
  have h : ∀ l : List (Nat × D), ∃ m : List (Nat × D), m.map (onDist f) = srt' (l.map (onDist f)) := by
    intro l
    have : srt' (l.map (onDist f)) ∈ Set.range (List.map (onDist f)) := by
      rw [Set.range_list_map]
      intro x hx
      obtain ⟨y, _, hy⟩ := List.mem_map.1 ((hs' _).1.mem_iff.1 hx)
      exact ⟨y, hy⟩
    exact this
  choose srt hsrt using h
  refine ⟨srt, fun l => ⟨?_, ?_⟩, fun l => (hsrt l).symm⟩
  · rw [← List.map_perm_map_iff (onDist_injective hf), hsrt]
    exact (hs' _).1
  · rw [← pairwise_lift hf, hsrt]
    exact (hs' _).2

/-- A way of sorting on the smaller type of distances extends to the larger. -/
theorem exists_sort_up (hf : StrictMono f) (hs : IsSortByDist srt) : ∃ srt', IsSortByDist srt' ∧ SortLift f srt srt' := by
  classical
  refine ⟨fun l => if h : ∃ m : List (Nat × D), m.map (onDist f) = l then (srt h.choose).map (onDist f)
    else l.insertionSort fun a b => a.2 ≤ b.2, fun l => ?_, fun l => ?_⟩
  · by_cases h : ∃ m : List (Nat × D), m.map (onDist f) = l
    · simp only [h, dif_pos]
      refine ⟨?_, (pairwise_lift hf _).2 (hs _).2⟩
      have := (hs h.choose).1.map (onDist f)
      rwa [h.choose_spec] at this
    · simp only [h, dif_neg, not_false_eq_true]
      have : Std.Total (fun a b : Nat × D' => a.2 ≤ b.2) := ⟨fun a b => le_total a.2 b.2⟩
      have : IsTrans (Nat × D') (fun a b : Nat × D' => a.2 ≤ b.2) := ⟨fun a b c h1 h2 => le_trans h1 h2⟩
      exact ⟨List.perm_insertionSort _ l, List.pairwise_insertionSort _ l⟩
  · have h : ∃ m : List (Nat × D), m.map (onDist f) = l.map (onDist f) := ⟨l, rfl⟩
    simp only [h, dif_pos]
    have := h.choose_spec
    rw [List.map_injective_iff.2 (onDist_injective hf) this]

/-! ### Two families of distances in the same order -/

section
variable {ι : Type} (h : ι → D) (h' : ι → D')

/-- The function from the distances of the first family to those of the second. -/
noncomputable def toOther (d : Set.range h) : D' := h' d.2.choose

variable {h h'} (ho : ∀ i j, h' i < h' j ↔ h i < h j)
include ho

theorem toOther_eq (i : ι) : toOther h h' ⟨h i, Set.mem_range_self i⟩ = h' i := by
  unfold toOther
  set j := (⟨h i, Set.mem_range_self i⟩ : Set.range h).2.choose with hj
  have hji : h j = h i := (⟨h i, Set.mem_range_self i⟩ : Set.range h).2.choose_spec
  apply le_antisymm
  · rw [← not_lt, ho, hji]
    exact lt_irrefl _
  · rw [← not_lt, ho, hji]
    exact lt_irrefl _

theorem toOther_strictMono : StrictMono (toOther h h') := by
  rintro ⟨_, i, rfl⟩ ⟨_, j, rfl⟩ hij
  have h1 := toOther_eq ho i
  have h2 := toOther_eq ho j
  show toOther h h' ⟨h i, Set.mem_range_self i⟩ < toOther h h' ⟨h j, Set.mem_range_self j⟩
  rw [h1, h2, ho]
  exact hij

end

theorem val_strictMono (S : Set D) : StrictMono (Subtype.val : S → D) := fun _ _ h => h

end Granne
