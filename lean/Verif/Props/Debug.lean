import Verif.Proofs.Debug
import Verif.Props.Sequential
import Verif.Props.Storage

/-!
C83: builds with debug assertions. `…Debug` is the function in such a build, the name without it the one in a release
build; `none` is a panic.
-/
namespace Granne
open Spec

/-! ### Storage -/

/-- C83. Writing neighbor lists (of `u32` ids) into a compressed layer: a debug build stores exactly what a release build
stores if every list has fewer than 255 ids, and panics otherwise. -/
theorem C83_push_lists (lists : List (List Nat)) :
    SetVec.new.pushAllDebug lists =
      if ∀ l ∈ lists, l.length < 255 then SetVec.new.pushAll lists else none :=
  SetRepr.new.pushAllDebug lists

/-- C83. Reading them back: in a debug build, whichever build wrote the layer, a list of fewer than 255 ids comes back
sorted and complete, as in a release build (C11). No assertion is violated, and no addition overflows. -/
theorem C83_read_lists (lists : List (List Nat)) (hids : ∀ l ∈ lists, ∀ n ∈ l, n < 2 ^ 32) (v : SetVec)
    (hv : SetVec.new.pushAll lists = some v) (i : Nat) (l : List Nat) (hi : lists[i]? = some l)
    (hlen : l.length < 255) :
    v.getDebug i = v.get i ∧ ∃ s : List Nat, s.Perm l ∧ s.Pairwise (· ≤ ·) ∧ v.getDebug i = some s := by
  obtain ⟨v', h1, h2⟩ := SetRepr.new.pushAll lists
  obtain rfl : v' = v := by rw [h1] at hv; exact Option.some.inj hv
  have hb : ([] ++ lists.map fun l => setEncode (sortIds l))[i]? = some (setEncode (sortIds l)) := by simp [hi]
  have hu := hids l (List.mem_of_getElem? hi)
  have h3 := get_encodedDebug h2 hb hu hlen
  have h4 := get_encoded h2 hb hu
  rw [List.take_of_length_le (by rw [(sortIds_perm l).length_eq]; omega)] at h4
  exact ⟨by rw [h3, h4], _, sortIds_perm l, sortIds_sorted l, h3⟩

/-- C83. The table of offsets: for the offsets of C12 every lookup that a release build answers a debug build answers, in
the same way, and it accepts the same next offsets. -/
theorem C83_offsets (offs : List Nat) (hs : List.IsChain (fun a b => a ≤ b ∧ b - a < 65535) (0 :: offs)) (o : Offsets)
    (ho : Offsets.new.pushAll offs = some o) :
    (∀ (i x : Nat), offs[i]? = some x → o.getDebug i = some x) ∧
    (∀ (i x y : Nat), offs[i]? = some x → offs[i + 1]? = some y → o.getConsecutiveDebug i = some (x, y)) ∧
    ∀ x, o.pushDebug x = o.push x := by
  obtain ⟨o', h1, h2⟩ := OffRepr.new.pushAll (p := 0) (Or.inr ⟨rfl, by simp [Offsets.new, Chunk.new]⟩) hs
  obtain rfl : o' = o := by rw [h1] at ho; exact Option.some.inj ho
  rw [List.nil_append] at h2
  refine ⟨fun i x hi => h2.getDebug hi, fun i x y hi hj => ?_, h2.pushDebug⟩
  rw [h2.getConsecutiveDebug hi hj, h2.getConsecutive hi hj]

/-- C83. A lookup behind the last offset: within the last chunk a release build answers with a number that was never
stored, a debug build panics. -/
theorem C83_offsets_behind : ∃ o, Offsets.new.pushAll [0, 5, 9] = some o ∧ o.get 3 = some 65544 ∧ o.getDebug 3 = none := by
  refine ⟨(Offsets.new.pushAll [0, 5, 9]).get (by decide +kernel), by simp, ?_⟩
  decide +kernel

/-- C83. Vectors of a fixed width: `get` and `get_mut` panic in a debug build where they panic in a release build, and
otherwise give the same, unless the width is 0; then a release build answers with an empty slice for every index, and a
debug build always panics. -/
theorem C83_fixed_width {T : Type} (v : FixVec T) (idx : Nat) (row : List T) :
    (0 < v.width → v.getDebug idx = v.get idx ∧ v.setRowDebug idx row = v.setRow idx row) ∧
    (v.width = 0 → v.get idx = some [] ∧ v.getDebug idx = none ∧ v.setRowDebug idx row = none) := by
  unfold FixVec.getDebug FixVec.setRowDebug FixVec.get FixVec.setRow FixVec.len
  constructor
  · intro hw
    rw [if_pos hw]
    have key : idx < v.data.length / v.width ↔ (idx + 1) * v.width ≤ v.data.length := by
      rw [Nat.lt_iff_add_one_le, Nat.le_div_iff_mul_le hw]
    have key2 : idx * v.width + v.width = (idx + 1) * v.width := by ring
    rw [key2]
    by_cases h : (idx + 1) * v.width ≤ v.data.length
    · rw [if_pos (key.2 h), if_pos (key.2 h)]; exact ⟨rfl, rfl⟩
    · rw [if_neg fun hc => h (key.1 hc), if_neg fun hc => h (key.1 hc), if_neg h, if_neg fun hc => h hc.1]
      exact ⟨rfl, rfl⟩
  · intro hw
    simp [hw]

/-! ### Building -/

variable {E D : Type} [LinearOrder D] {srt : List (Nat × D) → List (Nat × D)}

/-- C83. On one thread a debug build of `index_elements` does exactly what a release build does. -/
theorem C83_one_thread (cfg : LayerConfig D) (es : Elements E D) (num : Nat) (prev : List Graph) (layer : Layer)
    (reinsert : Bool) :
    indexElementsSeqDebug cfg es srt num prev layer reinsert = indexElementsSeq cfg es srt num prev layer reinsert :=
  indexElementsSeqDebug_eq cfg es srt num prev layer reinsert

/-- C83. On any number of threads a debug build that returns, returns what a release build can return: everything
proved about the outcomes of `build_partial` holds for it. -/
theorem C83_returns_a_build (b b' : Builder E D) (num : Nat) (h : BuildPartialDebug srt b num (some b')) :
    BuildPartial srt b num (some b') := h.release

/-- C83. On one thread a debug build of a legal `build_partial` returns, with the first `num` elements indexed, and with
what the release build returns on one thread; so in a debug build, too, some schedule of the threads leads to a result. -/
theorem C83_one_thread_returns (hsrt : IsSortByDist srt) (b : Builder E D) (hb : Reachable srt b)
    (hc : GoodConfig b.config) (num : Nat) (h0 : 1 ≤ num) (hlo : lastLen b.layers ≤ num)
    (hhi : num ≤ b.elements.data.length) :
    ∃ b', BuildPartialSeq srt b num (some b') ∧ BuildPartialDebug srt b num (some b') ∧ lastLen b'.layers = num := by
  obtain ⟨b', h1, h2, _⟩ := C68_returns hsrt b hb hc num h0 hlo hhi
  exact ⟨b', h1, h1.debug, h2⟩

/-- C83. If the release build of a layer cannot panic (C18), the only thing at which its debug build can panic is the
assertion of `initialize_node`: at some moment before, the task of some element was about to check that the row of its
element is still empty, and it was not. -/
theorem C83_only_this_assertion (cfg : LayerConfig D) (es : Elements E D) (num : Nat) (prev : List Graph) (layer : Layer)
    (reinsert : Bool) (hok : ¬ IndexElements cfg es srt num prev layer reinsert none)
    (h : IndexElementsDebug cfg es srt num prev layer reinsert none) :
    ∃ (u : Par) (i idx : Nat) (k : Bool → Prog Unit),
      Par.Steps (indexParDebug cfg es srt num prev layer reinsert) u ∧
      (indexStart num layer reinsert).2[i]? = some idx ∧ u.threads[i]? = some (.unused idx k) ∧ k false = .fail ∧
      ¬ ∃ rest, u.rows[idx]? = some (UNUSED :: rest) := by
  have hsim := indexParDebug_asserting cfg es srt num prev layer reinsert
  generalize ho : none = out at h
  cases h with
  | tooMany h1 => exact absurd (.tooMany h1) hok
  | panic s h1 h2 h3 =>
    rcases hsim.steps h2 with ⟨t, h4, h5⟩ | ⟨_, u, h4, _, i, idx, p, h6, h7, k, rfl, h8, h9⟩
    · exact absurd (.panic t h1 h4 (h5.panicked h3)) hok
    · exact ⟨u, i, idx, k, h4, h6, h7, h8, h9⟩
  | done s h1 h2 h3 =>
    rcases hsim.steps h2 with ⟨t, h4, h5⟩ | ⟨⟨p, hp, h4⟩, _⟩
    · refine absurd ?_ hok
      have := IndexElements.done (cfg := cfg) (es := es) (srt := srt) (prev := prev) (reinsert := reinsert) t h1 h4
        (h5.done h3)
      rw [← h5.rows] at this
      rwa [← ho] at this
    · rw [h3 p hp] at h4; cases h4

/-- Two elements on the line, one layer. -/
def exTwoBuilder : Builder Int Nat := ⟨⟨[0, 10], fun a b => (a - b).natAbs⟩, [], exThreeConfig⟩

theorem exTwo_reachable : Reachable exSort exTwoBuilder :=
  .new exThreeConfig exTwoBuilder.elements _ rfl

theorem exTwo_panics : IndexElementsDebug ⟨2, 5, 0⟩ exTwoBuilder.elements exSort 2 [] ⟨2, []⟩ false none := by
  have h1 : (runSchedule (indexParDebug ⟨2, 5, 0⟩ exTwoBuilder.elements exSort 2 [] ⟨2, []⟩ false)
      [0, 0, 1, 1, 1, 1, 1, 0]).map (fun s => match s.threads[0]? with | some .fail => true | _ => false) =
        some true := by decide +kernel
  obtain ⟨s, h2, h3⟩ := Option.map_eq_some_iff.1 h1
  refine .panic s (by decide) (runSchedule_steps _ _ _ h2) ?_
  split at h3
  · next hf => exact ⟨_, List.mem_of_getElem? hf, rfl⟩
  · cases h3

/-- C83. And it does panic there: there is a builder (two points on the line) on which `build()` never panics in a release
build, whatever the threads do (C18), but can panic in a debug build: while the task of element 0 is between its two
looks at its own empty row, the task of element 1 finds element 0 and links it. -/
theorem C83_debug_build_can_panic : ∃ b : Builder Int Nat, Reachable exSort b ∧ GoodConfig b.config ∧
    ¬ Build exSort b none ∧ (∃ b', Build exSort b (some b')) ∧ BuildDebug exSort b none := by
  refine ⟨exTwoBuilder, exTwo_reachable, exThreeConfig_good,
    C18_no_panic exSort_sorts _ exTwo_reachable exThreeConfig_good 2 (by decide) (by decide),
    C18_has_outcome exSort_sorts _ exTwo_reachable exThreeConfig_good 2 (by decide) (by decide), ?_⟩
  exact .fresh _ (by decide) (by decide) (by decide) rfl (.panic _ (by decide)
    (.firstPanics [] ⟨2, []⟩ rfl (by decide) exTwo_panics))

/-- The hypotheses are met: the layer of the last theorem cannot panic in a release build, and in a debug build it can. -/
example : ¬ IndexElements ⟨2, 5, 0⟩ exTwoBuilder.elements exSort 2 [] ⟨2, []⟩ false none ∧
    IndexElementsDebug ⟨2, 5, 0⟩ exTwoBuilder.elements exSort 2 [] ⟨2, []⟩ false none := by
  refine ⟨fun h => ?_, exTwo_panics⟩
  exact C18_no_panic exSort_sorts _ exTwo_reachable exThreeConfig_good 2 (by decide) (by decide)
    (.fresh _ (by decide) (by decide) (by decide) rfl (.panic _ (by decide)
      (.firstPanics [] ⟨2, []⟩ rfl (by decide) h)))

/-- On that builder a debug build that happens to return exists too. -/
example : indexElementsSeqDebug ⟨2, 5, 0⟩ exTwoBuilder.elements exSort 2 [] ⟨2, []⟩ false =
    some ⟨2, [[1, UNUSED], [0, UNUSED]]⟩ := by
  have : (indexSeq ⟨2, 5, 0⟩ exTwoBuilder.elements exSort 2 [] ⟨2, []⟩ false) = some [[1, UNUSED], [0, UNUSED]] := by
    decide +kernel
  rw [C83_one_thread, indexElementsSeq, if_pos (by decide), this]; rfl

/-- Lists of 3, 0 and 254 ids are stored, a list of 255 is not. -/
example : (∀ l ∈ [[7, 3, 7], [], List.range 254], l.length < 255) ∧ ¬ (List.range 255).length < 255 := by
  simp

end Granne
