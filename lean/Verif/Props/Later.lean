import Verif.Proofs.AppendSeq
import Verif.Props.Sequential
import Verif.Props.Search
import Verif.Props.Shape
import Verif.Spec.Steps

/-!
C87: elements that are not indexed make no difference.
-/
namespace Granne
open Spec

variable {E D : Type} [LinearOrder D] {srt : List (Nat × D) → List (Nat × D)}

theorem extends_take (es es' : Elements E D) (n : Nat) (hb : es'.batch = es.batch) (h : SamePrefix n es es') :
    Prolongs (@Elements.mk E D (es.data.take n) es.dist es.batch) es' := by
  refine ⟨h.1, hb, fun i r hr => ?_⟩
  rw [List.getElem?_take] at hr
  split at hr
  · rename_i hlt
    rw [h.2 i hlt, hr]
  · cases hr

omit [LinearOrder D] in
theorem search_batch [LinearOrder D] (ls : List Graph) (es : Elements E D) (bo : BatchOrder) (q : E) (ms k : Nat) :
    search ls (@Elements.mk E D es.data es.dist bo) q ms k = search ls es q ms k := rfl

/-- C87. A search in a graph with up to `n` nodes looks at the first `n` elements only: it finds the same, or panics for the same
reason, whatever other elements there are. -/
theorem C87_search (layers : List Graph) (n : Nat) (hwf : WellFormedIndex layers n) (es es' : Elements E D)
    (hn : n ≤ es.data.length) (h : SamePrefix n es es') (q : E) (maxSearch k : Nat) :
    search layers es' q maxSearch k = search layers es q maxSearch k := by
  have hn' : n ≤ es'.data.length := by
    rcases Nat.eq_zero_or_pos n with h0 | h0
    · omega
    · have h1 := h.2 (n - 1) (by omega)
      rw [List.getElem?_eq_getElem (by omega : n - 1 < es.data.length)] at h1
      have := (List.getElem?_eq_some_iff.1 h1).1
      omega
  rcases Nat.eq_zero_or_pos maxSearch with h0 | hms
  · subst h0
    by_cases hne : layers = []
    · subst hne; rfl
    · have hup : ∀ m, n ≤ m → WellFormedIndex layers m := fun m hm =>
        ⟨hwf.nonempty, hwf.inside, hwf.nested, fun g hg => (hwf.bounded g hg).trans hm⟩
      rw [C02_search_zero_panics layers es (hup _ hn) q k hne, C02_search_zero_panics layers es' (hup _ hn') q k hne]
  · let es0 : Elements E D := @Elements.mk E D (es.data.take n) es.dist es.batch
    have hlen : es0.data.length = n := by show (es.data.take n).length = n; simp [hn]
    obtain ⟨r, hr, _⟩ := C02_search_no_panic layers es0 (by rw [hlen]; exact hwf) q maxSearch k hms
    have h1 := (extends_take es es n rfl ⟨rfl, fun _ _ => rfl⟩).search layers q maxSearch k r hr
    have h2 := (extends_take es (@Elements.mk E D es'.data es'.dist es.batch) n rfl ⟨h.1, h.2⟩).search layers q maxSearch k r hr
    rw [search_batch] at h2
    rw [h1, h2]

/-- C87. So searches in a builder, whatever its history, do not depend on the elements that are not indexed yet. -/
theorem C87_search_builder (hsrt : IsSortByDist srt) (b : Builder E D) (hb : Reachable srt b) (hc : GoodConfig b.config)
    (es' : Elements E D) (h : SamePrefix (lastLen b.layers) b.elements es') (q : E) (maxSearch k : Nat) :
    search b.graphs es' q maxSearch k = search b.graphs b.elements q maxSearch k := by
  have hi := hb.inv hsrt hc
  have hst : StackInv b.config.numNeighbors (lastLen b.layers) (IsZero b.elements b.config.eps) (b.layers.map Layer.rows) := by
    refine ⟨fun R hR => ?_, hi.stack.nested⟩
    obtain ⟨l, hl, rfl⟩ := List.mem_map.1 hR
    obtain ⟨h1, h2, _⟩ := hi.stack.layer l.rows hR
    exact ⟨h1, h2, lastLen_ge hi.stack hl⟩
  have hwf := hst.wf
  rw [List.map_map] at hwf
  exact C87_search b.graphs _ hwf b.elements es' hi.lastLen_le h q maxSearch k

/-- C87. Indexing the first elements does the same whether further elements are there or not, provided that the expected number of
elements is given and not exceeded: the same layers can result, and a panic cannot. -/
theorem C87_build (hsrt : IsSortByDist srt) (b : Builder E D) (hb : Reachable srt b) (hc : GoodConfig b.config)
    (total : Nat) (he : b.config.expectedNumElements = some total) (extra : List E)
    (ht : b.elements.data.length + extra.length ≤ total)
    (num : Nat) (hlo : lastLen b.layers ≤ num) (hhi : num ≤ b.elements.data.length) (out : Option (Builder E D)) :
    BuildPartial srt { b with elements := { b.elements with data := b.elements.data ++ extra } } num out ↔
    ∃ c, BuildPartial srt b num (some c) ∧
      out = some { c with elements := { b.elements with data := b.elements.data ++ extra } } := by
  have hext : Prolongs b.elements { b.elements with data := b.elements.data ++ extra } := by
    refine ⟨rfl, rfl, fun i r hr => ?_⟩
    rw [List.getElem?_append_left (List.getElem?_eq_some_iff.1 hr).1]
    exact hr
  have hpl : SamePlan b { b.elements with data := b.elements.data ++ extra } := by
    have e1 : b.total = total := by unfold Builder.total; rw [he]; rfl
    refine ⟨hext, ?_, ?_⟩
    · rw [e1]
      show b.config.expectedNumElements.getD _ = total
      rw [he]; rfl
    · rw [e1]
      show max total (b.elements.data ++ extra).length = _
      rw [List.length_append]
      omega
  have hnp : ¬ BuildPartial srt b num none := by
    intro hcon
    rcases Nat.eq_zero_or_pos num with h0 | h0
    · generalize ho : (none : Option (Builder E D)) = o at hcon
      cases hcon with
      | zero h => cases ho
      | fewer h => omega
      | more h => omega
      | fresh o h => omega
      | lastPanics h => omega
      | «continue» b' o h => omega
    · obtain ⟨b', h1, _⟩ := (buildPartial_ok hsrt hc (hb.inv hsrt hc) hhi h0 hlo).2 none hcon
      cases h1
  have h1 := buildPartial_ext (srt := srt) hpl hhi
    (show num ≤ (b.elements.data ++ extra).length by rw [List.length_append]; omega) hnp out
  refine h1.trans ⟨?_, ?_⟩
  · rintro ⟨c, h2, h3⟩
    exact ⟨c, h3, h2⟩
  · rintro ⟨c, h2, h3⟩
    exact ⟨c, h3, h2⟩

/-- C87. So pushing an element and then indexing elements before it can lead to exactly the builders to which indexing them and
then pushing it can lead. -/
theorem C87_push_later (hsrt : IsSortByDist srt) (b b1 : Builder E D) (hb : Reachable srt b) (hc : GoodConfig b.config)
    (total : Nat) (he : b.config.expectedNumElements = some total) (ht : b.elements.data.length < total) (e : E)
    (hp : b.push e = some b1) (num : Nat) (hlo : lastLen b.layers ≤ num) (hhi : num ≤ b.elements.data.length)
    (b2 : Builder E D) :
    BuildPartial srt b1 num (some b2) ↔ ∃ c, BuildPartial srt b num (some c) ∧ c.push e = some b2 := by
  have hpush : b.elements.data.length < UNUSED - 1 ∧
      b1 = { b with elements := { b.elements with data := b.elements.data ++ [e] } } := by
    unfold Builder.push at hp
    split at hp
    · cases hp; exact ⟨by assumption, rfl⟩
    · cases hp
  obtain ⟨hlt, rfl⟩ := hpush
  have hsame : ∀ c, BuildPartial srt b num (some c) → c.elements = b.elements := by
    intro c h
    rcases Nat.eq_zero_or_pos num with h0 | h0
    · generalize ho : some c = o at h
      cases h with
      | zero h => cases ho; rfl
      | fewer h => omega
      | more h => omega
      | fresh o h => omega
      | lastPanics h => omega
      | «continue» b' o h => omega
    · obtain ⟨b', h1, _, h2, _⟩ := (buildPartial_ok hsrt hc (hb.inv hsrt hc) hhi h0 hlo).2 _ h
      cases h1
      exact h2
  rw [C87_build hsrt b hb hc total he [e] (by simp; omega) num hlo hhi]
  constructor
  · rintro ⟨c, h1, h2⟩
    cases h2
    refine ⟨c, h1, ?_⟩
    unfold Builder.push
    rw [hsame c h1, if_pos hlt]
  · rintro ⟨c, h1, h2⟩
    refine ⟨c, h1, ?_⟩
    unfold Builder.push at h2
    rw [hsame c h1, if_pos hlt] at h2
    exact h2.symm

theorem buildPartial_keeps (hsrt : IsSortByDist srt) {b c : Builder E D} (hb : Reachable srt b) (hc : GoodConfig b.config)
    {num : Nat} (h : BuildPartial srt b num (some c)) : c.elements = b.elements ∧ c.config = b.config := by
  generalize ho : some c = o at h
  have h' := h
  cases h with
  | zero h => cases ho; exact ⟨rfl, rfl⟩
  | fewer h => cases ho
  | more h => cases ho
  | fresh o h1 h2 h3 =>
    subst ho
    obtain ⟨b', e, _, e1, e2, _⟩ := (buildPartial_ok hsrt hc (hb.inv hsrt hc) h3 (by omega) h2).2 _ h'
    cases e
    exact ⟨e1, e2⟩
  | lastPanics h => cases ho
  | «continue» b' o h1 h2 h3 =>
    subst ho
    obtain ⟨b', e, _, e1, e2, _⟩ := (buildPartial_ok hsrt hc (hb.inv hsrt hc) h3 (by omega) h2).2 _ h'
    cases e
    exact ⟨e1, e2⟩

/-- `C87_build` for calls that ask for no more than there is, including those that do nothing or panic. -/
theorem build_either (hsrt : IsSortByDist srt) (b : Builder E D) (hb : Reachable srt b) (hc : GoodConfig b.config)
    (total : Nat) (he : b.config.expectedNumElements = some total) (extra : List E)
    (ht : b.elements.data.length + extra.length ≤ total) (num : Nat) (hhi : num ≤ b.elements.data.length) (b' : Builder E D) :
    BuildPartial srt { b with elements := { b.elements with data := b.elements.data ++ extra } } num (some b') ↔
    ∃ c, BuildPartial srt b num (some c) ∧
      b' = { c with elements := { b.elements with data := b.elements.data ++ extra } } := by
  by_cases hlo : lastLen b.layers ≤ num
  · rw [C87_build hsrt b hb hc total he extra ht num hlo hhi]
    constructor
    · rintro ⟨c, h1, h2⟩; cases h2; exact ⟨c, h1, rfl⟩
    · rintro ⟨c, h1, rfl⟩; exact ⟨c, h1, rfl⟩
  · constructor
    · intro h
      generalize ho : some b' = o at h
      cases h with
      | zero h => cases ho; exact ⟨b, .zero h, rfl⟩
      | fewer h => cases ho
      | more h => cases ho
      | fresh o h1 h2 => exact absurd h2 hlo
      | lastPanics h => cases ho
      | «continue» b1 o h1 h2 => exact absurd h2 hlo
    · rintro ⟨c, h, rfl⟩
      generalize ho : some c = o at h
      cases h with
      | zero h => cases ho; exact .zero h
      | fewer h => cases ho
      | more h => cases ho
      | fresh o h1 h2 => exact absurd h2 hlo
      | lastPanics h => cases ho
      | «continue» b1 o h1 h2 => exact absurd h2 hlo

/-- C87. Filling and indexing in turns is filling first: pushes and calls of `build_partial` in any order can lead to exactly the
builders to which the same calls of `build_partial` can lead when all the elements are there from the start. -/
theorem C87_pushes_first (hsrt : IsSortByDist srt) (steps : List (IndexStep E)) (b : Builder E D) (hb : Reachable srt b)
    (hc : GoodConfig b.config) (total : Nat) (he : b.config.expectedNumElements = some total)
    (ht : b.elements.data.length + (pushedBy steps).length ≤ total) (hu : b.elements.data.length + (pushedBy steps).length < UNUSED)
    (hin : InTime b.elements.data.length steps) (b' : Builder E D) :
    IndexSteps srt b steps b' ↔
    IndexSteps srt { b with elements := { b.elements with data := b.elements.data ++ pushedBy steps } } (withoutPushes steps) b' := by
  induction steps generalizing b with
  | nil =>
    have e : ({ b with elements := { b.elements with data := b.elements.data ++ pushedBy [] } } : Builder E D) = b := by
      obtain ⟨@⟨l, d, bo⟩, ls, c⟩ := b
      simp [pushedBy]
    rw [e]
    rfl
  | cons s l ih =>
    cases s with
    | push e =>
      simp only [pushedBy, List.length_cons] at ht hu
      have hp : b.push e = some { b with elements := { b.elements with data := b.elements.data ++ [e] } } := by
        unfold Builder.push
        rw [if_pos (by omega)]
      have hlen : (b.elements.data ++ [e]).length = b.elements.data.length + 1 := by simp
      have key := ih { b with elements := { b.elements with data := b.elements.data ++ [e] } } (.push b _ e hb hp) hc he
        (by show (b.elements.data ++ [e]).length + _ ≤ _; omega) (by show (b.elements.data ++ [e]).length + _ < _; omega)
        (by show InTime (b.elements.data ++ [e]).length l; rw [hlen]; exact hin)
      have hassoc : (b.elements.data ++ [e]) ++ pushedBy l = b.elements.data ++ pushedBy (.push e :: l) := by simp [pushedBy]
      simp only [hassoc] at key
      constructor
      · intro h
        cases h with
        | push _ b1 _ _ _ h1 h2 =>
          rw [hp] at h1
          cases h1
          exact key.1 h2
      · intro h
        exact .push _ _ _ _ _ hp (key.2 h)
    | indexFirst num =>
      obtain ⟨hnum, hin⟩ := hin
      have hstep := build_either hsrt b hb hc total he (pushedBy l) ht num hnum
      constructor
      · intro h
        cases h with
        | index _ b1 _ _ _ h1 h2 =>
          obtain ⟨e1, e2⟩ := buildPartial_keeps hsrt hb hc h1
          refine .index _ _ _ _ _ ((hstep _).2 ⟨b1, h1, rfl⟩) ?_
          rw [← e1]
          exact (ih b1 (.build b b1 num hb h1) (e2 ▸ hc) (e2 ▸ he) (e1 ▸ ht) (e1 ▸ hu) (e1 ▸ hin)).1 h2
      · intro h
        cases h with
        | index _ b1 _ _ _ h1 h2 =>
          obtain ⟨c, h3, rfl⟩ := (hstep _).1 h1
          obtain ⟨e1, e2⟩ := buildPartial_keeps hsrt hb hc h3
          refine .index _ c _ _ _ h3 ?_
          rw [← e1] at h2
          exact (ih c (.build b c num hb h3) (e2 ▸ hc) (e2 ▸ he) (e1 ▸ ht) (e1 ▸ hu) (e1 ▸ hin)).2 h2

/-- C87. Built on one thread, indexing the first elements gives the very same layers whether further elements are there or not. (It
gives just one result, C68_deterministic.) -/
theorem C87_one_thread (hsrt : IsSortByDist srt) (b : Builder E D) (hb : Reachable srt b) (hc : GoodConfig b.config)
    (total : Nat) (he : b.config.expectedNumElements = some total) (extra : List E)
    (ht : b.elements.data.length + extra.length ≤ total) (num : Nat) (h0 : 1 ≤ num) (hlo : lastLen b.layers ≤ num)
    (hhi : num ≤ b.elements.data.length) :
    ∃ c, BuildPartialSeq srt b num (some c) ∧
      BuildPartialSeq srt { b with elements := { b.elements with data := b.elements.data ++ extra } } num
        (some { c with elements := { b.elements with data := b.elements.data ++ extra } }) := by
  obtain ⟨c, h1, _⟩ := C68_returns hsrt b hb hc num h0 hlo hhi
  have hpl : SamePlan b { b.elements with data := b.elements.data ++ extra } := by
    have e1 : b.total = total := by unfold Builder.total; rw [he]; rfl
    refine ⟨⟨rfl, rfl, fun i r hr => ?_⟩, ?_, ?_⟩
    · rw [List.getElem?_append_left (List.getElem?_eq_some_iff.1 hr).1]
      exact hr
    · rw [e1]
      show b.config.expectedNumElements.getD _ = total
      rw [he]; rfl
    · rw [e1]
      show max total (b.elements.data ++ extra).length = _
      rw [List.length_append]
      omega
  exact ⟨c, h1, buildPartialSeq_le hpl
    (show num ≤ (b.elements.data ++ extra).length by rw [List.length_append]; omega) h1⟩

/-- The hypotheses are met: two of three elements are indexed, before or after a fourth is pushed. -/
example : ∃ b b1 c b2 : Builder Int Nat, Reachable exSort b ∧ GoodConfig b.config ∧ b.config.expectedNumElements = some 4 ∧
    b.elements.data.length = 3 ∧ b.push 20 = some b1 ∧ BuildPartial exSort b 2 (some c) ∧ c.push 20 = some b2 ∧
    BuildPartial exSort b1 2 (some b2) ∧ lastLen b2.layers = 2 := by
  have hr : Reachable exSort (exHalvesBuilder (some 4) [0, 10, 11]) := .new _ _ _ (exHalves_new (some 4) _ (by decide))
  have hp : (exHalvesBuilder (some 4) [0, 10, 11]).push 20 = some (exHalvesBuilder (some 4) [0, 10, 11, 20]) := by
    unfold Builder.push
    rw [if_pos (show (exHalvesBuilder (some 4) [0, 10, 11]).elements.data.length < UNUSED - 1 from
      show 3 < 4294967294 by omega)]
    rfl
  obtain ⟨c, h1, h2, h3, h4⟩ := exHalves_step _ hr (exHalves_good _) 2 (by decide) (by decide) (by decide)
  have hp2 : c.push 20 = some { c with elements := { c.elements with data := c.elements.data ++ [20] } } := by
    unfold Builder.push
    rw [if_pos (show c.elements.data.length < UNUSED - 1 by rw [h3]; show 3 < UNUSED - 1; unfold UNUSED; omega)]
  refine ⟨_, _, c, _, hr, exHalves_good _, rfl, rfl, hp, h1, hp2, ?_, h2⟩
  exact (C87_push_later exSort_sorts _ _ hr (exHalves_good _) 4 rfl (by decide) 20 hp 2 (by decide) (by decide) _).2 ⟨c, h1, hp2⟩

/-- The hypotheses of `C87_pushes_first` are met, and there is something both sequences lead to: two elements are indexed, two pushed,
and all four indexed. -/
example : ∃ (b b' : Builder Int Nat) (steps : List (IndexStep Int)), Reachable exSort b ∧ GoodConfig b.config ∧
    b.config.expectedNumElements = some 4 ∧ b.elements.data.length + (pushedBy steps).length = 4 ∧
    InTime b.elements.data.length steps ∧ IndexSteps exSort b steps b' ∧ lastLen b'.layers = 4 ∧
    withoutPushes steps = [.indexFirst 2, .indexFirst 4] ∧
    IndexSteps exSort { b with elements := { b.elements with data := b.elements.data ++ pushedBy steps } }
      [.indexFirst 2, .indexFirst 4] b' := by
  have hr : Reachable exSort (exHalvesBuilder (some 4) [0, 10]) := .new _ _ _ (exHalves_new (some 4) _ (by decide))
  have hpush : ∀ (b : Builder Int Nat) (e : Int), b.elements.data.length < 100 →
      b.push e = some { b with elements := { b.elements with data := b.elements.data ++ [e] } } := by
    intro b e h
    unfold Builder.push
    rw [if_pos (by unfold UNUSED; omega)]
  obtain ⟨c, h1, h2, h3, h4⟩ := exHalves_step _ hr (exHalves_good _) 2 (by decide) (by decide) (by decide)
  have hc1 := Reachable.build _ c 2 hr h1
  have hl : c.elements.data.length = 2 := by rw [h3]; rfl
  have p1 := hpush c 11 (by omega)
  have p2 := hpush { c with elements := { c.elements with data := c.elements.data ++ [11] } } 20
    (by show (c.elements.data ++ [11]).length < 100; rw [List.length_append, hl]; decide)
  have hc3 := Reachable.push _ _ 20 (Reachable.push _ _ 11 hc1 p1) p2
  obtain ⟨d, g1, g2, _⟩ := exHalves_step _ hc3 (by show GoodConfig c.config; rw [h4]; exact exHalves_good _) 4 (by decide)
    (by show lastLen c.layers ≤ 4; omega)
    (by show 4 ≤ ((c.elements.data ++ [11]) ++ [20]).length; rw [List.length_append, List.length_append, hl]; decide)
  have hs : IndexSteps exSort (exHalvesBuilder (some 4) [0, 10]) [.indexFirst 2, .push 11, .push 20, .indexFirst 4] d :=
    .index _ _ _ _ _ h1 (.push _ _ _ _ _ p1 (.push _ _ _ _ _ p2 (.index _ _ _ _ _ g1 (.nil _))))
  refine ⟨_, d, _, hr, exHalves_good _, rfl, rfl, ?_, hs, g2, rfl, ?_⟩
  · exact ⟨by decide, by decide, trivial⟩
  · exact (C87_pushes_first exSort_sorts [.indexFirst 2, .push 11, .push 20, .indexFirst 4] _ hr (exHalves_good _) 4 rfl (by decide)
      (by show 4 < UNUSED; unfold UNUSED; omega)
      (show 2 ≤ 2 ∧ 4 ≤ 4 ∧ True from ⟨by decide, by decide, trivial⟩) d).1 hs

end Granne
