import Verif.Proofs.Schedule
import Verif.Props.Build

/-!
C22: the planned sizes of the layers, and the sizes the layers of a built index have.

`numElementsInLayer m total i` is src/index/mod.rs:634-643 over the reals; `numElementsFloat` is the same with
arbitrary rounding of the logarithm, the power and the quotient.
-/
namespace Granne
open List Spec

/-- C22. Never more elements than there are, at least one if there is one, layers do not shrink downwards, from layer
`⌊log_m total⌋` on all elements are included, the top layer has at most `⌈m⌉` elements, and each layer is at most `m`
times (rounded up) as large as the one above. -/
theorem C22_schedule (m : ℝ) (hm : 1 < m) (total : ℕ) :
    (∀ i, numElementsInLayer m total i ≤ total) ∧
    (1 ≤ total → ∀ i, 1 ≤ numElementsInLayer m total i) ∧
    (∀ i j, i ≤ j → numElementsInLayer m total i ≤ numElementsInLayer m total j) ∧
    (∀ i : ℕ, ⌊Real.logb m total⌋ ≤ i → numElementsInLayer m total i = total) ∧
    (1 ≤ total → numElementsInLayer m total 0 ≤ ⌈m⌉₊) ∧
    (∀ i, numElementsInLayer m total (i + 1) ≤ ⌈m * numElementsInLayer m total i⌉₊) :=
  ⟨fun _ => min_le_right _ _, fun h i => sched_pos hm h i, fun _ _ h => sched_mono hm h, fun _ h => sched_all hm h,
    sched_top hm, sched_growth hm⟩

/-- C22. Hence the configuration meets what C14 - C20 ask of the plan of layer sizes. -/
theorem C22_schedule_good (m : ℝ) (hm : 1 < m) : GoodSchedule (numElementsInLayer m) := sched_good hm

/-- C22 in the presence of rounding: whatever values the floating point logarithm takes, and however power and quotient
are rounded, as long as they satisfy the weak bounds `FloatOk`, no layer is planned larger than the total or empty, and
after finitely many layers everything is included. -/
theorem C22_schedule_good_float {k : ℕ → ℤ} {pow : ℤ → ℝ} {div : ℝ → ℝ → ℝ} (h : FloatOk k pow div) :
    GoodSchedule (numElementsFloat k pow div) := sched_float h

/-- `FloatOk` is met by exact arithmetic, for which `numElementsFloat` is `numElementsInLayer`. -/
example (m : ℝ) (hm : 1 < m) :
    (∀ total i, numElementsFloat (fun t => ⌊Real.logb m t⌋) (fun e => m ^ (e : ℝ)) (fun x y => if y ≤ 0 then x else x / y)
      total i = numElementsInLayer m total i) ∧
    FloatOk (fun t => ⌊Real.logb m t⌋) (fun e => m ^ (e : ℝ)) (fun x y => if y ≤ 0 then x else x / y) := by
  have hm0 : 0 < m := lt_trans one_pos hm
  refine ⟨fun total i => ?_, fun e he => ?_, fun total ht e he => ?_, fun x y hx hy => ?_, fun x y hx hy => ?_⟩
  · unfold numElementsFloat numElementsInLayer
    dsimp only
    rw [if_neg (not_le.2 (Real.rpow_pos_of_pos hm0 _))]
    push_cast
    rfl
  · exact Real.rpow_le_one_of_one_le_of_nonpos hm.le (by exact_mod_cast he)
  · have ht0 : (0 : ℝ) < total := by exact_mod_cast ht
    have h1 : (e : ℝ) ≤ Real.logb m total := le_trans (by exact_mod_cast he) (Int.floor_le _)
    have := (Real.le_logb_iff_rpow_le hm ht0).1 h1
    linarith
  · split
    · exact le_rfl
    · next h =>
      rw [le_div_iff₀ (not_le.1 h)]
      nlinarith
  · split
    · exact hx
    · next h => exact div_pos hx (not_le.1 h)

/-- The tuple of the project's own test: with multiplier 15 and 225 elements the layers have 1, 15 and 225 elements. -/
example : [0, 1, 2, 3].map (numElementsInLayer 15 225) = [1, 15, 225, 225] := by
  have h : Real.logb 15 (225 : ℕ) = 2 := by
    rw [show ((225 : ℕ) : ℝ) = 15 ^ (2 : ℝ) by norm_num]
    exact Real.logb_rpow (by norm_num) (by norm_num)
  have e0 : numElementsInLayer 15 225 0 = 1 := by
    unfold numElementsInLayer
    rw [h]
    norm_num
  have e1 : numElementsInLayer 15 225 1 = 15 := by
    unfold numElementsInLayer
    rw [h]
    norm_num
  have e2 : numElementsInLayer 15 225 2 = 225 := sched_all (by norm_num) (by rw [h]; norm_num)
  have e3 : numElementsInLayer 15 225 3 = 225 := sched_all (by norm_num) (by rw [h]; norm_num)
  simp [e0, e1, e2, e3]

/-! ### Sizes of the layers of a built index -/

section
variable {E D : Type} [LinearOrder D] {srt : List (Nat × D) → List (Nat × D)}

theorem loop_sizes (hsrt : IsSortByDist srt) {num : Nat} {b : Builder E D} {out : Option (Builder E D)}
    (h : BuildLoop srt num b out) (hc : GoodConfig b.config)
    (hmono : ∀ t i j, i ≤ j → b.config.schedule t i ≤ b.config.schedule t j)
    (hi : BuilderInv b) (hnum : num ≤ b.elements.data.length)
    (hs : ∀ (i : Nat) l, b.layers[i]? = some l → l.rows.length = min num (b.ideal (i + 1))) :
    ∀ b', out = some b' →
      (∀ (i : Nat) l, b'.layers[i]? = some l → l.rows.length = min num (b.ideal (i + 1))) ∧
      ∀ i : Nat, b.layers.length ≤ i + 1 → i + 1 < b'.layers.length → b.ideal (i + 1) < num := by
  induction h with
  | done b hd =>
    rintro b' h
    cases h
    exact ⟨hs, fun i h1 h2 => by omega⟩
  | panic => rintro b' h; cases h
  | round b b1 out hlt hidx hrest ih =>
    intro b' hout
    obtain ⟨layer', e, hinv, hlen, _⟩ := (round_ok hsrt hc hi hnum hlt).2 _ hidx
    cases e
    -- the previous layer is not larger than this one's plan
    have hlast : lastLen b.layers ≤ min num (b.ideal (b.layers.length + 1)) := by
      unfold lastLen
      rcases Option.eq_none_or_eq_some b.layers.getLast? with h | ⟨l, h⟩
      · rw [h]; exact Nat.zero_le _
      · rw [h]
        rw [List.getLast?_eq_getElem?] at h
        have := hs _ l h
        have := hmono (max b.total b.elements.data.length) (b.layers.length - 1 + 1 - 1) (b.layers.length + 1 - 1)
          (by omega)
        dsimp only
        unfold Builder.ideal at *
        omega
    have hlen' : layer'.rows.length = min num (b.ideal (b.layers.length + 1)) := by omega
    have hlt' : ∀ i : Nat, i + 1 = b.layers.length → b.ideal (i + 1) < num := by
      intro i hi1
      unfold lastLen at hlt
      rcases Option.eq_none_or_eq_some b.layers.getLast? with h | ⟨l, h⟩
      · rw [List.getLast?_eq_none_iff] at h
        rw [h] at hi1
        simp at hi1
      · rw [h] at hlt
        rw [List.getLast?_eq_getElem?, ← hi1, Nat.add_sub_cancel] at h
        have := hs _ l h
        dsimp only at hlt
        omega
    obtain ⟨g1, g2⟩ := ih hc hmono hinv hnum (by
      intro i l hl
      by_cases hil : i < b.layers.length
      · rw [List.getElem?_append_left hil] at hl
        exact hs i l hl
      · have : i = b.layers.length := by
          have := (List.getElem?_eq_some_iff.1 hl).1
          simp at this; omega
        subst this
        simp at hl
        subst hl
        exact hlen') b' hout
    refine ⟨g1, fun i h1 h2 => ?_⟩
    by_cases hil : i + 1 = b.layers.length
    · exact hlt' i hil
    · exact g2 i (by simp; omega) h2

/-- C22. Building the first `num` elements from scratch: layer `i` of the result has exactly as many nodes as planned,
at most `num`, and a further layer is added only while fewer than `num` elements are planned, so that the number of
layers is that of the plan too. (The plan is computed for the larger of the expected number of elements and their
actual number.) -/
theorem C22_built_layer_sizes (hsrt : IsSortByDist srt) (b b' : Builder E D) (hb : Reachable srt b)
    (hc : GoodConfig b.config) (hfresh : b.layers = [])
    (hmono : ∀ t i j, i ≤ j → b.config.schedule t i ≤ b.config.schedule t j)
    (num : Nat) (h0 : num ≠ 0) (h : BuildPartial srt b num (some b')) :
    (∀ (i : Nat) layer, b'.layers[i]? = some layer →
      layer.rows.length = min num (b.config.schedule (max b.total b.elements.data.length) i)) ∧
    (∀ i : Nat, i + 1 < b'.layers.length → b.config.schedule (max b.total b.elements.data.length) i < num) := by
  cases h with
  | zero h1 => exact absurd h1 h0
  | fresh _ h1 h2 h3 h4 h5 =>
    have := loop_sizes hsrt h5 hc hmono (hb.inv hsrt hc) h3 (by rw [hfresh]; simp) b' rfl
    refine ⟨this.1, fun i hi => this.2 i (by rw [hfresh]; simp) hi⟩
  | «continue» _ _ _ _ _ h4 => exact absurd hfresh h4

/-- C22. With the formula and no expected number of elements: building all `n` elements from scratch gives layers of
exactly `numElementsInLayer m n i` nodes, and at most `⌊log_m n⌋ + 1` layers. -/
theorem C22_build_layers (hsrt : IsSortByDist srt) (b b' : Builder E D) (hb : Reachable srt b) (m : ℝ) (hm : 1 < m)
    (hsched : b.config.schedule = numElementsInLayer m) (hexp : b.config.expectedNumElements = none)
    (hn : 1 ≤ b.config.numNeighbors) (hs : 1 ≤ b.config.maxSearch) (hfresh : b.layers = [])
    (h0 : b.elements.data ≠ []) (h : Build srt b (some b')) :
    (∀ (i : Nat) layer, b'.layers[i]? = some layer →
      layer.rows.length = numElementsInLayer m b.elements.data.length i) ∧
    (b'.layers.length : ℤ) ≤ ⌊Real.logb m b.elements.data.length⌋ + 1 := by
  have hc : GoodConfig b.config := ⟨hn, hs, hsched ▸ sched_good hm⟩
  have hlen : b.elements.data.length ≠ 0 := by simpa using h0
  have ht : max b.total b.elements.data.length = b.elements.data.length := by simp [Builder.total, hexp]
  obtain ⟨h1, h2⟩ := C22_built_layer_sizes hsrt b b' hb hc hfresh
    (fun t i j hij => by rw [hsched]; exact sched_mono hm hij) _ hlen h
  rw [ht, hsched] at h1 h2
  have hle : ∀ i, numElementsInLayer m b.elements.data.length i ≤ b.elements.data.length := fun i => min_le_right _ _
  refine ⟨fun i l hl => by rw [h1 i l hl]; have := hle i; omega, ?_⟩
  by_contra hcon
  have hpos : (0 : ℤ) ≤ ⌊Real.logb m b.elements.data.length⌋ := by
    apply Int.floor_nonneg.2
    apply Real.logb_nonneg hm
    exact_mod_cast Nat.one_le_iff_ne_zero.2 hlen
  have h3 := h2 (⌊Real.logb m b.elements.data.length⌋.toNat) (by omega)
  rw [sched_all hm (by omega)] at h3
  omega

/-- C06, C22. With a multiplier of at least 4 (the default is 15) a builder that built all its elements in one go has at
most 17 layers, so saving it does not panic (C06_builder_save_returns). -/
theorem C22_few_layers (hsrt : IsSortByDist srt) (b b' : Builder E D) (hb : Reachable srt b) (m : ℝ) (hm : 4 ≤ m)
    (hsched : b.config.schedule = numElementsInLayer m) (hexp : b.config.expectedNumElements = none)
    (hn : 1 ≤ b.config.numNeighbors) (hs : 1 ≤ b.config.maxSearch) (hfresh : b.layers = [])
    (h0 : b.elements.data ≠ []) (h : Build srt b (some b')) : b'.layers.length ≤ 17 := by
  have hm1 : 1 < m := by linarith
  have h1 := (C22_build_layers hsrt b b' hb m hm1 hsched hexp hn hs hfresh h0 h).2
  have hsize := (hb.inv hsrt ⟨hn, hs, hsched ▸ sched_good hm1⟩).size
  have hlen : 0 < b.elements.data.length := List.length_pos_iff.2 h0
  have hl : Real.logb m b.elements.data.length < 16 + 1 := by
    rw [Real.logb_lt_iff_lt_rpow hm1 (by exact_mod_cast hlen)]
    calc (b.elements.data.length : ℝ) < (4 : ℝ) ^ (17 : ℝ) := by
          have : b.elements.data.length < 4 ^ 17 := lt_trans hsize (by decide)
          have h2 : (b.elements.data.length : ℝ) < ((4 ^ 17 : ℕ) : ℝ) := by exact_mod_cast this
          norm_num at h2 ⊢
          exact h2
      _ ≤ m ^ (17 : ℝ) := Real.rpow_le_rpow (by norm_num) hm (by norm_num)
      _ = m ^ ((16 : ℝ) + 1) := by norm_num
  have h2 : ⌊Real.logb m b.elements.data.length⌋ < 17 := Int.floor_lt.2 (by push_cast; linarith)
  omega

/-- A builder that meets the hypotheses and has an outcome. -/
example : ∃ b b' : Builder Int Nat, Reachable exSort b ∧ b.config.schedule = numElementsInLayer 15 ∧
    b.config.expectedNumElements = none ∧ 1 ≤ b.config.numNeighbors ∧ 1 ≤ b.config.maxSearch ∧ b.layers = [] ∧
    b.elements.data ≠ [] ∧ Build exSort b (some b') := by
  have hr : Reachable exSort (⟨exData, [], { exConfig with schedule := numElementsInLayer 15 }⟩ : Builder Int Nat) :=
    .new { exConfig with schedule := numElementsInLayer 15 } exData _ (if_pos (by decide))
  have hc : GoodConfig ({ exConfig with schedule := numElementsInLayer 15 } : BuildConfig Nat) :=
    ⟨by decide, by decide, sched_good (by norm_num)⟩
  obtain ⟨b', h⟩ := C18_has_outcome exSort_sorts _ hr hc 6 (by decide) (by decide)
  exact ⟨_, b', hr, rfl, rfl, by decide, by decide, rfl, by decide, h⟩

private theorem below_one_round (hsrt : IsSortByDist srt) {m : ℝ} (h0 : 0 < m) (h1 : m < 1) {b : Builder E D}
    (hb : BuilderInv b) (hsched : b.config.schedule = numElementsInLayer m) (hn : 1 ≤ b.config.numNeighbors)
    (hs : 1 ≤ b.config.maxSearch) {num : Nat} (hnum : num ≤ b.elements.data.length) (h2 : 2 ≤ num)
    (hlast : lastLen b.layers ≤ 1) :
    (∃ out, IndexLast srt b.addLayer num out) ∧
    ∀ out, IndexLast srt b.addLayer num out → ∃ b', out = some b' ∧ BuilderInv b' ∧ b'.config = b.config ∧
      b'.elements = b.elements ∧ lastLen b'.layers ≤ 1 ∧ b'.layers.length = b.layers.length + 1 := by
  have hc : BasicConfig b.config := by
    refine ⟨hn, hs, fun t i => ?_, fun t i ht => ?_⟩
    · rw [hsched]; exact min_le_right _ _
    · rw [hsched, sched_below_one h0 h1 ht]
  obtain ⟨hex, hall⟩ := round_ok' hsrt hc hb hnum (by omega)
  refine ⟨hex, fun out hout => ?_⟩
  obtain ⟨layer', e, hinv, hlen, _⟩ := hall out hout
  refine ⟨_, e, hinv, rfl, rfl, ?_, by simp⟩
  have : b.ideal (b.layers.length + 1) = 1 := by
    unfold Builder.ideal
    rw [hsched]
    exact sched_below_one h0 h1 (by omega) _
  simp only [lastLen_append]
  omega

/-- C22, the other side of `1 < m`: a multiplier strictly between 0 and 1 is accepted by the configuration, but every
layer is then planned with one element, and building two elements or more never returns: the call has no outcome at
all, neither a result nor a panic, and layers are added without end. -/
theorem C22_multiplier_below_one (hsrt : IsSortByDist srt) (m : ℝ) (h0 : 0 < m) (h1 : m < 1) (c : BuildConfig D)
    (es : Elements E D) (b : Builder E D) (hnew : Builder.new c es = some b)
    (hsched : c.schedule = numElementsInLayer m) (hn : 1 ≤ c.numNeighbors) (hs : 1 ≤ c.maxSearch)
    (num : Nat) (h2 : 2 ≤ num) (hnum : num ≤ es.data.length) :
    (¬ ∃ out, BuildPartial srt b num out) ∧
    ∀ k : Nat, ∃ b' : Builder E D, b'.layers.length = k ∧
      Relation.ReflTransGen (fun b b' => lastLen b.layers < num ∧ IndexLast srt b.addLayer num (some b')) b b' := by
  have hinv := BuilderInv.new hnew
  have hb : b = ⟨es, [], c⟩ := by
    unfold Builder.new at hnew
    split at hnew
    · exact (Option.some.inj hnew).symm
    · cases hnew
  have hcfg : b.config = c := by rw [hb]
  have hels : b.elements = es := by rw [hb]
  have hlay : b.layers = [] := by rw [hb]
  constructor
  · rintro ⟨out, h⟩
    have key : ∀ (b : Builder E D) out, BuildLoop srt num b out → BuilderInv b → b.config = c → b.elements = es →
        lastLen b.layers ≤ 1 → False := by
      intro b out h
      induction h with
      | done b hd => intro _ _ _ hl; omega
      | panic b hlt hp =>
        intro hi hc he hl
        obtain ⟨b', e, _⟩ := (below_one_round hsrt h0 h1 hi (hc ▸ hsched) (hc ▸ hn) (hc ▸ hs) (he ▸ hnum) h2 hl).2 _ hp
        cases e
      | round b b1 out hlt hp hrest ih =>
        intro hi hc he hl
        obtain ⟨b', e, g1, g2, g3, g4, _⟩ :=
          (below_one_round hsrt h0 h1 hi (hc ▸ hsched) (hc ▸ hn) (hc ▸ hs) (he ▸ hnum) h2 hl).2 _ hp
        cases e
        exact ih g1 (g2.trans hc) (g3.trans he) g4
    cases h with
    | zero h => omega
    | fewer _ h => rw [hlay] at h; simp [lastLen] at h
    | more _ _ h => rw [hels] at h; exact h hnum
    | fresh _ _ _ _ _ h => exact key b _ h hinv hcfg hels (by rw [hlay]; simp [lastLen])
    | lastPanics _ _ _ h _ => exact h hlay
    | «continue» _ _ _ _ _ h _ _ => exact h hlay
  · intro k
    suffices h : ∃ b' : Builder E D, b'.layers.length = k ∧
      Relation.ReflTransGen (fun b b' => lastLen b.layers < num ∧ IndexLast srt b.addLayer num (some b')) b b' ∧
      BuilderInv b' ∧ b'.config = c ∧ b'.elements = es ∧ lastLen b'.layers ≤ 1 by
      obtain ⟨b', h1, h2, _⟩ := h
      exact ⟨b', h1, h2⟩
    induction k with
    | zero => exact ⟨b, by rw [hlay]; rfl, .refl, hinv, hcfg, hels, by rw [hlay]; simp [lastLen]⟩
    | succ k ih =>
      obtain ⟨b', e1, e2, hi, hc, he, hl⟩ := ih
      obtain ⟨⟨out, hout⟩, hall⟩ :=
        below_one_round hsrt h0 h1 hi (hc ▸ hsched) (hc ▸ hn) (hc ▸ hs) (he ▸ hnum) h2 hl
      obtain ⟨b'', e, g1, g2, g3, g4, g5⟩ := hall _ hout
      subst e
      exact ⟨b'', by omega, e2.tail ⟨by omega, hout⟩, g1, g2.trans hc, g3.trans he, g4⟩

/-- Six elements and a multiplier of a half. -/
example : ∃ b : Builder Int Nat, Builder.new { exConfig with schedule := numElementsInLayer 2⁻¹ } exData = some b ∧
    2 ≤ 6 ∧ 6 ≤ exData.data.length := ⟨_, if_pos (by decide), by decide, by decide⟩

/-- C22, the boundary `m = 1`: every layer is planned with all elements, so the builder makes one layer (a flat index). (In `f64` the
logarithm to base 1 is infinite or NaN, but 1 to any power is 1, so the code computes the same.) -/
theorem C22_multiplier_one (hsrt : IsSortByDist srt) :
    (∀ total i, numElementsInLayer 1 total i = total) ∧ GoodSchedule (numElementsInLayer 1) ∧
    ∀ b b' : Builder E D, Reachable srt b → b.config.schedule = numElementsInLayer 1 → b.config.expectedNumElements = none →
      1 ≤ b.config.numNeighbors → 1 ≤ b.config.maxSearch → b.layers = [] → b.elements.data ≠ [] → Build srt b (some b') →
      ∃ layer, b'.layers = [layer] ∧ layer.rows.length = b.elements.data.length := by
  have h1 : ∀ total i, numElementsInLayer 1 total i = total := by
    intro total i
    unfold numElementsInLayer
    rw [Real.one_rpow, div_one, Nat.ceil_natCast, min_self]
  have hg : GoodSchedule (numElementsInLayer 1) :=
    ⟨fun t i => (h1 t i).le, fun t i ht => by rw [h1]; exact ht, fun t => ⟨0, fun i _ => h1 t i⟩⟩
  refine ⟨h1, hg, fun b b' hb hsched hexp hn hs hfresh h0 h => ?_⟩
  have hc : GoodConfig b.config := ⟨hn, hs, hsched ▸ hg⟩
  have hlen : b.elements.data.length ≠ 0 := by simpa using h0
  have ht : max b.total b.elements.data.length = b.elements.data.length := by simp [Builder.total, hexp]
  obtain ⟨h2, h3⟩ := C22_built_layer_sizes hsrt b b' hb hc hfresh
    (fun t i j hij => by rw [hsched, h1, h1]) _ hlen h
  rw [ht, hsched] at h2 h3
  obtain ⟨b'', e, hl, -⟩ := C14_build_all hsrt b hb hc _ h
  cases e
  rcases hb' : b'.layers with _ | ⟨l, _ | ⟨l', r⟩⟩
  · rw [hb'] at hl; exact absurd hl.symm hlen
  · exact ⟨l, rfl, by rw [h2 0 l (by rw [hb']; rfl), h1, min_self]⟩
  · have := h3 0 (by rw [hb']; simp)
    rw [h1] at this
    omega

end
end Granne
