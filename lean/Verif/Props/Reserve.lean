import Verif.Model.Reserve
import Verif.Props.Shape

/-!
C86: how much room the layers of an index take.
-/
namespace Granne
open Spec

variable {E D : Type} [LinearOrder D] {srt : List (Nat × D) → List (Nat × D)}
variable {schedule : Nat → Nat → Nat} {total : Nat}

/-- The state of a loop of a build to `num` elements. -/
structure LoopState (schedule : Nat → Nat → Nat) (total num : Nat) (b : Builder E D) : Prop where
  planned : Planned schedule total b
  inv : BuilderInv b
  bound : num ≤ b.elements.data.length
  sizes : ∀ (i : Nat) l, b.layers[i]? = some l → l.rows.length = min num (schedule total i)

omit [LinearOrder D] in
theorem planned_ideal {b : Builder E D} (h : Planned schedule total b) (n : Nat) : b.ideal n = schedule total (n - 1) := by
  unfold Builder.ideal Builder.total
  rw [h.schedule, h.expected, Option.getD_some, max_eq_left h.enough]

theorem addLayer_len (b : Builder E D) : b.addLayer.layers.length = b.layers.length + 1 := by
  unfold Builder.addLayer
  simp

theorem addLayer_last (b : Builder E D) : lastLen b.addLayer.layers = lastLen b.layers := by
  unfold Builder.addLayer
  simp only
  rw [lastLen_append]
  unfold lastLen
  rcases Option.eq_none_or_eq_some b.layers.getLast? with h | ⟨l, h⟩ <;> rw [h] <;> rfl

theorem loopState_step (hmono : ∀ t i j, i ≤ j → schedule t i ≤ schedule t j) (hsrt : IsSortByDist srt) {num : Nat}
    {b b' : Builder E D} (h : LoopState schedule total num b) (hlt : lastLen b.layers < num)
    (hidx : IndexLast srt b.addLayer num (some b')) : LoopState schedule total num b' := by
  obtain ⟨layer', e, hinv, hlen, _⟩ := (round_ok hsrt h.planned.good h.inv h.bound hlt).2 _ hidx
  cases e
  rw [planned_ideal h.planned, Nat.add_sub_cancel] at hlen
  have hlast : lastLen b.layers ≤ min num (schedule total b.layers.length) := by
    unfold lastLen
    rcases Option.eq_none_or_eq_some b.layers.getLast? with h1 | ⟨l, h1⟩
    · rw [h1]; exact Nat.zero_le _
    · rw [h1]
      rw [List.getLast?_eq_getElem?] at h1
      have h2 := h.sizes _ l h1
      have h3 := hmono total (b.layers.length - 1) b.layers.length (by omega)
      dsimp only
      omega
  refine ⟨⟨h.planned.good, h.planned.schedule, h.planned.expected, h.planned.enough⟩, hinv, h.bound, ?_⟩
  intro i l hl
  by_cases hil : i < b.layers.length
  · simp only at hl
    rw [List.getElem?_append_left hil] at hl
    exact h.sizes i l hl
  · have : i = b.layers.length := by
      have := (List.getElem?_eq_some_iff.1 hl).1
      simp at this; omega
    subst this
    simp at hl
    subst hl
    omega

theorem loopState_start (hmono : ∀ t i j, i ≤ j → schedule t i ≤ schedule t j) (hsrt : IsSortByDist srt) {num : Nat}
    {b b0 : Builder E D} (h : ReachableWhile srt (Planned schedule total) b)
    (hn : num ≠ 0 ∧ lastLen b.layers ≤ num ∧ num ≤ b.elements.data.length)
    (h0 : (b.layers = [] ∧ b0 = b) ∨ (b.layers ≠ [] ∧ IndexLast srt b num (some b0))) : LoopState schedule total num b0 := by
  have hpl := h.reachable.2
  have hi := h.reachable.1.inv hsrt hpl.good
  have hsz := planned_sizes hmono hsrt h
  rcases h0 with ⟨hl, rfl⟩ | ⟨hl, hidx⟩
  · exact ⟨hpl, hi, hn.2.2, by rw [hl]; simp⟩
  · rcases List.eq_nil_or_concat b.layers with h' | ⟨upper, layer, hl'⟩
    · exact absurd h' hl
    · rw [List.concat_eq_append] at hl'
      obtain ⟨layer', e1, e2, e3, e4, _⟩ := (continue_ok hsrt hpl.good hi hn.2.2 (by omega) hn.2.1 hl').2 _ hidx
      cases e1
      rw [planned_ideal hpl] at e4
      have hlen : b.layers.length = upper.length + 1 := by rw [hl']; simp
      have hih : ∀ (i : Nat) l, b.layers[i]? = some l → l.rows.length = min (lastLen b.layers) (schedule total i) := by
        intro i l hil
        have := hsz.1 i l.rows.length (by simp [sizesOf, hil])
        rwa [sizesOf_last] at this
      have hlast := hih upper.length layer (by rw [hl']; simp)
      have hll : lastLen b.layers = layer.rows.length := by rw [hl', lastLen_append]
      refine ⟨⟨hpl.good, hpl.schedule, hpl.expected, hpl.enough⟩, e2, hn.2.2, ?_⟩
      intro i l hil
      by_cases hi' : i < upper.length
      · have h7 : b.layers[i]? = some l := by
          rw [hl', List.getElem?_append_left hi']
          simp only at hil
          rwa [List.getElem?_append_left hi'] at hil
        have h8 := hih i l h7
        have h9 := hsz.2 i (by simp [sizesOf]; omega)
        rw [sizesOf_last] at h9
        omega
      · have h7 : i = upper.length := by
          have := (List.getElem?_eq_some_iff.1 hil).1
          simp at this
          omega
        subst h7
        simp at hil
        subst hil
        rw [e4, hlen, Nat.add_sub_cancel]
        omega

/-- C86. However many elements are expected, the room that a build to `num` elements has for a layer, nodes and reserved, is at most
the layer multiplier times `num`. -/
theorem C86_reserved (m : ℝ) (hm : 1 < m) (hsrt : IsSortByDist srt) (b : Builder E D)
    (h : ReachableWhile srt (Planned (numElementsInLayer m) total) b) (num : Nat) (c : Builder E D)
    (hc : b.IndexesIn srt num c) : lastLen c.layers + c.additional ≤ ⌈m * num⌉₊ := by
  have hmono : ∀ t i j, i ≤ j → numElementsInLayer m t i ≤ numElementsInLayer m t j := fun _ _ _ hij => sched_mono hm hij
  obtain ⟨hn, hc⟩ := hc
  have hnum : (1 : ℝ) ≤ num := by
    have : 1 ≤ num := by omega
    exact_mod_cast this
  have hself : num ≤ ⌈m * num⌉₊ := by
    have h1 : (num : ℝ) ≤ m * num := by nlinarith
    exact_mod_cast h1.trans (Nat.le_ceil _)
  have hgrow : ∀ i, numElementsInLayer m total i ≤ num → numElementsInLayer m total (i + 1) ≤ ⌈m * num⌉₊ := by
    intro i hi
    refine (sched_growth hm i).trans (Nat.ceil_mono ?_)
    have : (numElementsInLayer m total i : ℝ) ≤ num := by exact_mod_cast hi
    nlinarith
  have htop : ∀ b : Builder E D, Planned (numElementsInLayer m) total b → num ≤ b.elements.data.length →
      numElementsInLayer m total 0 ≤ ⌈m * num⌉₊ := by
    intro b hp hd
    have := hp.enough
    refine (sched_top hm (by omega)).trans (Nat.ceil_mono ?_)
    nlinarith
  have key : ∀ c : Builder E D, lastLen c.layers ≤ num → c.ideal c.layers.length ≤ ⌈m * num⌉₊ →
      lastLen c.layers + c.additional ≤ ⌈m * num⌉₊ := by
    intro c h1 h2
    unfold Builder.additional
    split <;> omega
  have hsz := planned_sizes hmono hsrt h
  have hpl := h.reachable.2
  rcases hc with ⟨hl, rfl⟩ | ⟨b0, b1, h0, hrounds, hlt, rfl⟩
  · refine key c hn.2.1 ?_
    rw [planned_ideal hpl]
    by_cases h1 : c.layers.length - 1 = 0
    · rw [h1]; exact htop c hpl hn.2.2
    · have h2 := hsz.2 (c.layers.length - 2) (by simp [sizesOf]; omega)
      rw [sizesOf_last] at h2
      rw [show c.layers.length - 1 = c.layers.length - 2 + 1 by omega]
      exact hgrow _ (by omega)
  · have hst : LoopState (numElementsInLayer m) total num b1 := by
      have hs0 := loopState_start hmono hsrt h hn h0
      clear hlt
      induction hrounds with
      | refl => exact hs0
      | tail _ hstep ih => exact loopState_step hmono hsrt ih hstep.1 hstep.2
    refine key _ (by rw [addLayer_last]; omega) ?_
    have hid : b1.addLayer.ideal b1.addLayer.layers.length = b1.ideal b1.addLayer.layers.length := rfl
    rw [hid, planned_ideal hst.planned, addLayer_len, Nat.add_sub_cancel]
    by_cases h1 : b1.layers.length = 0
    · rw [h1]; exact htop b1 hst.planned hst.bound
    · obtain ⟨l, hl⟩ : ∃ l, b1.layers[b1.layers.length - 1]? = some l := ⟨_, List.getElem?_eq_getElem (by omega)⟩
      have h2 := hst.sizes _ l hl
      have h3 : lastLen b1.layers = l.rows.length := by
        unfold lastLen
        rw [List.getLast?_eq_getElem?, hl]
      rw [show b1.layers.length = b1.layers.length - 1 + 1 by omega]
      exact hgrow _ (by omega)

/-- C86. Whatever the history of the builder: room is reserved for at most `m ^ (number of layers)` nodes. -/
theorem C86_reserved_any (m : ℝ) (hm : 1 < m) (b : Builder E D) (hs : b.config.schedule = numElementsInLayer m)
    (hl : b.layers ≠ []) : b.additional ≤ ⌈m ^ b.layers.length⌉₊ := by
  have hpos := List.length_pos_iff.2 hl
  have h1 : b.ideal b.layers.length ≤ ⌈m ^ b.layers.length⌉₊ := by
    unfold Builder.ideal
    rw [hs]
    have := sched_upper hm (max b.total b.elements.data.length) (b.layers.length - 1)
    rwa [show b.layers.length - 1 + 1 = b.layers.length by omega] at this
  unfold Builder.additional
  split <;> omega

/-- C86, the other side: with a multiplier of exactly one the first layer reserves room for all the elements that are expected,
even if only one is there to be indexed. -/
theorem C86_multiplier_one (b : Builder E D) (hs : b.config.schedule = numElementsInLayer 1)
    (he : b.config.expectedNumElements = some total) (hle : b.elements.data.length ≤ total) (hl : b.layers = [])
    (hne : 1 ≤ b.elements.data.length) : b.IndexesIn srt 1 b.addLayer ∧ b.addLayer.additional = total := by
  refine ⟨⟨⟨by omega, by rw [hl]; exact Nat.zero_le _, hne⟩,
    Or.inr ⟨b, b, Or.inl ⟨hl, rfl⟩, .refl, by rw [hl]; exact Nat.zero_lt_one, rfl⟩⟩, ?_⟩
  have h1 : b.addLayer.ideal b.addLayer.layers.length = total := by
    show b.config.schedule (max (b.config.expectedNumElements.getD b.elements.data.length) b.elements.data.length) _ = total
    rw [he, hs, Option.getD_some, max_eq_left hle]
    unfold numElementsInLayer
    rw [Real.one_rpow, div_one, Nat.ceil_natCast, min_self]
  have h2 : lastLen b.addLayer.layers = 0 := by rw [addLayer_last, hl]; rfl
  unfold Builder.additional
  rw [h1, h2]
  split <;> omega

/-- The hypotheses of `C86_reserved` are met, with room reserved, when the first of four elements of an expected hundred is indexed. -/
example : ∃ b c : Builder Int Nat, ReachableWhile exSort (Planned (numElementsInLayer 15) 100) b ∧ b.IndexesIn exSort 1 c ∧
    1 ≤ c.additional := by
  let config : BuildConfig Nat := ⟨numElementsInLayer 15, some 100, 2, 5, false, 0⟩
  let es : Elements Int Nat := ⟨[0, 10, 11, 20], fun a b => (a - b).natAbs⟩
  have hp : Planned (numElementsInLayer 15) 100 (⟨es, [], config⟩ : Builder Int Nat) :=
    ⟨⟨show 1 ≤ 2 by omega, show 1 ≤ 5 by omega, sched_good (by norm_num)⟩, rfl, rfl, show 4 ≤ 100 by omega⟩
  have hnew : Builder.new config es = some (⟨es, [], config⟩ : Builder Int Nat) := by
    unfold Builder.new
    rw [if_pos (show es.data.length < UNUSED from show 4 < 4294967295 by omega)]
  refine ⟨_, _, .new config es _ hnew hp, ⟨⟨by omega, Nat.zero_le _, show 1 ≤ 4 by omega⟩,
    Or.inr ⟨_, _, Or.inl ⟨rfl, rfl⟩, .refl, Nat.zero_lt_one, rfl⟩⟩, ?_⟩
  have h1 : 1 ≤ numElementsInLayer 15 100 0 := sched_pos (by norm_num) (by norm_num) 0
  have h2 : (Builder.addLayer (⟨es, [], config⟩ : Builder Int Nat)).ideal 1 = numElementsInLayer 15 100 0 := rfl
  have h3 : lastLen (Builder.addLayer (⟨es, [], config⟩ : Builder Int Nat)).layers = 0 := rfl
  show 1 ≤ if (Builder.addLayer (⟨es, [], config⟩ : Builder Int Nat)).ideal 1 ≤ _ then 0 else _ - _
  rw [h2, h3, if_neg (by omega)]
  exact h1

/-! ### The upper layers -/

theorem geometric_sum {m : ℝ} (hm : 1 < m) (x : ℕ → ℝ) (hx : ∀ i, x (i + 1) = m * x i) (h0 : 0 ≤ x 0) (j : ℕ) :
    ∑ i ∈ Finset.range (j + 1), x i ≤ x j * (m / (m - 1)) := by
  have hm1 : 0 < m - 1 := by linarith
  induction j with
  | zero =>
    rw [Finset.sum_range_one]
    have : 1 ≤ m / (m - 1) := by rw [le_div_iff₀ hm1]; linarith
    nlinarith
  | succ j ih =>
    rw [Finset.sum_range_succ]
    have h1 : x (j + 1) * (m / (m - 1)) = x j * (m / (m - 1)) + x (j + 1) := by
      rw [hx]
      field_simp
      ring
    linarith

/-- The planned sizes before rounding. -/
noncomputable def exactSize (m : ℝ) (total i : ℕ) : ℝ := (total : ℝ) / m ^ ((⌊Real.logb m total⌋ : ℝ) - (i : ℝ))

theorem exactSize_succ {m : ℝ} (hm : 1 < m) (i : ℕ) : exactSize m total (i + 1) = m * exactSize m total i := by
  have hm0 : 0 < m := by linarith
  unfold exactSize
  rw [show ((⌊Real.logb m total⌋ : ℝ) - ((i + 1 : ℕ) : ℝ)) = ((⌊Real.logb m total⌋ : ℝ) - (i : ℝ)) - 1 by push_cast; ring,
    Real.rpow_sub hm0, Real.rpow_one]
  have := Real.rpow_pos_of_pos hm0 ((⌊Real.logb m total⌋ : ℝ) - (i : ℝ))
  field_simp

theorem exactSize_nonneg {m : ℝ} (hm : 1 < m) (i : ℕ) : 0 ≤ exactSize m total i := by
  have hm0 : 0 < m := by linarith
  unfold exactSize
  have := Real.rpow_pos_of_pos hm0 ((⌊Real.logb m total⌋ : ℝ) - (i : ℝ))
  positivity

omit [LinearOrder D] in
theorem upper_sum {m : ℝ} (hm : 1 < m) {b : Builder E D}
    (hsz : SizesOk (numElementsInLayer m total) (sizesOf b.layers)) (A : ℝ) (hA : 0 ≤ A)
    (hlast : ∀ j, numElementsInLayer m total j < lastLen b.layers → exactSize m total j ≤ A) :
    (((sizesOf b.layers).dropLast.sum : ℕ) : ℝ) ≤ A * (m / (m - 1)) + ((b.layers.length - 1 : ℕ) : ℝ) := by
  have hm1 : 0 < m - 1 := by linarith
  have hlen : (sizesOf b.layers).dropLast.length = b.layers.length - 1 := by simp [sizesOf]
  rcases Nat.eq_zero_or_pos (b.layers.length - 1) with h0 | hpos
  · have : (sizesOf b.layers).dropLast = [] := List.length_eq_zero_iff.1 (hlen.trans h0)
    rw [this, List.sum_nil, h0]
    have : 0 ≤ m / (m - 1) := by positivity
    simp only [Nat.cast_zero, add_zero]
    positivity
  · have hsum : (sizesOf b.layers).dropLast.sum =
        ∑ i ∈ Finset.range (b.layers.length - 1), ((sizesOf b.layers).dropLast[i]?).getD 0 := by
      rw [← hlen]
      generalize (sizesOf b.layers).dropLast = l
      induction l with
      | nil => rfl
      | cons a t ih => rw [List.sum_cons, List.length_cons, Finset.sum_range_succ', ih]; simp [Nat.add_comm]
    rw [hsum, Nat.cast_sum]
    have hterm : ∀ i ∈ Finset.range (b.layers.length - 1),
        ((((sizesOf b.layers).dropLast[i]?).getD 0 : ℕ) : ℝ) ≤ exactSize m total i + 1 := by
      intro i hi
      rw [Finset.mem_range] at hi
      obtain ⟨s, hs⟩ : ∃ s, (sizesOf b.layers).dropLast[i]? = some s := ⟨_, List.getElem?_eq_getElem (by omega)⟩
      have hs' : (sizesOf b.layers)[i]? = some s := by
        rw [List.getElem?_dropLast] at hs
        split at hs
        · exact hs
        · cases hs
      have h1 := hsz.1 i s hs'
      rw [hs, Option.getD_some]
      have h2 : s ≤ ⌈exactSize m total i⌉₊ := by
        have : numElementsInLayer m total i ≤ ⌈exactSize m total i⌉₊ := min_le_left _ _
        omega
      have h3 : (s : ℝ) ≤ (⌈exactSize m total i⌉₊ : ℝ) := by exact_mod_cast h2
      exact h3.trans (Nat.ceil_lt_add_one (exactSize_nonneg hm i)).le
    refine (Finset.sum_le_sum hterm).trans ?_
    rw [Finset.sum_add_distrib, Finset.sum_const, Finset.card_range, nsmul_eq_mul, mul_one]
    have hg := geometric_sum hm (exactSize m total) (exactSize_succ hm) (exactSize_nonneg hm 0) (b.layers.length - 2)
    rw [show b.layers.length - 2 + 1 = b.layers.length - 1 by omega] at hg
    have hj := hsz.2 (b.layers.length - 2) (by simp [sizesOf]; omega)
    rw [sizesOf_last] at hj
    have := hlast _ hj
    have hq : 0 ≤ m / (m - 1) := by positivity
    nlinarith

/-- C86. All upper layers together have at most `m / (m - 1)` times as many nodes as elements are indexed, and one more for each. -/
theorem C86_upper (m : ℝ) (hm : 1 < m) (hsrt : IsSortByDist srt) (b : Builder E D)
    (h : ReachableWhile srt (Planned (numElementsInLayer m) total) b) :
    ((((b.layers.map fun l => l.rows.length).dropLast.sum : ℕ)) : ℝ) ≤
      lastLen b.layers * (m / (m - 1)) + ((b.layers.length - 1 : ℕ) : ℝ) := by
  have hsz := planned_sizes (schedule := numElementsInLayer m) (fun _ _ _ hij => sched_mono hm hij) hsrt h
  refine upper_sum hm hsz _ (Nat.cast_nonneg _) fun j hj => ?_
  have hi := h.reachable.1.inv hsrt h.reachable.2.good
  have hle : lastLen b.layers ≤ b.elements.data.length := by
    unfold lastLen
    rcases Option.eq_none_or_eq_some b.layers.getLast? with h1 | ⟨l, h1⟩
    · rw [h1]; exact Nat.zero_le _
    · rw [h1]
      exact (hi.stack.layer l.rows (List.mem_map_of_mem (List.mem_of_getLast? h1))).2.2
  have := h.reachable.2.enough
  have h1 : ⌈exactSize m total j⌉₊ ≤ lastLen b.layers := by
    have h2 : min ⌈exactSize m total j⌉₊ total < lastLen b.layers := hj
    omega
  exact (Nat.le_ceil _).trans (by exact_mod_cast h1)

/-- C86. When all the expected elements are indexed, they have at most a fraction `1 / (m - 1)` of them, and one more for each: with the
default multiplier 15 the upper layers are a fourteenth of the index. -/
theorem C86_upper_complete (m : ℝ) (hm : 1 < m) (hsrt : IsSortByDist srt) (b : Builder E D)
    (h : ReachableWhile srt (Planned (numElementsInLayer m) total) b) (hall : lastLen b.layers = total) :
    ((((b.layers.map fun l => l.rows.length).dropLast.sum : ℕ)) : ℝ) ≤
      lastLen b.layers / (m - 1) + ((b.layers.length - 1 : ℕ) : ℝ) := by
  have hm0 : 0 < m := by linarith
  have hm1 : 0 < m - 1 := by linarith
  have hsz := planned_sizes (schedule := numElementsInLayer m) (fun _ _ _ hij => sched_mono hm hij) hsrt h
  have := upper_sum hm hsz ((total : ℝ) / m) (by positivity) fun j hj => ?_
  · rw [hall] at *
    have e : (total : ℝ) / m * (m / (m - 1)) = total / (m - 1) := by field_simp
    rw [e] at this
    exact this
  · rw [hall] at hj
    have h1 : (j : ℤ) < ⌊Real.logb m total⌋ := by
      by_contra hcon
      rw [sched_all hm (by omega)] at hj
      omega
    unfold exactSize
    apply div_le_div_of_nonneg_left (Nat.cast_nonneg _) hm0
    have h2 : ((j : ℤ) : ℝ) + 1 ≤ ((⌊Real.logb m total⌋ : ℤ) : ℝ) := by exact_mod_cast h1
    conv_lhs => rw [← Real.rpow_one m]
    apply Real.rpow_le_rpow_of_exponent_le hm.le
    push_cast at h2
    linarith

/-- C86. An index has at most two layers more than the logarithm of its size to the base `m`, however many elements were expected. -/
theorem C86_layers (m : ℝ) (hm : 1 < m) (hsrt : IsSortByDist srt) (b : Builder E D)
    (h : ReachableWhile srt (Planned (numElementsInLayer m) total) b) (hl : 2 ≤ b.layers.length) :
    m ^ (b.layers.length - 2) < lastLen b.layers := by
  have hsz := planned_sizes (schedule := numElementsInLayer m) (fun _ _ _ hij => sched_mono hm hij) hsrt h
  have hj := hsz.2 (b.layers.length - 2) (by simp [sizesOf]; omega)
  rw [sizesOf_last] at hj
  have hi := h.reachable.1.inv hsrt h.reachable.2.good
  have hle : lastLen b.layers ≤ b.elements.data.length := by
    unfold lastLen
    rcases Option.eq_none_or_eq_some b.layers.getLast? with h1 | ⟨l, h1⟩
    · rw [h1]; exact Nat.zero_le _
    · rw [h1]
      exact (hi.stack.layer l.rows (List.mem_map_of_mem (List.mem_of_getLast? h1))).2.2
  have := h.reachable.2.enough
  rcases hk : b.layers.length - 2 with _ | i
  · rw [hk] at hj
    have := sched_pos hm (total := total) (by omega) 0
    rw [pow_zero]
    have h1 : 1 < lastLen b.layers := by omega
    exact_mod_cast h1
  · rw [hk] at hj
    have h2 := sched_lower hm total i
    have h3 : ⌈m ^ (i + 1)⌉₊ < lastLen b.layers := by omega
    exact lt_of_le_of_lt (Nat.le_ceil _) (by exact_mod_cast h3)

end Granne
