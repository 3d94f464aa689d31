import Verif.Model.TextIndex
import Verif.Proofs.Sums
import Verif.Props.EndToEnd
import Verif.Props.Words
import Verif.Props.Reorder
import Verif.Props.Elements

/-!
C55 - C57: keys for reordering, text indexes, indexes over sums of embeddings.
-/
namespace Granne
open Spec F32

/-! ### C55 -/

/-- The norm of the embedding of a term as it is computed. -/
noncomputable def termNorm (embs : List (List F32)) (w : Nat) : F32 := embNorm (embs.getD w [])

/-- `order` lists the terms by decreasing norm; terms of the same norm are in the reverse of their order. -/
structure ByNorm (norm : Nat → F32) (terms order : List Nat) : Prop where
  perm : order.Perm terms
  sorted : order.Pairwise fun a b => (norm b).gt (norm a) = false
  ties : ∀ w : Nat, order.filter (fun a => !(norm a).gt (norm w) && !(norm w).gt (norm a)) =
    (terms.filter fun a => !(norm a).gt (norm w) && !(norm w).gt (norm a)).reverse

/-- The first eight entries, filled up with zeros. -/
def eightOf (l : List Nat) : List Nat := (l ++ List.replicate 8 0).take 8

theorem eightOf_eq (l : List Nat) :
    l.take (min l.length NUM_WORDS) ++ List.replicate (NUM_WORDS - min l.length NUM_WORDS) 0 = eightOf l := by
  unfold eightOf NUM_WORDS
  rw [List.take_append]
  rcases le_total l.length 8 with h | h
  · rw [min_eq_left h, List.take_of_length_le le_rfl, List.take_of_length_le h]
    rw [List.take_replicate, min_eq_left (by omega)]
  · rw [min_eq_right h]
    simp [h]

theorem termNorm_getD (embs : List (List F32)) (w : Nat) : (embs.map embNorm).getD w (fin 0) = termNorm embs w := by
  unfold termNorm
  rcases lt_or_ge w embs.length with h | h
  · simp [h]
  · have : embNorm ([] : List F32) = fin 0 := by
      show F32.sqrt (fin 0) = fin 0
      rw [F32.sqrt, if_neg (lt_irrefl _), Real.sqrt_zero, ofReal_fin (by rw [rne32_zero, abs_zero]; exact maxF32_pos.le),
        rne32_zero]
    simp [h, this]

/-- C55. The keys by which `reorder` of a text index sorts: one per element, the eight terms of largest norm (as
computed) in decreasing order, filled up with zeros. -/
theorem C55_keys (s : SumEmb F32) (dim : Nat) (embs : List (List F32)) (he : ShowsVectors s.embeddings dim embs)
    (terms : List (List Nat)) (ht : ShowsTerms s terms) (keys : List (List Nat)) (h : computeKeys s = some keys) :
    keys.length = terms.length ∧ ∀ (i : Nat) (ts : List Nat), terms[i]? = some ts →
      ∃ order, ByNorm (termNorm embs) ts order ∧ keys[i]? = some (eightOf order) := by
  by_cases hn : ∃ r ∈ embs, nan ∈ r
  · rw [computeKeys, wordNorms_none he hn] at h; simp at h
  have hn' : ∀ r ∈ embs, nan ∉ r := fun r hr hc => hn ⟨r, hr, hc⟩
  rw [computeKeys, wordNorms_some he hn'] at h
  simp only at h
  have hk := seqOpt_eq_some h
  have hlen : keys.length = terms.length := by
    have := congrArg List.length hk
    simp only [List.length_map, List.length_range] at this
    rw [← this, ht.len]
  refine ⟨hlen, fun i ts hi => ?_⟩
  have hlt := (List.getElem?_eq_some_iff.1 hi).1
  have hki := congrArg (fun l => l[i]?) hk
  simp only [List.getElem?_map] at hki
  rw [List.getElem?_range (by rw [ht.len]; exact hlt), Option.map_some, List.getElem?_eq_getElem (by omega), Option.map_some,
    Option.some.injEq, getKey, ht.get, hi] at hki
  simp only at hki
  rcases Option.eq_none_or_eq_some (sortTerms (embs.map embNorm) ts) with hs | ⟨order, hs⟩
  · rw [hs] at hki; simp at hki
  · rw [hs] at hki
    simp only [Option.some.injEq] at hki
    have hnn : nan ∉ embs.map embNorm := by
      intro hc
      obtain ⟨r, hr, hc⟩ := List.mem_map.1 hc
      exact hn' r hr ((embNorm_nan_iff r).1 hc)
    obtain ⟨h1, h2, h3⟩ := sortTerms_spec _ hnn ts order hs
    simp only [termNorm_getD] at h2 h3
    refine ⟨order, ⟨h1, h2, fun w => h3 _ ?_⟩, ?_⟩
    · intro a b ha hb
      simp only [Bool.and_eq_true, Bool.not_eq_true'] at ha hb
      have hwn : termNorm embs w ≠ nan := by
        rw [← termNorm_getD, List.getD_eq_getElem?_getD]
        rcases Option.eq_none_or_eq_some (embs.map embNorm)[w]? with hx | ⟨x, hx⟩
        · rw [hx]; simp
        · rw [hx, Option.getD_some]
          exact fun hc => hnn (hc ▸ List.mem_of_getElem? hx)
      exact f32_le_trans hwn ha.1 hb.2
    · rw [List.getElem?_eq_getElem (by omega), ← eightOf_eq, hki]

/-- C55. Computing the keys panics exactly if an embedding has a NaN component, or an element with at least two terms
has a term without embedding. -/
theorem C55_panics_iff (s : SumEmb F32) (dim : Nat) (embs : List (List F32)) (he : ShowsVectors s.embeddings dim embs)
    (terms : List (List Nat)) (ht : ShowsTerms s terms) :
    computeKeys s = none ↔ (∃ r ∈ embs, nan ∈ r) ∨ ∃ ts ∈ terms, 2 ≤ ts.length ∧ ∃ w ∈ ts, embs.length ≤ w := by
  by_cases hn : ∃ r ∈ embs, nan ∈ r
  · exact ⟨fun _ => Or.inl hn, fun _ => by rw [computeKeys, wordNorms_none he hn]⟩
  have hn' : ∀ r ∈ embs, nan ∉ r := fun r hr hc => hn ⟨r, hr, hc⟩
  rw [computeKeys, wordNorms_some he hn']
  simp only
  have key : ∀ (i : Nat) (ts : List Nat), terms[i]? = some ts →
      (getKey s (embs.map embNorm) i = none ↔ 2 ≤ ts.length ∧ ∃ w ∈ ts, embs.length ≤ w) := by
    intro i ts hi
    rw [getKey, ht.get, hi]
    simp only
    rw [show embs.length = (embs.map embNorm).length by simp, ← sortTerms_none_iff]
    rcases Option.eq_none_or_eq_some (sortTerms (embs.map embNorm) ts) with hs | ⟨order, hs⟩
    · rw [hs]
    · rw [hs]; simp
  constructor
  · intro h
    right
    by_contra hc
    push Not at hc
    have hall : ∀ i ∈ List.range s.len, ∃ k, getKey s (embs.map embNorm) i = some k := by
      intro i hi
      have hlt : i < terms.length := by rw [← ht.len]; simpa using hi
      rcases Option.eq_none_or_eq_some (getKey s (embs.map embNorm) i) with hs | hs
      · obtain ⟨h2, w, hw, hle⟩ := (key i terms[i] (List.getElem?_eq_getElem hlt)).1 hs
        have := hc _ (List.getElem_mem hlt) h2 w hw
        omega
      · exact hs
    choose! f hf using hall
    rw [seqOpt_map_some hf] at h
    cases h
  · rintro (h | ⟨ts, hts, h⟩)
    · exact absurd h hn
    · obtain ⟨i, hi⟩ := List.mem_iff_getElem?.1 hts
      apply seqOpt_none
      rw [List.mem_map]
      exact ⟨i, by rw [List.mem_range, ht.len]; exact (List.getElem?_eq_some_iff.1 hi).1, (key i ts hi).2 h⟩

/-- C55. The norms are computed up to a relative error of `2^-13`, so in a key a term comes before every term whose
embedding is shorter by more than a factor of `1 + 2^-11`. -/
theorem C55_real_norms (embs : List (List ℝ)) (hdim : ∀ e ∈ embs, e.length ≤ 1024)
    (hrange : ∀ e ∈ embs, 2 ^ (-50 : Int) ≤ norm e ∧ norm e ≤ 2 ^ (63 : Int)) (ts order : List Nat)
    (hts : ∀ w ∈ ts, w < embs.length) (h : ByNorm (termNorm (embs.map fun e => e.map fin)) ts order) :
    order.Pairwise fun a b => norm (embs.getD b []) < (1 + 2 ^ (-11 : Int)) * norm (embs.getD a []) := by
  refine List.Pairwise.imp_of_mem ?_ h.sorted
  intro a b ha hb hab
  have ha' := hts a (h.perm.mem_iff.1 ha)
  have hb' := hts b (h.perm.mem_iff.1 hb)
  have get : ∀ w, w < embs.length → embs.getD w [] ∈ embs ∧
      termNorm (embs.map fun e => e.map fin) w = embNorm ((embs.getD w []).map fin) := by
    intro w hw
    refine ⟨by simp [hw], ?_⟩
    unfold termNorm
    simp [hw]
  obtain ⟨ma, ea⟩ := get a ha'
  obtain ⟨mb, eb⟩ := get b hb'
  obtain ⟨ra, ha1, ha2⟩ := embNorm_err _ (hdim _ ma) (hrange _ ma).1 (hrange _ ma).2
  obtain ⟨rb, hb1, hb2⟩ := embNorm_err _ (hdim _ mb) (hrange _ mb).1 (hrange _ mb).2
  rw [ea, eb, ha1, hb1] at hab
  have hle : rb ≤ ra := by simpa [F32.gt] using hab
  have hpos : 0 < norm (embs.getD a []) := lt_of_lt_of_le (two_zpow_pos _) (hrange _ ma).1
  have e13 : (2 : ℝ) ^ (-13 : Int) = 1 / 8192 := by norm_num
  have e11 : (2 : ℝ) ^ (-11 : Int) = 1 / 2048 := by norm_num
  rw [e13, abs_le] at ha2 hb2
  rw [e11]
  linarith [ha2.2, hb2.1]

/-- Three embeddings of norm 1, 3 and 0. -/
noncomputable def exEmb : FixVec F32 := ⟨[fin 1, fin (-3), fin 0], 1⟩

theorem exEmb_shows : ShowsVectors exEmb 1 [[fin 1], [fin (-3)], [fin 0]] :=
  (FixRepr.mk (by decide) rfl rfl (by simp [exEmb])).shows

theorem exEmb_norms : termNorm [[fin 1], [fin (-3)], [fin 0]] 0 = fin 1 ∧
    termNorm [[fin 1], [fin (-3)], [fin 0]] 1 = fin 3 ∧ termNorm [[fin 1], [fin (-3)], [fin 0]] 2 = fin 0 := by
  have hmax : (9 : ℝ) ≤ maxF32 := le_trans (by norm_num) maxF32_ge
  have hint : ∀ n : Int, |(n : ℝ)| ≤ 9 → ofReal (n : ℝ) = fin (n : ℝ) := by
    intro n hn
    have hr : rne32 (n : ℝ) = n := rne32_int (hn.trans (by norm_num))
    rw [ofReal_fin (by rw [hr]; linarith), hr]
  have h9 := hint 9 (by norm_num)
  have h3 := hint 3 (by norm_num)
  have h1 := hint 1 (by norm_num)
  have h0 := hint 0 (by norm_num)
  push_cast at h9 h3 h1 h0
  have one : ∀ a b : ℝ, ofReal (a * a) = fin (b * b) → ofReal (b * b) = fin (b * b) → 0 ≤ b → ofReal b = fin b →
      embNorm [fin a] = fin b := by
    intro a b e1 e2 hb e3
    show F32.sqrt (F32.add (fin 0) (F32.mul (fin a) (fin a))) = fin b
    rw [F32.mul, e1, F32.add, zero_add, e2, F32.sqrt, if_neg (not_lt.2 (mul_self_nonneg b)), Real.sqrt_mul_self hb, e3]
  refine ⟨?_, ?_, ?_⟩
  · show embNorm [fin 1] = _
    exact one 1 1 (by norm_num; exact h1) (by norm_num; exact h1) (by norm_num) h1
  · show embNorm [fin (-3)] = _
    exact one (-3) 3 (by norm_num; exact h9) (by norm_num; exact h9) (by norm_num) h3
  · show embNorm [fin 0] = _
    exact one 0 0 (by simpa using h0) (by simpa using h0) le_rfl h0

/-- Non-vacuity of C55: the keys of an element with a repeated term, of one with an unknown term, and of none. -/
example : ∃ s0 s : SumEmb F32, SumEmb.new = some s0 ∧ s0.pushAll [[0, 1, 2, 0], [7], []] = some s ∧
    computeKeys ⟨exEmb, s.elements⟩ =
      some [[1, 0, 0, 2, 0, 0, 0, 0], [7, 0, 0, 0, 0, 0, 0, 0], [0, 0, 0, 0, 0, 0, 0, 0]] := by
  obtain ⟨s0, s, h1, h2, h3⟩ := C31_pushes_succeed (S := F32) [[0, 1, 2, 0], [7], []] (by decide) (by decide)
  refine ⟨s0, s, h1, h2, ?_⟩
  have ht : ShowsTerms (⟨exEmb, s.elements⟩ : SumEmb F32) [[0, 1, 2, 0], [7], []] := ⟨h3.len, h3.get⟩
  rcases Option.eq_none_or_eq_some (computeKeys (⟨exEmb, s.elements⟩ : SumEmb F32)) with hn | ⟨keys, hk⟩
  · rcases (C55_panics_iff _ 1 _ exEmb_shows _ ht).1 hn with ⟨r, hr, hr2⟩ | ⟨ts, hts, h2, w, hw, hle⟩
    · simp only [List.mem_cons, List.not_mem_nil, or_false] at hr
      rcases hr with rfl | rfl | rfl <;> simp at hr2
    · simp only [List.mem_cons, List.not_mem_nil, or_false] at hts
      rcases hts with rfl | rfl | rfl
      · simp only [List.mem_cons, List.not_mem_nil, or_false, List.length_cons, List.length_nil] at hw hle
        omega
      · simp at h2
      · simp at h2
  · rw [hk]
    obtain ⟨hl, hall⟩ := C55_keys _ 1 _ exEmb_shows _ ht keys hk
    obtain ⟨n0, n1, n2⟩ := exEmb_norms
    obtain ⟨o0, b0, k0⟩ := hall 0 _ rfl
    obtain ⟨o1, b1, k1⟩ := hall 1 _ rfl
    obtain ⟨o2, b2, k2⟩ := hall 2 _ rfl
    have e1 : o1 = [7] := List.perm_singleton.1 b1.perm
    have e2 : o2 = [] := List.perm_nil.1 b2.perm
    have e0 : o0 = [1, 0, 0, 2] := by
      have hs : ([1, 0, 0, 2] : List Nat).Pairwise fun a b =>
          (termNorm [[fin 1], [fin (-3)], [fin 0]] b).gt (termNorm [[fin 1], [fin (-3)], [fin 0]] a) = false := by
        simp [n0, n1, n2, F32.gt]
      refine List.Perm.eq_of_pairwise ?_ b0.sorted hs (b0.perm.trans (by decide))
      intro a b ha hb h1 h2
      have ha := b0.perm.mem_iff.1 ha
      simp only [List.mem_cons, List.not_mem_nil, or_false] at ha hb
      rcases ha with rfl | rfl | rfl | rfl <;> rcases hb with rfl | rfl | rfl | rfl <;>
        simp [n0, n1, n2, F32.gt] at h1 h2 ⊢
    subst e0 e1 e2
    match keys, hl with
    | [a, b, c], _ =>
      simp only [List.getElem?_cons_zero, List.getElem?_cons_succ, Option.some.injEq] at k0 k1 k2
      rw [k0, k1, k2]
      rfl

end Granne
