import Verif.Model.Keys
import Verif.Proofs.F32Panics
import Verif.Proofs.F32Error
import Verif.Proofs.Parsing
import Verif.Spec.Elements

/-! Norms of embeddings and keys for reordering. -/
namespace Granne
open Spec F32 List

/-! ### The order of `f32` values that are not NaN -/

theorem f32_le_trans {a b c : F32} (hb : b ≠ nan) (h1 : gt a b = false) (h2 : gt b c = false) : gt a c = false := by
  cases a <;> cases b <;> cases c <;> simp_all [F32.gt]
  exact h1.trans h2

theorem f32_le_total (a b : F32) : gt a b = false ∨ gt b a = false := by
  cases a <;> cases b <;> simp [F32.gt]
  · rename_i s t; cases s <;> cases t <;> simp
  · exact le_total _ _

/-! ### Norms -/

/-- A sum of squares is `+∞` or a number that is not negative, unless a component is NaN. -/
def SquareSum (v : F32) : Prop := v = inf false ∨ ∃ r, v = fin r ∧ 0 ≤ r

theorem squareSum_step {s x : F32} (hs : SquareSum s) (hx : x ≠ nan) : SquareSum (add s (mul x x)) := by
  have hsq : SquareSum (mul x x) := by
    cases x with
    | nan => exact absurd rfl hx
    | inf t => left; simp [F32.mul]
    | fin a =>
      rcases ofReal_nonneg (mul_self_nonneg a) with h | h
      · left; rw [F32.mul, h]
      · right; exact ⟨_, by rw [F32.mul, h], rne32_nonneg (mul_self_nonneg a)⟩
  rcases hs with rfl | ⟨r, rfl, hr⟩
  · rcases hsq with h | ⟨t, h, _⟩ <;> rw [h] <;> left <;> rfl
  · rcases hsq with h | ⟨t, h, ht⟩
    · rw [h]; left; rfl
    · rw [h]
      rcases ofReal_nonneg (show 0 ≤ r + t by linarith) with h' | h'
      · left; rw [F32.add, h']
      · right; exact ⟨_, by rw [F32.add, h'], rne32_nonneg (by linarith)⟩

theorem squares_ok : ∀ (v : List F32) (s : F32), nan ∉ v → SquareSum s →
    SquareSum (v.foldl (fun s x => add s (mul x x)) s)
  | [], _, _, hs => hs
  | x :: t, s, hv, hs => by
    rw [List.foldl_cons]
    exact squares_ok t _ (fun h => hv (by simp [h])) (squareSum_step hs fun h => hv (by simp [h]))

theorem squares_nan_acc : ∀ v : List F32, v.foldl (fun s x => add s (mul x x)) nan = nan
  | [] => rfl
  | x :: t => by rw [List.foldl_cons]; exact squares_nan_acc t

theorem squares_nan : ∀ (v : List F32) (s : F32), nan ∈ v → v.foldl (fun s x => add s (mul x x)) s = nan
  | x :: t, s, hv => by
    rw [List.foldl_cons]
    rcases List.mem_cons.1 hv with h | h
    · subst h
      have : add s (mul nan nan) = nan := by cases s <;> rfl
      rw [this]
      exact squares_nan_acc t
    · exact squares_nan t _ h

theorem embNorm_nan_iff (v : List F32) : embNorm v = nan ↔ nan ∈ v := by
  have e : embNorm v = F32.sqrt (v.foldl (fun s x => add s (mul x x)) (fin 0)) := rfl
  rw [e]
  constructor
  · intro h
    by_contra hv
    rcases squares_ok v (fin 0) hv (Or.inr ⟨0, rfl, le_rfl⟩) with h' | ⟨r, h', hr⟩
    · rw [h'] at h; simp [F32.sqrt] at h
    · rw [h', F32.sqrt, if_neg (not_lt.2 hr)] at h
      unfold ofReal at h
      split at h <;> cases h
  · intro h
    rw [squares_nan v _ h]
    rfl

theorem isNan_iff (v : F32) : FloatOps.isNan v = true ↔ v = nan := by
  cases v <;> simp [FloatOps.isNan]

/-! ### The norms of all embeddings -/

theorem createEmbedding_single {S : Type} [Add S] [Zero S] (s : SumEmb S) (i : Nat) :
    s.createEmbedding [i] = s.embeddings.get i := by
  rw [SumEmb.createEmbedding]
  cases s.embeddings.get i <;> rfl

theorem seqOpt_map_some {α β : Type} {f : α → Option β} {g : α → β} {l : List α} (h : ∀ a ∈ l, f a = some (g a)) :
    seqOpt (l.map f) = some (l.map g) := by
  apply seqOpt_some
  rw [List.map_map]
  exact List.map_congr_left h

theorem wordNorms_some {s : SumEmb F32} {dim : Nat} {rows : List (List F32)} (h : ShowsVectors s.embeddings dim rows)
    (hn : ∀ r ∈ rows, nan ∉ r) : wordNorms s = some (rows.map embNorm) := by
  have e : wordNorms s = some ((List.range rows.length).map fun i => embNorm (rows.getD i [])) := by
    unfold wordNorms
    rw [SumEmb.numEmbeddings, h.len]
    refine seqOpt_map_some fun i hi => ?_
    have hi : i < rows.length := by simpa using hi
    rw [createEmbedding_single, h.get i rows[i] (List.getElem?_eq_getElem hi)]
    simp only
    have : ¬ FloatOps.isNan (embNorm rows[i]) = true := by
      rw [isNan_iff, embNorm_nan_iff]
      exact hn _ (List.getElem_mem hi)
    rw [if_neg this]
    simp [hi]
  rw [e]
  congr 1
  apply List.ext_getElem?
  intro i
  rcases lt_or_ge i rows.length with hi | hi
  · simp [hi]
  · simp [hi]

theorem wordNorms_none {s : SumEmb F32} {dim : Nat} {rows : List (List F32)} (h : ShowsVectors s.embeddings dim rows)
    (hn : ∃ r ∈ rows, nan ∈ r) : wordNorms s = none := by
  obtain ⟨r, hr, hnan⟩ := hn
  obtain ⟨i, hi⟩ := List.mem_iff_getElem?.1 hr
  have hlt := (List.getElem?_eq_some_iff.1 hi).1
  unfold wordNorms
  apply seqOpt_none
  rw [List.mem_map]
  refine ⟨i, by rw [SumEmb.numEmbeddings, h.len]; simpa using hlt, ?_⟩
  rw [createEmbedding_single, h.get i r hi]
  simp only
  rw [if_pos ((isNan_iff _).2 ((embNorm_nan_iff r).2 hnan))]

/-! ### Sorting terms -/

/-- The terms in the order in which the key lists them. -/
theorem sortTerms_spec (norms : List F32) (hn : nan ∉ norms) (ids order : List Nat) (h : sortTerms norms ids = some order) :
    order.Perm ids ∧
    order.Pairwise (fun a b => gt (norms.getD b (fin 0)) (norms.getD a (fin 0)) = false) ∧
    ∀ p : Nat → Bool, (∀ a b, p a → p b → gt (norms.getD a (fin 0)) (norms.getD b (fin 0)) = false) →
      order.filter p = (ids.filter p).reverse := by
  have hd : ∀ a : Nat, norms.getD a (fin 0) ≠ nan := by
    intro a
    rcases lt_or_ge a norms.length with hl | hl
    · rw [List.getD_eq_getElem?_getD, List.getElem?_eq_getElem hl, Option.getD_some]
      exact fun hc => hn (hc ▸ List.getElem_mem hl)
    · rw [List.getD_eq_getElem?_getD, List.getElem?_eq_none hl]; simp
  unfold sortTerms at h
  split at h
  · rename_i hlt
    obtain rfl := Option.some.inj h
    refine ⟨List.reverse_perm _, ?_, fun p _ => List.filter_reverse⟩
    match ids, hlt with
    | [], _ => simp
    | [a], _ => simp
  · split at h
    · obtain rfl := Option.some.inj h
      set le : Nat → Nat → Bool := fun a b => !FloatOps.gt (norms.getD a MulAddOps.zero) (norms.getD b MulAddOps.zero) with hle
      have hle' : ∀ a b, le a b = true ↔ gt (norms.getD a (fin 0)) (norms.getD b (fin 0)) = false := by
        intro a b
        simp only [hle]
        rw [Bool.not_eq_true']
        exact Iff.rfl
      have htrans : ∀ a b c, le a b = true → le b c = true → le a c = true := by
        intro a b c
        rw [hle', hle', hle']
        exact f32_le_trans (hd b)
      have htotal : ∀ a b, (le a b || le b a) = true := by
        intro a b
        rw [Bool.or_eq_true, hle', hle']
        exact f32_le_total _ _
      have hperm := List.mergeSort_perm ids le
      refine ⟨(List.reverse_perm _).trans hperm, ?_, ?_⟩
      · rw [List.pairwise_reverse]
        exact (List.pairwise_mergeSort htrans htotal ids).imp fun {a b} hab => (hle' a b).1 hab
      · intro p hp
        rw [List.filter_reverse]
        congr 1
        have hsub : ids.filter p <+ ids.mergeSort le := by
          refine List.sublist_mergeSort htrans htotal ?_ List.filter_sublist
          refine List.pairwise_iff_forall_sublist.2 ?_
          intro a b hab
          have ha : a ∈ ids.filter p := hab.subset (by simp)
          have hb : b ∈ ids.filter p := hab.subset (by simp)
          rw [List.mem_filter] at ha hb
          exact (hle' a b).2 (hp a b ha.2 hb.2)
        have h2 : ids.filter p <+ (ids.mergeSort le).filter p := by
          have := hsub.filter p
          rwa [List.filter_filter, show (ids.filter fun a => p a && p a) = ids.filter p by simp] at this
        exact (h2.eq_of_length (hperm.filter p).length_eq.symm).symm
    · cases h

theorem sortTerms_none_iff (norms : List F32) (ids : List Nat) :
    sortTerms norms ids = none ↔ 2 ≤ ids.length ∧ ∃ w ∈ ids, norms.length ≤ w := by
  unfold sortTerms
  split
  · simp; omega
  · rename_i h
    split
    · rename_i h2
      simp only [List.all_eq_true, decide_eq_true_eq] at h2
      constructor
      · intro hc; cases hc
      · rintro ⟨_, w, hw, hl⟩
        have := h2 w hw
        omega
    · rename_i h2
      simp only [List.all_eq_true, decide_eq_true_eq] at h2
      push Not at h2
      exact ⟨fun _ => ⟨by omega, h2⟩, fun _ => rfl⟩

end Granne
