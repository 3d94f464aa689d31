import Verif.Proofs.BufWriter

/-! Crashes while saving, and when the metadata fits. -/
namespace Granne
open Spec

theorem applyBytes_saveEffects (L : Layers) (f : Bytes) (start : Nat) :
    applyBytes f (saveEffects L start) = (saveIndex L f start).1 := applyBytes_byteEffects _ _ _

theorem readLayerSizes_text {nn : Nat} {k : Nat} (hfit : (metadataText nn [] []).length + k ≤ METADATA_LEN) :
    readLayerSizes (metadataText nn [] [] ++ List.replicate k 32) = some [] := by
  unfold readLayerSizes
  simp only
  have ht : (metadataText nn [] [] ++ List.replicate k 32).take METADATA_LEN =
      metadataText nn [] [] ++ List.replicate k 32 := List.take_of_length_le (by simpa using hfit)
  rw [ht, if_pos, parseMetadata]
  · simp only [metaObj]
    have g1 : (metaObj nn [] []).field (asc "num_layers") = .num 0 := by rfl
    have g2 : (metaObj nn [] []).field (asc "layer_counts") = .arr [] := by rfl
    have g3 : (metaObj nn [] []).field (asc "layer_sizes") = .arr [] := by rfl
    rw [metaObj] at g1 g2 g3
    rw [g1, g2, g3]
    rfl
  · rw [metadataText_eq, List.append_assoc]
    exact List.take_left' (by decide +kernel)

theorem low_nil (q : Nat) : ∀ i < q, ([] : Bytes)[i]? = none ∨ ([] : Bytes)[i]? = some 0 := by simp

theorem SetVec.toBytes_ne_nil (v : SetVec) : v.toBytes ≠ [] := by
  intro h
  have := congrArg List.length h
  simp [SetVec.toBytes, leBytes_length] at this

/-- A save into a fresh file that stops too early, or panics, leaves a file that does not load (or, for an index
without layers, one that loads as such). -/
theorem crash_rejected {L : Layers} {lists : List (List (List Nat))} (h : HasLists L lists) {n : Nat}
    (hn : n < (saveEffects L 0).length ∨ (saveIndex L [] 0).2 = false) :
    loadLayers (applyBytes [] ((saveEffects L 0).take n)) = none ∨
      (lists = [] ∧ loadLayers (applyBytes [] ((saveEffects L 0).take n)) = some []) := by
  have hlow : ∀ E : List (Nat × UInt8), (∀ e ∈ E, METADATA_LEN ≤ e.1) → loadLayers (applyBytes [] E) = none := by
    intro E hE
    apply loadLayers_none
    apply readLayerSizes_low
    intro i hi
    exact applyBytes_low (q := METADATA_LEN) hE (low_nil _) i (by unfold METADATA_LEN; omega)
  rcases Option.eq_none_or_eq_some L.numNeighbors with hnn | ⟨nn, hnn⟩
  · left
    have hr : Runs (writeIndex L) 0 (0 + METADATA_LEN) ([.seek 0] ++ ([.seek (0 + METADATA_LEN)] ++ [])) none := by
      unfold writeIndex
      refine (Runs.tell _).bind ((Runs.seekTo _ _).bind ?_)
      exact (Runs.ofOption_none hnn _).bind_none
    have : saveEffects L 0 = [] := by unfold saveEffects; rw [hr []]; rfl
    rw [this]
    exact hlow _ (by simp)
  · obtain ⟨vs, h1, _, h3⟩ := h.emits
    have h3 := h3 (0 + METADATA_LEN)
    obtain ⟨pre, _, p1, p2, p3, p4⟩ := writeIndex_runs hnn h.counts h3
    rw [Nat.zero_add] at p2
    by_cases hfit : (metaOf nn vs lists).length ≤ METADATA_LEN
    · obtain ⟨p', hr⟩ := p3 hfit
      have hpl := padMetadata_length hfit
      have hs1 := (saveIndex_eq hnn h.counts h3 []).1 hfit
      rw [hs1] at hn
      have heff : saveEffects L 0 = byteEffects pre 0 ++ eff (padMetadata (metaOf nn vs lists)) 0 := by
        unfold saveEffects
        rw [hr [], List.nil_append, byteEffects_append _ _ _ [], p1]
        simp [byteEffects, eff, metaOf]
      rw [heff] at hn ⊢
      have hn : n < (byteEffects pre 0 ++ eff (padMetadata (metaOf nn vs lists)) 0).length := by simpa using hn
      rw [List.take_append]
      by_cases hle : n ≤ (byteEffects pre 0).length
      · left
        rw [show n - (byteEffects pre 0).length = 0 by omega, List.take_zero, List.append_nil]
        exact hlow _ fun e he => p2 e (List.mem_of_mem_take he)
      · rw [List.take_of_length_le (by omega)]
        set m := n - (byteEffects pre 0).length with hm
        have hlen : (eff (padMetadata (metaOf nn vs lists)) 0).length = 1024 := by
          simp [eff, hpl, METADATA_LEN]
        have hm1 : m < 1024 := by rw [List.length_append, hlen] at hn; omega
        have hm0 : 0 < m := by omega
        clear_value m
        have htk : (eff (padMetadata (metaOf nn vs lists)) 0).take m = eff ((padMetadata (metaOf nn vs lists)).take m) 0 :=
          take_range_map _ _ _
        rw [htk, applyBytes_append, applyBytes_eff, applyBytes_byteEffects, p1]
        simp only
        have hlm : ((padMetadata (metaOf nn vs lists)).take m).length = m := by
          rw [List.length_take, hpl, METADATA_LEN]; omega
        have hne : (padMetadata (metaOf nn vs lists)).take m ≠ [] := by
          rw [← List.length_pos_iff]; omega
        by_cases himg : (vs.map SetVec.toBytes).flatten = []
        · -- no layers
          have hvs : vs = [] := by
            cases vs with
            | nil => rfl
            | cons v t => simp [SetVec.toBytes_ne_nil] at himg
          subst hvs
          cases h1
          have hnn0 : nn = 0 := by
            have := h.last_none (by rfl)
            rw [hnn] at this; exact Option.some.inj this
          subst hnn0
          rw [himg, writeAt_nil]
          have hw : writeAt [] 0 ((padMetadata (metaOf 0 [] [])).take m) = (padMetadata (metaOf 0 [] [])).take m := by
            unfold writeAt; simp [hne]
          rw [hw]
          have hmeta : metaOf 0 [] [] = metadataText 0 [] [] := rfl
          rw [hmeta] at hfit ⊢
          by_cases hmt : m < (metadataText 0 [] []).length
          · left
            unfold padMetadata
            rw [List.take_append_of_le_length (by omega)]
            exact loadLayers_none (empty_prefix_rejected m hmt)
          · right
            refine ⟨rfl, ?_⟩
            unfold padMetadata
            rw [List.take_append, List.take_of_length_le (by omega), List.take_replicate]
            unfold loadLayers
            rw [readLayerSizes_text]
            · rfl
            · unfold METADATA_LEN at hfit ⊢; omega
        · left
          apply loadLayers_none
          refine readLayerSizes_nul hm1 ?_
          rw [writeAt_getElem? hne, if_neg (by omega), if_neg (by omega), writeAt_getElem? himg]
          rw [if_pos (by unfold METADATA_LEN; omega), if_neg (by simp)]
    · left
      have hr := p4 hfit
      have heff : saveEffects L 0 = byteEffects pre 0 := by unfold saveEffects; rw [hr []]; rfl
      rw [heff]
      exact hlow _ fun e he => p2 e (List.mem_of_mem_take he)

/-! ### Size of the metadata -/

theorem natDigits_length_le (k : Nat) {n : Nat} (h : n < 10 ^ (k + 1)) : (natDigits n).length ≤ k + 1 := by
  induction k generalizing n with
  | zero => rw [natDigits_small (by simpa using h)]; simp
  | succ k ih =>
    by_cases h10 : n < 10
    · rw [natDigits_small h10]; simp
    · rw [natDigits_step (by omega)]
      have : n / 10 < 10 ^ (k + 1) := by rw [Nat.div_lt_iff_lt_mul (by decide), ← pow_succ]; exact h
      have := ih this
      simp; omega

theorem natDigits_length_20 {n : Nat} (h : n < 2 ^ 64) : (natDigits n).length ≤ 20 :=
  natDigits_length_le 19 (lt_of_lt_of_le h (by decide))

theorem sepBy_length_le {l : List Nat} (h : ∀ n ∈ l, n < 2 ^ 64) : (sepBy (l.map natDigits)).length ≤ 21 * l.length := by
  induction l with
  | nil => simp [sepBy]
  | cons n t ih =>
    have h1 := natDigits_length_20 (h n (by simp))
    have h2 := ih fun n hn => h n (by simp [hn])
    cases t with
    | nil => simp [sepBy]; omega
    | cons m t =>
      simp only [List.map_cons, sepBy, List.length_append] at h2 ⊢
      have : (asc ",").length = 1 := by decide +kernel
      simp only [List.length_cons] at h2 ⊢
      omega

theorem metadataText_length_le {nn : Nat} {counts sizes : List Nat} (hnn : nn < 2 ^ 64)
    (hc : ∀ n ∈ counts, n < 2 ^ 64) (hs : ∀ n ∈ sizes, n < 2 ^ 64) (hl : counts.length < 2 ^ 64) :
    (metadataText nn counts sizes).length ≤ 204 + 21 * counts.length + 21 * sizes.length := by
  have e1 : (asc "granne").length = 6 := by decide +kernel
  have e2 : (asc "{\"compressed\":true,\"granne_version\":\"0.5.2\",\"layer_counts\":").length = 59 := by decide +kernel
  have e3 : (asc ",\"layer_sizes\":").length = 15 := by decide +kernel
  have e4 : (asc ",\"num_elements\":").length = 16 := by decide +kernel
  have e5 : (asc ",\"num_layers\":").length = 14 := by decide +kernel
  have e6 : (asc ",\"num_neighbors\":").length = 17 := by decide +kernel
  have e7 : (asc ",\"version\":2}").length = 13 := by decide +kernel
  have e8 : (asc "[").length = 1 := by decide +kernel
  have e9 : (asc "]").length = 1 := by decide +kernel
  have h1 := sepBy_length_le hc
  have h2 := sepBy_length_le hs
  have h3 := natDigits_length_20 hnn
  have h4 := natDigits_length_20 hl
  have h5 : (natDigits (counts.getLast?.getD 0)).length ≤ 20 := by
    apply natDigits_length_20
    rcases Option.eq_none_or_eq_some counts.getLast? with hn | ⟨x, hx⟩
    · rw [hn]; decide
    · rw [hx]; exact hc x (List.mem_of_getLast? hx)
  simp only [metadataText, printNums, List.length_append]
  omega

end Granne
