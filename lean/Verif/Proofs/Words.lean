import Verif.Spec.Words
import Verif.Proofs.Text
import Verif.Proofs.FixedWidth

/-! The word dictionary. -/
namespace Granne
open Spec

theorem collectIds_not_mem {w : Text} : ∀ (ws : List Text) (i : Nat) (m : Text → Option Nat), w ∉ ws →
    collectIds i ws m w = m w
  | [], _, _, _ => rfl
  | v :: t, i, m, h => by
    rw [collectIds, collectIds_not_mem t (i + 1) _ (fun hc => h (by simp [hc])), mapInsert,
      if_neg (fun hc => h (by simp [hc]))]

/-- The last occurrence counts. -/
theorem collectIds_last {w : Text} : ∀ (ws : List Text) (i : Nat) (m : Text → Option Nat) (j : Nat), ws[j]? = some w →
    (∀ k : Nat, j < k → ws[k]? ≠ some w) → collectIds i ws m w = some (i + j)
  | [], _, _, j, h, _ => by simp at h
  | v :: t, i, m, 0, h, hl => by
    have hv : v = w := by simpa using h
    rw [collectIds, collectIds_not_mem t, mapInsert, if_pos hv.symm]
    · rfl
    · intro hc
      obtain ⟨k, hk⟩ := List.mem_iff_getElem?.1 hc
      exact hl (k + 1) (by omega) (by simpa using hk)
  | v :: t, i, m, j + 1, h, hl => by
    rw [collectIds, collectIds_last t (i + 1) _ j (by simpa using h)
      (fun k hk => by have := hl (k + 1) (by omega); simpa using this)]
    congr 1
    omega

theorem collectIds_nodup {ws : List Text} (h : ws.Nodup) (w : Text) (i : Nat) :
    collectIds 0 ws (fun _ => none) w = some i ↔ ws[i]? = some w := by
  by_cases hm : w ∈ ws
  · obtain ⟨j, hj⟩ := List.mem_iff_getElem?.1 hm
    have huniq : ∀ k : Nat, ws[k]? = some w → k = j := by
      intro k hk
      obtain ⟨h1, e1⟩ := List.getElem?_eq_some_iff.1 hk
      obtain ⟨h2, e2⟩ := List.getElem?_eq_some_iff.1 hj
      exact (List.Nodup.getElem_inj_iff h).1 (e1.trans e2.symm)
    rw [collectIds_last ws 0 _ j hj (fun k hk hc => by have := huniq k hc; omega)]
    constructor
    · intro he
      have : i = j := by have := Option.some.inj he; omega
      rw [this]; exact hj
    · intro he
      rw [huniq i he, Nat.zero_add]
  · rw [collectIds_not_mem ws 0 _ hm]
    constructor
    · intro h; simp at h
    · intro h; exact absurd (List.mem_of_getElem? h) hm

theorem HoldsWords.empty : HoldsWords WordDict.empty [] := ⟨List.nodup_nil, rfl, by simp [WordDict.empty]⟩

namespace Spec.HoldsWords
variable {d : WordDict} {words : List Text}

theorem known (h : HoldsWords d words) (w : Text) : (∃ i, d.wordToId w = some i) ↔ w ∈ words := by
  rw [List.mem_iff_getElem?]
  exact ⟨fun ⟨i, hi⟩ => ⟨i, (h.ids w i).1 hi⟩, fun ⟨i, hi⟩ => ⟨i, (h.ids w i).2 hi⟩⟩

theorem push_new (h : HoldsWords d words) {w : Text} (hw : w ∉ words) :
    (d.push w).2 = true ∧ HoldsWords (d.push w).1 (words ++ [w]) := by
  have hn : d.wordToId w = none := by
    rcases Option.eq_none_or_eq_some (d.wordToId w) with hn | ⟨i, hi⟩
    · exact hn
    · exact absurd ((h.known w).1 ⟨i, hi⟩) hw
  rw [WordDict.push, hn]
  refine ⟨rfl, ?_, ?_, ?_⟩
  · rw [List.nodup_append]
    exact ⟨h.nodup, by simp, by
      intro a ha b hb hab
      simp only [List.mem_singleton] at hb
      exact hw (by rw [← hb, ← hab]; exact ha)⟩
  · show d.idToWord ++ [w] = _
    rw [h.list]
  · intro v i
    show (if v = w then some d.idToWord.length else d.wordToId v) = some i ↔ _
    rw [h.list]
    by_cases hv : v = w
    · rw [if_pos hv, hv]
      constructor
      · intro he
        rw [← Option.some.inj he]
        simp
      · intro he
        rcases Nat.lt_trichotomy i words.length with hlt | heq | hgt
        · rw [List.getElem?_append_left hlt] at he
          exact absurd (List.mem_of_getElem? he) hw
        · rw [heq]
        · rw [List.getElem?_eq_none (by simp; omega)] at he
          simp at he
    · rw [if_neg hv, h.ids]
      rcases Nat.lt_trichotomy i words.length with hlt | heq | hgt
      · rw [List.getElem?_append_left hlt]
      · rw [heq, List.getElem?_eq_none (by simp)]
        simp only [List.getElem?_concat_length]
        constructor
        · intro h; simp at h
        · intro he; exact absurd (Option.some.inj he).symm hv
      · rw [List.getElem?_eq_none (by omega), List.getElem?_eq_none (by simp; omega)]

theorem push_known (h : HoldsWords d words) {w : Text} (hw : w ∈ words) : d.push w = (d, false) := by
  obtain ⟨i, hi⟩ := (h.known w).2 hw
  rw [WordDict.push, hi]

/-- Writing and loading. -/
theorem load (h : HoldsWords d words) : ∃ d', WordDict.new d.content = some d' ∧ HoldsWords d' words := by
  refine ⟨⟨collectIds 0 d.idToWord fun _ => none, d.idToWord⟩, by rw [WordDict.new, WordDict.content, lines_json],
    h.nodup, h.list, ?_⟩
  intro w i
  show collectIds 0 d.idToWord (fun _ => none) w = some i ↔ _
  rw [h.list]
  exact collectIds_nodup h.nodup w i

end Spec.HoldsWords

theorem getWordsLoop_ok {d : WordDict} {words : List Text} (h : d.idToWord = words) :
    ∀ (ids : List Nat) (q : Text), (∀ i ∈ ids, i < words.length) →
    d.getWordsLoop q ids = some (q ++ (ids.flatMap fun i => ' ' :: words.getD i []))
  | [], q, _ => by simp [WordDict.getWordsLoop]
  | i :: t, q, hi => by
    have hlt := hi i (by simp)
    rw [WordDict.getWordsLoop, h, List.getElem?_eq_getElem hlt]
    simp only
    rw [getWordsLoop_ok h t _ (fun j hj => hi j (by simp [hj]))]
    simp [hlt]

theorem getWordsLoop_none {d : WordDict} : ∀ (ids : List Nat) (q : Text), (∃ i ∈ ids, d.idToWord.length ≤ i) →
    d.getWordsLoop q ids = none
  | [], q, h => by simp at h
  | i :: t, q, h => by
    rw [WordDict.getWordsLoop]
    rcases Option.eq_none_or_eq_some d.idToWord[i]? with hn | ⟨w, hw⟩
    · rw [hn]
    · rw [hw]
      simp only
      apply getWordsLoop_none t
      obtain ⟨j, hj, hle⟩ := h
      rcases List.mem_cons.1 hj with rfl | hj
      · rw [List.getElem?_eq_none hle] at hw; simp at hw
      · exact ⟨j, hj, hle⟩

theorem getWordIds_words {d : WordDict} {words : List Text} (h : HoldsWords d words)
    (hw : ∀ w ∈ words, IsWord w) : ∀ (ids : List Nat) (i : Nat), (∀ j ∈ i :: ids, j < words.length) →
    (splitWs (words.getD i [] ++ (ids.flatMap fun i => ' ' :: words.getD i []))).filterMap d.wordToId = i :: ids
  | [], i, hi => by
    have hlt := hi i (by simp)
    have e : words.getD i [] = words[i] := by simp [hlt]
    obtain ⟨h1, h2⟩ := hw words[i] (List.getElem_mem hlt)
    have hid : d.wordToId words[i] = some i := (h.ids _ _).2 (List.getElem?_eq_getElem hlt)
    rw [e, List.flatMap_nil, List.append_nil, (splitWs_word (t := []) h1 h2).2]
    simp [hid]
  | j :: t, i, hi => by
    have hlt := hi i (by simp)
    have e : words.getD i [] = words[i] := by simp [hlt]
    obtain ⟨h1, h2⟩ := hw words[i] (List.getElem_mem hlt)
    have hid : d.wordToId words[i] = some i := (h.ids _ _).2 (List.getElem?_eq_getElem hlt)
    rw [e, List.flatMap_cons, List.cons_append, (splitWs_word h1 h2).1, List.filterMap_cons, hid]
    simp only
    rw [getWordIds_words h hw t j (fun k hk => hi k (by simp [List.mem_cons.1 hk]))]

end Granne
