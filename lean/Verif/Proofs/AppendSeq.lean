import Verif.Proofs.Append
import Verif.Model.Sequential

/-! Building on one thread with further elements behind those that are there. -/
namespace Granne

variable {E D : Type} [LinearOrder D] {es es' : Elements E D} {srt : List (Nat × D) → List (Nat × D)}

theorem ProgLe.runRW {α : Type} {p p' : Prog α} (h : ProgLe p p') : ∀ rows, OptLe (p.runRW rows) (p'.runRW rows) := by
  induction h with
  | fail p => intro rows; exact .none _
  | ret a => intro rows; exact .refl _
  | nbrs i k k' _ ih =>
    intro rows
    unfold Prog.runRW
    cases rows[i]? with
    | none => exact .refl _
    | some row => exact ih _ _
  | unused i k k' _ ih =>
    intro rows
    unfold Prog.runRW
    cases rows[i]? with
    | none => exact .refl _
    | some row =>
      cases row with
      | nil => exact .refl _
      | cons x t => exact ih _ _
  | upd i f f' k k' hf _ ih =>
    intro rows
    unfold Prog.runRW
    cases rows[i]? with
    | none => exact .refl _
    | some row =>
      simp only
      rcases Option.eq_none_or_eq_some (f row) with h1 | ⟨r, h1⟩
      · rw [h1]; exact .none _
      · rw [h1, hf row r h1]
        exact ih _

theorem runSeq_le : ∀ (ps ps' : List (Prog Unit)), List.Forall₂ ProgLe ps ps' → ∀ rows, OptLe (runSeq rows ps) (runSeq rows ps') := by
  intro ps ps' h
  induction h with
  | nil => intro rows; exact .refl _
  | cons h _ ih =>
    intro rows
    rename_i p p' l l' _
    simp only [runSeq]
    have hp := h.runRW rows
    rcases Option.eq_none_or_eq_some (p.runRW rows) with h1 | ⟨r, h1⟩
    · rw [h1]; exact .none _
    · rw [h1, hp r h1]
      exact ih _

theorem Prolongs.indexElementsSeq (h : Prolongs es es') (cfg : LayerConfig D) (num : Nat) (prev : List Graph) (layer : Layer) (r : Bool) :
    OptLe (indexElementsSeq cfg es srt num prev layer r) (indexElementsSeq cfg es' srt num prev layer r) := by
  unfold Granne.indexElementsSeq
  split
  · refine OptLe.map ?_ _
    unfold indexSeq
    have hf : List.Forall₂ ProgLe (Granne.indexPar cfg es srt num prev layer r).threads
        (Granne.indexPar cfg es' srt num prev layer r).threads := by
      unfold Granne.indexPar
      simp only
      generalize (indexStart num layer r).2 = ids
      induction ids with
      | nil => exact .nil
      | cons i t ih => exact .cons (h.indexElement cfg prev _ i) ih
    have hr : (Granne.indexPar cfg es' srt num prev layer r).rows = (Granne.indexPar cfg es srt num prev layer r).rows := rfl
    have hs := runSeq_le _ _ hf (Granne.indexPar cfg es srt num prev layer r).rows
    simp only [hr]
    rcases Option.eq_none_or_eq_some (runSeq (Granne.indexPar cfg es srt num prev layer r).rows
      (Granne.indexPar cfg es srt num prev layer r).threads) with h1 | ⟨x, h1⟩
    · rw [h1]; exact .none _
    · rw [h1, hs x h1]
      exact h.limitPass cfg x
  · exact .none _

theorem indexLastSeq_le {b : Builder E D} {es' : Elements E D} (h : SamePlan b es') (num : Nat) (c : Builder E D)
    (hc : indexLastSeq srt b num = some c) : indexLastSeq srt (b.withElements es') num = some (c.withElements es') := by
  have hid : (b.withElements es').ideal (b.withElements es').layers.length = b.ideal b.layers.length := h.ideal _
  unfold indexLastSeq at hc ⊢
  show (match b.layers.getLast? with | none => none | some layer => _) = _
  rcases Option.eq_none_or_eq_some b.layers.getLast? with h1 | ⟨layer, h1⟩
  · rw [h1] at hc; cases hc
  · rw [h1] at hc ⊢
    simp only [hid, h.layerConfig] at hc ⊢
    split at hc
    · rename_i hle
      cases hc
      rw [if_pos hle]
    · rename_i hle
      rw [if_neg hle]
      have s1 := h.extends_.indexElementsSeq (srt := srt) (b.layerConfig (b.ideal b.layers.length))
        (min num (b.ideal b.layers.length)) (b.layers.dropLast.map fun l => graphOf l.rows) layer false
      show (match indexElementsSeq _ es' srt _ (b.layers.dropLast.map fun l => graphOf l.rows) layer false with
        | none => none | some layer' => _) = _
      rcases Option.eq_none_or_eq_some (indexElementsSeq (b.layerConfig (b.ideal b.layers.length)) b.elements srt
        (min num (b.ideal b.layers.length)) (b.layers.dropLast.map fun l => graphOf l.rows) layer false) with h2 | ⟨layer', h2⟩
      · rw [h2] at hc; cases hc
      · rw [h2] at hc
        rw [s1 _ h2]
        simp only at hc ⊢
        show (if b.config.reinsertElements then _ else _) = _
        split at hc
        · rename_i hre
          rw [if_pos hre]
          obtain ⟨l, h3, rfl⟩ := Option.map_eq_some_iff.1 hc
          have s2 := h.extends_.indexElementsSeq (srt := srt) (b.layerConfig (b.ideal b.layers.length)).forReinsert
            (min num (b.ideal b.layers.length)) (b.layers.dropLast.map fun l => graphOf l.rows) layer' true
          exact Option.map_eq_some_iff.2 ⟨l, s2 _ h3, rfl⟩
        · rename_i hre
          rw [if_neg hre]
          cases hc
          rfl

theorem indexLastSeq_keeps {b c : Builder E D} {num : Nat} (h : indexLastSeq srt b num = some c) :
    c.config = b.config ∧ c.elements = b.elements := by
  unfold indexLastSeq at h
  split at h
  · cases h
  · simp only at h
    split at h
    · cases h; exact ⟨rfl, rfl⟩
    · split at h
      · cases h
      · split at h
        · obtain ⟨l, _, rfl⟩ := Option.map_eq_some_iff.1 h; exact ⟨rfl, rfl⟩
        · cases h; exact ⟨rfl, rfl⟩

theorem buildLoopSeq_le {b : Builder E D} {es' : Elements E D} {num : Nat} {out : Option (Builder E D)}
    (ho : BuildLoopSeq srt num b out) (h : SamePlan b es') : ∀ c, out = some c →
    BuildLoopSeq srt num (b.withElements es') (some (c.withElements es')) := by
  induction ho with
  | done b e => rintro c hc; cases hc; exact .done _ e
  | panic b e1 e2 => rintro c hc; cases hc
  | round b b1 out e1 e2 e3 ih =>
    rintro c hc
    have hs := indexLastSeq_keeps e2
    have h1 : SamePlan b.addLayer es' := SamePlan.of b _ es' h rfl rfl
    exact .round _ (b1.withElements es') _ e1 (indexLastSeq_le h1 num b1 e2)
      (ih (SamePlan.of b _ es' h hs.1 hs.2) c hc)

theorem buildPartialSeq_le {b c : Builder E D} {es' : Elements E D} {num : Nat} (h : SamePlan b es')
    (hnum' : num ≤ es'.data.length) (ho : BuildPartialSeq srt b num (some c)) :
    BuildPartialSeq srt (b.withElements es') num (some (c.withElements es')) := by
  generalize hc : some c = oc at ho
  cases ho with
  | zero h0 => cases hc; exact .zero h0
  | fewer h0 h1 => cases hc
  | more h0 h1 h2 => cases hc
  | fresh out h0 h1 h2 h3 h4 => exact .fresh _ h0 h1 hnum' h3 (buildLoopSeq_le h4 h c hc.symm)
  | lastPanics h0 h1 h2 h3 h4 => cases hc
  | «continue» b1 out h0 h1 h2 h3 h4 h5 =>
    have hs := indexLastSeq_keeps h4
    exact .continue _ _ h0 h1 hnum' h3 (indexLastSeq_le h num b1 h4) (buildLoopSeq_le h5 (SamePlan.of b _ es' h hs.1 hs.2) c hc.symm)

end Granne
