import Verif.Proofs.Seq
import Verif.Proofs.Builder
import Verif.Spec.Sequential

/-! The single-threaded build: it follows one schedule, and whole builds. -/
namespace Granne
open Spec

variable {E D : Type} [LinearOrder D]

/-- What is left to run from a state: the rows at the end if all goes well. -/
theorem Spec.InOrder.runSeq {s t : Par} (h : InOrder s t) : runSeq s.rows s.threads = runSeq t.rows t.threads := by
  obtain ⟨t, p, p', rows', hb, ht, hstep⟩ := h
  obtain ⟨rows, threads⟩ := s
  simp only at *
  have hlt := (List.getElem?_eq_some_iff.1 ht).1
  -- split the tasks at `t`
  induction threads generalizing t with
  | nil => simp at hlt
  | cons q qs ih =>
    cases t with
    | zero =>
      simp only [List.getElem?_cons_zero, Option.some.injEq] at ht
      subst ht
      simp only [List.set_cons_zero, Granne.runSeq]
      have : q.runRW rows = p'.runRW rows' := by
        cases q with
        | ret a => simp [Prog.step] at hstep
        | fail => simp [Prog.step] at hstep
        | nbrs i k =>
          simp only [Prog.step, Option.some.injEq, Prod.mk.injEq] at hstep
          obtain ⟨rfl, rfl⟩ := hstep
          simp only [Prog.runRW]
          cases rows[i]? <;> simp [Prog.runRW]
        | unused i k =>
          simp only [Prog.step, Option.some.injEq, Prod.mk.injEq] at hstep
          obtain ⟨rfl, rfl⟩ := hstep
          simp only [Prog.runRW]
          cases rows[i]? with
          | none => simp [Prog.runRW]
          | some row => cases row <;> simp [Prog.runRW]
        | upd i f k =>
          simp only [Prog.step] at hstep
          simp only [Prog.runRW]
          cases hr : rows[i]? with
          | none =>
            simp only [hr, Option.some.injEq, Prod.mk.injEq] at hstep
            obtain ⟨rfl, rfl⟩ := hstep
            simp [Prog.runRW]
          | some row =>
            simp only [hr] at hstep ⊢
            cases hf : f row with
            | none =>
              simp only [hf, Option.some.injEq, Prod.mk.injEq] at hstep
              obtain ⟨rfl, rfl⟩ := hstep
              simp [Prog.runRW]
            | some row' =>
              simp only [hf, Option.some.injEq, Prod.mk.injEq] at hstep
              obtain ⟨rfl, rfl⟩ := hstep
              rfl
      rw [this]
    | succ t =>
      have hq : q = .ret () := by simpa using hb 0 (by omega)
      subst hq
      simp only [List.set_cons_succ, Granne.runSeq, Prog.runRW]
      exact ih t (fun i hi => by simpa using hb (i + 1) (by omega)) (by simpa using ht) (by simpa using hlt)

theorem Spec.InOrders.runSeq {s t : Par} (h : InOrders s t) : runSeq s.rows s.threads = runSeq t.rows t.threads := by
  induction h with
  | refl => rfl
  | head h _ ih => rw [h.runSeq, ih]

theorem runSeq_done {rows : Rows} : ∀ {threads : List (Prog Unit)}, (∀ p ∈ threads, p = Prog.ret ()) →
    runSeq rows threads = some rows
  | [], _ => rfl
  | p :: ps, h => by
    rw [h p (by simp)]
    simp only [runSeq, Prog.runRW]
    exact runSeq_done fun q hq => h q (by simp [hq])

theorem runSeq_panicked {rows : Rows} : ∀ {threads : List (Prog Unit)}, (∃ p ∈ threads, p = Prog.fail) →
    runSeq rows threads = none
  | [], h => by simp at h
  | p :: ps, h => by
    simp only [runSeq]
    cases hp : p.runRW rows with
    | none => rfl
    | some r =>
      obtain ⟨q, hq, rfl⟩ := h
      rcases List.mem_cons.1 hq with rfl | hq
      · simp [Prog.runRW] at hp
      · exact runSeq_panicked ⟨_, hq, rfl⟩

/-- A task at the front of the unfinished ones runs to its end. -/
theorem runRW_inOrder (p : Prog Unit) : ∀ (rows : Rows) (threads : List (Prog Unit)) (t : Nat),
    (∀ i < t, threads[i]? = some (.ret ())) → threads[t]? = some p →
    ∃ rows' q, InOrders ⟨rows, threads⟩ ⟨rows', threads.set t q⟩ ∧
      (p.runRW rows = some (rows', ()) ∧ q = .ret () ∨ p.runRW rows = none ∧ q = .fail) := by
  have hget : ∀ (threads : List (Prog Unit)) (t : Nat) (p q : Prog Unit), threads[t]? = some p →
      (threads.set t q)[t]? = some q := by
    intro threads t p q h
    exact List.getElem?_set_self (List.getElem?_eq_some_iff.1 h).1
  have hother : ∀ (threads : List (Prog Unit)) (t : Nat) (q : Prog Unit),
      (∀ i < t, threads[i]? = some (.ret ())) → ∀ i < t, (threads.set t q)[i]? = some (.ret ()) := by
    intro threads t q h i hi
    rw [List.getElem?_set_ne (by omega)]; exact h i hi
  have hself : ∀ (threads : List (Prog Unit)) (t : Nat) (p : Prog Unit), threads[t]? = some p →
      threads.set t p = threads := by
    intro threads t p h
    obtain ⟨h1, h2⟩ := List.getElem?_eq_some_iff.1 h
    conv_rhs => rw [← List.set_getElem_self h1]
    rw [h2]
  have go : ∀ (p p' : Prog Unit) (rows rows1 : Rows) (threads : List (Prog Unit)) (t : Nat),
      (∀ i < t, threads[i]? = some (.ret ())) → threads[t]? = some p → p.step rows = some (rows1, p') →
      p.runRW rows = p'.runRW rows1 →
      (∃ rows' q, InOrders ⟨rows1, threads.set t p'⟩ ⟨rows', (threads.set t p').set t q⟩ ∧
        (p'.runRW rows1 = some (rows', ()) ∧ q = .ret () ∨ p'.runRW rows1 = none ∧ q = .fail)) →
      ∃ rows' q, InOrders ⟨rows, threads⟩ ⟨rows', threads.set t q⟩ ∧
        (p.runRW rows = some (rows', ()) ∧ q = .ret () ∨ p.runRW rows = none ∧ q = .fail) := by
    rintro p p' rows rows1 threads t hb ht hs he ⟨rows', q, h1, h2⟩
    rw [List.set_set] at h1
    exact ⟨rows', q, .head (.mk ⟨rows, threads⟩ t p p' rows1 hb ht hs) h1, by rw [he]; exact h2⟩
  have stop : ∀ (rows : Rows) (threads : List (Prog Unit)) (t : Nat), threads[t]? = some .fail →
      ∃ rows' q, InOrders ⟨rows, threads⟩ ⟨rows', threads.set t q⟩ ∧
        ((Prog.fail : Prog Unit).runRW rows = some (rows', ()) ∧ q = .ret () ∨
          (Prog.fail : Prog Unit).runRW rows = none ∧ q = .fail) := by
    intro rows threads t ht
    exact ⟨rows, .fail, by rw [hself _ _ _ ht]; exact .refl _, .inr ⟨rfl, rfl⟩⟩
  induction p with
  | ret a =>
    intro rows threads t _ ht
    exact ⟨rows, .ret (), by rw [hself _ _ _ ht]; exact .refl _, .inl ⟨rfl, rfl⟩⟩
  | fail => intro rows threads t _ ht; exact stop rows threads t ht
  | nbrs i k ih =>
    intro rows threads t hb ht
    rcases Option.eq_none_or_eq_some rows[i]? with hr | ⟨row, hr⟩
    · exact go _ .fail _ rows _ _ hb ht (by simp [Prog.step, hr]) (by simp [Prog.runRW, hr])
        (stop _ _ _ (hget _ _ _ _ ht))
    · exact go _ (k (visible row)) _ rows _ _ hb ht (by simp [Prog.step, hr]) (by simp [Prog.runRW, hr])
        (ih _ _ _ _ (hother _ _ _ hb) (hget _ _ _ _ ht))
  | unused i k ih =>
    intro rows threads t hb ht
    rcases Option.eq_none_or_eq_some rows[i]? with hr | ⟨row, hr⟩
    · exact go _ .fail _ rows _ _ hb ht (by simp [Prog.step, hr]) (by simp [Prog.runRW, hr])
        (stop _ _ _ (hget _ _ _ _ ht))
    · cases row with
      | nil =>
        exact go _ .fail _ rows _ _ hb ht (by simp [Prog.step, hr]) (by simp [Prog.runRW, hr])
          (stop _ _ _ (hget _ _ _ _ ht))
      | cons x row =>
        exact go _ (k (x == UNUSED)) _ rows _ _ hb ht (by simp [Prog.step, hr]) (by simp [Prog.runRW, hr])
          (ih _ _ _ _ (hother _ _ _ hb) (hget _ _ _ _ ht))
  | upd i f k ih =>
    intro rows threads t hb ht
    rcases Option.eq_none_or_eq_some rows[i]? with hr | ⟨row, hr⟩
    · exact go _ .fail _ rows _ _ hb ht (by simp [Prog.step, hr]) (by simp [Prog.runRW, hr])
        (stop _ _ _ (hget _ _ _ _ ht))
    · rcases Option.eq_none_or_eq_some (f row) with hf | ⟨row', hf⟩
      · exact go _ .fail _ rows _ _ hb ht (by simp [Prog.step, hr, hf]) (by simp [Prog.runRW, hr, hf])
          (stop _ _ _ (hget _ _ _ _ ht))
      · exact go _ k _ (rows.set i row') _ _ hb ht (by simp [Prog.step, hr, hf]) (by simp [Prog.runRW, hr, hf])
          (ih _ _ _ (hother _ _ _ hb) (hget _ _ _ _ ht))

theorem Spec.InOrders.trans {s t u : Par} (h1 : InOrders s t) (h2 : InOrders t u) : InOrders s u := by
  induction h1 with
  | refl => exact h2
  | head h _ ih => exact .head h (ih h2)

/-- The single thread always gets to the end of the tasks or to a panic. -/
theorem runSeq_inOrder : ∀ (ps pre : List (Prog Unit)) (rows : Rows), (∀ p ∈ pre, p = .ret ()) →
    ∃ s, InOrders ⟨rows, pre ++ ps⟩ s ∧ (s.Done ∨ s.Panicked) := by
  intro ps
  induction ps with
  | nil =>
    intro pre rows hpre
    exact ⟨_, .refl _, .inl (by simpa [Par.Done] using hpre)⟩
  | cons p ps ih =>
    intro pre rows hpre
    have hb : ∀ i < pre.length, (pre ++ p :: ps)[i]? = some (.ret ()) := by
      intro i hi
      rw [List.getElem?_append_left hi, List.getElem?_eq_getElem hi, hpre _ (List.getElem_mem hi)]
    obtain ⟨rows', q, h1, h2⟩ := runRW_inOrder p rows (pre ++ p :: ps) pre.length hb (by simp)
    have hset : (pre ++ p :: ps).set pre.length q = (pre ++ [q]) ++ ps := by simp
    rw [hset] at h1
    rcases h2 with ⟨_, rfl⟩ | ⟨_, rfl⟩
    · obtain ⟨s, h3, h4⟩ := ih (pre ++ [.ret ()]) rows' (by simpa [or_imp, forall_and] using hpre)
      exact ⟨s, h1.trans h3, h4⟩
    · exact ⟨_, h1, .inr ⟨.fail, by simp, rfl⟩⟩

theorem Spec.InOrders.steps {s t : Par} (h : InOrders s t) : Par.Steps s t := by
  induction h with
  | refl => exact .refl _
  | head h _ ih =>
    obtain ⟨t, p, p', rows', _, h1, h2⟩ := h
    exact Par.Steps.trans (.tail (.refl _) (.mk _ t p p' rows' h1 h2)) ih

/-- The function is an outcome of the parallel `index_elements`, panics included. -/
theorem indexElementsSeq_outcome (cfg : LayerConfig D) (es : Elements E D)
    (srt : List (Nat × D) → List (Nat × D)) (num : Nat) (prev : List Graph) (layer : Layer) (reinsert : Bool) :
    IndexElements cfg es srt num prev layer reinsert
      (indexElementsSeq cfg es srt num prev layer reinsert) := by
  unfold indexElementsSeq indexSeq
  split
  · next hle =>
    simp only
    obtain ⟨s, h1, h2⟩ := runSeq_inOrder (indexPar cfg es srt num prev layer reinsert).threads []
      (indexPar cfg es srt num prev layer reinsert).rows (by simp)
    rw [List.nil_append] at h1
    have hrun : runSeq (indexPar cfg es srt num prev layer reinsert).rows
      (indexPar cfg es srt num prev layer reinsert).threads = runSeq s.rows s.threads := h1.runSeq
    rw [hrun]
    rcases h2 with h2 | h2
    · rw [runSeq_done h2]
      exact .done s hle h1.steps h2
    · rw [runSeq_panicked h2]
      exact .panic s hle h1.steps h2
  · next hle => exact .tooMany hle

theorem indexLastSeq_outcome (srt : List (Nat × D) → List (Nat × D)) (b : Builder E D) (maxNum : Nat) :
    IndexLast srt b maxNum (indexLastSeq srt b maxNum) := by
  unfold indexLastSeq
  rcases Option.eq_none_or_eq_some b.layers.getLast? with hl | ⟨layer, hl⟩
  · rw [hl]
    exact .noLayer (List.getLast?_eq_none_iff.1 hl)
  · rw [hl]
    simp only
    have hsplit : b.layers = b.layers.dropLast ++ [layer] := (List.dropLast_append_getLast? layer hl).symm
    have hlast : lastLen b.layers = layer.rows.length := by simp [lastLen, hl]
    split
    · next hid =>
      exact .nothing (by rw [hsplit]; simp) (by rw [hlast]; exact hid)
    · next hid =>
      have hlt : layer.rows.length < b.ideal b.layers.length := by omega
      have h1 := indexElementsSeq_outcome (b.layerConfig (b.ideal b.layers.length)) b.elements srt
        (min maxNum (b.ideal b.layers.length)) (b.layers.dropLast.map fun l => graphOf l.rows) layer false
      split
      · next h =>
        rw [h] at h1
        exact .firstPanics _ layer hsplit hlt h1
      · next layer' h =>
        rw [h] at h1
        split
        · next hre =>
          exact .twice _ layer layer' _ hsplit hlt h1 hre (indexElementsSeq_outcome _ _ _ _ _ _ _)
        · next hre => exact .once _ layer layer' hsplit hlt h1 (by simpa using hre)

theorem BuildLoopSeq.outcome {srt : List (Nat × D) → List (Nat × D)} {num : Nat} {b : Builder E D}
    {out : Option (Builder E D)} (h : BuildLoopSeq srt num b out) : BuildLoop srt num b out := by
  induction h with
  | done b h => exact .done b h
  | panic b h1 h2 => exact .panic b h1 (h2 ▸ indexLastSeq_outcome srt b.addLayer num)
  | round b b' out h1 h2 _ ih => exact .round b b' out h1 (h2 ▸ indexLastSeq_outcome srt b.addLayer num) ih

theorem BuildPartialSeq.outcome {srt : List (Nat × D) → List (Nat × D)} {num : Nat} {b : Builder E D}
    {out : Option (Builder E D)} (h : BuildPartialSeq srt b num out) : BuildPartial srt b num out := by
  cases h with
  | zero h => exact .zero h
  | fewer h1 h2 => exact .fewer h1 h2
  | more h1 h2 h3 => exact .more h1 h2 h3
  | fresh _ h1 h2 h3 h4 h5 => exact .fresh _ h1 h2 h3 h4 h5.outcome
  | lastPanics h1 h2 h3 h4 h5 => exact .lastPanics h1 h2 h3 h4 (h5 ▸ indexLastSeq_outcome srt b num)
  | «continue» b' _ h1 h2 h3 h4 h5 h6 =>
    exact .continue b' _ h1 h2 h3 h4 (h5 ▸ indexLastSeq_outcome srt b num) h6.outcome

theorem BuildLoopSeq.unique {srt : List (Nat × D) → List (Nat × D)} {num : Nat} {b : Builder E D}
    {out out' : Option (Builder E D)} (h : BuildLoopSeq srt num b out) (h' : BuildLoopSeq srt num b out') :
    out = out' := by
  induction h with
  | done b h =>
    cases h' with
    | done _ _ => rfl
    | panic _ h1 _ => exact absurd h1 h
    | round _ _ _ h1 _ _ => exact absurd h1 h
  | panic b h1 h2 =>
    cases h' with
    | done _ h => exact absurd h1 h
    | panic _ _ _ => rfl
    | round _ _ _ _ h3 _ => rw [h2] at h3; cases h3
  | round b b' out h1 h2 _ ih =>
    cases h' with
    | done _ h => exact absurd h1 h
    | panic _ _ h3 => rw [h2] at h3; cases h3
    | round _ b'' _ _ h3 h4 => rw [h2] at h3; cases h3; exact ih h4

theorem BuildPartialSeq.unique {srt : List (Nat × D) → List (Nat × D)} {num : Nat} {b : Builder E D}
    {out out' : Option (Builder E D)} (h : BuildPartialSeq srt b num out) (h' : BuildPartialSeq srt b num out') :
    out = out' := by
  cases h with
  | zero h =>
    cases h' with
    | zero => rfl
    | fewer h1 | more h1 | fresh _ h1 | lastPanics h1 | «continue» _ _ h1 => exact absurd h h1
  | fewer h1 h2 =>
    cases h' with
    | zero h => exact absurd h h1
    | fewer => rfl
    | more _ h | fresh _ _ h | lastPanics _ h | «continue» _ _ _ h => exact absurd h h2
  | more h1 h2 h3 =>
    cases h' with
    | zero h => exact absurd h h1
    | fewer _ h => exact absurd h2 h
    | more => rfl
    | fresh _ _ _ h | lastPanics _ _ h | «continue» _ _ _ _ h => exact absurd h h3
  | fresh _ h1 h2 h3 h4 h5 =>
    cases h' with
    | zero h => exact absurd h h1
    | fewer _ h => exact absurd h2 h
    | more _ _ h => exact absurd h3 h
    | fresh _ _ _ _ _ h => exact h5.unique h
    | lastPanics _ _ _ h | «continue» _ _ _ _ _ h => exact absurd h4 h
  | lastPanics h1 h2 h3 h4 h5 =>
    cases h' with
    | zero h => exact absurd h h1
    | fewer _ h => exact absurd h2 h
    | more _ _ h => exact absurd h3 h
    | fresh _ _ _ _ h => exact absurd h h4
    | lastPanics => rfl
    | «continue» _ _ _ _ _ _ h => rw [h5] at h; cases h
  | «continue» b' _ h1 h2 h3 h4 h5 h6 =>
    cases h' with
    | zero h => exact absurd h h1
    | fewer _ h => exact absurd h2 h
    | more _ _ h => exact absurd h3 h
    | fresh _ _ _ _ h => exact absurd h h4
    | lastPanics _ _ _ _ h => rw [h5] at h; cases h
    | «continue» _ _ _ _ _ _ h h' => rw [h5] at h; cases h; exact h6.unique h'

theorem buildLoopSeq_exists {srt : List (Nat × D) → List (Nat × D)} (hsrt : IsSortByDist srt) {num : Nat}
    {b : Builder E D} (hc : GoodConfig b.config) (hb : BuilderInv b) (hnum : num ≤ b.elements.data.length) :
    ∃ out, BuildLoopSeq srt num b out := by
  have hacc := round_acc hsrt hc hb hnum
  induction hacc with
  | intro b _ ih =>
    by_cases hlt : lastLen b.layers < num
    · obtain ⟨_, hall⟩ := round_ok hsrt hc hb hnum hlt
      have hout := indexLastSeq_outcome srt b.addLayer num
      obtain ⟨layer', h1, h2, _⟩ := hall _ hout
      rw [h1] at hout
      obtain ⟨out', hout'⟩ := ih _ ⟨hlt, hout⟩ hc h2 hnum
      exact ⟨out', .round b _ out' hlt h1 hout'⟩
    · exact ⟨_, .done b hlt⟩

theorem buildPartialSeq_exists {srt : List (Nat × D) → List (Nat × D)} (hsrt : IsSortByDist srt) {b : Builder E D}
    (hc : GoodConfig b.config) (hb : BuilderInv b) (num : Nat) : ∃ out, BuildPartialSeq srt b num out := by
  by_cases h0 : num = 0
  · exact ⟨_, .zero h0⟩
  by_cases hle : lastLen b.layers ≤ num
  swap
  · exact ⟨_, .fewer h0 hle⟩
  by_cases hnum : num ≤ b.elements.data.length
  swap
  · exact ⟨_, .more h0 hle hnum⟩
  rcases List.eq_nil_or_concat b.layers with hl | ⟨upper, layer, hl⟩
  · obtain ⟨out, hout⟩ := buildLoopSeq_exists hsrt hc hb hnum
    exact ⟨out, .fresh out h0 hle hnum hl hout⟩
  · rw [List.concat_eq_append] at hl
    have hne : b.layers ≠ [] := by rw [hl]; simp
    obtain ⟨_, hall⟩ := continue_ok hsrt hc hb hnum (by omega) hle hl
    obtain ⟨layer', h1, h2, _⟩ := hall _ (indexLastSeq_outcome srt b num)
    obtain ⟨out, hout⟩ := buildLoopSeq_exists (b := { b with layers := upper ++ [layer'] }) hsrt hc h2 hnum
    exact ⟨out, .continue _ out h0 hle hnum hne h1 hout⟩

end Granne
