import Verif.Model.Sequential

/-! The sequential schedule (one worker thread) is one of the interleavings; used to exhibit concrete runs. -/
namespace Granne

variable {E D : Type} [LinearOrder D]

theorem Par.Steps.trans {s t u : Par} (h1 : Par.Steps s t) (h2 : Par.Steps t u) : Par.Steps s u := by
  induction h2 with
  | refl => exact h1
  | tail _ hs ih => exact ih.tail hs

theorem runRW_steps (p : Prog Unit) : ∀ (rows rows' : Rows) (threads : List (Prog Unit)) (t : Nat),
    threads[t]? = some p → p.runRW rows = some (rows', ()) →
    Par.Steps ⟨rows, threads⟩ ⟨rows', threads.set t (.ret ())⟩ := by
  have set_eq : ∀ (threads : List (Prog Unit)) (t : Nat) (p q : Prog Unit),
      (threads.set t p).set t q = threads.set t q := fun _ _ _ _ => List.set_set ..
  have hget : ∀ (threads : List (Prog Unit)) (t : Nat) (p q : Prog Unit), threads[t]? = some p →
      (threads.set t q)[t]? = some q := by
    intro threads t p q h
    exact List.getElem?_set_self (List.getElem?_eq_some_iff.1 h).1
  have go : ∀ (p p' : Prog Unit) (rows rows1 rows' : Rows) (threads : List (Prog Unit)) (t : Nat),
      threads[t]? = some p → p.step rows = some (rows1, p') →
      Par.Steps ⟨rows1, threads.set t p'⟩ ⟨rows', (threads.set t p').set t (.ret ())⟩ →
      Par.Steps ⟨rows, threads⟩ ⟨rows', threads.set t (.ret ())⟩ := by
    intro p p' rows rows1 rows' threads t h1 h2 h3
    rw [set_eq] at h3
    exact Par.Steps.trans (.tail (.refl _) (.mk ⟨rows, threads⟩ t p p' rows1 h1 h2)) h3
  induction p with
  | ret a =>
    intro rows rows' threads t ht h
    simp only [Prog.runRW, Option.some.injEq, Prod.mk.injEq] at h
    obtain ⟨rfl, _⟩ := h
    have : threads.set t (.ret ()) = threads := by
      obtain ⟨h1, h2⟩ := List.getElem?_eq_some_iff.1 ht
      conv_rhs => rw [← List.set_getElem_self h1]
      rw [h2]
    rw [this]; exact .refl _
  | fail => intro rows rows' threads t _ h; simp [Prog.runRW] at h
  | nbrs i k ih =>
    intro rows rows' threads t ht h
    rw [Prog.runRW] at h
    rcases Option.eq_none_or_eq_some rows[i]? with hr | ⟨row, hr⟩
    · simp [hr] at h
    · simp only [hr] at h
      exact go _ (k (visible row)) _ _ _ _ _ ht (by simp [Prog.step, hr])
        (ih _ _ _ _ _ (hget _ _ _ _ ht) h)
  | unused i k ih =>
    intro rows rows' threads t ht h
    rw [Prog.runRW] at h
    rcases Option.eq_none_or_eq_some rows[i]? with hr | ⟨row, hr⟩
    · simp [hr] at h
    · cases row with
      | nil => simp [hr] at h
      | cons x row =>
        simp only [hr] at h
        exact go _ (k (x == UNUSED)) _ _ _ _ _ ht (by simp [Prog.step, hr])
          (ih _ _ _ _ _ (hget _ _ _ _ ht) h)
  | upd i f k ih =>
    intro rows rows' threads t ht h
    rw [Prog.runRW] at h
    rcases Option.eq_none_or_eq_some rows[i]? with hr | ⟨row, hr⟩
    · simp [hr] at h
    · simp only [hr] at h
      rcases Option.eq_none_or_eq_some (f row) with hf | ⟨row', hf⟩
      · simp [hf] at h
      · simp only [hf] at h
        exact go _ k _ _ _ _ _ ht (by simp [Prog.step, hr, hf])
          (ih _ _ _ _ (hget _ _ _ _ ht) h)

theorem runSeq_steps : ∀ (ps pre : List (Prog Unit)) (rows rows' : Rows),
    (∀ p ∈ pre, p = .ret ()) → runSeq rows ps = some rows' →
    ∃ s, Par.Steps ⟨rows, pre ++ ps⟩ s ∧ s.Done ∧ s.rows = rows' := by
  intro ps
  induction ps with
  | nil =>
    intro pre rows rows' hpre h
    simp only [runSeq, Option.some.injEq] at h
    subst h
    exact ⟨_, .refl _, by simpa [Par.Done] using hpre, rfl⟩
  | cons p ps ih =>
    intro pre rows rows' hpre h
    rw [runSeq] at h
    rcases Option.eq_none_or_eq_some (p.runRW rows) with hp | ⟨⟨r1, u⟩, hp⟩
    · simp [hp] at h
    · simp only [hp] at h
      have h1 := runRW_steps p rows r1 (pre ++ p :: ps) pre.length (by simp) hp
      have hset : (pre ++ p :: ps).set pre.length (.ret ()) = (pre ++ [.ret ()]) ++ ps := by simp
      rw [hset] at h1
      obtain ⟨s, h2, h3, h4⟩ := ih (pre ++ [.ret ()]) r1 rows'
        (by simpa [or_imp, forall_and] using hpre) h
      exact ⟨s, h1.trans h2, h3, h4⟩

/-- The sequential run is a possible outcome. -/
theorem indexSeq_outcome {cfg : LayerConfig D} {es : Elements E D} {srt : List (Nat × D) → List (Nat × D)}
    {num : Nat} {prev : List Graph} {layer : Layer} {reinsert : Bool} {rows : Rows}
    (hle : layer.rows.length ≤ num) (h : indexSeq cfg es srt num prev layer reinsert = some rows) :
    IndexElements cfg es srt num prev layer reinsert (some { layer with rows := rows }) := by
  unfold indexSeq at h
  simp only at h
  rcases Option.eq_none_or_eq_some
    (runSeq (indexPar cfg es srt num prev layer reinsert).rows (indexPar cfg es srt num prev layer reinsert).threads)
    with hr | ⟨r1, hr⟩
  · simp [hr] at h
  · simp only [hr] at h
    obtain ⟨s, h1, h2, h3⟩ := runSeq_steps _ [] _ _ (by simp) hr
    have := IndexElements.done (cfg := cfg) (es := es) (srt := srt) (num := num) (prev := prev)
      (layer := layer) (reinsert := reinsert) s hle h1 h2
    rw [h3, h] at this
    exact this

end Granne
