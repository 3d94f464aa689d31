import Verif.Proofs.RwTrace
import Verif.Proofs.Seq

/-! Tools to exhibit concrete runs of the concurrent builder with two calls. -/
namespace Granne
open List

variable {E D : Type} [LinearOrder D] {srt : List (Nat × D) → List (Nat × D)}

theorem Rw.Steps.trans {s t u : Rw E D} (h1 : Rw.Steps srt s t) (h2 : Rw.Steps srt t u) : Rw.Steps srt s u := by
  induction h2 with
  | refl => exact h1
  | tail _ hs ih => exact ih.tail hs

omit [LinearOrder D] in
theorem noOther0 {d : RwData E D} {a b : RwThread E D} {P : RwThread E D → Prop} (h : ¬ P b) :
    Rw.NoOther ⟨d, [a, b]⟩ 0 P := by
  intro u th hu hth
  match u with
  | 0 => exact absurd rfl hu
  | 1 => cases hth; exact h
  | n + 2 => cases hth

omit [LinearOrder D] in
theorem noOther1 {d : RwData E D} {a b : RwThread E D} {P : RwThread E D → Prop} (h : ¬ P a) :
    Rw.NoOther ⟨d, [a, b]⟩ 1 P := by
  intro u th hu hth
  match u with
  | 0 => cases hth; exact h
  | 1 => exact absurd rfl hu
  | n + 2 => cases hth

/-- A step of the first of two calls. -/
theorem Rw.Steps.fst {s₀ : Rw E D} {d d' : RwData E D} {a a' b : RwThread E D} (h : Rw.Steps srt s₀ ⟨d, [a, b]⟩)
    (hl : Rw.Local srt ⟨d, [a, b]⟩ 0 a d' a') : Rw.Steps srt s₀ ⟨d', [a', b]⟩ :=
  h.tail (.mk ⟨d, [a, b]⟩ 0 a a' d' rfl hl)

/-- A step of the second. -/
theorem Rw.Steps.snd {s₀ : Rw E D} {d d' : RwData E D} {a b b' : RwThread E D} (h : Rw.Steps srt s₀ ⟨d, [a, b]⟩)
    (hl : Rw.Local srt ⟨d, [a, b]⟩ 1 b d' b') : Rw.Steps srt s₀ ⟨d', [a, b']⟩ :=
  h.tail (.mk ⟨d, [a, b]⟩ 1 b b' d' rfl hl)

/-- The tasks of an insert run. -/
theorem Rw.Steps.tasks {s₀ : Rw E D} {d : RwData E D} {f : Ins E} {tasks : List (Prog Unit)} {b : RwThread E D}
    {p : Par} (hp : Par.Steps ⟨d.current, tasks⟩ p) (h : Rw.Steps srt s₀ ⟨d, [.insIndex f tasks, b]⟩) :
    Rw.Steps srt s₀ ⟨{ d with current := p.rows }, [.insIndex f p.threads, b]⟩ := by
  induction hp with
  | refl => exact h
  | tail h1 h2 ih =>
    cases h2 with
    | mk i p p' rows' hget hst =>
      exact ih.fst (.task f _ i p p' rows' hget hst)

/-- The tasks run one after the other, and the insert lets go of the elements. -/
theorem Rw.Steps.index {s₀ : Rw E D} {d : RwData E D} {f : Ins E} {tasks : List (Prog Unit)} {b : RwThread E D}
    {rows : Rows} (hrun : runSeq d.current tasks = some rows) (h : Rw.Steps srt s₀ ⟨d, [.insIndex f tasks, b]⟩) :
    Rw.Steps srt s₀ ⟨{ d with current := rows }, [.insHoldL f, b]⟩ := by
  obtain ⟨p, h1, h2, rfl⟩ := runSeq_steps tasks [] d.current rows (by simp) hrun
  exact (h.tasks h1).fst (.dropE f _ h2)

/-- A whole round of an insert, undisturbed by the other call. -/
theorem Rw.Steps.round {s₀ : Rw E D} {d : RwData E D} {f : Ins E} {b : RwThread E D} {rows : Rows}
    (hb : ¬ b.eExcl ∧ ¬ b.eQueued ∧ ¬ b.eShared ∧ ¬ b.wExcl ∧ ¬ b.wQueued ∧ ¬ b.lExcl ∧ ¬ b.lShared)
    (hroom : d.elements.data.length < d.maxElements)
    (hle : d.grow.elements.data.length ≤ d.grow.current.length)
    (hrun : runSeq (d.grow.append f.todo).1.current
      ((d.grow.append f.todo).1.tasks srt (d.grow.append f.todo).2.1) = some rows)
    (h : Rw.Steps srt s₀ ⟨d, [.insCheck f, b]⟩) :
    Rw.Steps srt s₀ ⟨{ (d.grow.append f.todo).1 with current := rows },
      [.insHoldL ⟨f.batch, (d.grow.append f.todo).2.2, f.got ++ (d.grow.append f.todo).2.1, f.outer + 1⟩, b]⟩ := by
  obtain ⟨h1, h2, h3, h4, h5, h6, h7⟩ := hb
  have g1 := h.fst (.room f (noOther0 h1) (noOther0 h2) hroom)
  have g2 := g1.fst (.takeW f (noOther0 h4) (noOther0 h5))
  have g3 := g2.fst (.queueE _)
  have g4 := g3.fst (.takeE _ (noOther0 h1) (noOther0 h3))
  have g5 := g4.fst (.queueL _)
  have g6 := g5.fst (.takeL _ (noOther0 h6) (noOther0 h7))
  have g7 := g6.fst (.reserve _ hle)
  exact g7.index hrun

theorem runRO_step_some {α : Type} (R : Rows) : ∀ (p : Prog α) (r : α), p.runRO (graphOf R) = some r →
    p = .ret r ∨ ∃ p', p.step R = some (R, p') ∧ p'.runRO (graphOf R) = some r := by
  intro p r h
  cases p with
  | ret a => simp only [Prog.runRO, Option.some.injEq] at h; exact Or.inl (by rw [h])
  | fail => cases h
  | nbrs i k =>
    have hg : (graphOf R)[i]? = R[i]?.map visible := by simp [graphOf]
    simp only [Prog.runRO, hg] at h
    rcases Option.eq_none_or_eq_some R[i]? with h1 | ⟨row, h1⟩
    · rw [h1] at h; cases h
    · rw [h1] at h
      exact Or.inr ⟨k (visible row), by simp [Prog.step, h1], h⟩
  | unused => cases h
  | upd => cases h

/-- An undisturbed search by the second call. -/
theorem Rw.Steps.searched {s₀ : Rw E D} {d : RwData E D} {a : RwThread E D} {q : E} {ms k : Nat} {r : List (Nat × D)} :
    ∀ (p : Prog (List (Nat × D))), Rw.Steps srt s₀ ⟨d, [a, .seRun q ms k p]⟩ → p.runRO (graphOf d.current) = some r →
      Rw.Steps srt s₀ ⟨d, [a, .found q ms k (r.take k)]⟩ := by
  have hfin : Rw.Steps srt s₀ ⟨d, [a, .seRun q ms k (.ret r)]⟩ → Rw.Steps srt s₀ ⟨d, [a, .found q ms k (r.take k)]⟩ :=
    fun h => ((h.snd (.seResult q ms k r)).snd (.seDropL q ms k _)).snd (.seDropE q ms k _)
  intro p
  induction p with
  | ret a => intro h hr; cases hr; exact hfin h
  | fail => intro _ hr; cases hr
  | nbrs i kk ih =>
    intro h hr
    rcases runRO_step_some _ _ _ hr with h1 | ⟨p', h1, h2⟩
    · cases h1
    · rcases Option.eq_none_or_eq_some d.current[i]? with h3 | ⟨row, h3⟩
      · simp only [Prog.step, h3, Option.some.injEq, Prod.mk.injEq, true_and] at h1
        rw [← h1] at h2; cases h2
      · have e : (Prog.nbrs i kk).step d.current = some (d.current, kk (visible row)) := by simp [Prog.step, h3]
        rw [e] at h1
        cases h1
        exact ih _ (h.snd (.seStep q ms k _ _ d.current e)) h2
  | unused => intro _ hr; cases hr
  | upd => intro _ hr; cases hr

end Granne
