import Verif.Proofs.Search
import Verif.Model.Builder

/-! Searching and building with further elements behind those that are there. -/
namespace Granne

variable {α β : Type}

/-- The second computation succeeds with the same result whenever the first succeeds. -/
def OptLe (a b : Option α) : Prop := ∀ r, a = some r → b = some r

theorem OptLe.refl (a : Option α) : OptLe a a := fun _ h => h
theorem OptLe.none (b : Option α) : OptLe none b := by intro r h; cases h

theorem OptLe.map {a b : Option α} (h : OptLe a b) (f : α → β) : OptLe (a.map f) (b.map f) := by
  intro r hr
  obtain ⟨x, hx, rfl⟩ := Option.map_eq_some_iff.1 hr
  rw [h x hx]; rfl

theorem OptLe.mapM {f g : α → Option β} (h : ∀ x, OptLe (f x) (g x)) (l : List α) : OptLe (l.mapM f) (l.mapM g) := by
  induction l with
  | nil => intro r hr; simpa using hr
  | cons a t ih =>
    intro r hr
    rw [List.mapM_cons] at hr ⊢
    rcases Option.eq_none_or_eq_some (f a) with h1 | ⟨x, h1⟩
    · rw [h1] at hr; cases hr
    · rw [h a x h1]
      rw [h1] at hr
      rcases Option.eq_none_or_eq_some (t.mapM f) with h2 | ⟨y, h2⟩
      · rw [h2] at hr; cases hr
      · rw [ih y h2]
        rw [h2] at hr
        exact hr

/-- The second program does what the first does unless that panics. -/
inductive ProgLe {α : Type} : Prog α → Prog α → Prop
  | fail (p : Prog α) : ProgLe .fail p
  | ret (a : α) : ProgLe (.ret a) (.ret a)
  | nbrs (i : Nat) (k k' : List Nat → Prog α) : (∀ l, ProgLe (k l) (k' l)) → ProgLe (.nbrs i k) (.nbrs i k')
  | unused (i : Nat) (k k' : Bool → Prog α) : (∀ b, ProgLe (k b) (k' b)) → ProgLe (.unused i k) (.unused i k')
  | upd (i : Nat) (f f' : List Nat → Option (List Nat)) (k k' : Prog α) : (∀ row, OptLe (f row) (f' row)) → ProgLe k k' →
      ProgLe (.upd i f k) (.upd i f' k')

theorem ProgLe.refl (p : Prog α) : ProgLe p p := by
  induction p with
  | ret a => exact .ret a
  | fail => exact .fail _
  | nbrs i k ih => exact .nbrs i k k ih
  | unused i k ih => exact .unused i k k ih
  | upd i f k ih => exact .upd i f f k k (fun _ => .refl _) ih

theorem ProgLe.bind {p p' : Prog α} {f f' : α → Prog β} (h : ProgLe p p') (hf : ∀ a, ProgLe (f a) (f' a)) :
    ProgLe (p.bind f) (p'.bind f') := by
  induction h with
  | fail p => exact .fail _
  | ret a => exact hf a
  | nbrs i k k' _ ih => exact .nbrs i _ _ ih
  | unused i k k' _ ih => exact .unused i _ _ ih
  | upd i g g' k k' hg _ ih => exact .upd i _ _ _ _ hg ih

theorem ProgLe.runRO {p p' : Prog α} (h : ProgLe p p') (g : Graph) : OptLe (p.runRO g) (p'.runRO g) := by
  induction h with
  | fail p => exact .none _
  | ret a => exact .refl _
  | nbrs i k k' _ ih =>
    unfold Prog.runRO
    cases g[i]? with
    | none => exact .refl _
    | some l => exact ih l
  | unused i k k' _ ih => exact .none _
  | upd i g g' k k' hg _ ih => exact .none _

/-- The same elements, and possibly more behind them. -/
structure Prolongs {E D : Type} (es es' : Elements E D) : Prop where
  dist : es'.dist = es.dist
  batch : es'.batch = es.batch
  data : ∀ i : Nat, OptLe (es.data[i]?) (es'.data[i]?)

variable {E D : Type} [LinearOrder D]

section Search
variable {dq dq' : Nat → Option D}

theorem scan_le (h : ∀ i, OptLe (dq i) (dq' i)) (res : MaxSizeHeap (Cand D)) : ∀ (ns : List Nat) (pq : List (Cand D)) (vis : List Nat),
    OptLe (scanNeighbors dq res ns pq vis) (scanNeighbors dq' res ns pq vis) := by
  intro ns
  induction ns with
  | nil => intro pq vis; exact .refl _
  | cons n ns ih =>
    intro pq vis
    simp only [scanNeighbors]
    split
    · exact ih _ _
    · rcases Option.eq_none_or_eq_some (dq n) with h1 | ⟨d, h1⟩
      · rw [h1]; exact .none _
      · rw [h1, h n d h1]
        simp only
        split
        · exact ih _ _
        · cases res.peek with
          | none => exact .none _
          | some top =>
            simp only
            split <;> exact ih _ _

theorem searchLoop_le (h : ∀ i, OptLe (dq i) (dq' i)) : ∀ (fuel : Nat) (res : MaxSizeHeap (Cand D)) (pq : List (Cand D))
    (vis : List Nat), ProgLe (searchLoop dq fuel res pq vis) (searchLoop dq' fuel res pq vis) := by
  intro fuel
  induction fuel with
  | zero => intros; exact .fail _
  | succ fuel ih =>
    intro res pq vis
    cases pq with
    | nil => exact .refl _
    | cons c pq =>
      obtain ⟨d, idx⟩ := c
      simp only [searchLoop]
      cases shouldStop res d with
      | none => exact .fail _
      | some b =>
        cases b with
        | true => exact .refl _
        | false =>
          simp only
          cases res.push ⟨d, idx⟩ with
          | none => exact .fail _
          | some rb =>
            obtain ⟨res', b⟩ := rb
            refine .nbrs _ _ _ fun ns => ?_
            have hs := scan_le h res' ns pq vis
            rcases Option.eq_none_or_eq_some (scanNeighbors dq res' ns pq vis) with h1 | ⟨pv, h1⟩
            · rw [h1]; exact .fail _
            · rw [h1, hs pv h1]
              exact ih _ _ _

theorem searchForNeighbors_le (h : ∀ i, OptLe (dq i) (dq' i)) (n entry ms : Nat) :
    ProgLe (searchForNeighbors n entry dq ms) (searchForNeighbors n entry dq' ms) := by
  unfold searchForNeighbors
  rcases Option.eq_none_or_eq_some (dq entry) with h1 | ⟨d, h1⟩
  · rw [h1]; exact .fail _
  · rw [h1, h entry d h1]
    exact searchLoop_le h _ _ _ _

theorem findEntrypointFrom_le (h : ∀ i, OptLe (dq i) (dq' i)) : ∀ (ls : List Graph) (e : Nat),
    OptLe (findEntrypointFrom dq ls e) (findEntrypointFrom dq' ls e) := by
  intro ls
  induction ls with
  | nil => intro e; exact .refl _
  | cons l ls ih =>
    intro e
    simp only [findEntrypointFrom]
    have hs := (searchForNeighbors_le h l.length e 1).runRO l
    rcases Option.eq_none_or_eq_some ((searchForNeighbors l.length e dq 1).runRO l) with h1 | ⟨r, h1⟩
    · rw [h1]; exact .none _
    · rw [h1, hs r h1]
      cases r with
      | nil => exact .none _
      | cons a t => exact ih _

theorem searchInternal_le (h : ∀ i, OptLe (dq i) (dq' i)) (ls : List Graph) (ms k : Nat) :
    OptLe (searchInternal ls dq ms k) (searchInternal ls dq' ms k) := by
  unfold searchInternal
  cases ls.getLast? with
  | none => exact .refl _
  | some bottom =>
    simp only [findEntrypoint]
    have he := findEntrypointFrom_le h ls.dropLast 0
    rcases Option.eq_none_or_eq_some (findEntrypointFrom dq ls.dropLast 0) with h1 | ⟨e, h1⟩
    · rw [h1]; exact .none _
    · rw [h1, he e h1]
      simp only
      have hs := (searchForNeighbors_le h bottom.length e ms).runRO bottom
      rcases Option.eq_none_or_eq_some ((searchForNeighbors bottom.length e dq ms).runRO bottom) with h2 | ⟨r, h2⟩
      · rw [h2]; exact .none _
      · rw [h2, hs r h2]
        exact .refl _

end Search

variable {es es' : Elements E D} {srt : List (Nat × D) → List (Nat × D)}

omit [LinearOrder D] in
theorem Prolongs.distTo (h : Prolongs es es') (q : E) (i : Nat) : OptLe (es.distTo q i) (es'.distTo q i) := by
  unfold Elements.distTo
  rw [h.dist]
  exact (h.data i).map _

theorem Prolongs.search (h : Prolongs es es') (ls : List Graph) (q : E) (ms k : Nat) :
    OptLe (search ls es q ms k) (search ls es' q ms k) :=
  searchInternal_le (h.distTo q) ls ms k

omit [LinearOrder D] in
theorem Prolongs.dist? (h : Prolongs es es') (i j : Nat) : OptLe (es.dist? i j) (es'.dist? i j) := by
  unfold Elements.dist?
  rcases Option.eq_none_or_eq_some (es.data[j]?) with h1 | ⟨e, h1⟩
  · rw [h1]; exact .none _
  · rw [h1, h.data j e h1]
    exact h.distTo e i

omit [LinearOrder D] in
theorem Prolongs.dists (h : Prolongs es es') (idx : Nat) (others : List Nat) : OptLe (es.dists idx others) (es'.dists idx others) := by
  unfold Elements.dists
  rw [h.batch, h.dist]
  rcases Option.eq_none_or_eq_some (es.data[idx]?) with h1 | ⟨e, h1⟩
  · rw [h1]; exact .none _
  · rw [h1, h.data idx e h1]
    refine OptLe.mapM (fun j => ?_) others
    split
    · exact (h.data j).map _
    · exact h.distTo e j

theorem Prolongs.allFarther (h : Prolongs es es') (e : E) (d : D) : ∀ l, OptLe (allFarther es e d l) (allFarther es' e d l) := by
  intro l
  induction l with
  | nil => exact .refl _
  | cons p t ih =>
    obtain ⟨n, _⟩ := p
    simp only [Granne.allFarther]
    rcases Option.eq_none_or_eq_some (es.distTo e n) with h1 | ⟨dn, h1⟩
    · rw [h1]; exact .none _
    · rw [h1, h.distTo e n dn h1]
      simp only
      split
      · exact ih
      · exact .refl _

theorem Prolongs.selectLoop (h : Prolongs es es') (m : Nat) : ∀ c n, OptLe (selectLoop es m c n) (selectLoop es' m c n) := by
  intro c
  induction c with
  | nil => intro n; exact .refl _
  | cons p t ih =>
    intro n
    obtain ⟨j, d⟩ := p
    simp only [Granne.selectLoop]
    split
    · exact .refl _
    · rcases Option.eq_none_or_eq_some (es.data[j]?) with h1 | ⟨e, h1⟩
      · rw [h1]; exact .none _
      · rw [h1, h.data j e h1]
        simp only
        rcases Option.eq_none_or_eq_some (Granne.allFarther es e d n) with h2 | ⟨b, h2⟩
        · rw [h2]; exact .none _
        · rw [h2, h.allFarther e d n b h2]
          cases b <;> exact ih _

theorem Prolongs.selectNeighbors (h : Prolongs es es') (c : List (Nat × D)) (m : Nat) :
    OptLe (selectNeighbors es c m) (selectNeighbors es' c m) := by
  unfold Granne.selectNeighbors
  split
  · exact .refl _
  · split
    · exact h.selectLoop m c []
    · exact .refl _

theorem Prolongs.addAndLimit (h : Prolongs es es') (i : Nat) (extra : List (Nat × D)) (m : Nat) (row : Row) :
    OptLe (addAndLimit es srt i extra m row) (addAndLimit es' srt i extra m row) := by
  unfold Granne.addAndLimit
  split
  · simp only
    rcases Option.eq_none_or_eq_some (es.dists i (visible row)) with h1 | ⟨ds, h1⟩
    · rw [h1]; exact .none _
    · rw [h1, h.dists i _ ds h1]
      simp only
      rcases Option.eq_none_or_eq_some (Granne.selectNeighbors es (srt ((visible row).zip ds ++ extra)) m) with h2 | ⟨s, h2⟩
      · rw [h2]; exact .none _
      · rw [h2, h.selectNeighbors _ m s h2]
        exact .refl _
  · exact .refl _

theorem Prolongs.connectRow (h : Prolongs es es') (i j : Nat) (d : D) (row : Row) :
    OptLe (connectRow es srt i j d row) (connectRow es' srt i j d row) := by
  unfold Granne.connectRow
  cases toNeighborId j with
  | none => exact .refl _
  | some jId =>
    simp only
    split
    · exact .refl _
    · exact h.addAndLimit i _ _ row

theorem Prolongs.connectNodes (h : Prolongs es es') (i j : Nat) (d : D) {k k' : Prog Unit} (hk : ProgLe k k') :
    ProgLe (connectNodes es srt i j d k) (connectNodes es' srt i j d k') := by
  unfold Granne.connectNodes
  split
  · exact hk
  · exact .upd _ _ _ _ _ (h.connectRow i j d) hk

theorem Prolongs.connectOwn (h : Prolongs es es') (idx : Nat) (nb : List (Nat × D)) {k k' : Prog Unit} (hk : ProgLe k k') :
    ProgLe (connectOwn es srt idx nb k) (connectOwn es' srt idx nb k') := by
  unfold Granne.connectOwn
  induction nb with
  | nil => exact hk
  | cons p t ih => exact h.connectNodes idx p.1 p.2 ih

theorem Prolongs.connectOthers (h : Prolongs es es') (idx : Nat) (nb : List (Nat × D)) {k k' : Prog Unit} (hk : ProgLe k k') :
    ProgLe (connectOthers es srt idx nb k) (connectOthers es' srt idx nb k') := by
  unfold Granne.connectOthers
  induction nb with
  | nil => exact hk
  | cons p t ih => exact h.connectNodes p.1 idx p.2 ih

theorem Prolongs.publish (h : Prolongs es es') (idx : Nat) (nb : List (Nat × D)) :
    ProgLe (publish es srt idx nb) (publish es' srt idx nb) := by
  unfold Granne.publish
  refine .unused _ _ _ fun b => ?_
  cases b
  · exact h.connectOwn idx nb (h.connectOthers idx nb (.refl _))
  · exact .upd _ _ _ _ _ (fun _ => .refl _) (h.connectOthers idx nb (.refl _))

theorem Prolongs.indexElement (h : Prolongs es es') (cfg : LayerConfig D) (prev : List Graph) (n idx : Nat) :
    ProgLe (indexElement cfg es srt prev n idx) (indexElement cfg es' srt prev n idx) := by
  unfold Granne.indexElement
  rcases Option.eq_none_or_eq_some (es.dist? idx idx) with h1 | ⟨dSelf, h1⟩
  · rw [h1]; exact .fail _
  · rw [h1, h.dist? idx idx dSelf h1]
    simp only
    split
    · exact .refl _
    · rcases Option.eq_none_or_eq_some (es.data[idx]?) with h2 | ⟨e, h2⟩
      · rw [h2]; exact .fail _
      · rw [h2, h.data idx e h2]
        simp only
        rcases Option.eq_none_or_eq_some (Granne.search prev es e 1 1) with h3 | ⟨r, h3⟩
        · rw [h3]; exact .fail _
        · rw [h3, h.search prev e 1 1 r h3]
          refine (searchForNeighbors_le (h.distTo e) _ _ _).bind fun found => ?_
          rcases Option.eq_none_or_eq_some (Granne.selectNeighbors es (found.filter fun p => p.1 != idx) cfg.numNeighbors)
            with h4 | ⟨nb, h4⟩
          · rw [h4]; exact .fail _
          · rw [h4, h.selectNeighbors _ _ nb h4]
            simp only
            cases nb[cfg.numNeighbors / 2]? with
            | none => exact h.publish idx nb
            | some p =>
              obtain ⟨_, d⟩ := p
              simp only
              split
              · exact .refl _
              · exact h.publish idx nb

/-! ### Executions -/

/-- The same rows, and every thread does what the corresponding one does unless that panics. -/
structure ParLe (s s' : Par) : Prop where
  rows : s'.rows = s.rows
  size : s'.threads.length = s.threads.length
  threads : ∀ (t : Nat) p p', s.threads[t]? = some p → s'.threads[t]? = some p' → ProgLe p p'

theorem ParLe.set {s s' : Par} (h : ParLe s s') (t : Nat) {q q' : Prog Unit} (hq : ProgLe q q') (rows : Rows) :
    ParLe ⟨rows, s.threads.set t q⟩ ⟨rows, s'.threads.set t q'⟩ := by
  refine ⟨rfl, by simpa using h.size, fun u p p' h1 h2 => ?_⟩
  simp only [List.getElem?_set] at h1 h2
  split at h1
  · rename_i he
    rw [if_pos he] at h2
    split at h1
    · split at h2
      · cases h1; cases h2; exact hq
      · cases h2
    · cases h1
  · rename_i he
    rw [if_neg he] at h2
    exact h.threads u p p' h1 h2

theorem step_panics {s : Par} (t : Nat) {p : Prog Unit} (ht : s.threads[t]? = some p) {rows : Rows}
    (hs : p.step s.rows = some (rows, .fail)) : ∃ u, Par.Step s u ∧ u.Panicked := by
  refine ⟨_, .mk s t p .fail rows ht hs, .fail, ?_, rfl⟩
  have hlt := (List.getElem?_eq_some_iff.1 ht).1
  exact List.mem_of_getElem? (i := t) (by simp [hlt])

/-- A step of either system is one of the other, as long as the first cannot panic. -/
theorem step_le {p p' : Prog Unit} (h : ProgLe p p') (rows : Rows) :
    (p = .fail) ∨ (∃ r, p.step rows = some (r, .fail)) ∨ (p.step rows = none ∧ p'.step rows = none) ∨
    ∃ r q q', p.step rows = some (r, q) ∧ p'.step rows = some (r, q') ∧ ProgLe q q' := by
  cases h with
  | fail => exact Or.inl rfl
  | ret a => exact Or.inr (Or.inr (Or.inl ⟨rfl, rfl⟩))
  | nbrs i k k' hk =>
    right
    rcases Option.eq_none_or_eq_some (rows[i]?) with h1 | ⟨row, h1⟩
    · exact Or.inl ⟨rows, by simp [Prog.step, h1]⟩
    · exact Or.inr (Or.inr ⟨rows, _, _, by simp [Prog.step, h1]; try rfl, by simp [Prog.step, h1]; try rfl, hk (visible row)⟩)
  | unused i k k' hk =>
    right
    rcases Option.eq_none_or_eq_some (rows[i]?) with h1 | ⟨row, h1⟩
    · exact Or.inl ⟨rows, by simp [Prog.step, h1]⟩
    · cases row with
      | nil => exact Or.inl ⟨rows, by simp [Prog.step, h1]⟩
      | cons x t => exact Or.inr (Or.inr ⟨rows, _, _, by simp [Prog.step, h1]; try rfl, by simp [Prog.step, h1]; try rfl, hk _⟩)
  | upd i f f' k k' hf hk =>
    right
    rcases Option.eq_none_or_eq_some (rows[i]?) with h1 | ⟨row, h1⟩
    · exact Or.inl ⟨rows, by simp [Prog.step, h1]⟩
    · rcases Option.eq_none_or_eq_some (f row) with h2 | ⟨row', h2⟩
      · exact Or.inl ⟨rows, by simp [Prog.step, h1, h2]⟩
      · exact Or.inr (Or.inr ⟨rows.set i row', k, k', by simp [Prog.step, h1, h2], by simp [Prog.step, h1, hf row row' h2], hk⟩)

/-- From a state that cannot lead to a panic, both systems do the same. -/
theorem steps_le {s s' : Par} (h : ParLe s s') (hnp : ∀ t, Par.Steps s t → ¬ t.Panicked) :
    (∀ t, Par.Steps s t → ∃ t', Par.Steps s' t' ∧ ParLe t t') ∧ (∀ t', Par.Steps s' t' → ∃ t, Par.Steps s t ∧ ParLe t t') := by
  have hcase : ∀ u u' : Par, ParLe u u' → Par.Steps s u → ∀ (t : Nat) p p', u.threads[t]? = some p → u'.threads[t]? = some p' →
      (p.step u.rows = none ∧ p'.step u.rows = none) ∨
      ∃ r q q', p.step u.rows = some (r, q) ∧ p'.step u.rows = some (r, q') ∧ ProgLe q q' := by
    intro u u' hle hu t p p' h1 h2
    rcases step_le (hle.threads t p p' h1 h2) u.rows with h3 | ⟨r, h3⟩ | h3 | h3
    · exact absurd ⟨p, List.mem_of_getElem? h1, h3⟩ (hnp u hu)
    · obtain ⟨v, hv, hp⟩ := step_panics t h1 h3
      exact absurd hp (hnp v (.tail hu hv))
    · exact Or.inl h3
    · exact Or.inr h3
  constructor
  · intro t ht
    induction ht with
    | refl => exact ⟨s', .refl _, h⟩
    | @tail u v hu hstep ih =>
      obtain ⟨u', hu', hle⟩ := ih
      cases hstep with
      | mk t p q rows h1 h2 =>
        have hlt := (List.getElem?_eq_some_iff.1 h1).1
        obtain ⟨p', h3⟩ : ∃ p', u'.threads[t]? = some p' := ⟨_, List.getElem?_eq_getElem (by rw [hle.size]; exact hlt)⟩
        rcases hcase u u' hle hu t p p' h1 h3 with ⟨h4, _⟩ | ⟨r, q1, q', h4, h5, h6⟩
        · rw [h4] at h2; cases h2
        · rw [h4] at h2
          cases h2
          rw [← hle.rows] at h5
          exact ⟨_, .tail hu' (.mk u' t p' q' _ h3 h5), hle.set t h6 _⟩
  · intro t' ht'
    induction ht' with
    | refl => exact ⟨s, .refl _, h⟩
    | @tail u' v hu' hstep ih =>
      obtain ⟨u, hu, hle⟩ := ih
      cases hstep with
      | mk t p' q' rows h1 h2 =>
        have hlt := (List.getElem?_eq_some_iff.1 h1).1
        obtain ⟨p, h3⟩ : ∃ p, u.threads[t]? = some p := ⟨_, List.getElem?_eq_getElem (by rw [← hle.size]; exact hlt)⟩
        rw [hle.rows] at h2
        rcases hcase u u' hle hu t p p' h3 h1 with ⟨_, h4⟩ | ⟨r, q, q1, h4, h5, h6⟩
        · rw [h4] at h2; cases h2
        · rw [h5] at h2
          cases h2
          exact ⟨_, .tail hu (.mk u t p q _ h3 h4), hle.set t h6 _⟩

theorem done_le {s s' : Par} (h : ParLe s s') (hnp : ¬ s.Panicked) : s.Done ↔ s'.Done := by
  have key : ∀ (t : Nat) p p', s.threads[t]? = some p → s'.threads[t]? = some p' → (p = .ret () ↔ p' = .ret ()) := by
    intro t p p' h1 h2
    have hle := h.threads t p p' h1 h2
    cases hle with
    | fail => exact absurd ⟨_, List.mem_of_getElem? h1, rfl⟩ hnp
    | ret a => exact Iff.rfl
    | nbrs => constructor <;> (intro h; cases h)
    | unused => constructor <;> (intro h; cases h)
    | upd => constructor <;> (intro h; cases h)
  constructor
  · intro hd p' hp'
    obtain ⟨t, ht⟩ := List.mem_iff_getElem?.1 hp'
    have hlt := (List.getElem?_eq_some_iff.1 ht).1
    obtain ⟨p, h3⟩ : ∃ p, s.threads[t]? = some p := ⟨_, List.getElem?_eq_getElem (by rw [← h.size]; exact hlt)⟩
    exact (key t p p' h3 ht).1 (hd p (List.mem_of_getElem? h3))
  · intro hd p hp
    obtain ⟨t, ht⟩ := List.mem_iff_getElem?.1 hp
    have hlt := (List.getElem?_eq_some_iff.1 ht).1
    obtain ⟨p', h3⟩ : ∃ p', s'.threads[t]? = some p' := ⟨_, List.getElem?_eq_getElem (by rw [h.size]; exact hlt)⟩
    exact (key t p p' ht h3).2 (hd p' (List.mem_of_getElem? h3))

theorem panicked_le {s s' : Par} (h : ParLe s s') (hp : s'.Panicked) : s.Panicked := by
  obtain ⟨p', hp', rfl⟩ := hp
  obtain ⟨t, ht⟩ := List.mem_iff_getElem?.1 hp'
  have hlt := (List.getElem?_eq_some_iff.1 ht).1
  obtain ⟨p, h3⟩ : ∃ p, s.threads[t]? = some p := ⟨_, List.getElem?_eq_getElem (by rw [← h.size]; exact hlt)⟩
  have hle := h.threads t p _ h3 ht
  cases hle
  exact ⟨_, List.mem_of_getElem? h3, rfl⟩

theorem Prolongs.limitPass (h : Prolongs es es') (cfg : LayerConfig D) (rows : Rows) :
    OptLe (limitPass cfg es srt rows) (limitPass cfg es' srt rows) := by
  unfold Granne.limitPass
  exact OptLe.mapM (fun p : Row × Nat => h.addAndLimit p.2 [] cfg.numNeighbors p.1) _

theorem Prolongs.indexPar (h : Prolongs es es') (cfg : LayerConfig D) (num : Nat) (prev : List Graph) (layer : Layer) (r : Bool) :
    ParLe (indexPar cfg es srt num prev layer r) (indexPar cfg es' srt num prev layer r) := by
  unfold Granne.indexPar
  refine ⟨rfl, by simp, fun t p p' h1 h2 => ?_⟩
  simp only [List.getElem?_map] at h1 h2
  obtain ⟨i, hi, rfl⟩ := Option.map_eq_some_iff.1 h1
  rw [hi, Option.map_some] at h2
  cases h2
  exact h.indexElement cfg prev _ i

/-- Indexing with more elements behind those that are there does the same, unless it can panic without them. -/
theorem Prolongs.indexElements (h : Prolongs es es') (cfg : LayerConfig D) (num : Nat) (prev : List Graph) (layer : Layer) (r : Bool)
    (hnp : ¬ IndexElements cfg es srt num prev layer r none) (out : Option Layer) :
    IndexElements cfg es' srt num prev layer r out ↔ IndexElements cfg es srt num prev layer r out := by
  have hle : layer.rows.length ≤ num := by
    by_contra hcon
    exact hnp (.tooMany hcon)
  have hnp1 : ∀ t, Par.Steps (Granne.indexPar cfg es srt num prev layer r) t → ¬ t.Panicked :=
    fun t ht hp => hnp (.panic t hle ht hp)
  have hst := steps_le (h.indexPar (srt := srt) cfg num prev layer r) hnp1
  have hlim : ∀ s, Par.Steps (Granne.indexPar cfg es srt num prev layer r) s → s.Done →
      Granne.limitPass cfg es' srt s.rows = Granne.limitPass cfg es srt s.rows := by
    intro s hs hd
    rcases Option.eq_none_or_eq_some (Granne.limitPass cfg es srt s.rows) with h1 | ⟨x, h1⟩
    · have := IndexElements.done s hle hs hd
      rw [h1] at this
      exact absurd this hnp
    · rw [h1, h.limitPass cfg s.rows x h1]
  constructor
  · intro hout
    cases hout with
    | tooMany h1 => exact absurd hle h1
    | panic s' _ h2 h3 =>
      obtain ⟨s, hs, hl⟩ := hst.2 s' h2
      exact absurd (panicked_le hl h3) (hnp1 s hs)
    | done s' _ h2 h3 =>
      obtain ⟨s, hs, hl⟩ := hst.2 s' h2
      have hd := (done_le hl (hnp1 s hs)).2 h3
      rw [hl.rows, hlim s hs hd]
      exact .done s hle hs hd
  · intro hout
    cases hout with
    | tooMany h1 => exact absurd hle h1
    | panic s _ h2 h3 => exact absurd h3 (hnp1 s h2)
    | done s _ h2 h3 =>
      obtain ⟨s', hs, hl⟩ := hst.1 s h2
      rw [← hlim s h2 h3, ← hl.rows]
      exact .done s' hle hs ((done_le hl (hnp1 s h2)).1 h3)

/-! ### Builders -/

/-- The builder with other elements. -/
def Builder.withElements (es : Elements E D) (b : Builder E D) : Builder E D := { b with elements := es }

/-- Both collections are within what is expected: the plan is the same. -/
structure SamePlan (b : Builder E D) (es' : Elements E D) : Prop where
  extends_ : Prolongs b.elements es'
  total : (b.withElements es').total = b.total
  plan : max b.total es'.data.length = max b.total b.elements.data.length

omit [LinearOrder D] in
theorem SamePlan.of (b b' : Builder E D) (es' : Elements E D) (h : SamePlan b es') (hc : b'.config = b.config)
    (he : b'.elements = b.elements) : SamePlan b' es' := by
  obtain ⟨es, ls, c⟩ := b
  obtain ⟨es2, ls2, c2⟩ := b'
  simp only at hc he
  subst hc he
  exact ⟨h.extends_, h.total, h.plan⟩

omit [LinearOrder D] in
theorem SamePlan.ideal {b : Builder E D} {es' : Elements E D} (h : SamePlan b es') (n : Nat) :
    (b.withElements es').ideal n = b.ideal n := by
  unfold Builder.ideal
  rw [h.total]
  show b.config.schedule (max b.total es'.data.length) (n - 1) = _
  rw [h.plan]

omit [LinearOrder D] in
theorem SamePlan.layerConfig {b : Builder E D} {es' : Elements E D} (h : SamePlan b es') (n : Nat) :
    (b.withElements es').layerConfig n = b.layerConfig n := by
  unfold Builder.layerConfig
  rw [h.total]
  rfl

theorem indexLast_ext {b : Builder E D} {es' : Elements E D} (h : SamePlan b es') (num : Nat)
    (hnp : ¬ IndexLast srt b num none) (out : Option (Builder E D)) :
    IndexLast srt (b.withElements es') num out ↔ ∃ c, out = some (c.withElements es') ∧ IndexLast srt b num (some c) := by
  have hid : (b.withElements es').ideal (b.withElements es').layers.length = b.ideal b.layers.length := h.ideal _
  have h1p : ∀ (upper : List Layer) (layer : Layer), b.layers = upper ++ [layer] → layer.rows.length < b.ideal b.layers.length →
      ¬ IndexElements (b.layerConfig (b.ideal b.layers.length)) b.elements srt (min num (b.ideal b.layers.length))
        (upper.map fun l => graphOf l.rows) layer false none := fun upper layer e1 e2 e3 => hnp (.firstPanics upper layer e1 e2 e3)
  have h2p : ∀ (upper : List Layer) (layer layer' : Layer), b.layers = upper ++ [layer] →
      layer.rows.length < b.ideal b.layers.length →
      IndexElements (b.layerConfig (b.ideal b.layers.length)) b.elements srt (min num (b.ideal b.layers.length))
        (upper.map fun l => graphOf l.rows) layer false (some layer') → b.config.reinsertElements = true →
      ¬ IndexElements (b.layerConfig (b.ideal b.layers.length)).forReinsert b.elements srt (min num (b.ideal b.layers.length))
        (upper.map fun l => graphOf l.rows) layer' true none :=
    fun upper layer layer' e1 e2 e3 e4 e5 => hnp (.twice upper layer layer' none e1 e2 e3 e4 e5)
  constructor
  · intro ho
    cases ho with
    | noLayer e => exact absurd (.noLayer e) hnp
    | nothing e1 e2 => rw [hid] at e2; exact ⟨b, rfl, .nothing e1 e2⟩
    | firstPanics upper layer e1 e2 e3 =>
      rw [hid] at e2 e3
      rw [h.layerConfig] at e3
      exact absurd ((h.extends_.indexElements _ _ _ _ _ (h1p upper layer e1 e2) _).1 e3) (h1p upper layer e1 e2)
    | once upper layer layer' e1 e2 e3 e4 =>
      rw [hid] at e2 e3
      rw [h.layerConfig] at e3
      exact ⟨_, rfl, .once upper layer layer' e1 e2 ((h.extends_.indexElements _ _ _ _ _ (h1p upper layer e1 e2) _).1 e3) e4⟩
    | twice upper layer layer' o e1 e2 e3 e4 e5 =>
      rw [hid] at e2 e3 e5
      rw [h.layerConfig] at e3 e5
      have f3 := (h.extends_.indexElements _ _ _ _ _ (h1p upper layer e1 e2) _).1 e3
      have f5 := (h.extends_.indexElements _ _ _ _ _ (h2p upper layer layer' e1 e2 f3 e4) _).1 e5
      cases o with
      | none => exact absurd f5 (h2p upper layer layer' e1 e2 f3 e4)
      | some l => exact ⟨_, rfl, .twice upper layer layer' (some l) e1 e2 f3 e4 f5⟩
  · rintro ⟨c, rfl, ho⟩
    generalize hc : some c = oc at ho
    cases ho with
    | noLayer e => cases hc
    | nothing e1 e2 => cases hc; exact .nothing e1 (by rw [hid]; exact e2)
    | firstPanics upper layer e1 e2 e3 => cases hc
    | once upper layer layer' e1 e2 e3 e4 =>
      cases hc
      refine .once upper layer layer' e1 (by rw [hid]; exact e2) ?_ e4
      rw [hid, h.layerConfig]
      exact (h.extends_.indexElements _ _ _ _ _ (h1p upper layer e1 e2) _).2 e3
    | twice upper layer layer' o e1 e2 e3 e4 e5 =>
      cases o with
      | none => cases hc
      | some l =>
        cases hc
        refine .twice (b := b.withElements es') upper layer layer' (some l) e1 (by rw [hid]; exact e2) ?_ e4 ?_
        · rw [hid, h.layerConfig]
          exact (h.extends_.indexElements _ _ _ _ _ (h1p upper layer e1 e2) _).2 e3
        · rw [hid, h.layerConfig]
          exact (h.extends_.indexElements _ _ _ _ _ (h2p upper layer layer' e1 e2 e3 e4) _).2 e5

theorem indexLast_keeps {b b' : Builder E D} {num : Nat} (h : IndexLast srt b num (some b')) :
    b'.config = b.config ∧ b'.elements = b.elements := by
  generalize hc : some b' = o at h
  cases h with
  | noLayer e => cases hc
  | nothing e1 e2 => cases hc; exact ⟨rfl, rfl⟩
  | firstPanics upper layer e1 e2 e3 => cases hc
  | once upper layer layer' e1 e2 e3 e4 => cases hc; exact ⟨rfl, rfl⟩
  | twice upper layer layer' o e1 e2 e3 e4 e5 =>
    cases o with
    | none => cases hc
    | some l => cases hc; exact ⟨rfl, rfl⟩

theorem buildLoop_ext1 {b : Builder E D} {es' : Elements E D} {num : Nat} {out : Option (Builder E D)}
    (ho : BuildLoop srt num b out) (h : SamePlan b es') (hnp : ¬ BuildLoop srt num b none) :
    BuildLoop srt num (b.withElements es') (out.map (Builder.withElements es')) := by
  induction ho with
  | done b e => exact .done _ e
  | panic b e1 e2 => exact absurd (.panic b e1 e2) hnp
  | round b b1 out e1 e2 e3 ih =>
    have hs := indexLast_keeps e2
    have h1 : SamePlan b.addLayer es' := SamePlan.of b _ es' h rfl rfl
    have hn : ¬ IndexLast srt b.addLayer num none := fun hc => hnp (.panic b e1 hc)
    exact .round _ (b1.withElements es') _ e1 ((indexLast_ext h1 num hn _).2 ⟨b1, rfl, e2⟩)
      (ih (SamePlan.of b _ es' h hs.1 hs.2) fun hc => hnp (.round b b1 none e1 e2 hc))

theorem buildLoop_ext2 {b' : Builder E D} {es' : Elements E D} {num : Nat} {out : Option (Builder E D)}
    (ho : BuildLoop srt num b' out) : ∀ b : Builder E D, b' = b.withElements es' → SamePlan b es' → ¬ BuildLoop srt num b none →
    ∃ c, out = some (c.withElements es') ∧ BuildLoop srt num b (some c) := by
  induction ho with
  | done b' e => rintro b rfl h hnp; exact ⟨b, rfl, .done b e⟩
  | panic b' e1 e2 =>
    rintro b rfl h hnp
    have h1 : SamePlan b.addLayer es' := SamePlan.of b _ es' h rfl rfl
    have hn : ¬ IndexLast srt b.addLayer num none := fun hc => hnp (.panic b e1 hc)
    obtain ⟨c, hc, _⟩ := (indexLast_ext h1 num hn _).1 e2
    cases hc
  | round b' b1 out e1 e2 e3 ih =>
    rintro b rfl h hnp
    have h1 : SamePlan b.addLayer es' := SamePlan.of b _ es' h rfl rfl
    have hn : ¬ IndexLast srt b.addLayer num none := fun hc => hnp (.panic b e1 hc)
    obtain ⟨c, hc, hc2⟩ := (indexLast_ext h1 num hn _).1 e2
    cases hc
    have hs := indexLast_keeps hc2
    obtain ⟨d, hd, hd2⟩ := ih c rfl (SamePlan.of b _ es' h hs.1 hs.2) fun hx => hnp (.round b c none e1 hc2 hx)
    exact ⟨d, hd, .round b c _ e1 hc2 hd2⟩

/-- Building with more elements behind those that are there does the same, unless it can panic without them. -/
theorem buildPartial_ext {b : Builder E D} {es' : Elements E D} {num : Nat} (h : SamePlan b es')
    (hnum : num ≤ b.elements.data.length) (hnum' : num ≤ es'.data.length) (hnp : ¬ BuildPartial srt b num none)
    (out : Option (Builder E D)) :
    BuildPartial srt (b.withElements es') num out ↔ ∃ c, out = some (c.withElements es') ∧ BuildPartial srt b num (some c) := by
  have hle : num ≠ 0 → lastLen b.layers ≤ num := fun h0 => by
    by_contra hcon
    exact hnp (.fewer h0 hcon)
  have hfresh : num ≠ 0 → b.layers = [] → ¬ BuildLoop srt num b none := fun h0 hl hx => hnp (.fresh none h0 (hle h0) hnum hl hx)
  have hlast : num ≠ 0 → b.layers ≠ [] → ¬ IndexLast srt b num none := fun h0 hl hx => hnp (.lastPanics h0 (hle h0) hnum hl hx)
  have hcont : num ≠ 0 → b.layers ≠ [] → ∀ c, IndexLast srt b num (some c) → ¬ BuildLoop srt num c none :=
    fun h0 hl c h1 hx => hnp (.continue c none h0 (hle h0) hnum hl h1 hx)
  constructor
  · intro ho
    cases ho with
    | zero h0 => exact ⟨b, rfl, .zero h0⟩
    | fewer h0 h1 => exact absurd (hle h0) h1
    | more h0 h1 h2 => exact absurd hnum' h2
    | fresh out h0 h1 h2 h3 h4 =>
      obtain ⟨c, hc, hc2⟩ := buildLoop_ext2 h4 b rfl h (hfresh h0 h3)
      exact ⟨c, hc, .fresh _ h0 h1 hnum h3 hc2⟩
    | lastPanics h0 h1 h2 h3 h4 =>
      obtain ⟨c, hc, _⟩ := (indexLast_ext h num (hlast h0 h3) _).1 h4
      cases hc
    | «continue» b1 out h0 h1 h2 h3 h4 h5 =>
      obtain ⟨c, hc, hc2⟩ := (indexLast_ext h num (hlast h0 h3) _).1 h4
      cases hc
      have hs := indexLast_keeps hc2
      obtain ⟨d, hd, hd2⟩ := buildLoop_ext2 h5 c rfl (SamePlan.of b _ es' h hs.1 hs.2) (hcont h0 h3 c hc2)
      exact ⟨d, hd, .continue c _ h0 h1 hnum h3 hc2 hd2⟩
  · rintro ⟨c, rfl, ho⟩
    generalize hc : some c = oc at ho
    cases ho with
    | zero h0 => cases hc; exact .zero h0
    | fewer h0 h1 => cases hc
    | more h0 h1 h2 => cases hc
    | fresh out h0 h1 h2 h3 h4 =>
      subst hc
      exact .fresh _ h0 h1 hnum' h3 (buildLoop_ext1 h4 h (hfresh h0 h3))
    | lastPanics h0 h1 h2 h3 h4 => cases hc
    | «continue» b1 out h0 h1 h2 h3 h4 h5 =>
      subst hc
      have hs := indexLast_keeps h4
      exact .continue _ _ h0 h1 hnum' h3 ((indexLast_ext h num (hlast h0 h3) _).2 ⟨b1, rfl, h4⟩)
        (buildLoop_ext1 h5 (SamePlan.of b _ es' h hs.1 hs.2) (hcont h0 h3 b1 h4))

end Granne
