import Verif.Props.Elements

/-!
Property C28, with panics and endless loops kept apart: what a call of `permute` comes to if its inner loop may be run any number of
times.
-/
namespace Granne
open Spec

variable {T : Type}

/-- The result of a call, if there is one. -/
def FixVec.Run.result {α : Type} : FixVec.Run α → Option α
  | .returned a => some a
  | .panicked => none
  | .running => none

namespace PermuteRun
open FixVec

theorem cycle_result (perm : List Nat) (i : Nat) (start : List T) : ∀ (fuel j : Nat) (v : FixVec T) (vis : List Bool),
    (permuteCycleRun perm i start fuel j v vis).result = permuteCycle perm i start fuel j v vis := by
  intro fuel
  induction fuel with
  | zero => intro j v vis; rfl
  | succ fuel ih =>
    intro j v vis
    unfold permuteCycleRun permuteCycle
    rcases Option.eq_none_or_eq_some perm[j]? with hp | ⟨pj, hp⟩
    · simp [hp, Run.result]
    · simp only [hp, Option.bind_eq_bind, Option.bind_some]
      by_cases he : pj ≠ i
      · rw [if_pos he, if_pos he]
        rcases Option.eq_none_or_eq_some (v.copyRow j pj) with hc | ⟨v1, hc⟩
        · simp [hc, Run.result]
        · simp only [hc, Option.bind_some]
          by_cases hj : j < vis.length
          · rw [if_pos hj, if_pos hj, ih]
          · rw [if_neg hj, if_neg hj]; rfl
      · rw [if_neg he, if_neg he]
        rcases Option.eq_none_or_eq_some (v.setRow j start) with hc | ⟨v1, hc⟩
        · simp [hc, Run.result]
        · simp only [hc, Option.bind_some]
          by_cases hj : j < vis.length
          · rw [if_pos hj, if_pos hj]; rfl
          · rw [if_neg hj, if_neg hj]; rfl

theorem loop_result (perm : List Nat) : ∀ (is : List Nat) (v : FixVec T) (vis : List Bool),
    (permuteLoopRun perm (perm.length + 1) is v vis).result = permuteLoop perm is v vis := by
  intro is
  induction is with
  | nil => intro v vis; rfl
  | cons i is ih =>
    intro v vis
    unfold permuteLoopRun permuteLoop
    rcases Option.eq_none_or_eq_some vis[i]? with hv | ⟨b, hv⟩
    · simp [hv, Run.result]
    · cases b with
      | true => simp [hv, ih]
      | false =>
        simp only [hv, Option.bind_eq_bind, Option.bind_some, Bool.false_eq_true, if_false]
        rcases Option.eq_none_or_eq_some (v.get i) with hg | ⟨st, hg⟩
        · simp [hg, Run.result]
        · simp only [hg, Option.bind_some]
          rw [← cycle_result]
          cases hr : permuteCycleRun perm i st (perm.length + 1) i v vis with
          | returned a => simp [Run.result, ← ih]
          | panicked => simp [Run.result]
          | running => simp [Run.result]

theorem cycle_never (perm : List Nat) {i0 : Nat} (hi0 : i0 ∉ perm) (start : List T) (fuel j : Nat) (v : FixVec T) (vis : List Bool)
    (a : FixVec T × List Bool) : permuteCycleRun perm i0 start fuel j v vis ≠ .returned a := by
  intro h
  have := cycle_result perm i0 start fuel j v vis
  rw [h, permuteCycle_endless perm hi0] at this
  cases this

theorem loop_never (perm : List Nat) {i0 : Nat} (hi0 : i0 ∉ perm) (fuel : Nat) :
    ∀ (is : List Nat) (v : FixVec T) (vis : List Bool) (a : FixVec T), i0 ∈ is → vis[i0]? = some false →
      permuteLoopRun perm fuel is v vis ≠ .returned a := by
  intro is
  induction is with
  | nil => intro v vis a h; cases h
  | cons i is ih =>
    intro v vis a hmem hvis hr
    unfold permuteLoopRun at hr
    have tail : ∀ (v' : FixVec T) (vis' : List Bool), i ≠ i0 → vis'[i0]? = some false → permuteLoopRun perm fuel is v' vis' ≠ .returned a := by
      intro v' vis' hne hv'
      exact ih v' vis' a ((List.mem_cons.1 hmem).resolve_left fun e => hne e.symm) hv'
    rcases Option.eq_none_or_eq_some vis[i]? with hv | ⟨b, hv⟩
    · simp [hv] at hr
    · cases b with
      | true =>
        simp only [hv] at hr
        refine tail v vis ?_ hvis hr
        rintro rfl
        rw [hvis] at hv; cases hv
      | false =>
        simp only [hv] at hr
        rcases Option.eq_none_or_eq_some (v.get i) with hg | ⟨st, hg⟩
        · simp [hg] at hr
        · simp only [hg] at hr
          cases hc : permuteCycleRun perm i st fuel i v vis with
          | panicked => simp [hc] at hr
          | running => simp [hc] at hr
          | returned p =>
            obtain ⟨v', vis'⟩ := p
            simp only [hc] at hr
            by_cases hi : i = i0
            · subst hi; exact cycle_never perm hi0 st fuel i v vis _ hc
            · have hres := cycle_result perm i st fuel i v vis
              rw [hc] at hres
              refine tail v' vis' hi ?_ hr
              rw [permuteCycle_avoids perm i st hi0 fuel i v vis hi v' vis' hres.symm]
              exact hvis

/-- What the inner loop cannot do if every entry is a position and no position that stays is named elsewhere. -/
theorem cycle_no_panic (perm : List Nat) (n d i : Nat) (start : List T) (hlen : perm.length = n) (hin : ∀ m ∈ perm, m < n)
    (hne : ∀ j k : Nat, perm[j]? = some k → perm[k]? = some k → k = j) (hst : start.length = d) :
    ∀ (fuel j : Nat) (v : FixVec T) (vis : List Bool) (rows : List (List T)), FixRepr v d rows → rows.length = n → vis.length = n → j < n →
      (perm[j]? = some j → j = i) →
      permuteCycleRun perm i start fuel j v vis = .running ∨ ∃ v' vis' rows', permuteCycleRun perm i start fuel j v vis = .returned (v', vis') ∧
        FixRepr v' d rows' ∧ rows'.length = n ∧ vis'.length = n := by
  intro fuel
  induction fuel with
  | zero => intro j v vis rows _ _ _ _ _; exact Or.inl rfl
  | succ fuel ih =>
    intro j v vis rows hr hrn hvn hj hown
    unfold permuteCycleRun
    have hp : perm[j]? = some (perm[j]'(by omega)) := List.getElem?_eq_getElem (by omega)
    generalize perm[j]'(by omega) = pj at hp
    have hpj : pj < n := hin pj (List.mem_of_getElem? hp)
    simp only [hp]
    by_cases he : pj ≠ i
    · have hjp : j ≠ pj := by
        rintro rfl
        exact he (hown hp)
      obtain ⟨v', e, hr'⟩ := hr.copyRow (dst := j) (src := pj) (by omega) (by omega) hjp
      simp only [e, if_pos he, if_pos (show j < vis.length by omega)]
      refine ih pj v' _ _ hr' (by simp [hrn]) (by simp [hvn]) hpj ?_
      intro hs
      exact absurd (hne j pj hp hs).symm hjp
    · obtain ⟨v', e, hr'⟩ := hr.setRow (i := j) (row := start) (by omega) hst
      simp only [e, if_neg he, if_pos (show j < vis.length by omega)]
      exact Or.inr ⟨v', _, _, rfl, hr', by simp [hrn], by simp [hvn]⟩

theorem loop_no_panic (perm : List Nat) (n d fuel : Nat) (hlen : perm.length = n) (hin : ∀ m ∈ perm, m < n)
    (hne : ∀ j k : Nat, perm[j]? = some k → perm[k]? = some k → k = j) :
    ∀ (is : List Nat) (v : FixVec T) (vis : List Bool) (rows : List (List T)), FixRepr v d rows → rows.length = n → vis.length = n →
      (∀ i ∈ is, i < n) → permuteLoopRun perm fuel is v vis ≠ .panicked := by
  intro is
  induction is with
  | nil => intro v vis rows _ _ _ _ h; cases h
  | cons i is ih =>
    intro v vis rows hr hrn hvn his
    have hi : i < n := his i (by simp)
    have his' : ∀ k ∈ is, k < n := fun k hk => his k (by simp [hk])
    unfold permuteLoopRun
    have hv : vis[i]? = some (vis[i]'(by omega)) := List.getElem?_eq_getElem (by omega)
    generalize vis[i]'(by omega) = b at hv
    cases b with
    | true => simp only [hv]; exact ih v vis rows hr hrn hvn his'
    | false =>
      have hg : v.get i = some (rows[i]'(by omega)) := by rw [hr.get_eq, List.getElem?_eq_getElem (by omega)]
      simp only [hv, hg]
      rcases cycle_no_panic perm n d i (rows[i]'(by omega)) hlen hin hne (hr.len _ (List.getElem_mem _)) fuel i v vis rows hr hrn hvn hi
        (fun _ => rfl) with e | ⟨v', vis', rows', e, h1, h2, h3⟩
      · simp [e]
      · simp only [e]
        exact ih v' vis' rows' h1 h2 h3 his'

end PermuteRun

open PermuteRun

/-- C28. `permute` as it is in C28_permute_vectors returns exactly what the call comes to when its inner loop is run as often as there are
positions, and once more. -/
theorem C28_permute_run (v : FixVec T) (p : List Nat) : (v.permuteRun p (p.length + 1)).result = v.permute p := by
  unfold FixVec.permuteRun FixVec.permute
  by_cases h : v.len = p.length
  · rw [if_pos h, if_pos h, loop_result]
  · rw [if_neg h, if_neg h]; rfl

/-- C28. A list of positions (as many as there are vectors, every entry a position) that is no permutation makes the call run forever,
unless it names a position that stays where it is from another one: however often the inner loop was run, the call neither returned nor
panicked. -/
theorem C28_permute_runs_forever (v : FixVec T) (dim : Nat) (rows : List (List T)) (h : ShowsVectors v dim rows) (hd : 0 < dim)
    (p : List Nat) (hl : p.length = rows.length) (hin : ∀ m ∈ p, m < rows.length) (hp : ¬ p.Perm (List.range rows.length))
    (hne : ∀ j k : Nat, p[j]? = some k → p[k]? = some k → k = j) (n : Nat) : v.permuteRun p n = .running := by
  obtain ⟨i0, h1, h2⟩ : ∃ i0 < rows.length, i0 ∉ p := by
    by_contra hc
    push Not at hc
    refine hp (List.Perm.symm ?_)
    exact (List.subperm_of_subset List.nodup_range fun i hi => hc i (List.mem_range.1 hi)).perm_of_length_le (by simp [hl])
  have a1 : ∀ a, v.permuteRun p n ≠ .returned a := by
    intro a
    unfold FixVec.permuteRun
    rw [h.len, if_pos hl.symm]
    exact loop_never p h2 n _ _ _ a (List.mem_range.2 (by omega)) (by rw [List.getElem?_replicate, if_pos h1])
  have a2 : v.permuteRun p n ≠ .panicked := by
    unfold FixVec.permuteRun
    rw [h.len, if_pos hl.symm]
    exact loop_no_panic p rows.length dim n hl hin hne _ v _ rows (h.repr hd) rfl (by simp) (fun i hi => by have := List.mem_range.1 hi; omega)
  cases hr : v.permuteRun p n with
  | returned a => exact absurd hr (a1 a)
  | panicked => exact absurd hr a2
  | running => rfl

/-- C28. A list of positions that names, wherever it does not leave a vector in place, a position left in place makes the call panic (if
it moves anything at all). -/
theorem C28_permute_panics (v : FixVec T) (dim : Nat) (rows : List (List T)) (h : ShowsVectors v dim rows) (hd : 0 < dim)
    (p : List Nat) (hl : p.length = rows.length) (hin : ∀ m ∈ p, m < rows.length)
    (hidem : ∀ j k : Nat, p[j]? = some k → p[k]? = some k) (hmove : ∃ j k : Nat, p[j]? = some k ∧ k ≠ j) (n : Nat) (hn : 2 ≤ n) :
    v.permuteRun p n = .panicked := by
  obtain ⟨j0, k0, hj0, hk0⟩ := hmove
  obtain ⟨m, rfl⟩ : ∃ m, n = m + 2 := ⟨n - 2, by omega⟩
  have hj0n : j0 < rows.length := by rw [← hl]; exact (List.getElem?_eq_some_iff.1 hj0).1
  have key : ∀ (is : List Nat) (v : FixVec T) (vis : List Bool) (rows' : List (List T)), FixRepr v dim rows' → rows'.length = rows.length →
      vis.length = rows.length → (∀ i ∈ is, i < rows.length) → j0 ∈ is → vis[j0]? = some false →
      FixVec.permuteLoopRun p (m + 2) is v vis = .panicked := by
    intro is
    induction is with
    | nil => intro _ _ _ _ _ _ _ hm; cases hm
    | cons i is ih =>
      intro v vis rows' hr hrn hvn his hmem hv0
      have hi : i < rows.length := his i (by simp)
      have his' : ∀ k ∈ is, k < rows.length := fun k hk => his k (by simp [hk])
      unfold FixVec.permuteLoopRun
      have hv : vis[i]? = some (vis[i]'(by omega)) := List.getElem?_eq_getElem (by omega)
      generalize vis[i]'(by omega) = b at hv
      cases b with
      | true =>
        simp only [hv]
        refine ih v vis rows' hr hrn hvn his' ((List.mem_cons.1 hmem).resolve_left ?_) hv0
        rintro rfl
        rw [hv0] at hv; cases hv
      | false =>
        have hg : v.get i = some (rows'[i]'(by omega)) := by rw [hr.get_eq, List.getElem?_eq_getElem (by omega)]
        have hlen : (rows'[i]'(by omega)).length = dim := hr.len _ (List.getElem_mem _)
        simp only [hv, hg]
        generalize rows'[i]'(by omega) = start at hlen
        have hp : p[i]? = some (p[i]'(by omega)) := List.getElem?_eq_getElem (by omega)
        generalize p[i]'(by omega) = pi at hp
        have hpi : pi < rows.length := hin pi (List.mem_of_getElem? hp)
        by_cases he : pi = i
        · subst he
          obtain ⟨v', e, hr'⟩ := hr.setRow (i := pi) (row := start) (by omega) hlen
          have hc : FixVec.permuteCycleRun p pi start (m + 2) pi v vis = .returned (v', vis.set pi true) := by
            rw [FixVec.permuteCycleRun]
            simp only [hp, e, ne_eq, not_true_eq_false, if_false, if_pos (show pi < vis.length by omega)]
          simp only [hc]
          have hne : pi ≠ j0 := by
            rintro rfl
            rw [hp] at hj0
            exact hk0 (Option.some.inj hj0).symm
          refine ih v' _ _ hr' (by simp [hrn]) (by simp [hvn]) his' ((List.mem_cons.1 hmem).resolve_left fun e => hne e.symm) ?_
          rw [List.getElem?_set_ne hne]
          exact hv0
        · have hpp := hidem i pi hp
          obtain ⟨v', e, hr'⟩ := hr.copyRow (dst := i) (src := pi) (by omega) (by omega) (fun hc => he hc.symm)
          have hc : FixVec.permuteCycleRun p i start (m + 2) i v vis = .panicked := by
            rw [FixVec.permuteCycleRun]
            simp only [hp, e, ne_eq, he, not_false_eq_true, if_true, if_pos (show i < vis.length by omega)]
            rw [FixVec.permuteCycleRun]
            simp only [hpp, ne_eq, he, not_false_eq_true, if_true]
            have : v'.copyRow pi pi = none := by rw [FixVec.copyRow, if_pos rfl]
            rw [this]
          simp only [hc]
  unfold FixVec.permuteRun
  rw [h.len, if_pos hl.symm]
  exact key _ v _ rows (h.repr hd) rfl (by simp) (fun i hi => by have := List.mem_range.1 hi; omega) (List.mem_range.2 (by omega))
    (by rw [List.getElem?_replicate, if_pos hj0n])

/-- Three vectors: the list 1, 2, 1 makes the call run forever, the list 1, 1, 2 makes it panic. -/
example : (⟨[10, 20, 30], 1⟩ : FixVec Nat).permuteRun [1, 2, 1] 1000 = .running ∧
    (⟨[10, 20, 30], 1⟩ : FixVec Nat).permuteRun [1, 1, 2] 1000 = .panicked := by
  have hs : ShowsVectors (⟨[10, 20, 30], 1⟩ : FixVec Nat) 1 [[10], [20], [30]] :=
    FixRepr.shows ⟨by decide, rfl, rfl, by decide⟩
  refine ⟨C28_permute_runs_forever _ 1 _ hs (by decide) [1, 2, 1] rfl (by decide) (by decide +kernel) ?_ 1000,
    C28_permute_panics _ 1 _ hs (by decide) [1, 1, 2] rfl (by decide) ?_ ⟨0, 1, rfl, by decide⟩ 1000 (by decide)⟩
  · intro j k h1 h2
    match j, k with
    | 0, 0 => rfl
    | 0, 1 => simp at h2
    | 1, 2 => simp at h2
    | 2, 1 => simp at h2
    | 0, k + 2 => simp at h1
    | 1, 0 => simp at h1
    | 1, 1 => rfl
    | 1, k + 3 => simp at h1
    | 2, 0 => simp at h1
    | 2, k + 2 => simp at h1
    | j + 3, k => simp at h1
  · intro j k h1
    match j with
    | 0 => simp at h1; subst h1; rfl
    | 1 => simp at h1; subst h1; rfl
    | 2 => simp at h1; subst h1; rfl
    | j + 3 => simp at h1

end Granne
