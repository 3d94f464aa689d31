import Verif.Proofs.FixedWidth
import Mathlib.Data.List.Nodup
import Mathlib.Data.List.Perm.Basic

namespace Granne
variable {T : Type}

/-- Bookkeeping of the in-place permutation: visited rows have their final content, the others their old one. -/
structure PermInv (R : List (List T)) (perm : List Nat) (cur : List (List T)) (vis : List Bool) : Prop where
  clen : cur.length = R.length
  vlen : vis.length = R.length
  done : ∀ k m : Nat, vis[k]? = some true → perm[k]? = some m → cur[k]? = R[m]?
  todo : ∀ k : Nat, vis[k]? = some false → cur[k]? = R[k]?

/-- Inside the cycle of `i`, at `j`. -/
structure CycInv (perm : List Nat) (i j : Nat) (vis : List Bool) : Prop where
  jfresh : vis[j]? = some false
  closed : ∀ k m : Nat, perm[k]? = some m → vis[m]? = some true → vis[k]? = some true ∨ m = i
  link : j = i ∨ (vis[i]? = some true ∧ ∃ k : Nat, vis[k]? = some true ∧ perm[k]? = some j)

theorem perm_inj {perm : List Nat} (h : perm.Nodup) {k k' m : Nat} (h1 : perm[k]? = some m) (h2 : perm[k']? = some m) :
    k = k' := by
  obtain ⟨a, ha⟩ := List.getElem?_eq_some_iff.1 h1
  obtain ⟨b, hb⟩ := List.getElem?_eq_some_iff.1 h2
  exact (List.Nodup.getElem_inj_iff h).1 (ha.trans hb.symm)

theorem set_true_get {vis : List Bool} {j k : Nat} (hj : j < vis.length) :
    (vis.set j true)[k]? = if k = j then some true else vis[k]? := by
  rw [List.getElem?_set]
  by_cases h : k = j
  · subst h; simp [hj]
  · rw [if_neg (fun hc => h hc.symm), if_neg h]

theorem set_row_get {cur : List (List T)} {j k : Nat} {r : List T} (hj : j < cur.length) :
    (cur.set j r)[k]? = if k = j then some r else cur[k]? := by
  rw [List.getElem?_set]
  by_cases h : k = j
  · subst h; simp [hj]
  · rw [if_neg (fun hc => h hc.symm), if_neg h]

theorem PermInv.step {R : List (List T)} {perm : List Nat} {cur : List (List T)} {vis : List Bool}
    (h : PermInv R perm cur vis) {j m : Nat} {r : List T} (hj : j < R.length) (hm : perm[j]? = some m)
    (hr : R[m]? = some r) : PermInv R perm (cur.set j r) (vis.set j true) := by
  have hjc : j < cur.length := by rw [h.clen]; exact hj
  have hjv : j < vis.length := by rw [h.vlen]; exact hj
  refine ⟨by rw [List.length_set, h.clen], by rw [List.length_set, h.vlen], ?_, ?_⟩
  · intro k m' hk hm'
    rw [set_true_get hjv] at hk
    rw [set_row_get hjc]
    by_cases e : k = j
    · subst e
      rw [hm] at hm'
      obtain rfl := Option.some.inj hm'
      rw [if_pos rfl, hr]
    · rw [if_neg e] at hk ⊢
      exact h.done k m' hk hm'
  · intro k hk
    rw [set_true_get hjv] at hk
    rw [set_row_get hjc]
    by_cases e : k = j
    · rw [if_pos e] at hk; simp at hk
    · rw [if_neg e] at hk ⊢
      exact h.todo k hk

theorem count_false_set {vis : List Bool} {j : Nat} (h : vis[j]? = some false) :
    (vis.set j true).count false + 1 = vis.count false := by
  obtain ⟨hj, he⟩ := List.getElem?_eq_some_iff.1 h
  have hpos : 0 < vis.count false := List.count_pos_iff.2 (he ▸ List.getElem_mem hj)
  rw [List.count_set hj, he]
  simp
  omega

theorem permuteCycle_ok {R : List (List T)} {d : Nat} {perm : List Nat} (hnd : perm.Nodup)
    (hb : ∀ m ∈ perm, m < R.length) (hplen : perm.length = R.length) {i : Nat} {start : List T}
    (hstart : R[i]? = some start) (hstl : start.length = d) (fuel : Nat) :
    ∀ (j : Nat) (v : FixVec T) (cur : List (List T)) (vis : List Bool),
    FixRepr v d cur → PermInv R perm cur vis → CycInv perm i j vis → vis.count false ≤ fuel →
    ∃ v' cur' vis', FixVec.permuteCycle perm i start fuel j v vis = some (v', vis') ∧ FixRepr v' d cur' ∧
      PermInv R perm cur' vis' ∧ (∀ k m : Nat, perm[k]? = some m → vis'[m]? = some true → vis'[k]? = some true) ∧
      vis'[i]? = some true ∧ ∀ k : Nat, vis[k]? = some true → vis'[k]? = some true := by
  induction fuel with
  | zero =>
    intro j v cur vis _ _ hc hf
    have := count_false_set hc.jfresh
    omega
  | succ fuel ih =>
    intro j v cur vis hv hp hc hf
    have hcount := count_false_set hc.jfresh
    obtain ⟨hjv, hje⟩ := List.getElem?_eq_some_iff.1 hc.jfresh
    have hjR : j < R.length := by rw [← hp.vlen]; exact hjv
    have hjp : j < perm.length := by rw [hplen]; exact hjR
    have hjc : j < cur.length := by rw [hp.clen]; exact hjR
    obtain ⟨m, hm⟩ : ∃ m, perm[j]? = some m := ⟨_, List.getElem?_eq_getElem hjp⟩
    have hmR : m < R.length := hb m (List.mem_of_getElem? hm)
    have hmono : ∀ k : Nat, vis[k]? = some true → (vis.set j true)[k]? = some true := by
      intro k hk
      rw [set_true_get hjv]
      split
      · rfl
      · exact hk
    by_cases hmi : m = i
    · -- the cycle ends
      subst hmi
      obtain ⟨v', e, hv'⟩ := hv.setRow hjc hstl
      refine ⟨v', cur.set j start, vis.set j true, ?_, hv', hp.step hjR hm hstart, ?_, ?_, hmono⟩
      · simp only [FixVec.permuteCycle, hm, Option.bind_eq_bind, Option.bind_some, ne_eq, not_true_eq_false, if_false, e, hjv,
          if_true]
      · intro k n hk hn
        rw [set_true_get hjv]
        by_cases hkj : k = j
        · rw [if_pos hkj]
        · rw [if_neg hkj]
          have hnm : n ≠ m := fun hnm => hkj (perm_inj hnd hk (hnm ▸ hm))
          rw [set_true_get hjv] at hn
          by_cases hnj : n = j
          · rcases hc.link with h1 | ⟨_, k', hk', hk2⟩
            · exact absurd (hnj.trans h1) hnm
            · rw [perm_inj hnd hk (hnj ▸ hk2)]; exact hk'
          · rw [if_neg hnj] at hn
            rcases hc.closed k n hk hn with h1 | h1
            · exact h1
            · exact absurd h1 hnm
      · rw [set_true_get hjv]
        rcases hc.link with h1 | ⟨h1, _⟩
        · rw [if_pos h1.symm]
        · split
          · rfl
          · exact h1
    · have hmfresh : vis[m]? = some false := by
        have hmv : m < vis.length := by rw [hp.vlen]; exact hmR
        cases hb' : vis[m] with
        | false => rw [List.getElem?_eq_getElem hmv, hb']
        | true =>
          rcases hc.closed j m hm (by rw [List.getElem?_eq_getElem hmv, hb']) with h1 | h1
          · rw [hc.jfresh] at h1; simp at h1
          · exact absurd h1 hmi
      have hne : j ≠ m := by
        intro hjm
        subst hjm
        rcases hc.link with h1 | ⟨_, k, hk, hk2⟩
        · exact hmi h1
        · have := perm_inj hnd hk2 hm
          subst this
          rw [hc.jfresh] at hk; simp at hk
      have hmc : m < cur.length := by rw [hp.clen]; exact hmR
      obtain ⟨v', e, hv'⟩ := hv.copyRow hjc hmc hne
      have hcm : R[m]? = some cur[m] := by rw [← hp.todo m hmfresh, List.getElem?_eq_getElem hmc]
      have hp' := hp.step hjR hm hcm
      have hc' : CycInv perm i m (vis.set j true) := by
        refine ⟨?_, ?_, ?_⟩
        · rw [set_true_get hjv, if_neg (fun hc => hne hc.symm)]; exact hmfresh
        · intro k n hk hn
          rw [set_true_get hjv] at hn ⊢
          by_cases hnj : n = j
          · rcases hc.link with h1 | ⟨_, k', hk', hk2⟩
            · exact Or.inr (hnj.trans h1)
            · left
              rw [perm_inj hnd hk (hnj ▸ hk2)]
              split
              · rfl
              · exact hk'
          · rw [if_neg hnj] at hn
            rcases hc.closed k n hk hn with h1 | h1
            · left; split
              · rfl
              · exact h1
            · exact Or.inr h1
        · right
          refine ⟨?_, j, ?_, hm⟩
          · rw [set_true_get hjv]
            rcases hc.link with h1 | ⟨h1, _⟩
            · rw [if_pos h1.symm]
            · split
              · rfl
              · exact h1
          · rw [set_true_get hjv, if_pos rfl]
      obtain ⟨v'', cur'', vis'', e'', h1, h2, h3, h4, h5⟩ := ih m v' _ _ hv' hp' hc' (by omega)
      refine ⟨v'', cur'', vis'', ?_, h1, h2, h3, h4, fun k hk => h5 k (hmono k hk)⟩
      simp only [FixVec.permuteCycle, hm, Option.bind_eq_bind, Option.bind_some, ne_eq, hmi, not_false_eq_true, if_true, e, hjv]
      exact e''

theorem permuteLoop_ok {R : List (List T)} {d : Nat} {perm : List Nat} (hnd : perm.Nodup)
    (hb : ∀ m ∈ perm, m < R.length) (hplen : perm.length = R.length) (hR : ∀ r ∈ R, r.length = d) (is : List Nat) :
    ∀ (v : FixVec T) (cur : List (List T)) (vis : List Bool), (∀ i ∈ is, i < R.length) →
    FixRepr v d cur → PermInv R perm cur vis →
    (∀ k m : Nat, perm[k]? = some m → vis[m]? = some true → vis[k]? = some true) →
    ∃ v' cur' vis', FixVec.permuteLoop perm is v vis = some v' ∧ FixRepr v' d cur' ∧ PermInv R perm cur' vis' ∧
      (∀ k : Nat, vis[k]? = some true → vis'[k]? = some true) ∧ ∀ i ∈ is, vis'[i]? = some true := by
  induction is with
  | nil =>
    intro v cur vis _ hv hp _
    exact ⟨v, cur, vis, rfl, hv, hp, fun _ h => h, by simp⟩
  | cons i is ih =>
    intro v cur vis his hv hp hcl
    have hi : i < R.length := his i (by simp)
    have hiv : i < vis.length := by rw [hp.vlen]; exact hi
    have his' : ∀ i ∈ is, i < R.length := fun k hk => his k (by simp [hk])
    cases hvi : vis[i] with
    | true =>
      have hvi' : vis[i]? = some true := by rw [List.getElem?_eq_getElem hiv, hvi]
      obtain ⟨v', cur', vis', e, h1, h2, h3, h4⟩ := ih v cur vis his' hv hp hcl
      refine ⟨v', cur', vis', ?_, h1, h2, h3, ?_⟩
      · simp only [FixVec.permuteLoop, hvi', Option.bind_eq_bind, Option.bind_some, if_true]
        exact e
      · intro k hk
        rcases List.mem_cons.1 hk with rfl | hk
        · exact h3 _ hvi'
        · exact h4 k hk
    | false =>
      have hvi' : vis[i]? = some false := by rw [List.getElem?_eq_getElem hiv, hvi]
      have hst : R[i]? = some R[i] := List.getElem?_eq_getElem hi
      have hget : v.get i = some R[i] := by rw [hv.get_eq, hp.todo i hvi', hst]
      obtain ⟨v1, cur1, vis1, e1, a1, a2, a3, a4, a5⟩ :=
        permuteCycle_ok hnd hb hplen hst (hR _ (List.getElem_mem hi)) (perm.length + 1) i v cur vis hv hp
          ⟨hvi', fun k m hk hm => Or.inl (hcl k m hk hm), Or.inl rfl⟩
          (by have := List.count_le_length (a := false) (l := vis); rw [hp.vlen] at this; omega)
      obtain ⟨v', cur', vis', e, h1, h2, h3, h4⟩ := ih v1 cur1 vis1 his' a1 a2 a3
      refine ⟨v', cur', vis', ?_, h1, h2, fun k hk => h3 k (a5 k hk), ?_⟩
      · simp only [FixVec.permuteLoop, hvi', Option.bind_eq_bind, Option.bind_some, hget, e1]
        exact e
      · intro k hk
        rcases List.mem_cons.1 hk with rfl | hk
        · exact h3 _ a4
        · exact h4 k hk

/-- The rows after `permute`: row `i` is the old row `perm[i]`. -/
theorem FixRepr.permute {v : FixVec T} {d : Nat} {rows : List (List T)} (h : FixRepr v d rows) {perm : List Nat}
    (hp : perm.Perm (List.range rows.length)) :
    ∃ v' rows', v.permute perm = some v' ∧ FixRepr v' d rows' ∧ rows'.length = rows.length ∧
      ∀ i m : Nat, perm[i]? = some m → rows'[i]? = rows[m]? := by
  have hplen : perm.length = rows.length := by simpa using hp.length_eq
  have hnd : perm.Nodup := hp.nodup_iff.2 List.nodup_range
  have hb : ∀ m ∈ perm, m < rows.length := fun m hm => by simpa using hp.mem_iff.1 hm
  have hinit : PermInv rows perm rows (List.replicate rows.length false) :=
    ⟨rfl, by simp, by intro k m hk; simp [List.getElem?_replicate] at hk, fun _ _ => rfl⟩
  obtain ⟨v', cur', vis', e, h1, h2, _, h4⟩ := permuteLoop_ok hnd hb hplen h.len (List.range perm.length) v rows
    (List.replicate rows.length false) (by intro i hi; rw [hplen] at hi; simpa using hi) h hinit
    (by intro k m _ hk; simp [List.getElem?_replicate] at hk)
  refine ⟨v', cur', ?_, h1, h2.clen, ?_⟩
  · rw [FixVec.permute, h.len_eq, if_pos hplen.symm]; exact e
  · intro i m hm
    have hi : i < perm.length := (List.getElem?_eq_some_iff.1 hm).1
    exact h2.done i m (h4 i (by simpa using hi)) hm

theorem FixRepr.permute_map {v : FixVec T} {d : Nat} {rows : List (List T)} (h : FixRepr v d rows) {perm : List Nat}
    (hp : perm.Perm (List.range rows.length)) :
    ∃ v', v.permute perm = some v' ∧ FixRepr v' d (perm.map fun m => rows.getD m []) := by
  obtain ⟨v', rows', e, h1, h2, h3⟩ := h.permute hp
  refine ⟨v', e, ?_⟩
  have hplen : perm.length = rows.length := by simpa using hp.length_eq
  have : rows' = perm.map fun m => rows.getD m [] := by
    apply List.ext_getElem?
    intro i
    rcases Option.eq_none_or_eq_some (perm[i]?) with hn | ⟨m, hm⟩
    · rw [List.getElem?_map, hn]
      have := List.getElem?_eq_none_iff.1 hn
      simp; omega
    · have hmb : m < rows.length := by simpa using hp.mem_iff.1 (List.mem_of_getElem? hm)
      rw [List.getElem?_map, hm, h3 i m hm]
      simp [hmb]
  rw [← this]; exact h1

theorem FixVec.permute_len_ne {v : FixVec T} {perm : List Nat} (h : v.len ≠ perm.length) : v.permute perm = none := by
  rw [FixVec.permute, if_neg h]

end Granne
