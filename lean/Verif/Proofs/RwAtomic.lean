import Verif.Proofs.RwTrace

/-! A save contains all elements of a batch or none. -/
namespace Granne
open List Spec

variable {E D : Type} [LinearOrder D] {srt : List (Nat × D) → List (Nat × D)}

/-- The elements written so far by a save. -/
def RwThread.saves : RwThread E D → Option (List E)
  | wrRows els _ | wrDropL els _ | wrDropE els _ | wrDropW els _ | wrote els _ => some els
  | _ => none

/-- An insert that does not hold the write lock has not inserted anything yet or has inserted everything. -/
def InsFresh : RwThread E D → Prop
  | .insCheck f | .insWantW f => f.outer = 0 → f.got = []
  | .insWantE f _ | .insWantL f _ | .insCrit f | .insIndex f _ | .insHoldL f => 0 < f.outer
  | _ => True

/-- What a save and another call have to do with each other. -/
structure PairOk (n : Nat) (a b : RwThread E D) (els : List E) : Prop where
  now : a.wExcl → els.length = n
  later : ¬ a.wExcl → b.wShared → ∀ i ∈ b.got, els.length ≤ i
  whole : (∀ i ∈ b.got, i < els.length) ∨ (∀ i ∈ b.got, els.length ≤ i)

/-- The invariant. -/
structure Atomic (s : Rw E D) : Prop where
  fresh : ∀ th ∈ s.threads, InsFresh th
  pair : ∀ (t u : Nat) (a b : RwThread E D) (els : List E), t ≠ u → s.threads[t]? = some a → s.threads[u]? = some b →
    a.saves = some els → PairOk s.data.len a b els

theorem ThreadInv.got_lt {n₀ : Nat} {d : RwData E D} {th : RwThread E D} (h : ThreadInv n₀ d th) :
    ∀ i ∈ th.got, i < d.len := by
  have key : ∀ f : Ins E, FrameOk n₀ d f → ∀ i ∈ f.got, i < d.len := by
    intro f hf i hi
    obtain ⟨k, hk⟩ := List.getElem?_of_mem hi
    exact (hf.own k i hk).2.1
  cases th <;> simp only [RwThread.got, List.not_mem_nil, false_implies, implies_true] <;>
    first | exact key _ h | exact key _ h.1

theorem ThreadInv.saves_le {n₀ : Nat} {d : RwData E D} {th : RwThread E D} (h : ThreadInv n₀ d th) {els : List E}
    (hs : th.saves = some els) : els.length ≤ d.len := by
  have key : ∀ {layers : List Rows}, SnapOk d els layers → els.length ≤ d.len := by
    intro layers hsn
    obtain ⟨more, he⟩ := hsn.prefixed
    rw [RwData.len, he]; simp
  cases th <;> simp only [RwThread.saves, Option.some.injEq, reduceCtorEq] at hs <;> subst hs
  · rw [h.1]
  · exact key h
  · exact key h
  · exact key h
  · exact key h

theorem Rw.Local.len {s : Rw E D} {t : Nat} {th th' : RwThread E D} {d' : RwData E D}
    (h : Rw.Local srt s t th d' th') : d'.len = s.data.len ∨ th.wShared := by
  cases h <;> first | exact Or.inl rfl | exact Or.inr trivial

theorem Rw.Local.saves {s : Rw E D} {t : Nat} {th th' : RwThread E D} {d' : RwData E D}
    (h : Rw.Local srt s t th d' th') {els : List E} (hs : th'.saves = some els) :
    d' = s.data ∧ th.wExcl ∧ (th.saves = some els ∨ els = s.data.elements.data ∧ th'.wExcl) := by
  cases h <;> simp_all [RwThread.saves, RwThread.wExcl]

omit [LinearOrder D] in
theorem Atomic.start {d : RwData E D} (calls : List (RwCall E)) : Atomic (Rw.start d calls) := by
  constructor
  · intro th hth
    obtain ⟨c, _, rfl⟩ := List.mem_map.1 hth
    cases c <;> simp [RwCall.start, InsFresh]
  · intro t u a b els _ ht _ hs
    obtain ⟨c, _, rfl⟩ := List.mem_map.1 (List.mem_of_getElem? ht)
    cases c <;> simp [RwCall.start, RwThread.saves] at hs

theorem Atomic.step (hsrt : IsSortByDist srt) {n₀ : Nat} {s s' : Rw E D} (hsys : RwSys n₀ s) (h : Atomic s)
    (hs : Rw.Step srt s s') : Atomic s' := by
  cases hs with
  | mk v th th' d' hv hl =>
  have hok := hl.ok hsrt hsys hv
  have hlen := hok.ext.len_le
  constructor
  · intro x hx
    rcases List.mem_or_eq_of_mem_set hx with h1 | h1
    · exact h.fresh x h1
    · subst h1
      have hf := h.fresh th (List.mem_of_getElem? hv)
      cases hl <;> (simp_all [InsFresh]; try omega)
  · intro t u a b els hne ht hu hsv
    simp only [] at ht hu
    by_cases htv : t = v
    · subst htv
      have hlt := (List.getElem?_eq_some_iff.1 hv).1
      rw [List.getElem?_set_self hlt] at ht
      rw [List.getElem?_set_ne hne] at hu
      cases ht
      obtain ⟨rfl, hw, hcase⟩ := hl.saves hsv
      have hx := hsys.excl t u th b hne hv hu
      rcases hcase with h1 | ⟨rfl, h1⟩
      · have hp := h.pair t u th b els hne hv hu h1
        exact ⟨fun _ => hp.now hw, fun _ hb => absurd hb (hx.w hw).2, hp.whole⟩
      · refine ⟨fun _ => rfl, fun h2 => absurd h1 h2, Or.inl (hsys.thr u b hu).got_lt⟩
    · rw [List.getElem?_set_ne (Ne.symm htv)] at ht
      by_cases huv : u = v
      · subst huv
        have hlt := (List.getElem?_eq_some_iff.1 hv).1
        rw [List.getElem?_set_self hlt] at hu
        obtain rfl : th' = b := Option.some.inj hu
        have hp := h.pair t u a th els hne ht hv hsv
        have hx := hsys.excl t u a th hne ht hv
        have hle := (hsys.thr t a ht).saves_le hsv
        have hgot := hok.got
        by_cases hd : d'.len = s.data.len
        · rw [hd, Nat.sub_self] at hgot
          simp only [List.range_zero, List.map_nil, List.append_nil] at hgot
          refine ⟨fun hw => (hp.now hw).trans hd.symm, fun hw hb => ?_, by rw [hgot]; exact hp.whole⟩
          rw [hgot]
          by_cases hth : th.wShared
          · exact hp.later hw hth
          · have hf := h.fresh th (List.mem_of_getElem? hv)
            have : th.got = [] := by
              cases hl <;> simp_all [RwThread.wShared, RwThread.got, InsFresh]
            rw [this]; simp
        · have hw : th.wShared := hl.len.resolve_left hd
          have hna : ¬ a.wExcl := fun hw' => (hx.w hw').2 hw
          have hall : ∀ i ∈ th'.got, els.length ≤ i := by
            intro i hi
            rw [hgot] at hi
            rcases List.mem_append.1 hi with h1 | h1
            · exact hp.later hna hw i h1
            · obtain ⟨k, _, rfl⟩ := List.mem_map.1 h1
              omega
          exact ⟨fun hw' => absurd hw' hna, fun _ _ => hall, Or.inr hall⟩
      · rw [List.getElem?_set_ne (Ne.symm huv)] at hu
        have hp := h.pair t u a b els hne ht hu hsv
        refine ⟨fun hw => ?_, hp.later, hp.whole⟩
        rcases hl.len with h1 | h1
        · exact (hp.now hw).trans h1.symm
        · exact absurd h1 ((hsys.excl t v a th htv ht hv).w hw).2

theorem Atomic.steps (hsrt : IsSortByDist srt) {n₀ : Nat} {s s' : Rw E D} (hsys : RwSys n₀ s) (h : Atomic s)
    (hs : Rw.Steps srt s s') : Atomic s' := by
  induction hs with
  | refl => exact h
  | tail h1 h2 ih => exact ih.step hsrt (hsys.steps hsrt h1).1 h2

end Granne
