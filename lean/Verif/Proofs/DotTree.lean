import Verif.Proofs.Math
import Verif.Spec.Math

/-! The shape of the accumulation of a dot product, for every arithmetic. -/
namespace Granne
open Spec MulAddOps

/-- `v` is computed from the products of the pairs `l` with `mul_add` and `add`, every product going through at most
`k` operations. -/
inductive Acc {F : Type} [MulAddOps F] : List (F × F) → Nat → F → Prop
  | zero : Acc [] 0 zero
  | mulAdd {l : List (F × F)} {k : Nat} {c : F} (a b : F) : Acc l k c → Acc ((a, b) :: l) (k + 1) (mulAdd a b c)
  | add {l l' : List (F × F)} {k : Nat} {v w : F} : Acc l k v → Acc l' k w → Acc (l ++ l') (k + 1) (add v w)
  | mono {l : List (F × F)} {k k' : Nat} {v : F} : Acc l k v → k ≤ k' → Acc l k' v
  | perm {l l' : List (F × F)} {k : Nat} {v : F} : Acc l k v → l.Perm l' → Acc l' k v

variable {F : Type} [MulAddOps F]

theorem acc_step {k : Nat} : ∀ {c : List F} {ls : List (List (F × F))} {a b : List F},
    List.Forall₂ (fun c l => Acc l k c) c ls → c.length = a.length → a.length = b.length →
    ∃ ls', List.Forall₂ (fun c l => Acc l (k + 1) c) (laneStep c (a, b)) ls' ∧
      ls'.flatten.Perm (a.zip b ++ ls.flatten)
  | [], [], [], [], _, _, _ => ⟨[], List.Forall₂.nil, by simp⟩
  | c :: cs, l :: ls, a :: as, b :: bs, h, h1, h2 => by
    obtain ⟨hc, ht⟩ := List.forall₂_cons.1 h
    obtain ⟨ls', h3, h4⟩ := acc_step ht (show cs.length = as.length by simpa using h1)
      (show as.length = bs.length by simpa using h2)
    refine ⟨((a, b) :: l) :: ls', List.Forall₂.cons (hc.mulAdd a b) h3, ?_⟩
    rw [List.flatten_cons, List.zip_cons_cons, List.cons_append, List.cons_append, List.flatten_cons]
    refine List.Perm.cons _ ?_
    refine (List.Perm.append_left l h4).trans ?_
    rw [← List.append_assoc, ← List.append_assoc]
    exact List.Perm.append_right _ List.perm_append_comm
  | [], _ :: _, _, _, h, _, _ => by cases h
  | _ :: _, [], _, _, h, _, _ => by cases h
  | [], [], _ :: _, _, _, h, _ => by simp at h
  | [], [], [], _ :: _, _, _, h => by simp at h
  | _ :: _, _ :: _, [], _, _, h, _ => by simp at h
  | _ :: _, _ :: _, _ :: _, [], _, _, h => by simp at h

theorem acc_lanes : ∀ (ps : List (List F × List F)) (k : Nat) (c : List F) (ls : List (List (F × F))),
    List.Forall₂ (fun c l => Acc l k c) c ls → c.length = 32 → (∀ p ∈ ps, p.1.length = 32 ∧ p.2.length = 32) →
    ∃ ls', List.Forall₂ (fun c l => Acc l (k + ps.length) c) (ps.foldl laneStep c) ls' ∧
      ls'.flatten.Perm ((ps.flatMap fun p => p.1.zip p.2) ++ ls.flatten) ∧ (ps.foldl laneStep c).length = 32
  | [], k, c, ls, h, hc, _ => ⟨ls, by simpa using h, by simp, hc⟩
  | (a, b) :: ps, k, c, ls, h, hc, hp => by
    have hab := hp (a, b) (by simp)
    obtain ⟨l1, h1, h2⟩ := acc_step h (hc.trans hab.1.symm) (hab.1.trans hab.2.symm)
    obtain ⟨l2, h3, h4, h5⟩ := acc_lanes ps (k + 1) _ l1 h1
      (laneStep_length hc hab.1 hab.2) (fun p h => hp p (by simp [h]))
    refine ⟨l2, ?_, ?_, h5⟩
    · rw [List.length_cons, show k + (ps.length + 1) = k + 1 + ps.length by omega]
      exact h3
    · rw [List.flatMap_cons]
      refine h4.trans ((List.Perm.append_left _ h2).trans ?_)
      rw [← List.append_assoc]
      exact List.Perm.append_right _ List.perm_append_comm

theorem acc_sum {k : Nat} : ∀ (c : List F) (ls : List (List (F × F))) (j : Nat) (r : F) (l : List (F × F)),
    List.Forall₂ (fun c l => Acc l k c) c ls → Acc l (k + j) r →
    Acc (l ++ ls.flatten) (k + j + c.length) (c.foldl add r)
  | [], [], j, r, l, _, hr => by simpa using hr
  | c :: cs, l' :: ls, j, r, l, h, hr => by
    obtain ⟨hc, ht⟩ := List.forall₂_cons.1 h
    have h1 := hr.add (hc.mono (show k ≤ k + j by omega))
    have := acc_sum cs ls (j + 1) _ _ ht (show Acc _ (k + (j + 1)) _ from h1)
    rw [List.foldl_cons, List.length_cons, show k + j + (cs.length + 1) = k + (j + 1) + cs.length by omega,
      List.flatten_cons, ← List.append_assoc]
    exact this
  | [], _ :: _, _, _, _, h, _ => by cases h
  | _ :: _, [], _, _, _, h, _ => by cases h

theorem acc_rem : ∀ (ps : List (F × F)) (k : Nat) (r : F) (l : List (F × F)), Acc l k r →
    Acc (ps ++ l) (k + ps.length) (ps.foldl (fun r p => mulAdd p.1 p.2 r) r)
  | [], k, r, l, h => by simpa using h
  | p :: ps, k, r, l, h => by
    have := acc_rem ps (k + 1) _ _ (h.mulAdd p.1 p.2)
    rw [List.foldl_cons, List.length_cons, show k + (ps.length + 1) = k + 1 + ps.length by omega]
    exact this.perm List.perm_middle

theorem zip_flatten {α : Type} : ∀ (xs ys : List (List α)), (∀ c ∈ xs, c.length = 32) → (∀ c ∈ ys, c.length = 32) →
    xs.length = ys.length → xs.flatten.zip ys.flatten = (xs.zip ys).flatMap fun p => p.1.zip p.2
  | [], [], _, _, _ => by simp
  | [], _ :: _, _, _, h => by simp at h
  | _ :: _, [], _, _, h => by simp at h
  | a :: xs, b :: ys, hx, hy, h => by
    rw [List.flatten_cons, List.flatten_cons, List.zip_append ((hx a (by simp)).trans (hy b (by simp)).symm),
      zip_flatten xs ys (fun c hc => hx c (by simp [hc])) (fun c hc => hy c (by simp [hc])) (by simpa using h)]
    simp

/-- A dot product accumulates exactly the products of corresponding components. -/
theorem dotProduct_acc (x y : List F) (h : x.length = y.length) :
    Acc (x.zip y) (roundings x.length) (dotProduct x y) := by
  have h0 : List.Forall₂ (fun (c : F) l => Acc l 0 c) (List.replicate 32 zero) (List.replicate 32 []) := by
    refine List.forall₂_iff_get.2 ⟨by simp, ?_⟩
    intro i h1 h2
    simp only [List.get_eq_getElem, List.getElem_replicate]
    exact .zero
  have hlen : ((chunksExact 32 x).zip (chunksExact 32 y)).length = x.length / 32 := by
    rw [List.length_zip, chunksExact_length, chunksExact_length, h, Nat.min_self]
  obtain ⟨ls, h1, h2, h3⟩ := acc_lanes ((chunksExact 32 x).zip (chunksExact 32 y)) 0 _ _ h0 (by simp)
    (fun p hp => zip_chunks_mem hp)
  have h4 := acc_sum _ ls 0 zero [] h1 (Acc.zero.mono (Nat.zero_le _))
  have h5 := acc_rem ((chunksRemainder 32 x).zip (chunksRemainder 32 y)) _ _ _ h4
  have hrl : ((chunksRemainder 32 x).zip (chunksRemainder 32 y)).length = x.length % 32 := by
    rw [List.length_zip, chunksRemainder_length, chunksRemainder_length, h, Nat.min_self]
  rw [h3, hlen, hrl] at h5
  have hk : 0 + x.length / 32 + 0 + 32 + x.length % 32 = roundings x.length := by rw [roundings]; omega
  rw [hk] at h5
  refine Acc.perm (show Acc _ _ (dotProduct x y) from h5) ?_
  have hx := congrArg List.length (chunksExact_flatten 32 x)
  have hy := congrArg List.length (chunksExact_flatten 32 y)
  rw [List.length_append, chunksRemainder_length] at hx hy
  rw [h] at hx
  have hfl : (chunksExact 32 x).flatten.length = (chunksExact 32 y).flatten.length := by omega
  have hcl : (chunksExact 32 x).length = (chunksExact 32 y).length := by
    rw [chunksExact_length, chunksExact_length, h]
  have e : x.zip y = (chunksExact 32 x).flatten.zip (chunksExact 32 y).flatten ++
      (chunksRemainder 32 x).zip (chunksRemainder 32 y) := by
    rw [← List.zip_append hfl, chunksExact_flatten, chunksExact_flatten]
  rw [e, zip_flatten _ _ (fun c => chunksExact_mem) (fun c => chunksExact_mem) hcl]
  refine List.perm_append_comm.trans (List.Perm.append_right _ ?_)
  simpa using h2

/-- The same, if adding to 0 is exact: one operation less. -/
theorem dotProduct_acc31 (hz : ∀ (l : List (F × F)) (k : Nat) (c : F), Acc l k c → add zero c = c) (x y : List F)
    (h : x.length = y.length) : Acc (x.zip y) (x.length / 32 + 31 + x.length % 32) (dotProduct x y) := by
  have h0 : List.Forall₂ (fun (c : F) l => Acc l 0 c) (List.replicate 32 zero) (List.replicate 32 []) := by
    refine List.forall₂_iff_get.2 ⟨by simp, ?_⟩
    intro i h1 h2
    simp only [List.get_eq_getElem, List.getElem_replicate]
    exact .zero
  have hlen : ((chunksExact 32 x).zip (chunksExact 32 y)).length = x.length / 32 := by
    rw [List.length_zip, chunksExact_length, chunksExact_length, h, Nat.min_self]
  obtain ⟨ls, h1, h2, h3⟩ := acc_lanes ((chunksExact 32 x).zip (chunksExact 32 y)) 0 _ _ h0 (by simp)
    (fun p hp => zip_chunks_mem hp)
  have h4 : Acc ls.flatten (0 + ((chunksExact 32 x).zip (chunksExact 32 y)).length + 0 + 31)
      ((((chunksExact 32 x).zip (chunksExact 32 y)).foldl laneStep (List.replicate 32 zero)).foldl add zero) := by
    generalize ((chunksExact 32 x).zip (chunksExact 32 y)).foldl laneStep (List.replicate 32 zero) = c at h1 h3 ⊢
    cases h1 with
    | nil => simp at h3
    | @cons a l c ls ha hc =>
      have e : c.length = 31 := by simpa using h3
      rw [List.foldl_cons, hz _ _ _ ha, List.flatten_cons, ← e]
      exact acc_sum _ ls 0 a l hc ha
  have h5 := acc_rem ((chunksRemainder 32 x).zip (chunksRemainder 32 y)) _ _ _ h4
  have hrl : ((chunksRemainder 32 x).zip (chunksRemainder 32 y)).length = x.length % 32 := by
    rw [List.length_zip, chunksRemainder_length, chunksRemainder_length, h, Nat.min_self]
  rw [hlen, hrl] at h5
  have hk : 0 + x.length / 32 + 0 + 31 + x.length % 32 = x.length / 32 + 31 + x.length % 32 := by omega
  rw [hk] at h5
  refine Acc.perm (show Acc _ _ (dotProduct x y) from h5) ?_
  have hx := congrArg List.length (chunksExact_flatten 32 x)
  have hy := congrArg List.length (chunksExact_flatten 32 y)
  rw [List.length_append, chunksRemainder_length] at hx hy
  rw [h] at hx
  have hfl : (chunksExact 32 x).flatten.length = (chunksExact 32 y).flatten.length := by omega
  have hcl : (chunksExact 32 x).length = (chunksExact 32 y).length := by
    rw [chunksExact_length, chunksExact_length, h]
  have e : x.zip y = (chunksExact 32 x).flatten.zip (chunksExact 32 y).flatten ++
      (chunksRemainder 32 x).zip (chunksRemainder 32 y) := by
    rw [← List.zip_append hfl, chunksExact_flatten, chunksExact_flatten]
  rw [e, zip_flatten _ _ (fun c => chunksExact_mem) (fun c => chunksExact_mem) hcl]
  refine List.perm_append_comm.trans (List.Perm.append_right _ ?_)
  simpa using h2

end Granne
