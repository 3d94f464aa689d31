import Verif.Model.RwSave
import Verif.Proofs.OpenFile
import Verif.Proofs.BufWriter
import Verif.Proofs.Crash

namespace Granne
open Granne.Spec

variable {D : Type} [LinearOrder D]

/-! ### A search that can compute more distances and run longer gives the same answer -/

theorem scan_mono {dq dq' : Nat → Option D} (h : ∀ i d, dq i = some d → dq' i = some d) {res : MaxSizeHeap (Cand D)} :
    ∀ (ns : List Nat) (pq : List (Cand D)) (vis : List Nat) (x : List (Cand D) × List Nat),
      scanNeighbors dq res ns pq vis = some x → scanNeighbors dq' res ns pq vis = some x := by
  intro ns
  induction ns with
  | nil => intro pq vis x hx; exact hx
  | cons n ns ih =>
    intro pq vis x hx
    simp only [scanNeighbors] at hx ⊢
    split at hx
    · next hv => rw [if_pos hv]; exact ih _ _ _ hx
    · next hv =>
      rw [if_neg hv]
      cases hd : dq n with
      | none => rw [hd] at hx; cases hx
      | some d =>
        rw [hd] at hx
        rw [h n d hd]
        simp only at hx ⊢
        split at hx
        · next hf => rw [if_pos hf]; exact ih _ _ _ hx
        · next hf =>
          rw [if_neg hf]
          split at hx
          · cases hx
          · next top ht =>
            split at hx
            · next hc => rw [if_pos hc]; exact ih _ _ _ hx
            · next hc => rw [if_neg hc]; exact ih _ _ _ hx

theorem searchLoop_mono_dist {dq dq' : Nat → Option D} (h : ∀ i d, dq i = some d → dq' i = some d) (get : Nat → Option (List Nat)) :
    ∀ (fuel fuel' : Nat) (res : MaxSizeHeap (Cand D)) (pq : List (Cand D)) (vis : List Nat) (r : List (Nat × D)),
      fuel ≤ fuel' → (searchLoop dq fuel res pq vis).runWith get = some r →
      (searchLoop dq' fuel' res pq vis).runWith get = some r := by
  intro fuel
  induction fuel with
  | zero => intro fuel' res pq vis r _ hr; cases hr
  | succ fuel ih =>
    intro fuel' res pq vis r hle hr
    obtain ⟨f, rfl⟩ : ∃ f, fuel' = f + 1 := ⟨fuel' - 1, by omega⟩
    cases pq with
    | nil => exact hr
    | cons c pq =>
      obtain ⟨d, idx⟩ := c
      simp only [searchLoop] at hr ⊢
      split at hr
      · cases hr
      · exact hr
      · split at hr
        · cases hr
        · next res' _ hpush =>
          simp only [Prog.runWith] at hr ⊢
          cases hg : get idx with
          | none => rw [hg] at hr; cases hr
          | some l =>
            rw [hg] at hr
            simp only at hr ⊢
            rcases hs : scanNeighbors dq res' l pq vis with _ | ⟨pq', vis'⟩
            · rw [hs] at hr; cases hr
            · rw [hs] at hr
              rw [scan_mono h l pq vis _ hs]
              exact ih f res' pq' vis' r (by omega) hr

theorem searchForNeighbors_mono_dist {dq dq' : Nat → Option D} (h : ∀ i d, dq i = some d → dq' i = some d)
    (get : Nat → Option (List Nat)) {n n' : Nat} (hn : n ≤ n') (entry ms : Nat) {r : List (Nat × D)}
    (hr : (searchForNeighbors n entry dq ms).runWith get = some r) :
    (searchForNeighbors n' entry dq' ms).runWith get = some r := by
  unfold searchForNeighbors at hr ⊢
  cases hd : dq entry with
  | none => rw [hd] at hr; cases hr
  | some d =>
    rw [hd] at hr
    rw [h entry d hd]
    exact searchLoop_mono_dist h get _ _ _ _ _ _ (by omega) hr

theorem findEntrypointWith_mono_dist {dq dq' : Nat → Option D} (h : ∀ i d, dq i = some d → dq' i = some d) {n n' : Nat}
    (hn : n ≤ n') : ∀ (rs : List (Nat → Option (List Nat))) (entry e : Nat),
      findEntrypointWith n dq rs entry = some e → findEntrypointWith n' dq' rs entry = some e := by
  intro rs
  induction rs with
  | nil => intro entry e he; exact he
  | cons get t ih =>
    intro entry e he
    simp only [findEntrypointWith] at he ⊢
    split at he
    · cases he
    · cases he
    · next i d r hr =>
      rw [searchForNeighbors_mono_dist h get hn entry 1 hr]
      exact ih i e he

theorem searchWith_mono_dist {dq dq' : Nat → Option D} (h : ∀ i d, dq i = some d → dq' i = some d) {n n' : Nat} (hn : n ≤ n')
    (rs : List (Nat → Option (List Nat))) {ms k : Nat} {r : List (Nat × D)} (hr : searchWith n rs dq ms k = some r) :
    searchWith n' rs dq' ms k = some r := by
  unfold searchWith at hr ⊢
  split at hr
  · exact hr
  · next bottom _ =>
    split at hr
    · cases hr
    · next e he =>
      rw [findEntrypointWith_mono_dist h hn _ 0 e he]
      simp only
      split at hr
      · cases hr
      · next x hx =>
        rw [searchForNeighbors_mono_dist h bottom hn e ms hx]
        exact hr

/-! ### The two files -/

theorem byteEffects_writes (ws : List Bytes) (p : Nat) : byteEffects (ws.map .write) p = eff ws.flatten p := by
  induction ws generalizing p with
  | nil => rfl
  | cons b t ih => rw [List.map_cons, byteEffects_write, ih, List.flatten_cons, eff_append]

theorem eff_take (b : Bytes) (p m : Nat) : (eff b p).take m = eff (b.take m) p := by
  unfold eff
  rw [← List.map_take, List.take_range, List.length_take]
  apply List.map_congr_left
  intro i hi
  rw [List.mem_range] at hi
  simp only [List.getD_eq_getElem?_getD, Prod.mk.injEq, true_and]
  rw [List.getElem?_take_of_lt (by omega)]

theorem eff_snd (b : Bytes) (p : Nat) : (eff b p).map Prod.snd = b := by
  unfold eff
  rw [List.map_map]
  apply List.ext_getElem (by simp)
  intro i h1 h2
  simp [h2]

theorem writeAt_nil_zero (b : Bytes) : writeAt [] 0 b = b := by
  unfold writeAt
  split
  · next h => exact h.symm
  · simp

theorem eff_length (b : Bytes) (p : Nat) : (eff b p).length = b.length := by simp [eff]

/-- Whatever fails: the file holds the first part of what was to be written. -/
theorem bufRun_prefix {fail : Nat → Bool} {ws : List Bytes} {s : BufState} {ok : Bool}
    (h : bufRun fail (ws.map .write) ⟨[], 0, [], 0⟩ = (s, ok)) :
    ∃ m, s.file = ws.flatten.take m ∧ (ok = true → s.buf = ws.flatten.drop m) ∧ ∃ m', (flushBuf fail s).1.file = ws.flatten.take m' := by
  obtain ⟨E', rest, h1, h2, h3⟩ := bufRun_moves (f := []) (E := []) rfl h
  simp only [eff_nil, List.append_nil, List.nil_append, BufState.cursor, List.length_nil, Nat.add_zero, byteEffects_writes] at h2
  have key : ∀ (a t : List (Nat × UInt8)), a ++ t = eff ws.flatten 0 → applyBytes [] a = ws.flatten.take a.length := by
    intro a t hat
    have : a = (eff ws.flatten 0).take a.length := by rw [← hat, List.take_left' rfl]
    conv_lhs => rw [this]
    rw [eff_take, applyBytes_eff, writeAt_nil_zero]
  refine ⟨E'.length, ?_, ?_, ?_⟩
  · rw [h1]; exact key E' _ (by rw [List.append_assoc] at h2; exact h2)
  · intro hok
    rw [h3 hok, List.append_nil] at h2
    have hs := congrArg (List.map Prod.snd) h2
    rw [List.map_append, eff_snd, eff_snd] at hs
    rw [← hs, List.drop_left' (by simp)]
  · rcases hfl : flushBuf fail s with ⟨s', ok'⟩
    obtain ⟨a, b⟩ := flushBuf_moves h1 hfl
    cases ok' with
    | true => exact ⟨_, by rw [(b rfl).1]; exact key _ _ h2⟩
    | false =>
      refine ⟨E'.length, ?_⟩
      rw [(a rfl).1, h1]
      exact key E' _ (by rw [List.append_assoc] at h2; exact h2)

theorem bufferedElements_split (ws : List Bytes) : (bufferedElements ws).1 ++ (bufferedElements ws).2 = ws.flatten := by
  unfold bufferedElements
  rcases hr : bufRun (fun _ => false) (ws.map .write) ⟨[], 0, [], 0⟩ with ⟨s, ok⟩
  have hok : ok = true := by
    have := bufRun_never (ws.map .write) ⟨[], 0, [], 0⟩
    unfold never at this
    rw [hr] at this; exact this
  obtain ⟨m, h1, h2, _⟩ := bufRun_prefix hr
  simp only
  rw [h1, h2 hok, List.take_append_drop]

def elemByte : DiskOp → Option UInt8
  | .elements b => some b
  | _ => none

def indexByte : DiskOp → Option (Nat × UInt8)
  | .index p b => some (p, b)
  | _ => none

theorem after_ops {ops : List DiskOp} (h : ∀ o ∈ ops, (elemByte o).isSome ∨ (indexByte o).isSome) (e f : Bytes) :
    Disk.after ⟨some e, some f⟩ ops = ⟨some (e ++ ops.filterMap elemByte), some (applyBytes f (ops.filterMap indexByte))⟩ := by
  induction ops generalizing e f with
  | nil => simp [Disk.after, applyBytes]
  | cons o t ih =>
    have ht := fun o' ho' => h o' (List.mem_cons_of_mem _ ho')
    have ho := h o List.mem_cons_self
    cases o with
    | createElements => simp [elemByte, indexByte] at ho
    | createIndex => simp [elemByte, indexByte] at ho
    | elements b =>
      have : Disk.after ⟨some e, some f⟩ (.elements b :: t) = Disk.after ⟨some (e ++ [b]), some f⟩ t := rfl
      rw [this, ih ht]
      simp [elemByte, indexByte, List.filterMap_cons]
    | index p b =>
      have : Disk.after ⟨some e, some f⟩ (.index p b :: t) = Disk.after ⟨some e, some (writeAt f p [b])⟩ t := rfl
      rw [this, ih ht]
      simp [elemByte, indexByte, applyBytes, List.filterMap_cons]

theorem saveOps_bytes (ws : List Bytes) (L : Layers) (ops : List DiskOp)
    (hops : rwSaveOps ws L = .createElements :: .createIndex :: ops) :
    (∀ o ∈ ops, (elemByte o).isSome ∨ (indexByte o).isSome) ∧ ops.filterMap elemByte = ws.flatten ∧
    ops.filterMap indexByte = saveEffects L 0 := by
  have : ops = (bufferedElements ws).1.map .elements ++ (saveEffects L 0).map (fun e => .index e.1 e.2) ++
      (bufferedElements ws).2.map .elements := by
    have h := hops
    unfold rwSaveOps at h
    simp only [List.cons_append, List.nil_append, List.cons.injEq, true_and] at h
    exact h.symm
  subst this
  have e1 : ∀ l : Bytes, (l.map DiskOp.elements).filterMap elemByte = l := by
    intro l; rw [List.filterMap_map]; exact List.filterMap_some
  have e2 : ∀ l : Bytes, (l.map DiskOp.elements).filterMap indexByte = [] := by
    intro l; rw [List.filterMap_map]; exact List.filterMap_eq_nil_iff.2 fun _ _ => rfl
  have e3 : ∀ l : List (Nat × UInt8), (l.map fun e => DiskOp.index e.1 e.2).filterMap elemByte = [] := by
    intro l; rw [List.filterMap_map]; exact List.filterMap_eq_nil_iff.2 fun _ _ => rfl
  have e4 : ∀ l : List (Nat × UInt8), (l.map fun e => DiskOp.index e.1 e.2).filterMap indexByte = l := by
    intro l; rw [List.filterMap_map]; exact List.filterMap_some
  refine ⟨?_, ?_, ?_⟩
  · intro o ho
    simp only [List.mem_append, List.mem_map] at ho
    rcases ho with (⟨b, _, rfl⟩ | ⟨b, _, rfl⟩) | ⟨b, _, rfl⟩
    · exact Or.inl rfl
    · exact Or.inr rfl
    · exact Or.inl rfl
  · rw [List.filterMap_append, List.filterMap_append, e1, e1, e3, List.append_nil, bufferedElements_split]
  · rw [List.filterMap_append, List.filterMap_append, e2, e2, e4, List.append_nil, List.nil_append]

theorem take_of_prefix {α : Type} {l m : List α} (h : l <+: m) : ∃ n, l = m.take n :=
  ⟨l.length, (List.prefix_iff_eq_take.1 h)⟩

/-- What is on the disk if the process dies. -/
theorem crash_state (ws : List Bytes) (L : Layers) (d : Disk) (n : Nat) (hn : 1 ≤ n) :
    (∃ i, d.after ((rwSaveOps ws L).take n) = ⟨some [], i⟩) ∨
    ∃ m j, d.after ((rwSaveOps ws L).take n) = ⟨some (ws.flatten.take m), some (applyBytes [] ((saveEffects L 0).take j))⟩ := by
  obtain ⟨ops, hops⟩ : ∃ ops, rwSaveOps ws L = .createElements :: .createIndex :: ops := ⟨_, rfl⟩
  rw [hops]
  obtain ⟨h1, h2, h3⟩ := saveOps_bytes ws L ops hops
  rcases n with _ | _ | n
  · omega
  · left; exact ⟨d.index, rfl⟩
  · right
    have : d.after ((DiskOp.createElements :: .createIndex :: ops).take (n + 2)) = Disk.after ⟨some [], some []⟩ (ops.take n) := rfl
    rw [this, after_ops fun o ho => h1 o (List.mem_of_mem_take ho)]
    obtain ⟨m, hm⟩ := take_of_prefix ((List.take_prefix n ops).filterMap elemByte)
    obtain ⟨j, hj⟩ := take_of_prefix ((List.take_prefix n ops).filterMap indexByte)
    exact ⟨m, j, by rw [hm, hj, h2, h3]; rfl⟩

theorem saved_state (ws : List Bytes) (L : Layers) (d : Disk) :
    d.after (rwSaveOps ws L) = ⟨some ws.flatten, some (saveIndex L [] 0).1⟩ := by
  obtain ⟨ops, hops⟩ : ∃ ops, rwSaveOps ws L = .createElements :: .createIndex :: ops := ⟨_, rfl⟩
  rw [hops]
  obtain ⟨h1, h2, h3⟩ := saveOps_bytes ws L ops hops
  have : d.after (DiskOp.createElements :: .createIndex :: ops) = Disk.after ⟨some [], some []⟩ ops := rfl
  rw [this, after_ops h1, h2, h3, applyBytes_saveEffects]
  rfl

end Granne
