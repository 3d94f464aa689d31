import Verif.Proofs.Size
import Verif.Spec.Size
import Verif.Props.Storage
import Verif.Props.Build

/-!
C81: how large a saved index is.
-/
namespace Granne
open List Spec

theorem vbControls_length (nums : List Nat) : (vbControls nums).length = (nums.length + 3) / 4 := by
  induction nums using vbControls.induct with
  | case1 => rfl
  | case2 a => simp [vbControls]
  | case3 a b => simp [vbControls]
  | case4 a b c => simp [vbControls]
  | case5 a b c d t ih => rw [vbControls, List.length_cons, ih]; simp only [List.length_cons]; omega

theorem vbCode_le {w n : Nat} (hw : 1 ≤ w) (h : n < 256 ^ w) : vbCode n + 1 ≤ w := by
  unfold vbCode
  rcases Nat.lt_or_ge w 4 with h4 | h4
  · have : w = 1 ∨ w = 2 ∨ w = 3 := by omega
    rcases this with rfl | rfl | rfl <;> norm_num at h <;> split_ifs <;> omega
  · split_ifs <;> omega

theorem vbData_length {w : Nat} (hw : 1 ≤ w) (nums : List Nat) (h : ∀ n ∈ nums, n < 256 ^ w) :
    (nums.flatMap fun n => leBytes (vbCode n + 1) n).length ≤ w * nums.length := by
  induction nums with
  | nil => simp
  | cons a t ih =>
    have h1 := vbCode_le hw (h a (by simp))
    have h2 := ih fun n hn => h n (by simp [hn])
    simp only [List.flatMap_cons, List.length_append, leBytes_length, List.length_cons, Nat.mul_add, Nat.mul_one]
    omega

theorem deltas_small {w p : Nat} {l : List Nat} (h : ∀ n ∈ l, n < 256 ^ w) : ∀ n ∈ deltaEncodeFrom p l, n < 256 ^ w := by
  induction l generalizing p with
  | nil => simp [deltaEncodeFrom]
  | cons x t ih =>
    intro n hn
    rw [deltaEncodeFrom] at hn
    rcases List.mem_cons.1 hn with rfl | hn
    · have := h x (by simp); omega
    · exact ih (fun m hm => h m (by simp [hm])) n hn

theorem setEncode_take (l : List Nat) : setEncode l = setEncode (l.take 255) := by
  unfold setEncode
  have h1 : (if l.length ≥ 255 then l.take 255 else l) = l.take 255 := by
    split
    · rfl
    · rw [List.take_of_length_le (by omega)]
  have h2 : (if (l.take 255).length ≥ 255 then (l.take 255).take 255 else l.take 255) = l.take 255 := by
    split
    · rw [List.take_take]; simp
    · rfl
  rw [h1, h2]

theorem vbData_pad (w k : Nat) (hw : 1 ≤ w) (nums : List Nat) (h : ∀ n ∈ nums, n < 256 ^ w) :
    ((nums ++ List.replicate k 0).flatMap fun n => leBytes (vbCode n + 1) n).length ≤ w * nums.length + k := by
  rw [List.flatMap_append, List.length_append]
  have h1 := vbData_length hw nums h
  have h2 := vbData_length (w := 1) le_rfl (List.replicate k 0) (by intro n hn; rw [List.eq_of_mem_replicate hn]; norm_num)
  rw [List.length_replicate] at h2
  omega

theorem setEncode_length_ids {w : Nat} (hw : 1 ≤ w) {l : List Nat} (h : ∀ n ∈ l, n < 256 ^ w) (hl : l.length ≤ 255) :
    (setEncode l).length ≤ listBytes w l.length := by
  have hcut : (if l.length ≥ 255 then l.take 255 else l) = l := by
    split
    · exact List.take_of_length_le hl
    · rfl
  unfold setEncode listBytes
  simp only [hcut, List.length_cons]
  have hd := deltaEncodeFrom_length 0 l
  have hds := deltas_small (p := 0) h
  have hp := vbData_pad w (4 - (deltaEncodeFrom 0 l).length) hw _ hds
  have he : (vbEncode (deltaEncodeFrom 0 l ++ List.replicate (4 - (deltaEncodeFrom 0 l).length) 0)).length ≤
      (max 4 l.length + 3) / 4 + (w * l.length + (4 - l.length)) := by
    unfold vbEncode
    rw [List.length_append, vbControls_length, List.length_append, List.length_replicate]
    rw [hd] at hp ⊢
    have : (l.length + (4 - l.length) + 3) / 4 = (max 4 l.length + 3) / 4 := by congr 1; omega
    omega
  split
  · next hc =>
    rw [flatMap_leBytes_length, hd]
    rw [hd] at hc he
    rcases Nat.eq_zero_or_pos l.length with h0 | h0
    · rw [h0]; simp
    · omega
  · next hc =>
    rw [hd] at hc he ⊢
    rcases Nat.eq_zero_or_pos l.length with h0 | h0
    · rw [h0] at hc; omega
    · omega

theorem listBytes_mono {w m n : Nat} (hw : 1 ≤ w) (h : m ≤ n) : listBytes w m ≤ listBytes w n := by
  obtain ⟨k, rfl⟩ := Nat.exists_eq_add_of_le h
  unfold listBytes
  have : k ≤ w * k := Nat.le_mul_of_pos_left k hw
  rw [Nat.mul_add w]
  omega

theorem encList_le {w : Nat} (hw : 1 ≤ w) {l : List Nat} (h : ∀ n ∈ (sortIds l).take 255, n < 256 ^ w) :
    (encList l).length ≤ listBytes w ((sortIds l).take 255).length := by
  unfold encList
  rw [setEncode_take]
  exact setEncode_length_ids hw h (by rw [List.length_take]; omega)

/-- The exact size of a saved layer. -/
theorem HoldsLists.size {v : SetVec} {lists : List (List Nat)} (h : HoldsLists v lists) :
    v.toBytes.length = tableBytes lists.length + (lists.map fun l => (encList l).length).sum := by
  have hdl := h.stored.repr.offsets.deltas_length
  have hl : v.toBytes.length = 8 + 128 * v.offsets.length + v.data.length := by
    simp only [SetVec.toBytes, List.length_append, leBytes_length, Offsets.toBytes_length hdl]
  have hc := h.stored.repr.offsets.chunks (by simp)
  simp only [List.length_cons, ends_length, List.length_map, Nat.add_sub_cancel] at hc
  rw [hl, hc, h.stored.repr.data, List.length_flatten, List.map_map]
  rfl

/-- The size of a saved index in terms of its lists. -/
theorem saved_size_eq {L : Layers} {lists : List (List (List Nat))} (h : HasLists L lists) {f' : Bytes}
    (hs : saveIndex L [] 0 = (f', true)) :
    f'.length = 1024 + (lists.map fun g => tableBytes g.length + (g.map fun l => (encList l).length).sum).sum := by
  obtain ⟨vs, nn, h1, -, -, hfit, rfl, -⟩ := save_load h hs
  have hp := padMetadata_length hfit
  rw [METADATA_LEN] at hp
  rw [writeAt_length (imageOf_ne_nil nn vs lists)]
  unfold imageOf
  rw [List.length_append, hp, List.length_flatten, List.map_map]
  have : (vs.map (List.length ∘ SetVec.toBytes)) =
      lists.map fun g => tableBytes g.length + (g.map fun l => (encList l).length).sum := by
    clear hs hp hfit h
    induction h1 with
    | nil => rfl
    | cons h2 _ ih => simp only [List.map_cons, Function.comp_apply, h2.size, ih]
  rw [this]
  simp

/-- What a search sees of the lists. -/
theorem HasLists.seen {L : Layers} {lists : List (List (List Nat))} (h : HasLists L lists) {gs : List (List (List Nat))}
    (hg : L.graphs = some gs) :
    List.Forall₂ (List.Forall₂ fun l l' : List Nat => l' = l ∨ l' = (sortIds l).take 255) lists gs := by
  cases L with
  | fixWidth ls =>
    have := h.graphs.2 ls rfl
    rw [hg] at this
    cases this
    exact List.forall₂_same.2 fun g _ => List.forall₂_same.2 fun l _ => Or.inl rfl
  | compressed us =>
    have := h.graphs.1 us rfl
    rw [hg] at this
    cases this
    rw [List.forall₂_map_right_iff]
    refine List.forall₂_same.2 fun g _ => ?_
    rw [List.forall₂_map_right_iff]
    exact List.forall₂_same.2 fun l _ => Or.inr rfl

theorem sum_le_forall₂ {α β : Type} {R : α → β → Prop} {f : α → Nat} {g : β → Nat} {l : List α} {m : List β}
    (h : List.Forall₂ R l m) (hfg : ∀ a b, b ∈ m → R a b → f a ≤ g b) : (l.map f).sum ≤ (m.map g).sum := by
  induction h with
  | nil => simp
  | cons h1 _ ih =>
    have e1 := hfg _ _ (by simp) h1
    have e2 := ih fun a b hb => hfg a b (by simp [hb])
    simp only [List.map_cons, List.sum_cons]
    omega

/-- C81. The size of a file that an index was saved to, if all ids fit into `w` bytes: 1024 bytes of metadata, the tables of offsets, and
at most `listBytes w n` bytes for a node with `n` neighbors. -/
theorem C81_size_at_most (L : Layers) (hL : IndexState L) (gs : List (List (List Nat))) (hg : L.graphs = some gs) (w : Nat) (hw : 1 ≤ w)
    (hids : ∀ g ∈ gs, ∀ l ∈ g, ∀ n ∈ l, n < 256 ^ w) (f' : Bytes) (hs : saveIndex L [] 0 = (f', true)) :
    f'.length ≤ 1024 + allTableBytes gs + allListBytes w gs := by
  obtain ⟨lists, h⟩ := hL.hasLists
  rw [saved_size_eq h hs]
  have : (lists.map fun g => tableBytes g.length + (g.map fun l => (encList l).length).sum).sum ≤
      (gs.map fun g => tableBytes g.length + (g.map fun l => listBytes w l.length).sum).sum := by
    refine sum_le_forall₂ (h.seen hg) fun a b hb hab => ?_
    rw [hab.length_eq]
    refine Nat.add_le_add_left (sum_le_forall₂ hab fun l l' hl' hll => ?_) _
    have hi := hids b hb l' hl'
    rcases hll with rfl | rfl
    · refine (encList_le hw fun n hn => hi n ?_).trans (listBytes_mono hw ?_)
      · exact (sortIds_perm l').mem_iff.1 (List.mem_of_mem_take hn)
      · rw [List.length_take, (sortIds_perm l').length_eq]; omega
    · exact encList_le hw hi
  have e : (gs.map fun g => tableBytes g.length + (g.map fun l => listBytes w l.length).sum).sum =
      allTableBytes gs + allListBytes w gs := List.sum_map_add
  rw [e] at this
  omega

/-- C81. In any case at most four bytes per neighbor and one per node. -/
theorem C81_four_bytes_per_neighbor (L : Layers) (hL : IndexState L) (gs : List (List (List Nat))) (hg : L.graphs = some gs)
    (f' : Bytes) (hs : saveIndex L [] 0 = (f', true)) :
    f'.length ≤ 1024 + allTableBytes gs + (gs.map fun g => (g.map fun l => 1 + 4 * l.length).sum).sum := by
  obtain ⟨lists, h⟩ := hL.hasLists
  have hids : ∀ g ∈ gs, ∀ l ∈ g, ∀ n ∈ l, n < 256 ^ 4 := by
    intro g hgm l hl n hn
    obtain ⟨g0, hg0, hgg⟩ := forall₂_left (h.seen hg) hgm
    obtain ⟨l0, hl0, hll⟩ := forall₂_left hgg hl
    have hid := h.ids g0 hg0 l0 hl0
    rcases hll with rfl | rfl
    · exact hid n hn
    · exact hid n ((sortIds_perm l0).mem_iff.1 (List.mem_of_mem_take hn))
  refine (C81_size_at_most L hL gs hg 4 (by norm_num) hids f' hs).trans (Nat.add_le_add_left ?_ _)
  refine sum_le_forall₂ (R := Eq) (List.forall₂_same.2 fun _ _ => rfl) fun a b _ hab => ?_
  subst hab
  refine sum_le_forall₂ (R := Eq) (List.forall₂_same.2 fun _ _ => rfl) fun a b _ hab => ?_
  subst hab
  unfold listBytes
  omega

/-- C81. And at least one byte per node. -/
theorem C81_size_at_least (L : Layers) (hL : IndexState L) (gs : List (List (List Nat))) (hg : L.graphs = some gs)
    (f' : Bytes) (hs : saveIndex L [] 0 = (f', true)) : 1024 + allTableBytes gs + (gs.map List.length).sum ≤ f'.length := by
  obtain ⟨lists, h⟩ := hL.hasLists
  rw [saved_size_eq h hs]
  have hl1 : ∀ l : List Nat, 1 ≤ (encList l).length := by
    intro l
    unfold encList setEncode
    simp only [List.length_cons]
    omega
  have hl2 : ∀ g : List (List Nat), g.length ≤ (g.map fun l => (encList l).length).sum := by
    intro g
    induction g with
    | nil => simp
    | cons l t ih =>
      simp only [List.length_cons, List.map_cons, List.sum_cons]
      exact (Nat.add_comm _ _).le.trans (Nat.add_le_add (hl1 l) ih)
  have : (gs.map fun g => tableBytes g.length + g.length).sum ≤
      (lists.map fun g => tableBytes g.length + (g.map fun l => (encList l).length).sum).sum := by
    refine sum_le_forall₂ (h.seen hg).flip fun a b _ hab => ?_
    rw [← hab.length_eq]
    exact Nat.add_le_add_left (hl2 b) _
  have e : (gs.map fun g => tableBytes g.length + g.length).sum = allTableBytes gs + (gs.map List.length).sum :=
    List.sum_map_add
  rw [e] at this
  omega

/-- C81 for builders, whatever the history: 1024 bytes, 136 for every layer, and for every node of a layer four more than four times
`num_neighbors`. -/
theorem C81_builder {E D : Type} [LinearOrder D] {srt : List (Nat × D) → List (Nat × D)} (hsrt : IsSortByDist srt) (b : Builder E D)
    (hb : Reachable srt b) (hc : GoodConfig b.config) (f' : Bytes) (hs : saveIndex (.fixWidth b.layers) [] 0 = (f', true)) :
    f'.length ≤ 1024 + 136 * b.layers.length +
      (4 * b.config.numNeighbors + 4) * (b.layers.map fun l => l.rows.length).sum := by
  have hinv := hb.inv hsrt hc
  have h := C81_four_bytes_per_neighbor _ hinv.indexState b.graphs rfl f' hs
  have hlen : ∀ g ∈ b.graphs, ∀ l ∈ g, l.length ≤ b.config.numNeighbors := by
    intro g hg l hl
    obtain ⟨la, hla, rfl⟩ := List.mem_map.1 hg
    obtain ⟨i, hi, he⟩ := List.getElem_of_mem hl
    exact (C16_neighbors_valid hsrt b hb hc la hla i l (by rw [List.getElem?_eq_getElem hi, he])).1
  have e : (b.layers.map fun l => l.rows.length).sum = (b.graphs.map List.length).sum := by
    unfold Builder.graphs
    rw [List.map_map]
    congr 1
    apply List.map_congr_left
    intro l _
    simp [graphOf]
  have el : b.layers.length = b.graphs.length := by simp [Builder.graphs]
  rw [e, el]
  refine h.trans ?_
  clear h e el hs hinv
  generalize b.graphs = gs at hlen ⊢
  generalize b.config.numNeighbors = M at hlen ⊢
  have row : ∀ g : List (List Nat), (∀ l ∈ g, l.length ≤ M) → (g.map fun l => 1 + 4 * l.length).sum ≤ (1 + 4 * M) * g.length := by
    intro g hg
    induction g with
    | nil => simp
    | cons l t ih =>
      have h1 := hg l (by simp)
      have h2 := ih fun l hl => hg l (by simp [hl])
      simp only [List.map_cons, List.sum_cons, List.length_cons, Nat.mul_add, Nat.mul_one]
      omega
  unfold allTableBytes
  induction gs with
  | nil => simp
  | cons g t ih =>
    have h1 := ih fun g hg => hlen g (by simp [hg])
    have h2 := row g (hlen g (by simp))
    have h3 : tableBytes g.length ≤ 136 + 3 * g.length := by unfold tableBytes; omega
    have h4 : (1 + 4 * M) * g.length + 3 * g.length = (4 * M + 4) * g.length := by ring
    simp only [List.map_cons, List.sum_cons, List.length_cons, Nat.mul_add, Nat.mul_one] at h1 h2 h3 h4 ⊢
    omega

/-- Non-vacuity: an index of two layers whose ids fit into one byte. The file has exactly as many bytes as `C81_size_at_most` allows. -/
example : ∃ f' gs, saveIndex exStored [] 0 = (f', true) ∧ exStored.graphs = some gs ∧ (∀ g ∈ gs, ∀ l ∈ g, ∀ n ∈ l, n < 256 ^ 1) ∧
    f'.length = 1334 ∧ allTableBytes gs = 272 ∧ allListBytes 1 gs = 38 ∧ allListBytes 4 gs = 47 ∧ (gs.map List.length).sum = 7 := by
  refine ⟨(saveIndex exStored [] 0).1, _, ?_, rfl, by decide, ?_, by decide, by decide, by decide, by decide⟩ <;> decide +kernel

end Granne
