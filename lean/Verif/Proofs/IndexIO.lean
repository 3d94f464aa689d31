import Verif.Proofs.Layers
import Verif.Proofs.Metadata
import Verif.Spec.Storage

/-! Saving and loading a whole index. -/
namespace Granne
open Spec

/-- The stored form of a neighbor list. -/
def encList (l : List Nat) : Bytes := setEncode (sortIds l)

theorem _root_.Granne.Spec.Padded.visible {row : Row} (h : Padded row) : row.filter (· != UNUSED) = visible row := by
  obtain ⟨ids, k, rfl, hids⟩ := h
  have h1 : ids.filter (· != UNUSED) = ids := by
    rw [List.filter_eq_self]; intro a ha; simp; rintro rfl; exact hids ha
  have h2 : Granne.visible (ids ++ List.replicate k UNUSED) = ids := by
    unfold Granne.visible
    rw [List.takeWhile_append_of_pos (by intro a ha; simp; rintro rfl; exact hids ha)]
    cases k <;> simp [List.replicate_succ]
  rw [List.filter_append, h1, h2]
  simp

/-- A compressed layer that holds `lists` (not longer than 255 each, or cut to that when encoded). -/
structure HoldsLists (v : SetVec) (lists : List (List Nat)) : Prop where
  stored : Stored v (lists.map encList)
  ids : ∀ l ∈ lists, ∀ n ∈ l, n < 2 ^ 32

/-- The layers hold these lists. -/
inductive HasLists : Layers → List (List (List Nat)) → Prop
  | fix (ls : List Layer) (ids : ∀ l ∈ ls, ∀ row ∈ l.rows, ∀ n ∈ row, n < 2 ^ 32)
      (padded : ∀ l ∈ ls, ∀ row ∈ l.rows, Padded row) :
      HasLists (.fixWidth ls) (ls.map fun l => l.rows.map fun row => row.filter (· != UNUSED))
  | comp (vs : List SetVec) (lists : List (List (List Nat))) : List.Forall₂ HoldsLists vs lists →
      HasLists (.compressed vs) lists

theorem HoldsLists.len {v : SetVec} {lists : List (List Nat)} (h : HoldsLists v lists) : v.len = some lists.length := by
  rw [h.stored.repr.len]; simp

theorem HoldsLists.get {v : SetVec} {lists : List (List Nat)} (h : HoldsLists v lists) {i : Nat} {l : List Nat}
    (hi : lists[i]? = some l) : v.get i = some ((sortIds l).take 255) :=
  get_encoded h.stored.repr (by simp [hi, encList]) (h.ids l (List.mem_of_getElem? hi))

theorem mapM_eq_map {α β : Type} {f : α → Option β} {g : α → β} {l : List α} (h : ∀ a ∈ l, f a = some (g a)) :
    l.mapM f = some (l.map g) := by
  induction l with
  | nil => rfl
  | cons a t ih => simp [List.mapM_cons, h a (by simp), ih fun b hb => h b (by simp [hb])]

theorem HoldsLists.graph {v : SetVec} {lists : List (List Nat)} (h : HoldsLists v lists) :
    v.graph = some (lists.map fun l => (sortIds l).take 255) := by
  unfold SetVec.graph
  rw [h.len]
  simp only
  rw [mapM_eq_map (g := fun i => (sortIds (lists.getD i [])).take 255)]
  · congr 1
    apply List.ext_getElem?
    intro i
    by_cases hi : i < lists.length
    · simp [hi]
    · simp [hi]
  · intro i hi
    have hi := List.mem_range.1 hi
    rw [h.get (List.getElem?_eq_getElem hi)]
    simp [hi]

theorem forall₂_mapM {α β γ : Type} {R : α → β → Prop} {f : α → Option γ} {g : β → γ} {l : List α} {m : List β}
    (h : List.Forall₂ R l m) (hf : ∀ a b, R a b → f a = some (g b)) : l.mapM f = some (m.map g) := by
  induction h with
  | nil => rfl
  | cons hab _ ih => simp [List.mapM_cons, hf _ _ hab, ih]

namespace HasLists
variable {L : Layers} {lists : List (List (List Nat))}

theorem counts (h : HasLists L lists) : L.counts = some (lists.map List.length) := by
  cases h with
  | fix ls => simp [Layers.counts]
  | comp vs lists h => exact forall₂_mapM h fun v l hv => hv.len

/-- Every list in a row is bounded. -/
theorem ids (h : HasLists L lists) : ∀ g ∈ lists, ∀ l ∈ g, ∀ n ∈ l, n < 2 ^ 32 := by
  cases h with
  | fix ls ids padded =>
    intro g hg l hl n hn
    obtain ⟨la, hla, rfl⟩ := List.mem_map.1 hg
    obtain ⟨row, hrow, rfl⟩ := List.mem_map.1 hl
    exact ids la hla row hrow n (List.mem_of_mem_filter hn)
  | comp vs lists h =>
    induction h with
    | nil => simp
    | cons hab _ ih =>
      intro g hg
      rcases List.mem_cons.1 hg with rfl | hg
      · exact hab.ids
      · exact ih g hg

/-- What is written for the layers, and that it holds the lists. -/
theorem emits (h : HasLists L lists) :
    ∃ vs, List.Forall₂ HoldsLists vs lists ∧ (∀ us, L = .compressed us → vs = us) ∧
      ∀ p, Emits (writeLayers L) p (vs.map SetVec.toBytes).flatten ((vs.map SetVec.toBytes).map List.length) := by
  cases h with
  | fix ls ids padded =>
    obtain ⟨vs, h1, h2⟩ := writeFixLayers_emits ls
    refine ⟨vs, ?_, (fun us hus => nomatch hus), h2⟩
    rw [List.forall₂_map_right_iff]
    clear h2
    induction h1 with
    | nil => exact .nil
    | @cons v l vs ls hv _ ih =>
      refine .cons ⟨by rw [List.map_map]; exact hv, ?_⟩
        (ih (fun l hl => ids l (by simp [hl])) fun l hl => padded l (by simp [hl]))
      intro l' hl' n hn
      obtain ⟨row, hrow, rfl⟩ := List.mem_map.1 hl'
      exact ids l (by simp) row hrow n (List.mem_of_mem_filter hn)
  | comp vs lists h => exact ⟨vs, h, (fun us hus => by injection hus), writeCompressed_emits vs⟩

end HasLists

/-! ### Loading the layers -/

theorem forall₂_right {α β : Type} {R : α → β → Prop} {l : List α} {m : List β} (h : List.Forall₂ R l m) {a : α}
    (ha : a ∈ l) : ∃ b, R a b := by
  induction h with
  | nil => simp at ha
  | cons hab _ ih =>
    rcases List.mem_cons.1 ha with rfl | ha
    · exact ⟨_, hab⟩
    · exact ih ha

theorem forall₂_left {α β : Type} {R : α → β → Prop} {l : List α} {m : List β} (h : List.Forall₂ R l m) {b : β}
    (hb : b ∈ m) : ∃ a ∈ l, R a b := by
  induction h with
  | nil => simp at hb
  | cons hab _ ih =>
    rcases List.mem_cons.1 hb with rfl | hb
    · exact ⟨_, by simp, hab⟩
    · obtain ⟨a, ha, hr⟩ := ih hb; exact ⟨a, by simp [ha], hr⟩

theorem length_le_flatten {b : Bytes} {bs : List Bytes} (h : b ∈ bs) : b.length ≤ bs.flatten.length := by
  induction bs with
  | nil => simp at h
  | cons c t ih =>
    rw [List.flatten_cons, List.length_append]
    rcases List.mem_cons.1 h with rfl | h
    · omega
    · have := ih h; omega

theorem HoldsLists.length_le {v : SetVec} {lists : List (List Nat)} (h : HoldsLists v lists) :
    lists.length ≤ v.toBytes.length := by
  have h1 : v.data.length ≤ v.toBytes.length := by simp only [SetVec.toBytes, List.length_append]; omega
  refine le_trans ?_ h1
  rw [h.stored.repr.data]
  clear h h1
  induction lists with
  | nil => simp
  | cons l t ih =>
    have := List.length_pos_iff.2 (setEncode_ne_nil (sortIds l))
    rw [List.map_cons, List.flatten_cons, List.length_append, List.length_cons]
    unfold encList at ih ⊢
    omega


theorem Stored.ofBytes {v : SetVec} {bs : List Bytes} (h : Stored v bs) (hsz : v.toBytes.length < 2 ^ 64) :
    SetVec.ofBytes v.toBytes = some v := by
  have hdl := h.repr.offsets.deltas_length
  have hl : v.toBytes.length = 8 + 128 * v.offsets.length + v.data.length := by
    simp only [SetVec.toBytes, List.length_append, leBytes_length, Offsets.toBytes_length hdl]
  refine SetVec.ofBytes_toBytes (h.repr.offsets.wf fun c hc => ?_) (by omega)
  have := h.initial c hc
  omega

theorem loadFrom_stored {vs : List SetVec} (h : ∀ v ∈ vs, ∃ bs, Stored v bs) (pre rest : Bytes)
    (hsz : (vs.map SetVec.toBytes).flatten.length < 2 ^ 64) :
    loadFrom (pre ++ (vs.map SetVec.toBytes).flatten ++ rest) pre.length ((vs.map SetVec.toBytes).map List.length) =
      some vs := by
  induction vs generalizing pre with
  | nil => rfl
  | cons v vs ih =>
    obtain ⟨bs, hv⟩ := h v (by simp)
    simp only [List.map_cons, List.flatten_cons, List.length_append] at hsz
    have h1 := ih (fun v hv => h v (by simp [hv])) (pre ++ v.toBytes) (by omega)
    simp only [List.map_cons, List.flatten_cons, loadFrom]
    rw [if_pos (by simp only [List.length_append]; omega)]
    have e1 : ((pre ++ (v.toBytes ++ (vs.map SetVec.toBytes).flatten) ++ rest).drop pre.length).take v.toBytes.length =
        v.toBytes := by
      rw [List.append_assoc, List.drop_left' rfl, List.append_assoc, List.take_left' rfl]
    rw [e1, hv.ofBytes (by omega)]
    simp only
    rw [List.length_append] at h1
    simp only [List.append_assoc] at h1 ⊢
    rw [h1]
    rfl

/-! ### The whole file -/

theorem metadataText_ne_nil (nn : Nat) (counts sizes : List Nat) : metadataText nn counts sizes ≠ [] := by
  rw [metadataText_eq]; simp

/-- The operations of `write_index`: first the layers, behind the metadata block, then the metadata block. -/
theorem writeIndex_runs {L : Layers} {start nn : Nat} {counts sizes : List Nat} {img : Bytes}
    (hnn : L.numNeighbors = some nn) (hc : L.counts = some counts)
    (he : Emits (writeLayers L) (start + METADATA_LEN) img sizes) :
    ∃ pre, (∃ pre', pre = pre' ++ [.seek start]) ∧
      (∀ f, runOps pre (f, start) = (writeAt f (start + METADATA_LEN) img, start)) ∧
      (∀ e ∈ byteEffects pre start, start + METADATA_LEN ≤ e.1) ∧
      ((metadataText nn counts sizes).length ≤ METADATA_LEN →
        ∃ p', Runs (writeIndex L) start p' (pre ++ [.write (padMetadata (metadataText nn counts sizes))]) (some ())) ∧
      (¬ (metadataText nn counts sizes).length ≤ METADATA_LEN → Runs (writeIndex L) start start pre none) := by
  obtain ⟨ops, r1, r2, r3⟩ := he
  refine ⟨[.seek start] ++ ([.seek (start + METADATA_LEN)] ++ ([] ++ ([] ++ (ops ++ ([.seek start] ++ []))))),
    ⟨[.seek start, .seek (start + METADATA_LEN)] ++ ops, by simp⟩, ?_, ?_, ?_, ?_⟩
  · intro f
    simp only [List.nil_append, List.singleton_append, runOps, runOps_append, r2]
  · simp only [List.nil_append, List.singleton_append, byteEffects]
    rw [byteEffects_append _ _ _ []]
    simp only [byteEffects, List.append_nil]
    exact r3
  · intro hfit
    refine ⟨start + (padMetadata (metadataText nn counts sizes)).length, ?_⟩
    have : [IoOp.seek start] ++ ([.seek (start + METADATA_LEN)] ++ ([] ++ ([] ++ (ops ++ ([.seek start] ++ []))))) ++
        [.write (padMetadata (metadataText nn counts sizes))] =
        [.seek start] ++ ([.seek (start + METADATA_LEN)] ++ ([] ++ ([] ++ (ops ++ ([.seek start] ++ ([] ++
          [.write (padMetadata (metadataText nn counts sizes))])))))) := by simp
    rw [this]
    unfold writeIndex
    refine (Runs.tell _).bind ?_
    refine (Runs.seekTo _ _).bind ?_
    refine (Runs.ofOption hnn _).bind ?_
    refine (Runs.ofOption hc _).bind ?_
    refine r1.bind ?_
    refine (Runs.seekTo _ _).bind ?_
    refine (Runs.assert (by simpa using hfit) _).bind ?_
    exact Runs.write _ _
  · intro hfit
    unfold writeIndex
    refine (Runs.tell _).bind ?_
    refine (Runs.seekTo _ _).bind ?_
    refine (Runs.ofOption hnn _).bind ?_
    refine (Runs.ofOption hc _).bind ?_
    refine r1.bind ?_
    refine (Runs.seekTo _ _).bind ?_
    exact (Runs.assert_false (by simpa using hfit) _).bind_none

theorem padMetadata_length {t : Bytes} (h : t.length ≤ METADATA_LEN) : (padMetadata t).length = METADATA_LEN := by
  simp only [padMetadata, List.length_append, List.length_replicate]; omega

/-- What `write_index` does to a file. -/
theorem saveIndex_eq {L : Layers} {start nn : Nat} {counts sizes : List Nat} {img : Bytes}
    (hnn : L.numNeighbors = some nn) (hc : L.counts = some counts)
    (he : Emits (writeLayers L) (start + METADATA_LEN) img sizes) (f : Bytes) :
    ((metadataText nn counts sizes).length ≤ METADATA_LEN →
      saveIndex L f start = (writeAt f start (padMetadata (metadataText nn counts sizes) ++ img), true)) ∧
    (¬ (metadataText nn counts sizes).length ≤ METADATA_LEN →
      saveIndex L f start = (writeAt f (start + METADATA_LEN) img, false)) := by
  obtain ⟨pre, _, h1, _, h3, h4⟩ := writeIndex_runs hnn hc he
  constructor
  · intro hfit
    obtain ⟨p', hr⟩ := h3 hfit
    have hpl := padMetadata_length hfit
    unfold saveIndex
    rw [hr []]
    simp only [List.nil_append, runOps_append, h1, runOps, Option.isSome_some]
    rw [← hpl, writeAt_backfill]
    intro hcon
    rw [hcon] at hpl
    simp [METADATA_LEN] at hpl
  · intro hfit
    unfold saveIndex
    rw [h4 hfit []]
    simp [h1]

/-- Reading back what was written. -/
theorem loadLayers_written {vs : List SetVec} {lists : List (List (List Nat))} (hv : List.Forall₂ HoldsLists vs lists)
    {nn : Nat} {rest : Bytes}
    (hfit : (metadataText nn (lists.map List.length) ((vs.map SetVec.toBytes).map List.length)).length ≤ METADATA_LEN)
    (hsz : (padMetadata (metadataText nn (lists.map List.length) ((vs.map SetVec.toBytes).map List.length)) ++
      (vs.map SetVec.toBytes).flatten).length < 2 ^ 64) :
    loadLayers (padMetadata (metadataText nn (lists.map List.length) ((vs.map SetVec.toBytes).map List.length)) ++
      (vs.map SetVec.toBytes).flatten ++ rest) = some vs := by
  have hpl := padMetadata_length hfit
  rw [List.length_append, hpl] at hsz
  have hst : ∀ v ∈ vs, ∃ bs, Stored v bs := by
    intro v hvm
    obtain ⟨l, hl⟩ := forall₂_right hv hvm
    exact ⟨_, hl.stored⟩
  unfold loadLayers
  rw [List.append_assoc, readLayerSizes_metadata hfit]
  · simp only
    rw [← hpl, ← List.append_assoc]
    exact loadFrom_stored hst _ _ (by omega)
  · have h1 := printNums_length (lists.map List.length)
    have h2 : (printNums (lists.map List.length)).length ≤ (metadataText nn (lists.map List.length)
        ((vs.map SetVec.toBytes).map List.length)).length := by
      simp only [metadataText, List.length_append]; omega
    rw [METADATA_LEN] at hfit
    omega
  · intro n hn
    obtain ⟨l, hl, rfl⟩ := List.mem_map.1 hn
    have := forall₂_left hv hl
    obtain ⟨v, hvm, hv'⟩ := this
    have hb := hv'.length_le
    have := length_le_flatten (List.mem_map_of_mem (f := SetVec.toBytes) hvm)
    omega
  · intro n hn
    obtain ⟨b, hb, rfl⟩ := List.mem_map.1 hn
    have := length_le_flatten hb
    omega

/-! ### Histories of an index -/

theorem SetVec.pushAll_stored {v v' : SetVec} {bs : List Bytes} (h : Stored v bs) {ls : List (List Nat)}
    (hp : v.pushAll ls = some v') : Stored v' (bs ++ ls.map encList) := by
  induction ls generalizing v bs with
  | nil => cases hp; simpa using h
  | cons l t ih =>
    rw [SetVec.pushAll] at hp
    obtain ⟨w, e1, e2⟩ := h.repr.pushRaw (setEncode_short (sortIds l))
    have e1' : v.push l = some w := e1
    rw [e1'] at hp
    have hst : Stored w (bs ++ [encList l]) := by
      refine ⟨e2, ?_⟩
      unfold SetVec.pushRaw at e1
      rcases Option.eq_none_or_eq_some (v.offsets.push (v.data ++ setEncode (sortIds l)).length) with hn | ⟨o, ho⟩
      · rw [hn] at e1; cases e1
      · simp only [ho, Option.map_some, Option.some.injEq] at e1
        subst e1
        exact Offsets.push_initial ho (fun c hc => le_trans (h.initial c hc) (by simp)) (Nat.le_refl _)
    have := ih hst hp
    simpa using this

theorem SetVec.new_stored : Stored SetVec.new [] := ⟨SetRepr.new, by decide⟩

/-- Reading node 0 of an empty compressed layer panics. -/
theorem HoldsLists.get_empty {v : SetVec} (h : HoldsLists v []) : v.get 0 = none := by
  have ho := h.stored.repr.offsets
  have hd := h.stored.repr.data
  simp only [List.map_nil, ends, List.flatten_nil] at ho hd
  have hlen := ho.chunks (by simp)
  obtain ⟨up, la, l, e1, e2, e3, e4, e5⟩ := ho.lastChunk (by simp)
  have hup : up = [] := by
    rw [e1] at hlen; simp at hlen; exact hlen
  subst hup
  rw [List.nil_append] at e1
  have hl1 : l.length = 1 := by
    have := e2.len
    have := List.length_pos_iff.2 e3
    simp at e4; omega
  obtain ⟨x, rfl⟩ := List.length_eq_one_iff.1 hl1
  obtain rfl : x = 0 := by simpa using e5
  unfold SetVec.get SetVec.getRaw Offsets.getConsecutive OFFSETS_PER_CHUNK
  rw [if_neg (by decide), e1, Nat.zero_div]
  simp only [List.getElem?_cons_zero]
  unfold Chunk.getConsecutive OFFSETS_PER_CHUNK
  rw [if_pos (by decide), e2.get (i := 0 % 60) (x := 0) (by simp)]
  have : la.deltas[0 % 60 + 1]? = some 65535 := by
    rw [e2.deltas]; simp [deltaEncodeFrom, UNUSED_DELTA]
  rw [this]
  simp [hd]

theorem HasLists.last_none {L : Layers} {lists : List (List (List Nat))} (h : HasLists L lists)
    (hl : lists.getLast? = none) : L.numNeighbors = some 0 := by
  obtain rfl := List.getLast?_eq_none_iff.1 hl
  generalize hx : ([] : List (List (List Nat))) = x at h
  cases h with
  | fix ls _ _ =>
    obtain rfl : ls = [] := by simpa using hx.symm
    rfl
  | comp vs lists h => subst hx; cases h; rfl

theorem forall₂_getLast? {α β : Type} {R : α → β → Prop} {l : List α} {m : List β} (h : List.Forall₂ R l m) {b : β}
    (hb : m.getLast? = some b) : ∃ a, l.getLast? = some a ∧ R a b := by
  induction h with
  | nil => simp at hb
  | @cons x y l m hxy hlm ih =>
    cases hlm with
    | nil => simp at hb; subst hb; exact ⟨x, by simp, hxy⟩
    | cons h1 h2 =>
      rw [List.getLast?_cons_cons] at hb ⊢
      exact ih hb

/-- The number of neighbors recorded in the metadata: those of the first node of the last layer. -/
theorem HasLists.last_some {L : Layers} {lists : List (List (List Nat))} (h : HasLists L lists) {g : List (List Nat)}
    (hl : lists.getLast? = some g) :
    (∀ us, L = .compressed us → L.numNeighbors = (g[0]?).map fun l => min l.length 255) ∧
    (∀ ls, L = .fixWidth ls → L.numNeighbors = (g[0]?).map List.length) := by
  cases h with
  | fix ls ids padded =>
    refine ⟨(fun us hus => nomatch hus), fun ls' _ => ?_⟩
    rw [List.getLast?_map] at hl
    rcases Option.eq_none_or_eq_some ls.getLast? with hn | ⟨la, hla⟩
    · simp [hn] at hl
    · rw [hla] at hl
      simp only [Option.map_some, Option.some.injEq] at hl
      subst hl
      simp only [Layers.numNeighbors, hla]
      rw [List.getElem?_map]
      rcases Option.eq_none_or_eq_some la.rows[0]? with hn | ⟨row, hrow⟩
      · simp [hn]
      · rw [hrow]
        simp only [Option.map_some, Option.some.injEq]
        rw [(padded la (List.mem_of_getLast? hla) row (List.mem_of_getElem? hrow)).visible]
  | comp vs lists h =>
    refine ⟨fun us _ => ?_, (fun us hus => nomatch hus)⟩
    obtain ⟨v, hv1, hv2⟩ := forall₂_getLast? h hl
    simp only [Layers.numNeighbors, hv1]
    rcases Option.eq_none_or_eq_some g[0]? with hn | ⟨l, hl0⟩
    · rw [hn]
      obtain rfl : g = [] := by cases g with
        | nil => rfl
        | cons a t => simp at hn
      have hlen := hv2.len
      have hg0 : v.get 0 = none := hv2.get_empty
      rw [hg0]; rfl
    · rw [hl0, hv2.get hl0]
      simp [(sortIds_perm l).length_eq, Nat.min_comm]

end Granne

namespace Granne
open Spec

theorem writeIndex_no_neighbors {L : Layers} (h : L.numNeighbors = none) (f : Bytes) (start : Nat) :
    saveIndex L f start = (f, false) := by
  have : Runs (writeIndex L) start (start + METADATA_LEN)
      ([.seek start] ++ ([.seek (start + METADATA_LEN)] ++ [])) none := by
    unfold writeIndex
    refine (Runs.tell _).bind ((Runs.seekTo _ _).bind ?_)
    exact (Runs.ofOption_none h _).bind_none
  unfold saveIndex
  rw [this []]
  simp [runOps]

/-- The metadata text of an index. -/
def metaOf (nn : Nat) (vs : List SetVec) (lists : List (List (List Nat))) : Bytes :=
  metadataText nn (lists.map List.length) ((vs.map SetVec.toBytes).map List.length)

/-- The bytes of a saved index. -/
def imageOf (nn : Nat) (vs : List SetVec) (lists : List (List (List Nat))) : Bytes :=
  padMetadata (metaOf nn vs lists) ++ (vs.map SetVec.toBytes).flatten

theorem imageOf_ne_nil (nn : Nat) (vs : List SetVec) (lists : List (List (List Nat))) : imageOf nn vs lists ≠ [] := by
  have := metadataText_ne_nil nn (lists.map List.length) ((vs.map SetVec.toBytes).map List.length)
  unfold imageOf padMetadata metaOf
  intro hc
  simp only [List.append_eq_nil_iff] at hc
  exact this hc.1.1

/-- Everything about a successful save: what is in the file, and that it loads. -/
theorem save_load {L : Layers} {lists : List (List (List Nat))} (h : HasLists L lists) {f f' : Bytes} {start : Nat}
    (hs : saveIndex L f start = (f', true)) :
    ∃ (vs : List SetVec) (nn : Nat), List.Forall₂ HoldsLists vs lists ∧
      (∀ p, Emits (writeLayers L) p (vs.map SetVec.toBytes).flatten ((vs.map SetVec.toBytes).map List.length)) ∧
      L.numNeighbors = some nn ∧ (metaOf nn vs lists).length ≤ METADATA_LEN ∧
      f' = writeAt f start (imageOf nn vs lists) ∧
      (f'.length < 2 ^ 64 → loadLayers (f'.drop start) = some vs) := by
  rcases Option.eq_none_or_eq_some L.numNeighbors with hn | ⟨nn, hnn⟩
  · rw [writeIndex_no_neighbors hn] at hs; cases hs
  · obtain ⟨vs, h1, h2, h3⟩ := h.emits
    obtain ⟨s1, s2⟩ := saveIndex_eq hnn h.counts (h3 _) f
    by_cases hfit : (metaOf nn vs lists).length ≤ METADATA_LEN
    · have e := s1 hfit
      rw [hs] at e
      simp only [Prod.mk.injEq, and_true] at e
      refine ⟨vs, nn, h1, h3, hnn, hfit, e, fun hlen => ?_⟩
      have hne := imageOf_ne_nil nn vs lists
      have e' : f' = writeAt f start (imageOf nn vs lists) := e
      rw [e', drop_writeAt _ _ _ hne]
      refine loadLayers_written h1 hfit ?_
      rw [e', writeAt_length hne] at hlen
      change (imageOf nn vs lists).length < 2 ^ 64
      omega
    · rw [s2 hfit] at hs; cases hs

theorem _root_.Granne.Spec.IndexState.hasLists {L : Layers} (h : IndexState L) : ∃ lists, HasLists L lists := by
  induction h with
  | built ls h => exact ⟨_, .fix ls (fun l hl row hr => (h l hl row hr).1) fun l hl row hr => (h l hl row hr).2⟩
  | pushed vs lists h =>
    refine ⟨lists, .comp vs lists (h.imp ?_)⟩
    rintro v l ⟨hp, hid⟩
    exact ⟨by simpa using SetVec.pushAll_stored SetVec.new_stored hp, hid⟩
  | loaded L f f' start vs _ hs hl hv ih =>
    obtain ⟨lists, hlists⟩ := ih
    obtain ⟨vs', nn, h1, _, _, _, _, h6⟩ := save_load hlists hs
    have := h6 hl
    rw [hv] at this
    cases this
    exact ⟨lists, .comp _ _ h1⟩

theorem sortIds_of_sorted {l : List Nat} (h : l.Pairwise (· ≤ ·)) : sortIds l = l := by
  unfold sortIds
  exact List.Pairwise.insertionSort_eq h

theorem HasLists.graphs {L : Layers} {lists : List (List (List Nat))} (h : HasLists L lists) :
    (∀ us, L = .compressed us → L.graphs = some (lists.map fun g => g.map fun l => (sortIds l).take 255)) ∧
    (∀ ls, L = .fixWidth ls → L.graphs = some lists) := by
  cases h with
  | fix ls ids padded =>
    refine ⟨(fun us hus => nomatch hus), fun _ _ => ?_⟩
    simp only [Layers.graphs, Option.some.injEq]
    apply List.map_congr_left
    intro l hl
    unfold graphOf
    apply List.map_congr_left
    intro row hrow
    exact ((padded l hl row hrow).visible).symm
  | comp vs lists h =>
    refine ⟨fun us _ => ?_, (fun us hus => nomatch hus)⟩
    exact forall₂_mapM h fun v l hv => hv.graph

/-- The graph after saving and loading, for graphs with at most 255 neighbors per node. -/
theorem loaded_graphs {L : Layers} {lists : List (List (List Nat))} (h : HasLists L lists) {vs : List SetVec}
    (hv : List.Forall₂ HoldsLists vs lists) {gs : List Graph} (hg : L.graphs = some gs)
    (hlen : ∀ g ∈ gs, ∀ l ∈ g, l.length ≤ 255) :
    (Layers.compressed vs).graphs = some (gs.map fun g => g.map sortIds) := by
  have e := (HasLists.comp vs lists hv).graphs.1 vs rfl
  rw [e]
  congr 1
  cases L with
  | fixWidth ls =>
    have := h.graphs.2 ls rfl
    rw [hg] at this
    cases this
    apply List.map_congr_left
    intro g hgm
    apply List.map_congr_left
    intro l hl
    exact List.take_of_length_le (by rw [(sortIds_perm l).length_eq]; exact hlen g hgm l hl)
  | compressed us =>
    have := h.graphs.1 us rfl
    rw [hg] at this
    cases this
    rw [List.map_map]
    apply List.map_congr_left
    intro g hgm
    simp only [Function.comp_apply, List.map_map]
    apply List.map_congr_left
    intro l hl
    exact (sortIds_of_sorted ((sortIds_sorted l).sublist (List.take_sublist _ _))).symm

/-- The recorded number of neighbors is the same for an index and its compressed form. -/
theorem numNeighbors_same {L : Layers} {lists : List (List (List Nat))} (h : HasLists L lists) {vs : List SetVec}
    (hv : List.Forall₂ HoldsLists vs lists) {gs : List Graph} (hg : L.graphs = some gs)
    (hlen : ∀ g ∈ gs, ∀ l ∈ g, l.length ≤ 255) : (Layers.compressed vs).numNeighbors = L.numNeighbors := by
  have hc := HasLists.comp vs lists hv
  rcases Option.eq_none_or_eq_some lists.getLast? with hn | ⟨g, hgl⟩
  · rw [h.last_none hn, hc.last_none hn]
  · rw [(hc.last_some hgl).1 vs rfl]
    cases L with
    | compressed us => rw [(h.last_some hgl).1 us rfl]
    | fixWidth ls =>
      rw [(h.last_some hgl).2 ls rfl]
      have := h.graphs.2 ls rfl
      rw [hg] at this
      cases this
      rcases Option.eq_none_or_eq_some g[0]? with hn0 | ⟨l, hl⟩
      · rw [hn0]; rfl
      · rw [hl]
        simp only [Option.map_some, Option.some.injEq]
        have := hlen g (List.mem_of_getLast? hgl) l (List.mem_of_getElem? hl)
        omega

/-! ### Crashes -/

theorem applyBytes_low {q : Nat} {E : List (Nat × UInt8)} (h : ∀ e ∈ E, q ≤ e.1) {f : Bytes}
    (hf : ∀ i < q, f[i]? = none ∨ f[i]? = some 0) : ∀ i < q, (applyBytes f E)[i]? = none ∨ (applyBytes f E)[i]? = some 0 := by
  induction E generalizing f with
  | nil => exact hf
  | cons e t ih =>
    intro i hi
    refine ih (fun e he => h e (by simp [he])) ?_ i hi
    intro i hi
    have := h e (by simp)
    rw [writeAt_getElem? (by simp), if_pos (by omega)]
    split
    · exact hf i hi
    · right; rfl

theorem take_range_map (b : Bytes) (p m : Nat) :
    ((List.range b.length).map fun i => (p + i, b.getD i 0)).take m =
      (List.range (b.take m).length).map fun i => (p + i, (b.take m).getD i 0) := by
  rw [← List.map_take, List.take_range, List.length_take]
  apply List.map_congr_left
  intro i hi
  have := List.mem_range.1 hi
  simp [List.getElem?_take_of_lt (show i < m by omega)]

/-- A buffer whose first six bytes are missing or zero is not an index. -/
theorem readLayerSizes_low {f : Bytes} (h : ∀ i < 6, f[i]? = none ∨ f[i]? = some 0) : readLayerSizes f = none := by
  unfold readLayerSizes
  simp only
  rw [if_neg]
  intro hc
  have h0 := congrArg (fun l : Bytes => l[0]?) hc
  have h103 : (asc "granne")[0]? = some 103 := by decide +kernel
  simp only [h103, METADATA_LEN] at h0
  rw [List.getElem?_take_of_lt (by omega), List.getElem?_take_of_lt (by omega)] at h0
  rcases h 0 (by omega) with h | h
  · rw [h] at h0; cases h0
  · rw [h] at h0; exact absurd h0 (by decide)

/-- A buffer with a zero byte among the first 1024 is not an index. -/
theorem readLayerSizes_nul {f : Bytes} {i : Nat} (hi : i < 1024) (h : f[i]? = some 0) : readLayerSizes f = none := by
  unfold readLayerSizes
  simp only
  have h1 : (f.take METADATA_LEN)[i]? = some 0 := by rw [List.getElem?_take_of_lt (by simpa [METADATA_LEN] using hi), h]
  generalize f.take METADATA_LEN = b at h1
  split
  · next hg =>
    have hi6 : 6 ≤ i := by
      by_contra hlt
      have h2 : (b.take 6)[i]? = some 0 := by rw [List.getElem?_take_of_lt (by omega), h1]
      rw [hg] at h2
      have hmem := List.mem_of_getElem? h2
      exact absurd hmem (by decide +kernel)
    rcases Option.eq_none_or_eq_some (parseJson (b.drop 6)) with hn | ⟨v, hv⟩
    · rw [hn]
    · exfalso
      refine parseJson_no_nul hv (List.mem_of_getElem? (i := i - 6) ?_)
      rw [List.getElem?_drop, show 6 + (i - 6) = i by omega, h1]
  · rfl

theorem loadLayers_none {f : Bytes} (h : readLayerSizes f = none) : loadLayers f = none := by
  unfold loadLayers; rw [h]

/-- The metadata of an index without layers is not read back from any proper part. -/
theorem empty_prefix_rejected : ∀ m < (metadataText 0 [] []).length, readLayerSizes ((metadataText 0 [] []).take m) = none := by
  intro m hm
  have hlen : (metadataText 0 [] []).length < 1024 := by decide +kernel
  unfold readLayerSizes
  simp only
  rw [show ((metadataText 0 [] []).take m).take METADATA_LEN = (metadataText 0 [] []).take m by
    rw [List.take_take, show min METADATA_LEN m = m by unfold METADATA_LEN; omega]]
  split
  · next h6 =>
    rcases Option.eq_none_or_eq_some (parseJson (((metadataText 0 [] []).take m).drop 6)) with hn | ⟨v, hv⟩
    · rw [hn]
    exfalso
    -- a text that begins an object would have to close it
    have h125 : (125 : UInt8) ∉ ((metadataText 0 [] []).take m).drop 6 := by
      intro hc
      have hc' : (125 : UInt8) ∈ (metadataText 0 [] []).take ((metadataText 0 [] []).length - 1) :=
        List.mem_of_mem_take (i := m) (by
          rw [List.take_take, show min m ((metadataText 0 [] []).length - 1) = m by omega]
          exact List.mem_of_mem_drop hc)
      exact absurd hc' (by decide +kernel)
    have h123 : ∀ x, (((metadataText 0 [] []).take m).drop 6).head? = some x → x = 123 := by
      intro x hx
      rw [List.head?_drop] at hx
      have h6m : 6 < m := by
        by_contra hc
        rw [List.getElem?_take_eq_none (by omega)] at hx
        cases hx
      rw [List.getElem?_take_of_lt h6m] at hx
      have : (metadataText 0 [] [])[6]? = some 123 := by decide +kernel
      rw [this] at hx
      exact (Option.some.inj hx).symm
    obtain ⟨w, c, w', h1, h2, h3, e⟩ := (parseJson_iff _ v).1 hv
    rw [e] at h125 h123
    simp only [List.mem_append, not_or] at h125
    obtain ⟨x, t, rfl, hx, _⟩ := jsonValue_head h2
    cases w with
    | cons y w =>
      have hy := h123 y (by simp)
      subst hy
      exact absurd (h1 123 (by simp)) (by decide)
    | nil =>
      have hx := h123 x (by simp)
      subst hx
      cases h2 with
      | number _ _ _ hn =>
        obtain ⟨c, t, e, hc⟩ := jsonNumber_head hn
        rw [List.cons.injEq] at e
        rw [← e.1] at hc
        exact absurd hc (by decide)
      | emptyObject => simp at h125
      | object => simp at h125
  · rfl

end Granne
