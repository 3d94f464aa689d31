import Verif.Spec.Json
import Verif.Props.Storage

/-!
C70: the header of an index file. What is written is ordinary JSON that describes the index; what is accepted is exactly
a JSON object with the three members that are needed.
-/
namespace Granne
open Spec

/-! ### JSON texts -/

/-- A text is not the text of two values. -/
theorem C70_unambiguous (d d' : Nat) (v v' : Json) (b : Bytes) (h : JsonText d v b) (h' : JsonText d' v' b) : v = v' := by
  have key : ∀ (d e : Nat) (v : Json), d ≤ e → JsonText d v b → ∃ r, parseValue (b.length + 1) (e + 1) b = some (v, r) := by
    rintro d e v hd ⟨w, c, w', h1, h2, h3, rfl⟩
    refine ⟨w', (parse_complete c.length).1 e v c (Nat.le_refl _) (h2.mono hd) _ w w' (by simp; omega) h1 ?_⟩
    simpa using endsNumber_blank h3 endsNumber_nil
  obtain ⟨r, h1⟩ := key d (max d d') v (by omega) h
  obtain ⟨r', h2⟩ := key d' (max d d') v' (by omega) h'
  rw [h1] at h2
  exact (Prod.mk.inj (Option.some.inj h2)).1

/-! ### What is accepted -/

theorem lastMember_field {members : List (Bytes × Json)} {key : Bytes} {v : Json} (h : LastMember members key v) :
    (Json.obj members).field key = v := by
  obtain ⟨pre, post, rfl, h2⟩ := h
  unfold Json.field
  simp only
  have : (pre ++ (key, v) :: post).reverse.find? (fun p => p.1 == key) = some (key, v) := by
    rw [List.find?_eq_some_iff_append]
    refine ⟨by simp, post.reverse, pre.reverse, by simp, fun p hp => ?_⟩
    simpa using h2 p (List.mem_reverse.1 hp)
  rw [this]

theorem toUsizes_nums {l : List Nat} (h : ∀ n ∈ l, n < 2 ^ 64) : (Json.arr (l.map Json.num)).toUsizes = some l := by
  rw [Json.toUsizes, mapM_map_some]
  intro n hn
  rw [Json.toUsize, if_pos (h n hn)]

theorem readLayerSizes_iff (buffer : Bytes) (sizes : List Nat) :
    readLayerSizes buffer = some sizes ↔ ∃ counts, counts.length < 2 ^ 64 ∧ IndexHeader (buffer.take 1024) counts sizes := by
  have e6 : (asc "granne").length = 6 := by decide +kernel
  constructor
  · intro h1
    unfold readLayerSizes at h1
    simp only at h1
    split at h1
    · next hm =>
      split at h1
      · cases h1
      · next metadata hj =>
        split at h1
        · next k counts hk hc =>
          split at h1
          · next he =>
            subst he
            obtain ⟨c1, c2⟩ := toUsizes_some hc
            obtain ⟨s1, s2⟩ := toUsizes_some h1
            have hk' : metadata.field (asc "num_layers") = .num counts.length ∧ counts.length < 2 ^ 64 := by
              generalize metadata.field (asc "num_layers") = x at hk
              cases x with
              | num n =>
                rw [Json.toUsize] at hk
                split at hk
                · next hlt => rw [← Option.some.inj hk]; exact ⟨rfl, hlt⟩
                · cases hk
              | _ => cases hk
            obtain ⟨m, rfl, l1⟩ := field_lastMember c1 (by simp)
            obtain ⟨m', e, l2⟩ := field_lastMember s1 (by simp)
            obtain rfl := Json.obj.inj e
            obtain ⟨m'', e, l3⟩ := field_lastMember hk'.1 (by simp)
            obtain rfl := Json.obj.inj e
            refine ⟨counts, hk'.2, (buffer.take 1024).drop 6, m, ?_, (parseJson_iff _ _).1 hj, l3, l1, l2, ?_⟩
            · have : (buffer.take 1024).take 6 = asc "granne" := hm
              rw [← this, List.take_append_drop]
            · intro n hn
              rcases List.mem_append.1 hn with hn | hn
              · exact c2 n hn
              · exact s2 n hn
          · cases h1
        · cases h1
    · cases h1
  · rintro ⟨counts, hlen, text, members, e, hj, l1, l2, l3, hlt⟩
    unfold readLayerSizes
    simp only
    rw [show buffer.take METADATA_LEN = asc "granne" ++ text from e, List.take_left' e6, List.drop_left' e6, if_pos rfl,
      (parseJson_iff _ _).2 hj]
    simp only
    rw [lastMember_field l1, lastMember_field l2, lastMember_field l3, toUsizes_nums fun n hn => hlt n (by simp [hn]),
      toUsizes_nums fun n hn => hlt n (by simp [hn]), Json.toUsize, if_pos hlen]
    simp

/-- The layers lie one after the other. -/
theorem loadFrom_iff (buffer : Bytes) (sizes : List Nat) (start : Nat) (vs : List SetVec) :
    loadFrom buffer start sizes = some vs ↔ ∃ pieces : List Bytes, pieces.map List.length = sizes ∧
      (pieces ≠ [] → start ≤ buffer.length) ∧ (∃ rest, buffer.drop start = pieces.flatten ++ rest) ∧
      List.Forall₂ (fun p v => SetVec.ofBytes p = some v) pieces vs := by
  induction sizes generalizing start vs with
  | nil =>
    rw [loadFrom]
    constructor
    · intro h
      obtain rfl := Option.some.inj h
      exact ⟨[], rfl, by simp, ⟨_, rfl⟩, .nil⟩
    · rintro ⟨pieces, h1, _, _, h3⟩
      obtain rfl := List.map_eq_nil_iff.1 h1
      cases h3; rfl
  | cons size sizes ih =>
    rw [loadFrom]
    constructor
    · intro h
      split at h
      · next hle =>
        split at h
        · cases h
        · next v hv =>
          rcases Option.eq_none_or_eq_some (loadFrom buffer (start + size) sizes) with hn | ⟨us, hus⟩
          · rw [hn] at h; cases h
          · rw [hus] at h
            obtain rfl := Option.some.inj h
            obtain ⟨pieces, h1, _, ⟨rest, h2⟩, h3⟩ := (ih _ _).1 hus
            refine ⟨(buffer.drop start).take size :: pieces, ?_, fun _ => by omega, ⟨rest, ?_⟩, .cons hv h3⟩
            · rw [List.map_cons, h1, List.length_take, List.length_drop, Nat.min_eq_left (by omega)]
            · rw [List.flatten_cons, List.append_assoc, ← h2, ← List.drop_drop, List.take_append_drop]
      · cases h
    · rintro ⟨pieces, h1, h0, ⟨rest, h2⟩, h3⟩
      cases pieces with
      | nil => cases h1
      | cons p pieces =>
        rw [List.map_cons, List.cons.injEq] at h1
        obtain ⟨rfl, h1⟩ := h1
        cases h3 with
        | cons hv h3 =>
          next v us =>
          rw [List.flatten_cons, List.append_assoc] at h2
          have h0 := h0 (by simp)
          have hl := congrArg List.length h2
          simp only [List.length_drop, List.length_append] at hl
          rw [if_pos (by omega), h2, List.take_left, hv]
          simp only
          rw [(ih (start + p.length) us).2 ⟨pieces, h1, fun _ => by omega, ⟨rest, ?_⟩, h3⟩]
          · rfl
          · rw [← List.drop_drop, h2, List.drop_left]

/-- C70. A file is accepted exactly if its first 1024 bytes (all, if it is shorter) are the name of the library and a JSON object,
nested at most 127 deep, whose members `num_layers`, `layer_counts` and `layer_sizes` are what they should be, and layers of
these sizes follow (`SetVec.ofBytes` takes the bytes of a layer apart, see C11 and C33). Anything may follow after the layers. -/
theorem C70_accepted_iff (buffer : Bytes) (vs : List SetVec) :
    loadLayers buffer = some vs ↔ ∃ (counts sizes : List Nat) (layers : List Bytes), counts.length < 2 ^ 64 ∧
      IndexHeader (buffer.take 1024) counts sizes ∧ layers.map List.length = sizes ∧ (layers ≠ [] → 1024 ≤ buffer.length) ∧
      (∃ rest, buffer.drop 1024 = layers.flatten ++ rest) ∧ List.Forall₂ (fun p v => SetVec.ofBytes p = some v) layers vs := by
  unfold loadLayers
  constructor
  · intro h
    split at h
    · cases h
    · next sizes hs =>
      obtain ⟨counts, h1, h2⟩ := (readLayerSizes_iff _ _).1 hs
      obtain ⟨pieces, h3, h4⟩ := (loadFrom_iff _ _ _ _).1 h
      exact ⟨counts, sizes, pieces, h1, h2, h3, h4⟩
  · rintro ⟨counts, sizes, pieces, h1, h2, h3, h4⟩
    rw [(readLayerSizes_iff _ _).2 ⟨counts, h1, h2⟩]
    exact (loadFrom_iff _ _ _ _).2 ⟨pieces, h3, h4⟩

/-- C70. Of the header only the sizes of the layers matter for what is loaded: another header with the same `layer_sizes`, whatever
else it says and however it is written, gives the same index. -/
theorem C70_only_sizes_matter (buffer buffer' : Bytes) (counts counts' sizes : List Nat)
    (hc : counts.length < 2 ^ 64) (hc' : counts'.length < 2 ^ 64)
    (h : IndexHeader (buffer.take 1024) counts sizes) (h' : IndexHeader (buffer'.take 1024) counts' sizes)
    (hlen : 1024 ≤ buffer.length) (hlen' : 1024 ≤ buffer'.length) (hrest : buffer.drop 1024 = buffer'.drop 1024) :
    loadLayers buffer = loadLayers buffer' := by
  have key : ∀ vs, loadLayers buffer = some vs ↔ loadLayers buffer' = some vs := by
    intro vs
    unfold loadLayers
    rw [(readLayerSizes_iff _ _).2 ⟨counts, hc, h⟩, (readLayerSizes_iff _ _).2 ⟨counts', hc', h'⟩]
    simp only [METADATA_LEN]
    rw [loadFrom_iff, loadFrom_iff, hrest]
    constructor
    · rintro ⟨p, h1, _, h3⟩; exact ⟨p, h1, fun _ => hlen', h3⟩
    · rintro ⟨p, h1, _, h3⟩; exact ⟨p, h1, fun _ => hlen, h3⟩
  rcases Option.eq_none_or_eq_some (loadLayers buffer') with h1 | ⟨vs, h1⟩
  · rcases Option.eq_none_or_eq_some (loadLayers buffer) with h2 | ⟨us, h2⟩
    · rw [h1, h2]
    · rw [(key us).1 h2] at h1; cases h1
  · rw [h1, (key vs).2 h1]

/-- C70. A file is refused if a member that is needed is missing or is not what it should be: a number below `2^64`, an array of such
numbers, and as many layers as there are numbers of elements. Likewise if the header is not an object at all. -/
theorem C70_refused (buffer text : Bytes) (d : Nat) (v : Json) (hb : buffer.take 1024 = asc "granne" ++ text) (hj : JsonText d v text)
    (hbad : (∀ members, v ≠ .obj members) ∨ ∃ members, v = .obj members ∧
      ((∀ n < 2 ^ 64, ¬ LastMember members (asc "num_layers") (.num n)) ∨
      (∃ key ∈ [asc "layer_counts", asc "layer_sizes"], ∀ l : List Nat, (∀ n ∈ l, n < 2 ^ 64) → ¬ LastMember members key (.arr (l.map .num))) ∨
      (∃ (n : Nat) (l : List Nat), n ≠ l.length ∧ LastMember members (asc "num_layers") (.num n) ∧
        LastMember members (asc "layer_counts") (.arr (l.map .num))))) :
    loadLayers buffer = none := by
  rcases Option.eq_none_or_eq_some (loadLayers buffer) with h | ⟨vs, h⟩
  · exact h
  exfalso
  obtain ⟨counts, sizes, _, hc, ⟨text', members, e, hj', l1, l2, l3, hlt⟩, _⟩ := (C70_accepted_iff buffer vs).1 h
  rw [hb] at e
  obtain rfl := List.append_cancel_left e
  obtain rfl := C70_unambiguous _ _ _ _ _ hj hj'
  rcases hbad with hbad | ⟨m, hm, hbad⟩
  · exact hbad members rfl
  obtain rfl := Json.obj.inj hm
  rcases hbad with hbad | ⟨key, hk, hbad⟩ | ⟨n, l, hne, m1, m2⟩
  · exact hbad _ hc l1
  · simp only [List.mem_cons, List.not_mem_nil, or_false] at hk
    rcases hk with rfl | rfl
    · exact hbad counts (fun n hn => hlt n (by simp [hn])) l2
    · exact hbad sizes (fun n hn => hlt n (by simp [hn])) l3
  · have e1 := (lastMember_field l1).symm.trans (lastMember_field m1)
    have e2 := (lastMember_field l2).symm.trans (lastMember_field m2)
    simp only [Json.num.injEq] at e1
    simp only [Json.arr.injEq] at e2
    have := congrArg List.length e2
    simp only [List.length_map] at this
    omega

/-! ### What is written -/

theorem forall₂_source {α β : Type} {R : α → β → Prop} {l : List α} {m : List β} (h : List.Forall₂ R l m) {i : Nat} {b : β}
    (hb : m[i]? = some b) : ∃ a, l[i]? = some a ∧ R a b := by
  induction h generalizing i with
  | nil => simp at hb
  | cons hab _ ih =>
    cases i with
    | zero => simp only [List.getElem?_cons_zero, Option.some.injEq] at hb; subst hb; exact ⟨_, rfl, hab⟩
    | succ i => simpa using ih (by simpa using hb)

/-- C70. The header of a saved index is a JSON text, padded with blanks to 1024 bytes, from which any JSON reader learns the number of
layers, the number of elements in each and altogether, and the size of each layer in bytes. (`num_neighbors` is the number of
neighbors of the first element, not the maximum the index was built with.) -/
theorem C70_saved_header (L : Layers) (hL : IndexState L) (gs : List (List (List Nat))) (hg : L.graphs = some gs)
    (f f' : Bytes) (start : Nat) (hs : saveIndex L f start = (f', true)) :
    ∃ (text : Bytes) (sizes : List Nat) (nn : Nat), (f'.drop start).take 1024 = asc "granne" ++ text ∧ text.length = 1018 ∧
      JsonText 2 (.obj [(asc "compressed", .bool true), (asc "granne_version", .str (asc "0.5.2")),
        (asc "layer_counts", .arr (gs.map fun g => .num g.length)), (asc "layer_sizes", .arr (sizes.map .num)),
        (asc "num_elements", .num ((gs.getLast?.map List.length).getD 0)), (asc "num_layers", .num gs.length),
        (asc "num_neighbors", .num nn), (asc "version", .num 2)]) text ∧
      sizes.length = gs.length ∧ start + 1024 + sizes.sum ≤ f'.length ∧ (f = [] → f'.length = start + 1024 + sizes.sum) ∧
      (gs = [] → nn = 0) ∧ (∀ g row, gs.getLast? = some g → g[0]? = some row → nn = row.length) := by
  obtain ⟨lists, h⟩ := hL.hasLists
  obtain ⟨vs, nn, h1, _, hnn, hfit, hf, _⟩ := save_load h hs
  have hne := imageOf_ne_nil nn vs lists
  have hpl : (padMetadata (metaOf nn vs lists)).length = 1024 := by
    simp only [padMetadata, List.length_append, List.length_replicate]
    unfold METADATA_LEN at hfit ⊢
    omega
  have hlens : gs.map List.length = lists.map List.length := by
    cases L with
    | fixWidth ls => have := h.graphs.2 ls rfl; rw [hg] at this; rw [Option.some.inj this]
    | compressed us =>
      have := h.graphs.1 us rfl
      rw [hg] at this
      rw [Option.some.inj this, List.map_map]
      apply List.map_congr_left
      intro g _
      simp
  have hll : gs.length = lists.length := by simpa using congrArg List.length hlens
  have hsum : (vs.map SetVec.toBytes).flatten.length = ((vs.map SetVec.toBytes).map List.length).sum := List.length_flatten
  have h6 : 6 ≤ (metaOf nn vs lists).length := by
    have h3 : 6 ≤ (asc "{\"compressed\":true,\"granne_version\":\"0.5.2\",\"layer_counts\":").length := by decide +kernel
    simp only [metaOf, metadataText, List.length_append]; omega
  have himg : (imageOf nn vs lists).length = 1024 + ((vs.map SetVec.toBytes).map List.length).sum := by
    rw [imageOf, List.length_append, hpl, hsum]
  refine ⟨(padMetadata (metaOf nn vs lists)).drop 6, (vs.map SetVec.toBytes).map List.length, nn, ?_, ?_, ?_, ?_, ?_, ?_, ?_, ?_⟩
  · rw [hf, drop_writeAt _ _ _ hne, imageOf, List.append_assoc, List.take_left' hpl]
    have hm : (padMetadata (metaOf nn vs lists)).take 6 = asc "granne" := by
      rw [padMetadata, metaOf, metadataText_eq, List.append_assoc]
      exact List.take_left' (by decide +kernel)
    rw [← hm, List.take_append_drop]
  · rw [List.length_drop, hpl]
  · have hv := value_metadata nn (lists.map List.length) ((vs.map SetVec.toBytes).map List.length)
    have e1 : gs.map (fun g => Json.num g.length) = (lists.map List.length).map Json.num := by
      rw [← hlens, List.map_map]; rfl
    have e2 : (gs.getLast?.map List.length).getD 0 = (lists.map List.length).getLast?.getD 0 := by
      rw [← hlens, List.getLast?_map]
    have e3 : gs.length = (lists.map List.length).length := by rw [List.length_map, hll]
    rw [e1, e2, e3]
    refine ⟨[], (metaOf nn vs lists).drop 6, List.replicate (1024 - (metaOf nn vs lists).length) 32, isBlank_nil, hv,
      isBlank_blanks _, ?_⟩
    rw [padMetadata, List.drop_append_of_le_length h6]
    rfl
  · rw [List.length_map, List.length_map, h1.length_eq, hll]
  · rw [hf, writeAt_length hne, himg]
    omega
  · rintro rfl
    rw [hf, writeAt_length hne, himg]
    simp
    omega
  · rintro rfl
    cases L with
    | fixWidth ls =>
      obtain rfl : ls = [] := by simpa [Layers.graphs] using hg
      exact (Option.some.inj hnn).symm
    | compressed us =>
      have : us = [] := by
        cases us with
        | nil => rfl
        | cons u us =>
          exfalso
          cases mapM_some hg
      subst this
      exact (Option.some.inj hnn).symm
  · intro g row hlast hrow
    cases L with
    | fixWidth ls =>
      simp only [Layers.graphs, Option.some.injEq] at hg
      subst hg
      rw [List.getLast?_map, Option.map_eq_some_iff] at hlast
      obtain ⟨l, hl, rfl⟩ := hlast
      simp only [Layers.numNeighbors, hl] at hnn
      rw [graphOf, List.getElem?_map] at hrow
      rcases Option.eq_none_or_eq_some l.rows[0]? with hr | ⟨r, hr⟩
      · rw [hr] at hrow; cases hrow
      · rw [hr] at hrow hnn
        obtain rfl := Option.some.inj hrow
        exact (Option.some.inj hnn).symm
    | compressed us =>
      have hf2 := mapM_some hg
      obtain ⟨u, hu, hgu⟩ : ∃ u, us.getLast? = some u ∧ u.graph = some g := by
        rw [List.getLast?_eq_getElem?] at hlast ⊢
        rw [hf2.length_eq]
        exact forall₂_source hf2 hlast
      simp only [Layers.numNeighbors, hu] at hnn
      unfold SetVec.graph at hgu
      split at hgu
      · cases hgu
      · next n _ =>
        obtain ⟨x, hx, hr⟩ := forall₂_source (mapM_some hgu) hrow
        obtain rfl : x = 0 := by
          rw [List.getElem?_range] at hx
          · exact (Option.some.inj hx).symm
          · by_contra hc
            rw [List.getElem?_eq_none (by simpa using hc)] at hx
            cases hx
        rw [hr] at hnn
        exact (Option.some.inj hnn).symm

/-! ### A concrete case -/

/-- The index of C06, saved. -/
def exHeaderFile : Bytes := (saveIndex exStored [] 0).1

/-- Another header for it: other order, white space, an escape in a key, other members, a member that comes twice. -/
def exHeader : Bytes := asc ("granne\n{ \"layer_sizes\" : [ 146 ,\t164 ],\n \"num\\u005flayers\" : 7, \"layer_counts\" : [] , " ++
  "\"comment\" : {\"a\" : [1.5e3, null, -1, \"\\\"\"]}, \"num_layers\":2,\"layer_counts\":[0,99]}")

/-- The file with that header. -/
def exHeaderFile' : Bytes := padMetadata exHeader ++ exHeaderFile.drop 1024

theorem exHeader_sizes : readLayerSizes exHeaderFile = some [146, 164] ∧ readLayerSizes exHeaderFile' = some [146, 164] := by
  decide +kernel

theorem exHeader_lengths : exHeaderFile.length = 1334 ∧ exHeaderFile'.length = 1334 ∧
    exHeaderFile.drop 1024 = exHeaderFile'.drop 1024 := by decide +kernel

/-- The hypotheses of `C70_only_sizes_matter` can be met: the saved file and the one with the other header. -/
example : loadLayers exHeaderFile = loadLayers exHeaderFile' := by
  obtain ⟨c, h1, h2⟩ := (readLayerSizes_iff _ _).1 exHeader_sizes.1
  obtain ⟨c', h1', h2'⟩ := (readLayerSizes_iff _ _).1 exHeader_sizes.2
  exact C70_only_sizes_matter _ _ c c' _ h1 h1' h2 h2' (by rw [exHeader_lengths.1]; omega) (by rw [exHeader_lengths.2.1]; omega)
    exHeader_lengths.2.2

/-- And it is an index: C70_accepted_iff is not about nothing. -/
example : (loadLayers exHeaderFile').isSome = true := by decide +kernel

/-- `C70_saved_header` for the index of C06. -/
example : ∃ f', saveIndex exStored [7, 7] 3 = (f', true) ∧ IndexState exStored ∧ ∃ gs, exStored.graphs = some gs := by
  have h := exStored_saves.1
  generalize saveIndex exStored [7, 7] 3 = r at h
  exact ⟨r.1, Prod.ext rfl h, exStored_state, _, rfl⟩

/-- `C70_refused`: a header without layer sizes; one with a negative size; two numbers of layers. -/
example : (loadLayers (padMetadata (asc "granne{\"num_layers\":0,\"layer_counts\":[]}"))) = none ∧
    (loadLayers (padMetadata (asc "granne{\"num_layers\":0,\"layer_counts\":[],\"layer_sizes\":[]}"))) = some [] ∧
    (loadLayers (padMetadata (asc "granne{\"num_layers\":0,\"layer_counts\":[],\"layer_sizes\":[-0]}"))) = none ∧
    (loadLayers (padMetadata (asc "granne{\"num_layers\":0,\"layer_counts\":[],\"num_layers\":1,\"layer_sizes\":[]}"))) = none := by
  have h : ∀ x : Option (List SetVec), x.isNone = true → x = none := by intro x hx; cases x <;> simp_all
  have h' : ∀ x : Option (List SetVec), x.map List.length = some 0 → x = some [] := by
    intro x hx
    cases x with
    | none => cases hx
    | some l => simpa using hx
  exact ⟨h _ (by decide +kernel), h' _ (by decide +kernel), h _ (by decide +kernel), h _ (by decide +kernel)⟩

end Granne
