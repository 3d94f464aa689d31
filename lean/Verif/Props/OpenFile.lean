import Verif.Proofs.OpenFile
import Verif.Props.Search
import Verif.Props.Header

/-!
C71: whatever bytes an index is opened from, a search with it ends, and its answer is sound or it panics.

`searchFile buffer es q maxSearch k` models `Granne::from_bytes(buffer, es).search(q, maxSearch, k)` (a memory mapped file is the same
bytes): the lists of neighbors are decoded from the bytes when they are needed, in the arithmetic of a release build. `none` is a panic.
-/
namespace Granne
open List Spec

variable {D : Type} [LinearOrder D] {E : Type}

omit [LinearOrder D] in
theorem distTo_lt (es : Elements E D) (q : E) (i : Nat) (h : (es.distTo q i).isSome) : i < es.data.length := by
  unfold Elements.distTo at h
  by_contra hc
  rw [List.getElem?_eq_none (by omega)] at h
  cases h

/-- C71. For every sequence of bytes, intact or not, saved by this library or not, and any elements: what a search returns is in ascending
order of distance (ties by id), without repetition, the ids are ids of elements, the distances are the true distances of these elements,
and there are at most `min k max_search` of them. -/
theorem C71_search_sound (buffer : Bytes) (es : Elements E D) (q : E) (maxSearch k : Nat) (r : List (Nat × D))
    (h : searchFile buffer es q maxSearch k = some r) :
    r.Pairwise (fun a b => a.2 < b.2 ∨ (a.2 = b.2 ∧ a.1 < b.1)) ∧ (r.map Prod.fst).Nodup ∧
    (∀ p ∈ r, ∃ e, es.data[p.1]? = some e ∧ p.2 = es.dist e q) ∧ r.length ≤ min k maxSearch := by
  unfold searchFile at h
  split at h
  · cases h
  · next vs hv =>
    rw [searchWith_pad (fun i => distTo_lt es q i) le_rfl] at h
    obtain ⟨h1, h2, h3, h4⟩ := C01_search_sound _ es q maxSearch k r h
    exact ⟨h1, h2, fun p hp => (h3 p hp).2, h4⟩

/-- C71. Asking for fewer results gives a prefix. -/
theorem C71_search_prefix (buffer : Bytes) (es : Elements E D) (q : E) (maxSearch k k' : Nat) (hk : k' ≤ k) :
    searchFile buffer es q maxSearch k' = (searchFile buffer es q maxSearch k).map (List.take k') := by
  unfold searchFile
  cases loadLayers buffer with
  | none => rfl
  | some vs =>
    simp only
    rw [searchWith_pad (fun i => distTo_lt es q i) le_rfl, searchWith_pad (fun i => distTo_lt es q i) le_rfl]
    exact C01_search_prefix _ es q maxSearch k k' hk

/-- C71. The search ends, however the lists of neighbors are connected: in each layer it looks at no more nodes than there are elements.
(The loops of the code have no bound; in the model the loop of each layer is cut off after `n + 1` rounds, `n` the number of elements.
Any larger bound gives the same.) -/
theorem C71_search_ends (buffer : Bytes) (vs : List SetVec) (_h : loadLayers buffer = some vs) (es : Elements E D) (q : E)
    (maxSearch k bound : Nat) (hb : es.data.length ≤ bound) :
    searchWith bound (vs.map SetVec.getRelease) (es.distTo q) maxSearch k = searchFile buffer es q maxSearch k := by
  unfold searchFile
  rw [_h]
  simp only
  rw [searchWith_pad (fun i => distTo_lt es q i) hb, searchWith_pad (fun i => distTo_lt es q i) le_rfl]

/-- C71. Checks that only panic do not change answers: if the lists are read in another way, which for some nodes panics where the release
build does not and otherwise gives the same (as a debug build does with its overflow checks and assertions), then a search that
returns gives what the release build gives. -/
theorem C71_more_panics (buffer : Bytes) (vs : List SetVec) (h : loadLayers buffer = some vs) (es : Elements E D) (q : E)
    (maxSearch k : Nat) (readers : List (Nat → Option (List Nat)))
    (hr : List.Forall₂ (fun get (v : SetVec) => ∀ i l, get i = some l → v.getRelease i = some l) readers vs) (r : List (Nat × D))
    (hs : searchWith es.data.length readers (es.distTo q) maxSearch k = some r) :
    searchFile buffer es q maxSearch k = some r := by
  unfold searchFile
  rw [h]
  refine searchWith_mono ?_ hs
  rw [List.forall₂_map_right_iff]
  exact hr

theorem chunk_getRelease {c : Chunk} {i a : Nat} (h : c.get i = some a) (ha : a < 2 ^ 64) : c.getRelease i = some a := by
  unfold Chunk.get at h
  unfold Chunk.getRelease addUsize
  split at h
  · next hi =>
    rw [if_pos hi]
    obtain rfl := Option.some.inj h
    rw [Nat.mod_eq_of_lt ha]
  · cases h

theorem offsets_getRelease {o : Offsets} {i a : Nat} (h : o.get i = some a) (ha : a < 2 ^ 64) : o.getRelease i = some a := by
  unfold Offsets.get at h
  unfold Offsets.getRelease
  split at h
  · cases h
  · next c hc => rw [hc]; exact chunk_getRelease h ha

theorem getConsecutiveRelease_eq {o : Offsets} {i a b : Nat} (h : o.getConsecutive i = some (a, b)) (ha : a < 2 ^ 64) (hb : b < 2 ^ 64) :
    o.getConsecutiveRelease i = some (a, b) := by
  unfold Offsets.getConsecutive at h
  unfold Offsets.getConsecutiveRelease
  split at h
  · next hi =>
    rw [if_pos hi]
    split at h
    · next x y hx hy =>
      obtain ⟨rfl, rfl⟩ := Prod.mk.inj (Option.some.inj h)
      rw [offsets_getRelease hx ha, offsets_getRelease hy hb]
    · cases h
  · next hi =>
    rw [if_neg hi]
    split at h
    · cases h
    · next c hc =>
      rw [hc]
      simp only
      unfold Chunk.getConsecutive at h
      unfold Chunk.getConsecutiveRelease
      split at h
      · next hlt =>
        rw [if_pos hlt]
        split at h
        · next x d hx hd =>
          obtain ⟨rfl, rfl⟩ := Prod.mk.inj (Option.some.inj h)
          rw [chunk_getRelease hx ha, hd]
          simp only [addUsize, Nat.mod_eq_of_lt hb]
        · cases h
      · cases h

/-- Offsets that stay inside the data do not overflow. -/
theorem getRelease_eq {v : SetVec} (hv : v.data.length < 2 ^ 64) {i : Nat} {l : List Nat} (h : v.get i = some l) :
    v.getRelease i = some l := by
  unfold SetVec.get SetVec.getRaw at h
  unfold SetVec.getRelease
  split at h
  · cases h
  · next a b hab =>
    split at h
    · next hc =>
      rw [getConsecutiveRelease_eq hab (by omega) (by omega)]
      simp only
      rw [if_pos hc]
      exact h
    · cases h

theorem loadFrom_data_length {buffer : Bytes} : ∀ {sizes : List Nat} {start : Nat} {vs : List SetVec},
    loadFrom buffer start sizes = some vs → ∀ v ∈ vs, v.data.length ≤ buffer.length := by
  intro sizes
  induction sizes with
  | nil => intro start vs h v hv; simp only [loadFrom, Option.some.injEq] at h; subst h; cases hv
  | cons size sizes ih =>
    intro start vs h v hv
    simp only [loadFrom] at h
    split at h
    · split at h
      · cases h
      · next u hu =>
        obtain ⟨t, ht, rfl⟩ := Option.map_eq_some_iff.1 h
        rcases List.mem_cons.1 hv with rfl | hv
        · unfold SetVec.ofBytes at hu
          split at hu
          · simp only at hu
            split at hu
            · obtain rfl := Option.some.inj hu
              simp only [List.length_drop, List.length_take]
              omega
            · cases hu
          · cases hu
        · exact ih ht v hv
    · cases h

/-- C71. If all lists of the file can be read, a search gives what it gives on the graphs of these lists: the searches of the other
properties (`search`, which takes all lists as given) are the searches of opened files. -/
theorem C71_same_as_search (buffer : Bytes) (hlen : buffer.length < 2 ^ 64) (vs : List SetVec) (h : loadLayers buffer = some vs)
    (gs : List Graph) (hg : (Layers.compressed vs).graphs = some gs) (es : Elements E D) (q : E) (maxSearch k : Nat)
    (r : List (Nat × D)) (hr : search gs es q maxSearch k = some r) : searchFile buffer es q maxSearch k = some r := by
  have hdata : ∀ v ∈ vs, v.data.length < 2 ^ 64 := by
    unfold loadLayers at h
    split at h
    · cases h
    · intro v hv
      exact lt_of_le_of_lt (loadFrom_data_length h v hv) hlen
  obtain ⟨bound, hb⟩ : ∃ bound, es.data.length ≤ bound ∧ ∀ g ∈ gs, g.length ≤ bound := by
    refine ⟨es.data.length + gs.flatten.length, by omega, fun g hg => ?_⟩
    have : ∀ gs : List Graph, g ∈ gs → List.length g ≤ gs.flatten.length := by
      intro gs hg
      induction gs with
      | nil => cases hg
      | cons a t ih =>
        rw [List.flatten_cons, List.length_append]
        rcases List.mem_cons.1 hg with rfl | hg
        · omega
        · have := ih hg; omega
    have := this gs hg
    omega
  unfold search at hr
  rw [searchInternal_with gs hb.2] at hr
  rw [← C71_search_ends buffer vs h es q maxSearch k bound hb.1]
  refine searchWith_mono ?_ hr
  rw [List.forall₂_map_right_iff, List.forall₂_map_left_iff]
  have hm := mapM_some hg
  clear hr hb h hg
  induction hm with
  | nil => exact .nil
  | @cons v g vs gs hv _ ih =>
    refine .cons ?_ (ih fun v hv => hdata v (List.mem_cons_of_mem _ hv))
    intro i l hl
    refine getRelease_eq (hdata v List.mem_cons_self) ?_
    unfold SetVec.graph at hv
    split at hv
    · cases hv
    · next n hn =>
      obtain ⟨x, hx, hr⟩ := forall₂_source (mapM_some hv) hl
      obtain rfl : x = i := by
        rw [List.getElem?_eq_some_iff] at hx
        obtain ⟨_, hx⟩ := hx
        simpa using hx.symm
      exact hr

/-- C71. An index that was saved and opened again answers every query as before. -/
theorem C71_saved_search (L : Layers) (hL : IndexState L) (gs : List (List (List Nat)))
    (hg : L.graphs = some gs) (h255 : ∀ g ∈ gs, ∀ l ∈ g, l.length ≤ 255)
    (f f' : Bytes) (start : Nat) (hs : saveIndex L f start = (f', true)) (hlen : f'.length < 2 ^ 64) (es : Elements E D)
    (hwf : WellFormedIndex gs es.data.length) (q : E) (maxSearch k : Nat) (hms : 1 ≤ maxSearch) :
    ∃ r, search gs es q maxSearch k = some r ∧ searchFile (f'.drop start) es q maxSearch k = some r := by
  obtain ⟨vs, gs', h1, h2, h3⟩ := C07_save_load_preserves_search (E := E) (D := D) L hL gs hg h255 f f' start hs hlen
  obtain ⟨r, hr, _⟩ := C02_search_no_panic gs es hwf q maxSearch k hms
  refine ⟨r, hr, C71_same_as_search _ ?_ vs h1 gs' h2 es q maxSearch k r (by rw [h3]; exact hr)⟩
  rw [List.length_drop]; omega

/-! ### Concrete cases -/

/-- The saved index of C06 with one byte changed: the list of node 3 of the bottom layer claims to have 200 neighbors. -/
def exDamaged : Bytes := exHeaderFile.set 1324 200

/-- Not all lists of this file can be read, but a search that does not come to node 3 answers as before; one that does panics. -/
example : ((loadLayers exDamaged).bind fun vs => (Layers.compressed vs).graphs) = none ∧
    searchFile exDamaged exElements 8 1 1 = searchFile exHeaderFile exElements 8 1 1 ∧
    (searchFile exDamaged exElements 0 2 2) = some [(0, 0), (2, 3)] ∧
    searchFile exDamaged exElements 12 3 3 = none := by decide +kernel

end Granne
