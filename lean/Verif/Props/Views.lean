import Verif.Spec.Views
import Verif.Props.Header

/-!
C72: the typed slices made from the bytes of files (the unsafe code of src/io.rs) lie inside these bytes, and which of them are aligned.
-/
namespace Granne
open List Spec

theorem loadView_inBounds {base len addr n size align : Nat} (h1 : base ≤ addr) (h2 : addr + n ≤ base + len) :
    View.InBounds (loadView addr n size align) base len := by
  refine ⟨h1, ?_⟩
  have : n / size * size ≤ n := Nat.div_mul_le_self n size
  simp only [loadView]
  omega

/-- C72. Whatever bytes a file of vectors has (any element type): the slices lie inside the file. -/
theorem C72_vectors_in_bounds (base : Nat) (buffer : Bytes) (size align : Nat) (vs : List View)
    (h : fixViews base buffer size align = some vs) : ∀ v ∈ vs, View.InBounds v base buffer.length := by
  unfold fixViews at h
  split at h
  · obtain rfl := Option.some.inj h
    intro v hv
    obtain rfl := List.mem_singleton.1 hv
    exact loadView_inBounds (by omega) (by omega)
  · cases h

/-- C72. The same for a file of texts. -/
theorem C72_texts_in_bounds (base : Nat) (buffer : Bytes) (osize oalign size align : Nat) (vs : List View)
    (h : varViews base buffer osize oalign size align = some vs) : ∀ v ∈ vs, View.InBounds v base buffer.length := by
  unfold varViews at h
  split at h
  · simp only at h
    split at h
    · obtain rfl := Option.some.inj h
      intro v hv
      simp only [List.mem_cons, List.not_mem_nil, or_false] at hv
      rcases hv with rfl | rfl <;> exact loadView_inBounds (by omega) (by omega)
    · cases h
  · cases h

theorem layerViews_inBounds {base : Nat} {buffer : Bytes} {vs : List View} (h : layerViews base buffer = some vs) :
    ∀ v ∈ vs, View.InBounds v base buffer.length := by
  unfold layerViews at h
  split at h
  · simp only at h
    split at h
    · obtain rfl := Option.some.inj h
      intro v hv
      simp only [List.mem_cons, List.not_mem_nil, or_false] at hv
      rcases hv with rfl | rfl <;> exact loadView_inBounds (by omega) (by omega)
    · cases h
  · cases h

theorem layersViews_inBounds {base : Nat} {buffer : Bytes} : ∀ {sizes : List Nat} {start : Nat} {vs : List View},
    layersViews base buffer start sizes = some vs → ∀ v ∈ vs, View.InBounds v base buffer.length := by
  intro sizes
  induction sizes with
  | nil => intro start vs h v hv; simp only [layersViews, Option.some.injEq] at h; subst h; cases hv
  | cons size sizes ih =>
    intro start vs h v hv
    simp only [layersViews] at h
    split at h
    · next hle =>
      split at h
      · next us ws hu hw =>
        obtain rfl := Option.some.inj h
        rcases List.mem_append.1 hv with hv | hv
        · obtain ⟨h1, h2⟩ := layerViews_inBounds hu v hv
          rw [List.length_take, List.length_drop] at h2
          refine ⟨by omega, ?_⟩
          omega
        · exact ih hw v hv
      · cases h
    · cases h

/-- C72. Whatever bytes an index file has: if it can be opened at all, every slice made from it lies inside the file. -/
theorem C72_index_in_bounds (base : Nat) (buffer : Bytes) (vs : List View) (h : indexViews base buffer = some vs) :
    ∀ v ∈ vs, View.InBounds v base buffer.length := by
  unfold indexViews at h
  split at h
  · cases h
  · exact layersViews_inBounds h

theorem readChunks_length : ∀ (n : Nat) (b : Bytes), (Offsets.readChunks n b).length = n := by
  intro n
  induction n with
  | zero => intro b; rfl
  | succ n ih => intro b; simp [Offsets.readChunks, ih]

theorem layerViews_ofBytes (base : Nat) (buffer : Bytes) :
    (layerViews base buffer).map (·.map View.count) = (SetVec.ofBytes buffer).map fun v => [v.offsets.length, v.data.length] := by
  unfold layerViews SetVec.ofBytes
  by_cases h8 : 8 ≤ buffer.length
  · rw [if_pos h8, if_pos h8]
    simp only [List.length_drop]
    by_cases hk : leNat (buffer.take 8) ≤ buffer.length - 8
    · rw [if_pos hk, if_pos hk]
      simp only [Option.map_some, List.map_cons, List.map_nil, loadView, Nat.div_one, Offsets.ofBytes, readChunks_length,
        List.length_take, List.length_drop, Nat.min_eq_left hk]
    · rw [if_neg hk, if_neg hk]; rfl
  · rw [if_neg h8, if_neg h8]; rfl

theorem layersViews_loadFrom (base : Nat) (buffer : Bytes) : ∀ (sizes : List Nat) (start : Nat),
    (layersViews base buffer start sizes).map (·.map View.count) =
      (loadFrom buffer start sizes).map fun us => us.flatMap fun v => [v.offsets.length, v.data.length] := by
  intro sizes
  induction sizes with
  | nil => intro start; rfl
  | cons size sizes ih =>
    intro start
    simp only [layersViews, loadFrom]
    by_cases hle : start + size ≤ buffer.length
    · rw [if_pos hle, if_pos hle]
      have h1 := layerViews_ofBytes (base + start) ((buffer.drop start).take size)
      have h2 := ih (start + size)
      cases ha : SetVec.ofBytes ((buffer.drop start).take size) with
      | none =>
        rw [ha] at h1
        rw [Option.map_none, Option.map_eq_none_iff] at h1
        rw [h1]
        rfl
      | some v =>
        rw [ha, Option.map_some, Option.map_eq_some_iff] at h1
        obtain ⟨ws, hw, hw'⟩ := h1
        rw [hw]
        cases hb : loadFrom buffer (start + size) sizes with
        | none =>
          rw [hb, Option.map_none, Option.map_eq_none_iff] at h2
          rw [h2]
          rfl
        | some us =>
          rw [hb, Option.map_some, Option.map_eq_some_iff] at h2
          obtain ⟨xs, hx, hx'⟩ := h2
          rw [hx]
          simp only [Option.map_some, List.map_append, hw', hx', List.flatMap_cons]
    · rw [if_neg hle, if_neg hle]; rfl

/-- C72. These are the slices of the index that is loaded: they exist exactly if the file can be opened, two for each layer, with as many
elements as its table of offsets and its data have. -/
theorem C72_index_views (base : Nat) (buffer : Bytes) :
    (indexViews base buffer).map (·.map View.count) =
      (loadLayers buffer).map fun us => us.flatMap fun v => [v.offsets.length, v.data.length] := by
  unfold indexViews loadLayers
  cases readLayerSizes buffer with
  | none => rfl
  | some sizes => exact layersViews_loadFrom base buffer sizes _

/-- C72. The vectors of a memory mapped file (at a page, so at a multiple of 4096) are aligned: `f32` (4 bytes) and `i8`. -/
theorem C72_vectors_aligned (base : Nat) (hb : 4096 ∣ base) (buffer : Bytes) (size align : Nat) (ha : align = 4 ∨ align = 1)
    (vs : List View) (h : fixViews base buffer size align = some vs) : ∀ v ∈ vs, View.Aligned v := by
  unfold fixViews at h
  split at h
  · obtain rfl := Option.some.inj h
    intro v hv
    obtain rfl := List.mem_singleton.1 hv
    obtain ⟨k, rfl⟩ := hb
    rcases ha with rfl | rfl
    · exact ⟨1024 * k + 2, by simp only [loadView]; omega⟩
    · exact one_dvd _
  · cases h

/-- C72. The slices of a file of texts (`FiveByteInt`, `ThreeByteInt`, packed) are aligned wherever the bytes are. -/
theorem C72_texts_aligned (base : Nat) (buffer : Bytes) (vs : List View) (h : varViews base buffer 5 1 3 1 = some vs) :
    ∀ v ∈ vs, View.Aligned v := by
  unfold varViews at h
  split at h
  · simp only at h
    split at h
    · obtain rfl := Option.some.inj h
      intro v hv
      simp only [List.mem_cons, List.not_mem_nil, or_false] at hv
      rcases hv with rfl | rfl <;> exact one_dvd _
    · cases h
  · cases h

theorem layersViews_aligned {base : Nat} (hb : 8 ∣ base) {buffer : Bytes} : ∀ {sizes : List Nat} {start : Nat} {vs : List View},
    layersViews base buffer start sizes = some vs →
      ((∀ v ∈ vs, View.Aligned v) ↔ ∀ i < sizes.length, 8 ∣ start + (sizes.take i).sum) := by
  intro sizes
  induction sizes with
  | nil =>
    intro start vs h
    simp only [layersViews, Option.some.injEq] at h
    subst h
    simp
  | cons size sizes ih =>
    intro start vs h
    simp only [layersViews] at h
    split at h
    · split at h
      · next us ws hu hw =>
        obtain rfl := Option.some.inj h
        have hih := ih hw
        have hus : (∀ v ∈ us, View.Aligned v) ↔ 8 ∣ start := by
          unfold layerViews at hu
          split at hu
          · simp only at hu
            split at hu
            · obtain rfl := Option.some.inj hu
              constructor
              · intro hx
                have := hx _ List.mem_cons_self
                simp only [View.Aligned, loadView] at this
                omega
              · intro hx v hv
                simp only [List.mem_cons, List.not_mem_nil, or_false] at hv
                rcases hv with rfl | rfl
                · simp only [View.Aligned, loadView]
                  omega
                · exact one_dvd _
            · cases hu
          · cases hu
        constructor
        · intro hall i hi
          cases i with
          | zero => simpa using hus.1 fun v hv => hall v (List.mem_append_left _ hv)
          | succ i =>
            have := hih.1 (fun v hv => hall v (List.mem_append_right _ hv)) i (by simpa using hi)
            rw [List.take_succ_cons, List.sum_cons, ← Nat.add_assoc]
            exact this
        · intro hall v hv
          rcases List.mem_append.1 hv with hv | hv
          · exact hus.2 (by simpa using hall 0 (by simp)) v hv
          · refine hih.2 (fun i hi => ?_) v hv
            have := hall (i + 1) (by simpa using hi)
            rwa [List.take_succ_cons, List.sum_cons, ← Nat.add_assoc] at this
      · cases h
    · cases h

/-- C72, partial: the slices of an index file, in memory at a multiple of 8 (so also memory mapped), are all aligned exactly if every
layer but the last has a size such that the sizes before each layer add up to a multiple of 8. The full claim, that they always are, is false
(`C72_index_misaligned`): the layers are written one after the other without padding. -/
theorem C72_index_aligned_iff_partial (base : Nat) (hb : 8 ∣ base) (buffer : Bytes) (counts sizes : List Nat) (hc : counts.length < 2 ^ 64)
    (hh : IndexHeader (buffer.take 1024) counts sizes) (vs : List View) (h : indexViews base buffer = some vs) :
    (∀ v ∈ vs, View.Aligned v) ↔ ∀ i < sizes.length, 8 ∣ (sizes.take i).sum := by
  unfold indexViews at h
  rw [(readLayerSizes_iff _ _).2 ⟨counts, hc, hh⟩] at h
  rw [layersViews_aligned hb h]
  refine forall₂_congr fun i _ => ?_
  unfold METADATA_LEN
  omega

/-- C72. An index of one layer is always aligned. -/
theorem C72_one_layer_aligned (base : Nat) (hb : 8 ∣ base) (buffer : Bytes) (us : List SetVec) (hl : loadLayers buffer = some us)
    (h1 : us.length ≤ 1) (vs : List View) (h : indexViews base buffer = some vs) : ∀ v ∈ vs, View.Aligned v := by
  unfold loadLayers at hl
  unfold indexViews at h
  cases hs : readLayerSizes buffer with
  | none => rw [hs] at h; cases h
  | some sizes =>
    rw [hs] at h hl
    refine (layersViews_aligned hb h).2 fun i hi => ?_
    obtain ⟨pieces, hp, _, _, hf⟩ := (loadFrom_iff _ _ _ _).1 hl
    have := hf.length_eq
    have h2 := congrArg List.length hp
    rw [List.length_map] at h2
    obtain rfl : i = 0 := by omega
    exact ⟨128, by simp [METADATA_LEN]⟩

/-- C72, the counterexample: the saved index of C06 (two layers), memory mapped anywhere, gives a slice of offsets that is not aligned:
the second layer starts at byte 1170. In Rust such a slice is undefined behavior. -/
theorem C72_index_misaligned (base : Nat) (hb : 4096 ∣ base) :
    ∃ vs, indexViews base exHeaderFile = some vs ∧ ∃ v ∈ vs, 0 < v.count ∧ ¬ View.Aligned v := by
  have h := C72_index_views base exHeaderFile
  have hl : ((loadLayers exHeaderFile).map fun us => us.flatMap fun v => [v.offsets.length, v.data.length]) = some [1, 10, 1, 28] := by
    decide +kernel
  rw [hl, Option.map_eq_some_iff] at h
  obtain ⟨vs, hvs, hcount⟩ := h
  refine ⟨vs, hvs, ?_⟩
  by_contra hc
  push Not at hc
  have hpos : ∀ v ∈ vs, 0 < v.count := by
    intro v hv
    have : v.count ∈ vs.map View.count := List.mem_map_of_mem hv
    rw [hcount] at this
    simp only [List.mem_cons, List.not_mem_nil, or_false] at this
    omega
  unfold indexViews at hvs
  rw [exHeader_sizes.1] at hvs
  have := (layersViews_aligned (by omega) hvs).1 (fun v hv => hc v hv (hpos v hv)) 1 (by decide)
  simp [METADATA_LEN] at this

/-- Non-vacuity: the slices of the saved index of C06 at address 8192, and of a file of three 2-dimensional vectors. -/
example : (indexViews 8192 exHeaderFile).isSome = true ∧
    fixViews 4096 (leBytes 8 2 ++ List.replicate 24 0) 4 4 = some [⟨4104, 6, 4, 4⟩] ∧
    varViews 4096 (leBytes 8 1 ++ [0, 0, 0, 0, 0, 2, 0, 0, 0, 0] ++ List.replicate 6 7) 5 1 3 1 =
      some [⟨4104, 2, 5, 1⟩, ⟨4114, 2, 3, 1⟩] := by decide +kernel

end Granne
