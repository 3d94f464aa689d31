import Verif.Model.PyTools
import Verif.Props.Py
import Verif.Props.Float
import Verif.Props.Math
import Verif.Props.Header

/-!
C74: the distance that `compute_distance` of the Python module computes is the distance that a search reports.
-/
namespace Granne
open Spec F32

variable {checked : Bool} {srt : List (Nat × ℝ) → List (Nat × ℝ)} {t : ElementType} {c : PyConfig} {h : Nat}
  {ip ep : String} {wi w : World} {indexed vectors : List (List UInt32)}

theorem rowDist_eq (x y : List (Scal t)) : rowDist checked t x y = ((vectorDist checked t x y).getD .nan).val := by
  cases t <;> rfl

/-- What is stored depends only on the vector, up to the pattern of zeros and NaNs, which distances do not see. -/
theorem vectorDist_convert {a b : List UInt32} {x x' y y' : List (Scal t)} (hx : Convert t a x) (hx' : Convert t a x')
    (hy : Convert t b y) (hy' : Convert t b y') : vectorDist checked t x y = vectorDist checked t x' y' := by
  cases t with
  | angular =>
    have e1 : List.map F32.ofBits x = List.map F32.ofBits x' := Eq.trans (b := normalize (a.map F32.ofBits)) hx (Eq.symm hx')
    have e2 : List.map F32.ofBits y = List.map F32.ofBits y' := Eq.trans (b := normalize (b.map F32.ofBits)) hy (Eq.symm hy')
    show angularDist (List.map F32.ofBits x) (List.map F32.ofBits y) = angularDist (List.map F32.ofBits x') (List.map F32.ofBits y')
    rw [e1, e2]
  | angularInt =>
    have e1 : some (List.map i8OfByte x) = some (List.map i8OfByte x') :=
      Eq.trans (b := quantize (a.map F32.ofBits)) (Eq.symm hx) hx'
    have e2 : some (List.map i8OfByte y) = some (List.map i8OfByte y') :=
      Eq.trans (b := quantize (b.map F32.ofBits)) (Eq.symm hy) hy'
    show angularIntDist checked (List.map i8OfByte x) (List.map i8OfByte y) =
      angularIntDist checked (List.map i8OfByte x') (List.map i8OfByte y')
    rw [Option.some.inj e1, Option.some.inj e2]

/-- C74. There is at most one result. -/
theorem C74_deterministic (a b : List UInt32) (d d' : F32) (h1 : ComputeDistance checked t a b d)
    (h2 : ComputeDistance checked t a b d') : d = d' := by
  obtain ⟨x, y, hx, hy, e⟩ := h1
  obtain ⟨x', y', hx', hy', e'⟩ := h2
  rw [vectorDist_convert hx hx' hy hy', e'] at e
  exact (Option.some.inj e).symm

/-- C74. The order of the two vectors does not matter. -/
theorem C74_symmetric (a b : List UInt32) (d : F32) :
    ComputeDistance checked t a b d ↔ ComputeDistance checked t b a d := by
  have key : ∀ x y : List (Scal t), vectorDist checked t x y = vectorDist checked t y x := by
    intro x y
    cases t with
    | angular => exact C51_symmetric _ _
    | angularInt => exact C46_symmetric f32_mul_comm checked _ _
  constructor
  · rintro ⟨x, y, hx, hy, e⟩; exact ⟨y, x, hy, hx, by rw [key]; exact e⟩
  · rintro ⟨x, y, hx, hy, e⟩; exact ⟨y, x, hy, hx, by rw [key]; exact e⟩

/-- C74. `angular`: for two vectors of the same dimension it returns exactly if all components are finite numbers. -/
theorem C74_returns_angular (a b : List UInt32) (hlen : a.length = b.length) (hdim : a.length ≤ 2 ^ 32) :
    (∃ d, ComputeDistance checked .angular a b d) ↔
      ∀ u, u ∈ a ∨ u ∈ b → F32.ofBits u ≠ .nan ∧ ∀ s, F32.ofBits u ≠ .inf s := by
  have hval : ∀ l : List UInt32, ∀ v ∈ l.map F32.ofBits, v.Valid := by
    intro l v hv
    obtain ⟨u, _, rfl⟩ := List.mem_map.1 hv
    have hr := ofBits_rep u
    cases hu : F32.ofBits u with
    | nan => exact Or.inl rfl
    | inf s => exact Or.inr (Or.inl ⟨s, rfl⟩)
    | fin x => rw [hu] at hr; exact Or.inr (Or.inr ⟨x, rfl, hr.1, hr.2⟩)
  have hp := C51_panics_iff (a.map F32.ofBits) (b.map F32.ofBits) (hval a) (hval b) (by simpa using hlen) (by simpa using hdim)
  have hd : (∃ d, ComputeDistance checked .angular a b d) ↔
      angularDist (normalize (a.map F32.ofBits)) (normalize (b.map F32.ofBits)) ≠ none := by
    constructor
    · rintro ⟨d, x, y, hx, hy, e⟩
      have e' : angularDist (List.map F32.ofBits x) (List.map F32.ofBits y) = some d := e
      have hx' : List.map F32.ofBits x = normalize (a.map F32.ofBits) := hx
      have hy' : List.map F32.ofBits y = normalize (b.map F32.ofBits) := hy
      rw [hx', hy'] at e'
      rw [e']; simp
    · intro hne
      obtain ⟨d, hd⟩ := Option.ne_none_iff_exists'.1 hne
      obtain ⟨x, hx⟩ := (C61_convertible a).1
      obtain ⟨y, hy⟩ := (C61_convertible b).1
      refine ⟨d, x, y, hx, hy, ?_⟩
      have hx' : List.map F32.ofBits x = normalize (a.map F32.ofBits) := hx
      have hy' : List.map F32.ofBits y = normalize (b.map F32.ofBits) := hy
      show angularDist (List.map F32.ofBits x) (List.map F32.ofBits y) = some d
      rw [hx', hy', hd]
  rw [hd, Ne, hp]
  constructor
  · intro hn u hu
    constructor
    · intro he
      refine hn ⟨.nan, ?_, Or.inl rfl⟩
      rw [← he]
      exact hu.imp (List.mem_map_of_mem) (List.mem_map_of_mem)
    · intro s he
      refine hn ⟨.inf s, ?_, Or.inr ⟨s, rfl⟩⟩
      rw [← he]
      exact hu.imp (List.mem_map_of_mem) (List.mem_map_of_mem)
  · rintro hall ⟨v, hv, hbad⟩
    obtain ⟨u, hu, rfl⟩ : ∃ u, (u ∈ a ∨ u ∈ b) ∧ F32.ofBits u = v := by
      rcases hv with hv | hv
      · obtain ⟨u, hu, rfl⟩ := List.mem_map.1 hv; exact ⟨u, Or.inl hu, rfl⟩
      · obtain ⟨u, hu, rfl⟩ := List.mem_map.1 hv; exact ⟨u, Or.inr hu, rfl⟩
    obtain ⟨h1, h2⟩ := hall u hu
    rcases hbad with hb | ⟨s, hb⟩
    · exact h1 hb
    · exact h2 s hb

theorem convertI8_facts {a : List UInt32} {x : List (Scal .angularInt)} (hx : Convert .angularInt a x) :
    (∀ v ∈ i8s x, IsI8 v) ∧ (i8s x).length = a.length := by
  refine ⟨int_range rfl, ?_⟩
  have : quantize (a.map F32.ofBits) = some (i8s x) := hx
  unfold quantize at this
  split at this
  · cases this
  · simp only [Option.some.injEq] at this
    rw [← this]; simp

/-- C74. `angular_int`: for two vectors of the same dimension, at most 131071, it returns exactly if no component is NaN. -/
theorem C74_returns_angular_int (a b : List UInt32) (hlen : a.length = b.length) (hdim : a.length ≤ 131071) :
    (∃ d, ComputeDistance checked .angularInt a b d) ↔ ∀ u, u ∈ a ∨ u ∈ b → F32.ofBits u ≠ .nan := by
  constructor
  · rintro ⟨d, x, y, hx, hy, _⟩ u hu
    rcases hu with hu | hu
    · exact (C61_convertible a).2.1 ⟨x, hx⟩ u hu
    · exact (C61_convertible b).2.1 ⟨y, hy⟩ u hu
  · intro hall
    obtain ⟨x, hx⟩ := (C61_convertible a).2.2 fun u hu => hall u (Or.inl hu)
    obtain ⟨y, hy⟩ := (C61_convertible b).2.2 fun u hu => hall u (Or.inr hu)
    obtain ⟨x1, x2⟩ := convertI8_facts hx
    obtain ⟨y1, y2⟩ := convertI8_facts hy
    obtain ⟨d, hd, _⟩ := C52_quantised_distance checked (i8s x) (i8s y) x1 y1 (by rw [x2, y2, hlen]) (by rw [x2]; exact hdim)
    exact ⟨.fin d, x, y, hx, hy, hd⟩

/-- C74. `angular`: the result is within `200 * 2^-24` of 1 minus the cosine, for a modest number of dimensions and vectors that are zero or of
a norm between `2^-50` and `2^63`. -/
theorem C74_error_angular (a b : List UInt32) (x y : List ℝ) (ha : Decodes a x) (hb : Decodes b y) (hlen : x.length = y.length)
    (hdim : ModestDim x.length) (hx : InRange x) (hy : InRange y) :
    ∃ d : ℝ, (∀ v, ComputeDistance checked .angular a b v ↔ v = .fin d) ∧ 0 ≤ d ∧ |d - (1 - cosine x y)| < 200 * 2 ^ (-24 : Int) := by
  obtain ⟨d, h1, h2, h3⟩ := C51_error x y hlen hdim hx hy
  refine ⟨d, fun v => ?_, h2, h3⟩
  have hc : ComputeDistance checked .angular a b (.fin d) := by
    obtain ⟨r, hr⟩ := (C61_convertible a).1
    obtain ⟨s, hs⟩ := (C61_convertible b).1
    refine ⟨r, s, hr, hs, ?_⟩
    have e1 := stored_of_convert hr ha
    have e2 := stored_of_convert hs hb
    show angularDist (f32s r) (f32s s) = _
    rw [e1, e2]
    exact h1
  constructor
  · intro hv; exact C74_deterministic a b _ _ hv hc
  · rintro rfl; exact hc

/-- C74. For every dimension up to 63551 (see `C51_error_any_dim`), with the bound of that theorem. -/
theorem C74_error_angular_any_dim (a b : List UInt32) (x y : List ℝ) (ha : Decodes a x) (hb : Decodes b y) (hlen : x.length = y.length)
    (hdim : roundings x.length ≤ 2048) (hx : InRange x) (hy : InRange y) :
    ∃ d : ℝ, (∀ v, ComputeDistance checked .angular a b v ↔ v = .fin d) ∧ 0 ≤ d ∧ |d - (1 - cosine x y)| ≤ (2 * (roundings x.length : ℝ) + 9) * 2 ^ (-24 : Int) := by
  obtain ⟨d, h1, h2, h3⟩ := C51_error_any_dim x y hlen hdim hx hy
  refine ⟨d, fun v => ?_, h2, h3⟩
  have hc : ComputeDistance checked .angular a b (.fin d) := by
    obtain ⟨r, hr⟩ := (C61_convertible a).1
    obtain ⟨s, hs⟩ := (C61_convertible b).1
    refine ⟨r, s, hr, hs, ?_⟩
    have e1 := stored_of_convert hr ha
    have e2 := stored_of_convert hs hb
    show angularDist (f32s r) (f32s s) = _
    rw [e1, e2]
    exact h1
  constructor
  · intro hv; exact C74_deterministic a b _ _ hv hc
  · rintro rfl; exact hc

/-- C74. `angular_int`: the result is within `11 * 2^-24` of 1 minus the cosine of the quantised vectors. -/
theorem C74_error_angular_int (a b : List UInt32) (x y : List Int) (ha : Quantised a x) (hb : Quantised b y)
    (hlen : x.length = y.length) (hdim : x.length ≤ 131071) :
    ∃ d : ℝ, (∀ v, ComputeDistance checked .angularInt a b v ↔ v = .fin d) ∧ 0 ≤ d ∧
      |d - (1 - cosine (toReal x) (toReal y))| ≤ 11 * 2 ^ (-24 : Int) := by
  have hn : ∀ (l : List UInt32) (z : List Int), Quantised l z → ∃ r : List (Scal .angularInt), Convert .angularInt l r := by
    intro l z hz
    refine (C61_convertible l).2.2 fun u hu he => ?_
    have : quantize (l.map F32.ofBits) = none :=
      (C52_quantize_infinite _).1 (by rw [← he]; exact List.mem_map_of_mem hu)
    unfold Quantised at hz
    rw [this] at hz
    cases hz
  obtain ⟨r, hr⟩ := hn a x ha
  obtain ⟨s, hs⟩ := hn b y hb
  have e1 := i8s_of_convert hr ha
  have e2 := i8s_of_convert hs hb
  obtain ⟨d, h1, h2, h3, _⟩ := C52_quantised_distance checked x y (int_range e1) (int_range e2) hlen hdim
  have hc : ComputeDistance checked .angularInt a b (.fin d) := by
    refine ⟨r, s, hr, hs, ?_⟩
    show angularIntDist checked (i8s r) (i8s s) = _
    rw [e1, e2]
    exact h1
  exact ⟨d, fun v => ⟨fun hv => C74_deterministic a b _ _ hv hc, by rintro rfl; exact hc⟩, h2, h3⟩

/-- C74. The distances that a search of an opened index reports are those that `compute_distance` gives for the vector that was appended
and the query. -/
theorem C74_same_as_search (hsrt : IsSortByDist srt) (hgood : c.Good)
    (hs : Saved checked srt t c h ip ep wi w indexed vectors) (hok : Sensible vectors)
    (w' : World) (hw : PyStep checked srt w (.openIndex t ip ep) w') (raw : List UInt32) (maxSearch k : Nat) (r : List (Nat × ℝ))
    (ha : w'.Answers checked w.objects.length (.search raw maxSearch k) (.found r)) :
    ∀ p ∈ r, ∃ vector, vectors[p.1]? = some vector ∧ ∀ d, ComputeDistance checked t vector raw d → d.val = p.2 := by
  obtain ⟨rows, layers, hconv, _, _, hans⟩ := opened_search hsrt hgood hs hok hw
  obtain ⟨row, r', h1, h2, h3⟩ := (hans raw maxSearch k _).1 ha
  cases h3
  intro p hp
  obtain ⟨_, e, he, hpd⟩ := (C01_search_sound _ _ _ _ _ _ h2).2.2.1 p hp
  obtain ⟨vector, hv, hcv⟩ := forall₂_source hconv he
  refine ⟨vector, hv, ?_⟩
  rintro d ⟨x, y, hx, hy, hd⟩
  rw [hpd]
  show d.val = rowDist checked t e row
  rw [rowDist_eq, vectorDist_convert hcv hx h1 hy, hd]
  rfl

/-- Non-vacuity of `C74_same_as_search`: four vectors are indexed, saved and opened, and a search with the first of them finds
something. -/
example (w0 : World) : ∃ wi w w' r, Saved true exSortReal .angular {} w0.objects.length "index" "elements" wi w exBits exBits ∧
    PyStep true exSortReal w (.openIndex .angular "index" "elements") w' ∧
    w'.Answers true w.objects.length (.search [0x3f800000, 0] 10 3) (.found r) ∧ r ≠ [] := by
  have hlen : ∀ raw ∈ exBits, raw.length = 2 := by decide
  have hok : Sensible exBits := ⟨by decide, by decide⟩
  obtain ⟨wi, w, _, _, h3, h4, _⟩ := C61_session (checked := true) (t := .angular) exSortReal_sorts exPyConfig_good (by simp) rfl
    exBits 2 (by decide) (by decide) hlen (fun raw _ => (C61_convertible raw).1) (by decide) "index" "elements" (by decide) w0
  obtain ⟨⟨w', hw⟩, _⟩ := C61_open exSortReal_sorts exPyConfig_good h3 hok
  have hdec : Decodes [0x3f800000, 0] [1, 0] := by simp [Decodes, ofBits_one, ofBits_zero]
  have hmem : [(1 : ℝ), 0] ∈ exRaw := by simp [exRaw]
  obtain ⟨⟨a, ha⟩, hall⟩ := C61_search_angular exSortReal_sorts exPyConfig_good h3 hok exRaw exBits_decode 2 exRaw_input w' hw
    [0x3f800000, 0] [1, 0] hdec rfl (exRaw_input.range _ hmem) 10 3 (by decide)
  obtain ⟨r, rfl, _, hne⟩ := hall a ha
  exact ⟨wi, w, w', r, h3, hw, ha, hne 4 h4 (by decide) (by decide)⟩

/-- Non-vacuity of `C74_error_angular`. -/
example : Decodes [0x3f800000, 0] [1, 0] ∧ Decodes [0, 0xc0800000] [0, -4] ∧ InRange [1, 0] ∧ InRange [0, -4] := by
  refine ⟨by simp [Decodes, ofBits_one, ofBits_zero], by simp [Decodes, ofBits_minus_four, ofBits_zero],
    exRaw_input.range _ (by simp [exRaw]), exRaw_input.range _ (by simp [exRaw])⟩

end Granne
