import Verif.Proofs.F32Error

/-! Very large and very small vectors; quantisation. -/
namespace Granne
open Spec F32

/-! ### Underflow and overflow of the norm -/

theorem rne32_tiny {z : ℝ} (h : |z| < 2 ^ (-150 : Int)) : rne32 z = 0 := by
  have key : ∀ z : ℝ, 0 ≤ z → z < 2 ^ (-150 : Int) → rne32 z = 0 := by
    intro z h0 h1
    by_contra hne
    have hp : 0 < rne32 z := lt_of_le_of_ne (rne32_nonneg h0) (Ne.symm hne)
    have h2 := rne32_min_pos hp
    have h3 := rne32_err z
    rw [abs_of_nonneg h0] at h3
    have h4 : max (2 ^ (-24 : Int) * z) ((2 : ℝ) ^ (-150 : Int)) ≤ 2 ^ (-150 : Int) := by
      refine max_le ?_ le_rfl
      have := mul_le_mul (show (2 : ℝ) ^ (-24 : Int) ≤ 1 by norm_num) h1.le h0 (by norm_num)
      rwa [one_mul] at this
    have h5 := (abs_le.1 (h3.trans h4)).2
    have e : (2 : ℝ) ^ (-149 : Int) = 2 ^ (-150 : Int) + 2 ^ (-150 : Int) := by
      rw [show (-149 : Int) = 1 + -150 by norm_num, zpow_add₀ (by norm_num), zpow_one, two_mul]
    rw [e] at h2
    generalize (2 : ℝ) ^ (-150 : Int) = w at *
    linarith
  rcases le_total 0 z with h0 | h0
  · rw [abs_of_nonneg h0] at h; exact key z h0 h
  · rw [abs_of_nonpos h0] at h
    have := key (-z) (by linarith) h
    rw [rne32_neg] at this
    linarith

theorem ofReal_zero : ofReal 0 = fin 0 := by
  rw [ofReal_fin (by rw [rne32_zero, abs_zero]; exact maxF32_pos.le), rne32_zero]

theorem acc_square_tiny {l : List (F32 × F32)} {k : Nat} {v : F32} (h : Acc l k v)
    (hl : ∀ p ∈ l, ∃ a : ℝ, p = (fin a, fin a) ∧ a * a < 2 ^ (-150 : Int)) : v = fin 0 := by
  induction h with
  | zero => rfl
  | mulAdd a b _ ih =>
    obtain ⟨a', ha, hlt⟩ := hl (a, b) (by simp)
    obtain ⟨rfl, rfl⟩ := Prod.mk.inj ha
    rw [ih fun p hp => hl p (by simp [hp])]
    change ofReal (a' * a' + 0) = _
    have : rne32 (a' * a' + 0) = 0 := by
      rw [add_zero]; exact rne32_tiny (by rwa [abs_of_nonneg (mul_self_nonneg a')])
    rw [ofReal_fin (by rw [this, abs_zero]; exact maxF32_pos.le), this]
  | add _ _ ih1 ih2 =>
    rw [ih1 fun p hp => hl p (by simp [hp]), ih2 fun p hp => hl p (by simp [hp])]
    change ofReal (0 + 0) = _
    rw [add_zero, ofReal_zero]
  | mono _ _ ih => exact ih hl
  | perm _ hp ih => exact ih fun p h => hl p (hp.subset h)

theorem acc_square_huge {l : List (F32 × F32)} {k : Nat} {v : F32} (h : Acc l k v)
    (hl : ∀ p ∈ l, ∃ a : ℝ, p = (fin a, fin a)) (hb : ∃ a : ℝ, (fin a, fin a) ∈ l ∧ 2 ^ (128 : Int) ≤ a * a) :
    v = inf false := by
  have hbig : ∀ z : ℝ, 2 ^ (128 : Int) ≤ z → ofReal z = inf false := by
    intro z hz
    have h0 : (0 : ℝ) ≤ z := le_trans (by positivity) hz
    unfold ofReal
    rw [if_neg, decide_eq_false (not_lt.2 h0)]
    rw [abs_of_nonneg (rne32_nonneg h0), not_le]
    refine lt_of_lt_of_le ?_ (pow_le_rne32 (e := 128) (by norm_num) hz)
    unfold maxF32; norm_num
  induction h with
  | zero => obtain ⟨a, ha, _⟩ := hb; simp at ha
  | @mulAdd l k c a b hc ih =>
    have hl' : ∀ p ∈ l, ∃ a : ℝ, p = (fin a, fin a) := fun p hp => hl p (by simp [hp])
    obtain ⟨a', ha⟩ := hl (a, b) (by simp)
    obtain ⟨rfl, rfl⟩ := Prod.mk.inj ha
    obtain ⟨a, hm, hlt⟩ := hb
    rcases List.mem_cons.1 hm with hm | hm
    · have : a = a' := by simpa using hm
      subst this
      rcases acc_square hc hl' with rfl | ⟨r, rfl, _, hr, _⟩
      · rfl
      · exact hbig _ (le_trans hlt (by linarith))
    · rw [ih hl' ⟨a, hm, hlt⟩]; rfl
  | @add l l' k v w h1 h2 ih1 ih2 =>
    have hl1 : ∀ p ∈ l, ∃ a : ℝ, p = (fin a, fin a) := fun p hp => hl p (by simp [hp])
    have hl2 : ∀ p ∈ l', ∃ a : ℝ, p = (fin a, fin a) := fun p hp => hl p (by simp [hp])
    obtain ⟨a, hm, hlt⟩ := hb
    rcases List.mem_append.1 hm with hm | hm
    · rw [ih1 hl1 ⟨a, hm, hlt⟩]
      rcases acc_square h2 hl2 with rfl | ⟨r, rfl, _⟩ <;> rfl
    · rw [ih2 hl2 ⟨a, hm, hlt⟩]
      rcases acc_square h1 hl1 with rfl | ⟨r, rfl, _⟩ <;> rfl
  | mono _ _ ih => exact ih hl hb
  | perm _ hp ih =>
    obtain ⟨a, hm, hlt⟩ := hb
    exact ih (fun p h => hl p (hp.subset h)) ⟨a, hp.symm.subset hm, hlt⟩

theorem normalize_tiny (x : List ℝ) (h : ∀ a ∈ x, |a| ≤ 2 ^ (-76 : Int)) : normalize (x.map fin) = x.map fin := by
  have hd : dotProduct (x.map fin) (x.map fin) = fin 0 := by
    refine acc_square_tiny (dotProduct_acc _ _ rfl) ?_
    intro p hp
    obtain ⟨a, h1, rfl⟩ := zip_self_mem hp
    obtain ⟨a, h2, rfl⟩ := List.mem_map.1 h1
    refine ⟨a, rfl, ?_⟩
    rw [← abs_mul_abs_self]
    refine lt_of_le_of_lt (mul_self_le_mul_self (abs_nonneg a) (h a h2)) ?_
    rw [← zpow_add₀ (by norm_num)]
    exact zpow_lt_zpow_right₀ (by norm_num) (by norm_num)
  unfold normalize
  rw [hd]
  have : FloatOps.gt (FloatOps.sqrt (fin 0) : F32) (FloatOps.ofInt 0) = false := by
    rw [ofInt_zero]
    change F32.gt (if (0 : ℝ) < 0 then nan else ofReal (Real.sqrt 0)) _ = false
    rw [if_neg (lt_irrefl _), Real.sqrt_zero, ofReal_zero]
    exact decide_eq_false (lt_irrefl _)
  simp only [this, Bool.false_eq_true, if_false]

theorem normalize_huge (x : List ℝ) (h : ∃ a ∈ x, 2 ^ (64 : Int) ≤ |a|) :
    normalize (x.map fin) = (x.map fun _ => (0 : ℝ)).map fin := by
  have hd : dotProduct (x.map fin) (x.map fin) = inf false := by
    refine acc_square_huge (dotProduct_acc _ _ rfl) ?_ ?_
    · intro p hp
      obtain ⟨a, h1, rfl⟩ := zip_self_mem hp
      obtain ⟨a, h2, rfl⟩ := List.mem_map.1 h1
      exact ⟨a, rfl⟩
    · obtain ⟨a, h1, h2⟩ := h
      refine ⟨a, ?_, ?_⟩
      · rw [zip_self_map]; exact List.mem_map.2 ⟨fin a, List.mem_map.2 ⟨a, h1, rfl⟩, rfl⟩
      · rw [← abs_mul_abs_self]
        refine le_trans (le_of_eq ?_) (mul_self_le_mul_self (by positivity) h2)
        rw [← zpow_add₀ (by norm_num)]; norm_num
  unfold normalize
  rw [hd]
  have : FloatOps.gt (FloatOps.sqrt (inf false) : F32) (FloatOps.ofInt 0) = true := by rw [ofInt_zero]; rfl
  simp only [this, if_true, List.map_map]
  rfl

theorem roundEven_eq {x : ℝ} {m : Int} (h : |x - m| < 1 / 2) : roundEven x = m := by
  have h1 := roundEven_err x
  have h2 : |((roundEven x - m : Int) : ℝ)| < 1 := by
    push_cast
    have := abs_add_le ((roundEven x : ℝ) - x) (x - m)
    rw [sub_add_sub_cancel] at this
    linarith
  rw [← Int.cast_abs] at h2
  have h3 : |roundEven x - m| < 1 := by exact_mod_cast h2
  have := Int.abs_lt_one_iff.1 h3
  omega

/-- Rounding a number between two powers of two. -/
theorem rne32_eq {z : ℝ} {e m : Int} (he : -126 ≤ e) (h1 : (2 : ℝ) ^ e ≤ |z|) (h2 : |z| < 2 ^ (e + 1))
    (h3 : |z / 2 ^ (e - 23) - m| < 1 / 2) : rne32 z = m * 2 ^ (e - 23) := by
  have hz : 0 < |z| := lt_of_lt_of_le (zpow_pos (by norm_num) _) h1
  have : Int.log 2 |z| = e := by
    apply le_antisymm
    · have := (Int.lt_zpow_iff_log_lt (b := 2) (by norm_num) (x := e + 1) hz).1 (by exact_mod_cast h2)
      omega
    · exact (Int.zpow_le_iff_le_log (b := 2) (by norm_num) hz).1 (by exact_mod_cast h1)
  rw [rne32, ulpExp, this, max_eq_left (by omega), roundEven_eq h3]

theorem rne32_near_one {z : ℝ} (h1 : 1 - 2 ^ (-26 : Int) ≤ z) (h2 : z ≤ 1 + 2 ^ (-26 : Int)) : rne32 z = 1 := by
  have e1 : rne32 (1 + 2 ^ (-26 : Int)) = 1 := by
    rw [rne32_eq (e := 0) (m := 8388608) (by norm_num) (by norm_num) (by norm_num) (by norm_num)]
    norm_num
  have e2 : rne32 (1 - 2 ^ (-26 : Int)) = 1 := by
    rw [rne32_eq (e := -1) (m := 16777216) (by norm_num) (by norm_num) (by norm_num) (by norm_num)]
    norm_num
  apply le_antisymm
  · rw [← e1]; exact rne32_mono h2
  · rw [← e2]; exact rne32_mono h1

/-- If the computed dot product is tiny, the distance is exactly 1. -/
theorem angularDist_one {x y : List F32} {r : ℝ} (h : dotProduct x y = fin r) (hr : |r| ≤ 2 ^ (-26 : Int)) :
    angularDist x y = some (fin 1) := by
  obtain ⟨r1, r2⟩ := abs_le.1 hr
  have e1 : rne32 (1 + -r) = 1 := by
    refine rne32_near_one ?_ ?_ <;> generalize (2 : ℝ) ^ (-26 : Int) = w at * <;> linarith
  unfold angularDist
  rw [h, ofInt_one]
  have e : (FloatOps.sub (fin 1) (fin r) : F32) = ofReal (1 + -r) := rfl
  rw [e, ofReal_fin (by rw [e1, abs_one]; exact le_trans (by norm_num) maxF32_ge), e1]
  have e2 : FloatOps.isNan (fin 1 : F32) = false := rfl
  have e3 : maxZero (fin 1 : F32) = fin 1 := by
    rw [maxZero, ofInt_zero]
    have : FloatOps.gt (fin 0 : F32) (fin 1) = false := decide_eq_false (by norm_num)
    rw [this]; rfl
  simp [e2, e3]

theorem absDot_bound {B : ℝ} (hB : 0 ≤ B) : ∀ {x y : List ℝ}, (∀ a ∈ x, |a| ≤ B) → (∀ a ∈ y, |a| ≤ 3) →
    absDot x y ≤ 3 * B * x.length
  | [], _, _, _ => by simp [absDot, dot]
  | _ :: _, [], _, _ => by simp [absDot, dot]; positivity
  | a :: x, b :: y, hx, hy => by
    have h1 := absDot_bound hB (fun c hc => hx c (by simp [hc])) (fun c hc => hy c (by simp [hc])) (x := x) (y := y)
    have h2 := mul_le_mul (hx a (by simp)) (hy b (by simp)) (abs_nonneg b) hB
    rw [absDot] at h1 ⊢
    simp only [List.map_cons, dot_cons]
    push_cast [List.length_cons]
    linarith

/-- A vector whose components are tiny has distance 1 to every bounded vector. -/
theorem angularDist_tiny {x y : List ℝ} (hlen : x.length = y.length) (hn : ModestDim x.length)
    (hx : ∀ a ∈ x, |a| ≤ 2 ^ (-76 : Int)) (hy : ∀ a ∈ y, |a| ≤ 3) :
    angularDist (x.map fin) (y.map fin) = some (fin 1) := by
  have hA := absDot_bound (two_zpow_pos (-76)).le hx hy
  have hA0 := absDot_nonneg x y
  have hn' : (x.length : ℝ) ≤ 2048 := by exact_mod_cast (show x.length ≤ 2048 by omega)
  have hA1 : absDot x y ≤ 2 ^ (-60 : Int) := by
    refine hA.trans ((mul_le_mul_of_nonneg_left hn' (by positivity)).trans ?_)
    norm_num
  obtain ⟨r, h1, _, h3⟩ := dotProduct_f32 x y hlen hn (hA1.trans (two_zpow_le (by norm_num)))
  refine angularDist_one h1 ?_
  have hdot : |dot x y| ≤ absDot x y := by
    rw [← accSum_zip, ← accAbs_zip]; exact accSum_le _
  have h4 := abs_add_le (r - dot x y) (dot x y)
  rw [sub_add_cancel] at h4
  have h5 : 191 / 2 * 2 ^ (-24 : Int) * absDot x y ≤ 1 * 2 ^ (-60 : Int) := mul_le_mul (by norm_num) hA1 hA0 (by norm_num)
  refine h4.trans ((add_le_add (h3.trans (add_le_add h5 (le_refl _))) (hdot.trans hA1)).trans ?_)
  norm_num

theorem normalize_bounded_real (y : List ℝ) (hy : ∀ a ∈ y, rne32 a = a ∧ |a| ≤ maxF32) :
    ∃ c : List ℝ, normalize (y.map fin) = c.map fin ∧ c.length = y.length ∧ ∀ a ∈ c, |a| ≤ 3 := by
  have h := normalize_bounded (x := y.map fin) (by
    intro v hv
    obtain ⟨a, ha, rfl⟩ := List.mem_map.1 hv
    exact ⟨a, rfl, hy a ha⟩)
  have hl := normalize_length (F := F32) (y.map fin)
  rw [List.length_map] at hl
  have key : ∀ l : List F32, (∀ c ∈ l, ∃ a : ℝ, c = fin a ∧ |a| ≤ 3) → ∃ c : List ℝ, l = c.map fin ∧ ∀ a ∈ c, |a| ≤ 3 := by
    intro l
    induction l with
    | nil => intro _; exact ⟨[], rfl, by simp⟩
    | cons v l ih =>
      intro hl
      obtain ⟨a, rfl, ha⟩ := hl _ List.mem_cons_self
      obtain ⟨c, rfl, hc⟩ := ih fun w hw => hl w (List.mem_cons_of_mem _ hw)
      exact ⟨a :: c, rfl, by simpa using ⟨ha, hc⟩⟩
  obtain ⟨c, h1, h2⟩ := key _ h
  refine ⟨c, h1, ?_, h2⟩
  rw [h1, List.length_map] at hl
  exact hl

/-! ### Quantisation -/

theorem maxOf_fin (x : List ℝ) (m : ℝ) (hm : m ∈ x) (hall : ∀ a ∈ x, a ≤ m) :
    maxOf (x.map fin) = some (fin m) := by
  have hf : ∀ (l : List ℝ) (a : ℝ), (l.map fin).foldl (fun m b => if FloatOps.gt m b then m else b) (fin a)
      = fin (l.foldl (fun m b => max m b) a) := by
    intro l
    induction l with
    | nil => intro a; rfl
    | cons b l ih =>
      intro a
      rw [List.map_cons, List.foldl_cons, List.foldl_cons, ← ih]
      congr 1
      change (if decide (b < a) = true then fin a else fin b) = fin (max a b)
      by_cases h : b < a
      · rw [if_pos (by simpa using h), max_eq_left h.le]
      · rw [if_neg (by simpa using h), max_eq_right (not_lt.1 h)]
  cases x with
  | nil => simp at hm
  | cons a t =>
    rw [List.map_cons, maxOf, hf]
    congr 2
    obtain ⟨h1, h2, h3⟩ := foldl_max_spec t a
    apply le_antisymm
    · rcases h1 with h1 | h1
      · rw [h1]; exact hall a (by simp)
      · exact hall _ (by simp [h1])
    · rcases List.mem_cons.1 hm with rfl | hm
      · exact h2
      · exact h3 m hm

theorem ofInt_127 : (FloatOps.ofInt 127 : F32) = fin 127 := by
  have h := rne32_int (m := 127) (by norm_num)
  change ofReal ((127 : Int) : ℝ) = _
  rw [ofReal_pow (e := 7) (by norm_num) (by norm_num) (by norm_num), h]
  norm_num

/-- The scaled components. -/
noncomputable def scaled (m a : ℝ) : F32 := F32.div (F32.mul (fin a) (fin 127)) (fin m)

theorem quantize_fin (x : List ℝ) (m : ℝ) (hm : IsMaxAbs x m) :
    quantize (x.map fin) = some (x.map fun a => FloatOps.toI8 (scaled m a)) := by
  rw [quantize, if_neg]
  · have e : (x.map fin).map (FloatOps.abs (F := F32)) = (x.map fun a => |a|).map fin := by
      rw [List.map_map, List.map_map]; rfl
    simp only [e]
    rw [maxOf_fin (x.map fun a => |a|) m (by simpa using hm.1) (by simpa using hm.2), ofInt_127, List.map_map]
    rfl
  · simp only [List.any_map, List.any_eq_true, not_exists, not_and]
    intro a _ h
    cases h

theorem quantizeDebug_fin (x : List ℝ) (m : ℝ) (hm : IsMaxAbs x m) :
    ((∀ a ∈ x, ∃ z, scaled m a = fin z ∧ |z| ≤ rne32 (127 + rne32 (1 / 10000))) →
      quantizeDebug (x.map fin) = some (x.map fun a => FloatOps.toI8 (scaled m a))) ∧
    ((¬ ∀ a ∈ x, ∃ z, scaled m a = fin z ∧ |z| ≤ rne32 (127 + rne32 (1 / 10000))) →
      quantizeDebug (x.map fin) = none) := by
  have h1 : rne32 (1 / 10000) ≤ 1 := by
    have := rne32_mono (show (1 : ℝ) / 10000 ≤ 1 by norm_num)
    rwa [rne32_one] at this
  have h0 : 0 ≤ rne32 (1 / 10000) := rne32_nonneg (by norm_num)
  have hlim : F32.add (FloatOps.ofInt 127) (F32.ofReal (1 / 10000)) = fin (rne32 (127 + rne32 (1 / 10000))) := by
    rw [ofInt_127, ofReal_pow (e := 0) (by norm_num) (by norm_num) (by norm_num)]
    change ofReal (127 + rne32 (1 / 10000)) = _
    refine ofReal_pow (e := 7) (by norm_num) (by norm_num) ?_
    rw [abs_of_nonneg (by linarith)]
    have : (2 : ℝ) ^ (7 : Int) = 128 := by norm_num
    rw [this]
    linarith
  rw [quantizeDebug, if_neg]
  · have e : (x.map fin).map (FloatOps.abs (F := F32)) = (x.map fun a => |a|).map fin := by
      rw [List.map_map, List.map_map]; rfl
    simp only [e]
    rw [maxOf_fin (x.map fun a => |a|) m (by simpa using hm.1) (by simpa using hm.2), hlim, ofInt_127]
    simp only [List.map_map]
    set L := rne32 (127 + rne32 (1 / 10000))
    have hiff : ((x.map ((fun x => FloatOps.div (FloatOps.mul x (fin 127)) ((some (fin m)).getD (fin 127))) ∘ fin)).all
        fun v => !FloatOps.isNan v && !FloatOps.gt (F32.neg (fin L)) v && !FloatOps.gt v (fin L)) = true
        ↔ ∀ a ∈ x, ∃ z, scaled m a = fin z ∧ |z| ≤ L := by
      rw [List.all_map, List.all_eq_true]
      refine forall_congr' fun a => forall_congr' fun _ => ?_
      change (!FloatOps.isNan (scaled m a) && !FloatOps.gt (F32.neg (fin L)) (scaled m a)
        && !FloatOps.gt (scaled m a) (fin L)) = true ↔ _
      cases scaled m a with
      | nan => simp [FloatOps.isNan]
      | inf s => cases s <;> simp [FloatOps.isNan, FloatOps.gt, F32.gt, F32.neg]
      | fin z =>
        have e1 : FloatOps.isNan (fin z : F32) = false := rfl
        have e2 : FloatOps.gt (F32.neg (fin L)) (fin z) = decide (z < -L) := rfl
        have e3 : FloatOps.gt (fin z : F32) (fin L) = decide (L < z) := rfl
        rw [e1, e2, e3]
        simp [abs_le]
    constructor
    · intro h
      rw [if_pos (hiff.2 h)]; rfl
    · intro h
      rw [if_neg (fun h' => h (hiff.1 h'))]
  · simp only [List.any_map, List.any_eq_true, not_exists, not_and]
    intro a _ h
    cases h

/-- In the normal range the scaled component is close to the exact one. -/
theorem scaled_ok {m a : ℝ} (h1 : 2 ^ (-100 : Int) ≤ m) (h2 : m ≤ 2 ^ (120 : Int)) (ha : |a| ≤ m) :
    ∃ z, scaled m a = fin z ∧ |z - a * 127 / m| ≤ 255 * 2 ^ (-24 : Int) ∧ (0 ≤ a → 0 ≤ z) ∧ (a ≤ 0 → z ≤ 0) := by
  have hm0 : 0 < m := lt_of_lt_of_le (two_zpow_pos _) h1
  have hb : |a * 127| ≤ 2 ^ (127 : Int) := by
    rw [abs_mul, show (127 : Int) = 120 + 7 by norm_num, zpow_add₀ (by norm_num)]
    exact mul_le_mul (ha.trans h2) (by norm_num) (abs_nonneg _) (by positivity)
  have e1 : F32.mul (fin a) (fin 127) = fin (rne32 (a * 127)) := ofReal_pow (e := 127) (by norm_num) (by norm_num) hb
  have herr1 := rne32_err (a * 127)
  have hη : (2 : ℝ) ^ (-150 : Int) ≤ 2 ^ (-24 : Int) * m := by
    refine le_trans ?_ (mul_le_mul_of_nonneg_left h1 (two_zpow_pos (-24)).le)
    rw [← zpow_add₀ (by norm_num)]; exact two_zpow_le (by norm_num)
  have habs : |a * 127| ≤ 127 * m := by rw [abs_mul]; norm_num; linarith
  have d1 : |rne32 (a * 127) - a * 127| ≤ 127 * 2 ^ (-24 : Int) * m := by
    refine herr1.trans (max_le ?_ ?_)
    · have := mul_le_mul_of_nonneg_left habs (two_zpow_pos (-24)).le
      refine this.trans (le_of_eq ?_)
      ring
    · refine hη.trans (mul_le_mul_of_nonneg_right ?_ hm0.le)
      norm_num
  have d2 : |rne32 (a * 127) / m - a * 127 / m| ≤ 127 * 2 ^ (-24 : Int) := by
    rw [← sub_div, abs_div, abs_of_pos hm0, div_le_iff₀ hm0]; exact d1
  have d3 : |a * 127 / m| ≤ 127 := by
    rw [abs_div, abs_of_pos hm0, div_le_iff₀ hm0]; exact habs
  have d4 : |rne32 (a * 127) / m| ≤ 127 + 127 * 2 ^ (-24 : Int) := by
    have := abs_add_le (rne32 (a * 127) / m - a * 127 / m) (a * 127 / m)
    rw [sub_add_cancel] at this
    refine this.trans ((add_le_add d2 d3).trans (le_of_eq (add_comm _ _)))
  have d5 : |rne32 (rne32 (a * 127) / m) - rne32 (a * 127) / m| ≤ 128 * 2 ^ (-24 : Int) := by
    refine (rne32_err _).trans (max_le ?_ ?_)
    · refine (mul_le_mul_of_nonneg_left d4 (two_zpow_pos (-24)).le).trans ?_
      norm_num
    · norm_num
  have e2 : scaled m a = fin (rne32 (rne32 (a * 127) / m)) := by
    rw [scaled, e1]
    change (if m = 0 then _ else ofReal _) = _
    rw [if_neg hm0.ne']
    refine ofReal_pow (e := 7) (by norm_num) (by norm_num) (d4.trans ?_)
    norm_num
  refine ⟨_, e2, ?_, ?_, ?_⟩
  · have := abs_add_le (rne32 (rne32 (a * 127) / m) - rne32 (a * 127) / m) (rne32 (a * 127) / m - a * 127 / m)
    rw [sub_add_sub_cancel] at this
    refine this.trans ((add_le_add d5 d2).trans (le_of_eq ?_))
    ring
  · intro h
    exact rne32_nonneg (div_nonneg (rne32_nonneg (by linarith)) hm0.le)
  · intro h
    have k1 : rne32 (a * 127) ≤ 0 := by
      have := rne32_mono (show a * 127 ≤ 0 by linarith)
      rwa [rne32_zero] at this
    have := rne32_mono (show rne32 (a * 127) / m ≤ 0 from div_nonpos_of_nonpos_of_nonneg k1 hm0.le)
    rwa [rne32_zero] at this

/-- A huge component overflows. -/
theorem scaled_overflow {m a : ℝ} (hm : |a| ≤ m) (h : 2 ^ (122 : Int) ≤ |a|) : scaled m a = inf (decide (a < 0)) := by
  have hm0 : 0 < m := lt_of_lt_of_le (lt_of_lt_of_le (two_zpow_pos _) h) hm
  have h1 : (2 : ℝ) ^ (128 : Int) ≤ |a * 127| := by
    rw [abs_mul]
    have := mul_le_mul h (show (64 : ℝ) ≤ |127| by norm_num) (by norm_num) (abs_nonneg a)
    refine le_trans ?_ this
    norm_num
  have e1 : F32.mul (fin a) (fin 127) = inf (decide (a < 0)) := by
    change ofReal (a * 127) = _
    rw [ofReal, if_neg]
    · congr 1
      by_cases hn : a < 0
      · rw [decide_eq_true hn, decide_eq_true (by linarith)]
      · rw [decide_eq_false hn, decide_eq_false (by linarith)]
    · rw [rne32_abs, not_le]
      refine lt_of_lt_of_le ?_ (pow_le_rne32 (e := 128) (by norm_num) h1)
      unfold maxF32; norm_num
  rw [scaled, e1]
  change inf (decide (a < 0) != decide (m < 0)) = _
  rw [decide_eq_false (not_lt.2 hm0.le), Bool.bne_false]

end Granne
