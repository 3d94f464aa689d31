import Verif.Spec.Text
import Verif.Model.Keys
import Verif.Proofs.F32Error
import Verif.Proofs.QuantError
import Verif.Proofs.KeysNorm

/-! Sums of embeddings in binary32 arithmetic. -/
namespace Granne
open Spec F32

/-! ### Norms of sums -/

theorem dot_zipWith_add : ∀ {x y z : List ℝ}, x.length = y.length → y.length = z.length →
    dot (List.zipWith (· + ·) x y) z = dot x z + dot y z
  | [], [], [], _, _ => by simp [dot]
  | a :: x, b :: y, c :: z, h1, h2 => by
    have := dot_zipWith_add (x := x) (y := y) (z := z) (by simpa using h1) (by simpa using h2)
    rw [List.zipWith_cons_cons, dot_cons, dot_cons, dot_cons, this]
    ring

theorem norm_add_le' {x y : List ℝ} (h : x.length = y.length) : norm (List.zipWith (· + ·) x y) ≤ norm x + norm y := by
  have hl : (List.zipWith (· + ·) x y).length = y.length := by simp [h]
  apply le_of_sq_le_sq _ (add_nonneg (norm_nonneg' _) (norm_nonneg' _))
  rw [sq, norm_mul_self, dot_zipWith_add h hl.symm, dot_comm x, dot_comm y, dot_zipWith_add h h.symm, dot_zipWith_add h rfl,
    dot_comm y x]
  have := le_trans (le_abs_self _) (abs_dot_le x y)
  have e : (norm x + norm y) ^ 2 = norm x * norm x + 2 * (norm x * norm y) + norm y * norm y := by ring
  rw [e, norm_mul_self, norm_mul_self]
  linarith

theorem norm_mono : ∀ {x y : List ℝ}, List.Forall₂ (fun a b => |a| ≤ b) x y → norm x ≤ norm y := by
  intro x y h
  apply Real.sqrt_le_sqrt
  induction h with
  | nil => simp [dot]
  | @cons a b x y hab _ ih =>
    rw [dot_cons, dot_cons]
    have : a * a ≤ b * b := by
      rw [← abs_mul_abs_self a]
      exact mul_self_le_mul_self (abs_nonneg a) hab
    linarith

theorem norm_map_mul {c : ℝ} (hc : 0 ≤ c) (x : List ℝ) : norm (x.map fun a => c * a) = c * norm x := by
  have e : ∀ x : List ℝ, dot (x.map fun a => c * a) (x.map fun a => c * a) = c * c * dot x x := by
    intro x
    induction x with
    | nil => simp [dot]
    | cons a t ih => rw [List.map_cons, dot_cons, dot_cons, ih]; ring
  rw [Spec.norm, e, Real.sqrt_mul (mul_self_nonneg c), Real.sqrt_mul_self hc]
  rfl

theorem norm_map_abs (x : List ℝ) : norm (x.map fun a => |a|) = norm x := by
  have e : ∀ x : List ℝ, dot (x.map fun a => |a|) (x.map fun a => |a|) = dot x x := by
    intro x
    induction x with
    | nil => simp [dot]
    | cons a t ih => rw [List.map_cons, dot_cons, dot_cons, ih, abs_mul_abs_self]
  rw [Spec.norm, e]
  rfl

theorem vecSum_length (dim : Nat) (vs : List (List ℝ)) : (vecSum dim vs).length = dim := by simp [vecSum]

theorem vecSum_get {dim : Nat} {vs : List (List ℝ)} {k : Nat} (hk : k < dim) :
    (vecSum dim vs)[k]? = some ((vs.map fun v => v.getD k 0).sum) := by
  rw [vecSum, List.getElem?_map, List.getElem?_range hk]
  rfl

theorem vecSum_cons {dim : Nat} {v : List ℝ} {vs : List (List ℝ)} (h : v.length = dim) :
    vecSum dim (v :: vs) = List.zipWith (· + ·) v (vecSum dim vs) := by
  apply List.ext_getElem?
  intro k
  rcases lt_or_ge k dim with hk | hk
  · rw [vecSum_get hk, List.getElem?_zipWith, vecSum_get hk, List.getElem?_eq_getElem (by omega)]
    simp [h, hk]
  · rw [List.getElem?_eq_none (by rw [vecSum_length]; exact hk), List.getElem?_eq_none]
    rw [List.length_zipWith, h]; omega

theorem norm_vecSum_le {dim : Nat} : ∀ {vs : List (List ℝ)}, (∀ v ∈ vs, v.length = dim) →
    norm (vecSum dim vs) ≤ (vs.map norm).sum
  | [], _ => by
    have : norm (vecSum dim []) = 0 := norm_eq_zero'.2 (by
      intro a ha
      simp only [vecSum, List.map_nil, List.sum_nil, List.mem_map] at ha
      obtain ⟨_, _, rfl⟩ := ha
      rfl)
    simp [this]
  | v :: vs, h => by
    have hv := h v (by simp)
    rw [vecSum_cons hv, List.map_cons, List.sum_cons]
    exact (norm_add_le' (by rw [hv, vecSum_length])).trans
      (by linarith [norm_vecSum_le (vs := vs) fun u hu => h u (by simp [hu])])

/-! ### Adding up numbers -/

theorem addAll_err : ∀ (as : List ℝ) (m : Nat) (c e A : ℝ), (∀ a ∈ as, rne32 a = a) → rne32 c = c → m + as.length ≤ 1024 →
    |c - e| ≤ ((1 + 2 ^ (-24 : Int)) ^ m - 1) * A → |e| ≤ A → A + (as.map fun a => |a|).sum ≤ 2 ^ (126 : Int) →
    ∃ r, (as.map fin).foldl F32.add (fin c) = fin r ∧ rne32 r = r ∧
      |r - (e + as.sum)| ≤ ((1 + 2 ^ (-24 : Int)) ^ (m + as.length) - 1) * (A + (as.map fun a => |a|).sum)
  | [], m, c, e, A, _, hc, _, h, _, _ => ⟨c, rfl, hc, by simpa using h⟩
  | a :: t, m, c, e, A, hr, hc, hm, h, he, hA => by
    have ha := hr a (by simp)
    rw [List.length_cons] at hm
    have habs : ∀ l : List ℝ, 0 ≤ (l.map fun a => |a|).sum := fun l =>
      List.sum_nonneg (by simp only [List.mem_map]; rintro _ ⟨b, _, rfl⟩; exact abs_nonneg b)
    have ht := habs t
    simp only [List.map_cons, List.sum_cons] at hA ⊢
    have hadd := rne32_add_err hc ha
    have hu : (0 : ℝ) < 2 ^ (-24 : Int) := two_zpow_pos _
    have hu1 : (2 : ℝ) ^ (-24 : Int) ≤ 1 / 10000000 := by norm_num
    have hA0 : 0 ≤ A := (abs_nonneg e).trans he
    have hP := growth_1024 (k := m) (by omega)
    have hP1 := growth_1024 (k := m + 1) (by omega)
    have hPm : (1 : ℝ) ≤ (1 + 2 ^ (-24 : Int)) ^ m := one_le_pow₀ (by linarith)
    have hs : ((1 : ℝ) + 2 ^ (-24 : Int)) ^ (m + 1) = (1 + 2 ^ (-24 : Int)) ^ m * (1 + 2 ^ (-24 : Int)) := pow_succ _ _
    have hca : |c + a| ≤ |c - e| + (A + |a|) := by
      have h1 := abs_add_le (c - e) (e + a)
      have h2 := abs_add_le e a
      rw [show c - e + (e + a) = c + a by ring] at h1
      linarith
    have hstep : |rne32 (c + a) - (e + a)| ≤ ((1 + 2 ^ (-24 : Int)) ^ (m + 1) - 1) * (A + |a|) := by
      have h1 : |rne32 (c + a) - (e + a)| ≤ |rne32 (c + a) - (c + a)| + |c - e| := by
        rw [show rne32 (c + a) - (e + a) = (rne32 (c + a) - (c + a)) + (c - e) by ring]
        exact abs_add_le _ _
      rw [hs]
      have ha0 := abs_nonneg a
      generalize (2 : ℝ) ^ (-24 : Int) = u at *
      generalize ((1 : ℝ) + u) ^ m = P at *
      have h2 : u * |c + a| ≤ u * (|c - e| + (A + |a|)) := mul_le_mul_of_nonneg_left hca hu.le
      have h3 : (1 + u) * |c - e| ≤ (1 + u) * ((P - 1) * A) := mul_le_mul_of_nonneg_left h (by linarith)
      have h4 : 0 ≤ (P - 1) * |a| := mul_nonneg (by linarith) ha0
      have h5 : 0 ≤ u * ((P - 1) * |a|) := mul_nonneg hu.le h4
      nlinarith
    have hlit : (2 : ℝ) ^ (126 : Int) = 85070591730234615865843651857942052864 := by norm_num
    have hlit2 : (2 : ℝ) ^ (127 : Nat) = 170141183460469231731687303715884105728 := by norm_num
    have hmx := maxF32_ge
    rw [hlit2] at hmx
    have hfin : |rne32 (c + a)| ≤ maxF32 := by
      have h1 := abs_add_le (rne32 (c + a) - (e + a)) (e + a)
      rw [sub_add_cancel] at h1
      have h2 := abs_add_le e a
      have h3 : ((1 + 2 ^ (-24 : Int)) ^ (m + 1) - 1) * (A + |a|) ≤ 1 / 4 * (A + |a|) := by
        refine mul_le_mul_of_nonneg_right ?_ (add_nonneg hA0 (abs_nonneg a))
        refine (sub_le_sub_right hP1 1).trans ?_
        norm_num
      rw [hlit] at hA
      have h4 := hstep.trans h3
      clear h hP hP1 hs hadd hu hu1 hPm hlit hlit2 hstep h3
      linarith
    have hb : A + |a| + (t.map fun a => |a|).sum ≤ 2 ^ (126 : Int) := by linarith
    obtain ⟨r, h1, h2, h3⟩ := addAll_err t (m + 1) (rne32 (c + a)) (e + a) (A + |a|)
      (fun b hb => hr b (by simp [hb])) (rne32_idem _) (by omega) hstep ((abs_add_le e a).trans (by linarith)) hb
    refine ⟨r, ?_, h2, ?_⟩
    · rw [List.foldl_cons, ← h1]
      congr 1
      exact ofReal_fin hfin
    · rw [show e + (a + t.sum) = e + a + t.sum by ring, show m + (a :: t).length = m + 1 + t.length by simp; omega, ← add_assoc]
      exact h3

/-! ### Adding up vectors -/

theorem foldl_zip_component {S : Type} [Add S] [Zero S] (xs : List (List S)) (dim : Nat) :
    ∀ x : List S, x.length = dim → (∀ r ∈ xs, r.length = dim) →
    (xs.foldl (fun a b => List.zipWith (· + ·) a b) x).length = dim ∧
    ∀ k : Nat, k < dim → (xs.foldl (fun a b => List.zipWith (· + ·) a b) x)[k]? =
      some ((xs.map fun r => r.getD k 0).foldl (· + ·) (x.getD k 0)) := by
  induction xs with
  | nil =>
    intro x hx _
    exact ⟨hx, fun k hk => by simp [hx, hk]⟩
  | cons y t ih =>
    intro x hx hr
    have hy := hr y (by simp)
    obtain ⟨h1, h2⟩ := ih (List.zipWith (· + ·) x y) (by rw [List.length_zipWith, hx, hy, Nat.min_self])
      (fun r hr' => hr r (by simp [hr']))
    refine ⟨h1, fun k hk => ?_⟩
    rw [List.foldl_cons, h2 k hk]
    simp [hx, hy, hk]

theorem abs_le_norm {x : List ℝ} {a : ℝ} (h : a ∈ x) : |a| ≤ norm x := by
  rw [Spec.norm, ← Real.sqrt_mul_self (abs_nonneg a), abs_mul_abs_self]
  apply Real.sqrt_le_sqrt
  induction x with
  | nil => simp at h
  | cons b t ih =>
    rw [dot_cons]
    rcases List.mem_cons.1 h with rfl | h
    · linarith [dot_self_nonneg t]
    · linarith [ih h, mul_self_nonneg b]

theorem abs_getD_le_norm (x : List ℝ) (k : Nat) : |x.getD k 0| ≤ norm x := by
  rcases lt_or_ge k x.length with hk | hk
  · have : x.getD k 0 = x[k] := by simp [hk]
    rw [this]
    exact abs_le_norm (List.getElem_mem hk)
  · have : x.getD k 0 = 0 := by simp [hk]
    rw [this, abs_zero]
    exact norm_nonneg' x

/-- The sum of vectors, added up from left to right in binary32. -/
theorem sumVectors_err (v : List ℝ) (vs : List (List ℝ)) (dim : Nat) (hlen : ∀ u ∈ v :: vs, u.length = dim)
    (hrep : ∀ u ∈ v :: vs, ∀ a ∈ u, rne32 a = a) (hm : vs.length ≤ 1024)
    (hmax : ((v :: vs).map norm).sum ≤ 2 ^ (126 : Int)) :
    ∃ c : List ℝ, (vs.map fun u => u.map fin).foldl (fun a b => List.zipWith (· + ·) a b) (v.map fin) = c.map fin ∧
      c.length = dim ∧ (∀ a ∈ c, rne32 a = a) ∧
      norm (diff c (vecSum dim (v :: vs))) ≤ ((1 + 2 ^ (-24 : Int)) ^ vs.length - 1) * ((v :: vs).map norm).sum := by
  have hrep0 : ∀ (u : List ℝ) (k : Nat), u ∈ v :: vs → rne32 (u.getD k 0) = u.getD k 0 := by
    intro u k hu
    rcases lt_or_ge k u.length with hk | hk
    · have : u.getD k 0 = u[k] := by simp [hk]
      rw [this]
      exact hrep u hu _ (List.getElem_mem hk)
    · have : u.getD k 0 = 0 := by simp [hk]
      rw [this, rne32_zero]
  have comp : ∀ k : Nat, ∃ r, ((vs.map fun u => u.getD k 0).map fin).foldl F32.add (fin (v.getD k 0)) = fin r ∧
      rne32 r = r ∧ |r - ((v :: vs).map fun u => u.getD k 0).sum| ≤
        ((1 + 2 ^ (-24 : Int)) ^ vs.length - 1) * ((v :: vs).map fun u => |u.getD k 0|).sum := by
    intro k
    have hs : ((v :: vs).map fun u => |u.getD k 0|).sum ≤ ((v :: vs).map norm).sum :=
      List.sum_le_sum fun u _ => abs_getD_le_norm u k
    obtain ⟨r, h1, h2, h3⟩ := addAll_err (vs.map fun u => u.getD k 0) 0 (v.getD k 0) (v.getD k 0) |v.getD k 0|
      (by
        intro a ha
        obtain ⟨u, hu, rfl⟩ := List.mem_map.1 ha
        exact hrep0 u k (by simp [hu]))
      (hrep0 v k (by simp)) (by simpa using hm) (by simp) le_rfl (by
        refine le_trans (le_of_eq ?_) (hs.trans hmax)
        simp [Function.comp_def])
    refine ⟨r, h1, h2, ?_⟩
    simpa [Function.comp_def] using h3
  choose f hf1 hf2 hf3 using comp
  set c := (List.range dim).map f with hc
  have hcl : c.length = dim := by simp [hc]
  have hcg : ∀ k : Nat, k < dim → c[k]? = some (f k) := by
    intro k hk
    rw [hc, List.getElem?_map, List.getElem?_range hk]
    rfl
  obtain ⟨g1, g2⟩ := foldl_zip_component (S := F32) (vs.map fun u => u.map fin) dim (v.map fin)
    (by rw [List.length_map]; exact hlen v (by simp)) (by
      intro r hr
      obtain ⟨u, hu, rfl⟩ := List.mem_map.1 hr
      rw [List.length_map]
      exact hlen u (by simp [hu]))
  have hget : ∀ (u : List ℝ) (k : Nat), (u.map fin).getD k 0 = fin (u.getD k 0) := by
    intro u k
    rcases lt_or_ge k u.length with hk | hk
    · simp [hk]
    · simp [hk]; rfl
  refine ⟨c, ?_, hcl, ?_, ?_⟩
  · apply List.ext_getElem?
    intro k
    rcases lt_or_ge k dim with hk | hk
    · rw [g2 k hk, List.getElem?_map, hcg k hk, Option.map_some, hget, ← hf1 k, List.map_map, List.map_map]
      congr 2
      apply List.map_congr_left
      intro u _
      exact hget u k
    · rw [List.getElem?_eq_none (by omega), List.getElem?_eq_none (by rw [List.length_map]; omega)]
  · intro a ha
    obtain ⟨k, _, rfl⟩ := List.mem_map.1 ha
    exact hf2 k
  · set γ : ℝ := (1 + 2 ^ (-24 : Int)) ^ vs.length - 1 with hγ
    have hγ0 : 0 ≤ γ := sub_nonneg.2 (one_le_pow₀ (by have := two_zpow_pos (-24); linarith))
    have habs : norm (vecSum dim ((v :: vs).map fun u => u.map fun a => |a|)) ≤ ((v :: vs).map norm).sum := by
      refine (norm_vecSum_le ?_).trans (le_of_eq ?_)
      · intro u hu
        obtain ⟨u', hu', rfl⟩ := List.mem_map.1 hu
        rw [List.length_map]
        exact hlen u' hu'
      · rw [List.map_map]
        congr 1
        apply List.map_congr_left
        intro u _
        exact norm_map_abs u
    have hle : norm (diff c (vecSum dim (v :: vs))) ≤
        norm ((vecSum dim ((v :: vs).map fun u => u.map fun a => |a|)).map fun a => γ * a) := by
      apply norm_mono
      rw [List.forall₂_iff_get]
      have hl1 : (diff c (vecSum dim (v :: vs))).length = dim := by rw [diff_length (by rw [hcl, vecSum_length]), vecSum_length]
      refine ⟨by rw [hl1, List.length_map, vecSum_length], ?_⟩
      intro k hk1 hk2
      have hk : k < dim := by rw [hl1] at hk1; exact hk1
      have e1 : (diff c (vecSum dim (v :: vs)))[k]? = some (f k - ((v :: vs).map fun u => u.getD k 0).sum) := by
        rw [diff, List.getElem?_zipWith, hcg k hk, vecSum_get hk]
      have e2 : ((vecSum dim ((v :: vs).map fun u => u.map fun a => |a|)).map fun a => γ * a)[k]? =
          some (γ * ((v :: vs).map fun u => |u.getD k 0|).sum) := by
        rw [List.getElem?_map, vecSum_get hk, List.map_map, Option.map_some]
        congr 3
        apply List.map_congr_left
        intro u hu
        have hku : k < u.length := by rw [hlen u hu]; exact hk
        simp [hku]
      rw [List.getElem?_eq_getElem hk1] at e1
      rw [List.getElem?_eq_getElem hk2] at e2
      rw [List.get_eq_getElem, List.get_eq_getElem, Option.some.inj e1, Option.some.inj e2]
      exact hf3 k
    rw [norm_map_mul hγ0] at hle
    exact hle.trans (mul_le_mul_of_nonneg_left habs hγ0)

end Granne
