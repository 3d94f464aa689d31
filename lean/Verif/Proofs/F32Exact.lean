import Verif.Proofs.F32Dist
import Verif.Proofs.F32Quant
import Mathlib.Data.Nat.Log
import Mathlib.Data.Rat.Floor

/-!
Rounding to binary32, computed: on rational numbers `rneQ` is `rne32`, and it can be evaluated. With it the dot product of a concrete
`f32` vector is found by evaluation in the kernel.
-/
namespace Granne
open Spec F32

/-- `2^k`. -/
def pow2 : Int → ℚ
  | .ofNat n => ((2 ^ n : Nat) : ℚ)
  | .negSucc n => 1 / ((2 ^ (n + 1) : Nat) : ℚ)

theorem pow2_eq (k : Int) : ((pow2 k : ℚ) : ℝ) = 2 ^ k := by
  cases k with
  | ofNat n => simp [pow2]
  | negSucc n => simp [pow2, zpow_negSucc]

/-- `⌊log2 |q|⌋` for `q ≠ 0`. -/
def logQ (q : ℚ) : Int :=
  let k : Int := (Nat.log2 q.num.natAbs : Int) - (Nat.log2 q.den : Int)
  if pow2 k ≤ |q| then k else k - 1

theorem logQ_eq {q : ℚ} (hq : q ≠ 0) : Int.log 2 |(q : ℝ)| = logQ q := by
  have hn : q.num.natAbs ≠ 0 := by simpa using hq
  have hd : q.den ≠ 0 := q.den_nz
  have hnd : |(q : ℝ)| = (q.num.natAbs : ℝ) / q.den := by
    rw [Rat.cast_def, abs_div, Nat.abs_cast, Nat.cast_natAbs, Int.cast_abs]
  have hdp : (0 : ℝ) < q.den := by exact_mod_cast q.den_pos
  have hpos : 0 < |(q : ℝ)| := by
    rw [hnd]
    exact div_pos (by exact_mod_cast Nat.pos_of_ne_zero hn) hdp
  have n1 : (2 : ℝ) ^ Nat.log2 q.num.natAbs ≤ q.num.natAbs := by exact_mod_cast Nat.log2_self_le hn
  have n2 : (q.num.natAbs : ℝ) < 2 ^ (Nat.log2 q.num.natAbs + 1) := by exact_mod_cast Nat.lt_log2_self
  have d1 : (2 : ℝ) ^ Nat.log2 q.den ≤ q.den := by exact_mod_cast Nat.log2_self_le hd
  have d2 : (q.den : ℝ) < 2 ^ (Nat.log2 q.den + 1) := by exact_mod_cast Nat.lt_log2_self
  generalize hk : (Nat.log2 q.num.natAbs : Int) - (Nat.log2 q.den : Int) = k
  have hzn : (2 : ℝ) ^ Nat.log2 q.num.natAbs = 2 ^ k * 2 ^ Nat.log2 q.den := by
    rw [← zpow_natCast, ← zpow_natCast, ← zpow_add₀ (by norm_num)]
    congr 1
    omega
  have hup : |(q : ℝ)| < 2 ^ (k + 1) := by
    rw [hnd, div_lt_iff₀ hdp]
    refine n2.trans_le ?_
    rw [pow_succ, hzn, zpow_add_one₀ (by norm_num)]
    nlinarith [two_zpow_pos k]
  have hlo : (2 : ℝ) ^ (k - 1) ≤ |(q : ℝ)| := by
    rw [hnd, le_div_iff₀ hdp]
    refine le_trans ?_ n1
    rw [hzn, zpow_sub_one₀ (by norm_num)]
    have := d2.le
    rw [pow_succ] at this
    nlinarith [two_zpow_pos k]
  have hle : pow2 k ≤ |q| ↔ (2 : ℝ) ^ k ≤ |(q : ℝ)| := by
    rw [← pow2_eq, ← Rat.cast_abs, Rat.cast_le]
  have key : ∀ j : Int, (2 : ℝ) ^ j ≤ |(q : ℝ)| → |(q : ℝ)| < 2 ^ (j + 1) → Int.log 2 |(q : ℝ)| = j := by
    intro j h1 h2
    have a1 := (Int.zpow_le_iff_le_log (b := 2) (by norm_num) hpos).1 (by exact_mod_cast h1)
    have a2 := (Int.lt_zpow_iff_log_lt (b := 2) (by norm_num) hpos).1 (by exact_mod_cast h2)
    omega
  unfold logQ
  simp only [hk]
  split
  · next h => exact key k (hle.1 h) hup
  · next h =>
    refine key _ hlo ?_
    rw [sub_add_cancel]
    exact lt_of_not_ge fun hc => h (hle.2 hc)

/-- The nearest integer, ties to the even one. -/
def roundEvenQ (q : ℚ) : Int :=
  let f := q.num / q.den
  let r := q.num % q.den
  if 2 * r < q.den then f else if (q.den : Int) < 2 * r then f + 1 else if f % 2 = 0 then f else f + 1

theorem roundEvenQ_eq (q : ℚ) : roundEven (q : ℝ) = roundEvenQ q := by
  have hf : ⌊(q : ℝ)⌋ = q.num / q.den := by rw [Rat.floor_cast, Rat.floor_def']
  have hdp : (0 : ℝ) < q.den := by exact_mod_cast q.den_pos
  have hr : Int.fract (q : ℝ) = ((q.num % q.den : Int) : ℝ) / q.den := by
    rw [Int.fract, hf, eq_div_iff hdp.ne', sub_mul]
    conv_lhs => rw [Rat.cast_def, div_mul_cancel₀ _ hdp.ne']
    have := Int.emod_add_mul_ediv q.num q.den
    have h : ((q.num % q.den + q.den * (q.num / q.den) : Int) : ℝ) = (q.num : ℝ) := by rw [this]
    push_cast at h
    linarith
  have h1 : Int.fract (q : ℝ) < 1 / 2 ↔ 2 * (q.num % q.den) < q.den := by
    rw [hr, div_lt_iff₀ hdp]
    constructor
    · intro h
      have : ((2 * (q.num % q.den) : Int) : ℝ) < (q.den : Int) := by push_cast; linarith
      exact_mod_cast this
    · intro h
      have : ((2 * (q.num % q.den) : Int) : ℝ) < (q.den : Int) := by exact_mod_cast h
      push_cast at this; linarith
  have h2 : 1 / 2 < Int.fract (q : ℝ) ↔ (q.den : Int) < 2 * (q.num % q.den) := by
    rw [hr, lt_div_iff₀ hdp]
    constructor
    · intro h
      have : ((q.den : Int) : ℝ) < ((2 * (q.num % q.den) : Int) : ℝ) := by push_cast; linarith
      exact_mod_cast this
    · intro h
      have : ((q.den : Int) : ℝ) < ((2 * (q.num % q.den) : Int) : ℝ) := by exact_mod_cast h
      push_cast at this; linarith
  unfold roundEven roundEvenQ
  simp only [h1, h2, hf, Int.even_iff]

/-- `rne32` on rational numbers. -/
def rneQ (q : ℚ) : ℚ :=
  if q = 0 then 0
  else
    let e := max (logQ q - 23) (-149)
    (roundEvenQ (q * pow2 (-e)) : ℚ) * pow2 e

theorem rneQ_eq (q : ℚ) : rne32 (q : ℝ) = ((rneQ q : ℚ) : ℝ) := by
  unfold rneQ
  split
  · next h => rw [h, Rat.cast_zero, rne32_zero]
  · next h =>
    have he : ulpExp (q : ℝ) = max (logQ q - 23) (-149) := by rw [ulpExp, logQ_eq h]
    simp only [rne32, he]
    rw [Rat.cast_mul, pow2_eq, Rat.cast_intCast, ← roundEvenQ_eq, Rat.cast_mul, pow2_eq, zpow_neg, div_eq_mul_inv]

/-- A rounded result; `none` marks one above `2^100`. -/
def simRound (q : ℚ) : Option ℚ := if |rneQ q| ≤ ((2 ^ 100 : Nat) : ℚ) then some (rneQ q) else none

/-- Addition with `rneQ`. -/
def simAdd : Option ℚ → Option ℚ → Option ℚ
  | some a, some b => simRound (a + b)
  | _, _ => none

/-- Multiplication and addition, rounded once, with `rneQ`. -/
def simMulAdd : Option ℚ → Option ℚ → Option ℚ → Option ℚ
  | some a, some b, some c => simRound (a * b + c)
  | _, _, _ => none

/-- Arithmetic with `rneQ`. -/
@[reducible] def simOps : MulAddOps (Option ℚ) where
  zero := some 0
  add := simAdd
  mulAdd := simMulAdd

/-- What a simulated number says about an `f32`. -/
def Sim (s : Option ℚ) (v : F32) : Prop := ∀ q : ℚ, s = some q → v = fin (q : ℝ)

theorem simRound_eq {q p : ℚ} (h : simRound q = some p) : ofReal (q : ℝ) = fin (p : ℝ) := by
  unfold simRound at h
  split at h
  · next h' =>
    obtain rfl := Option.some.inj h
    rw [ofReal_fin, rneQ_eq]
    rw [rneQ_eq]
    have h1 : ((|rneQ q| : ℚ) : ℝ) ≤ (((2 ^ 100 : Nat) : ℚ) : ℝ) := Rat.cast_le.2 h'
    rw [Rat.cast_abs] at h1
    have h2 : (((2 ^ 100 : Nat) : ℚ) : ℝ) ≤ 2 ^ 127 := by norm_num
    exact h1.trans (h2.trans maxF32_ge)
  · cases h

theorem sim_add {s t : Option ℚ} {v w : F32} (h1 : Sim s v) (h2 : Sim t w) : Sim (simAdd s t) (MulAddOps.add v w) := by
  intro q hq
  rcases s with _ | a
  · cases hq
  rcases t with _ | b
  · cases hq
  rw [h1 a rfl, h2 b rfl]
  have := simRound_eq hq
  rw [Rat.cast_add] at this
  exact this

theorem sim_mulAdd {r s t : Option ℚ} {u v w : F32} (h0 : Sim r u) (h1 : Sim s v) (h2 : Sim t w) :
    Sim (simMulAdd r s t) (MulAddOps.mulAdd u v w) := by
  intro q hq
  rcases r with _ | c
  · cases hq
  rcases s with _ | a
  · cases hq
  rcases t with _ | b
  · cases hq
  rw [h0 c rfl, h1 a rfl, h2 b rfl]
  have := simRound_eq hq
  rw [Rat.cast_add, Rat.cast_mul] at this
  exact this

/-- Two computations of a dot product, related step by step. -/
theorem dotProduct_rel {F G : Type} (of : MulAddOps F) (og : MulAddOps G) (R : F → G → Prop) (hz : R of.zero og.zero)
    (ha : ∀ a b c d, R a b → R c d → R (of.add a c) (og.add b d))
    (hm : ∀ a b c d e f, R a b → R c d → R e f → R (of.mulAdd a c e) (og.mulAdd b d f))
    {x y : List F} {x' y' : List G} (hx : List.Forall₂ R x x') (hy : List.Forall₂ R y y') :
    R (@dotProduct F of x y) (@dotProduct G og x' y') := by
  have hzip : ∀ {a b : List F} {a' b' : List G}, List.Forall₂ R a a' → List.Forall₂ R b b' →
      List.Forall₂ (fun p p' => R p.1 p'.1 ∧ R p.2 p'.2) (a.zip b) (a'.zip b') := by
    intro a b a' b' h
    induction h generalizing b b' with
    | nil => intro _; exact List.Forall₂.nil
    | cons h1 _ ih =>
      intro h2
      cases h2 with
      | nil => exact List.Forall₂.nil
      | cons h3 h4 => exact List.Forall₂.cons ⟨h1, h3⟩ (ih h4)
  have hstep : ∀ {c : List F} {c' : List G} {p : List F × List F} {p' : List G × List G}, List.Forall₂ R c c' →
      List.Forall₂ R p.1 p'.1 → List.Forall₂ R p.2 p'.2 →
      List.Forall₂ R (@laneStep F of c p) (@laneStep G og c' p') := by
    intro c c' p p' hc h1 h2
    unfold laneStep
    have hz := hzip h1 h2
    generalize p.1.zip p.2 = z at hz
    generalize p'.1.zip p'.2 = z' at hz
    induction hz generalizing c c' with
    | nil => exact List.Forall₂.nil
    | cons h3 _ ih =>
      cases hc with
      | nil => exact List.Forall₂.nil
      | cons h5 h6 => exact List.Forall₂.cons (hm _ _ _ _ _ _ h3.1 h3.2 h5) (ih h6)
  have hchunk : ∀ {a : List F} {a' : List G}, List.Forall₂ R a a' →
      List.Forall₂ (List.Forall₂ R) (chunksExact 32 a) (chunksExact 32 a') := by
    intro a a' h
    unfold chunksExact
    rw [h.length_eq]
    rw [List.forall₂_map_left_iff, List.forall₂_map_right_iff, List.forall₂_same]
    intro i _
    exact List.forall₂_take 32 (List.forall₂_drop (i * 32) h)
  have hfold : ∀ {ps : List (List F × List F)} {ps' : List (List G × List G)} {c : List F} {c' : List G},
      List.Forall₂ (fun p p' => List.Forall₂ R p.1 p'.1 ∧ List.Forall₂ R p.2 p'.2) ps ps' → List.Forall₂ R c c' →
      List.Forall₂ R (ps.foldl (@laneStep F of) c) (ps'.foldl (@laneStep G og) c') := by
    intro ps ps' c c' h
    induction h generalizing c c' with
    | nil => intro hc; exact hc
    | cons h1 _ ih => intro hc; exact ih (hstep hc h1.1 h1.2)
  have hzip2 : ∀ {a b : List (List F)} {a' b' : List (List G)}, List.Forall₂ (List.Forall₂ R) a a' →
      List.Forall₂ (List.Forall₂ R) b b' →
      List.Forall₂ (fun p p' => List.Forall₂ R p.1 p'.1 ∧ List.Forall₂ R p.2 p'.2) (a.zip b) (a'.zip b') := by
    intro a b a' b' h
    induction h generalizing b b' with
    | nil => intro _; exact List.Forall₂.nil
    | cons h1 _ ih =>
      intro h2
      cases h2 with
      | nil => exact List.Forall₂.nil
      | cons h3 h4 => exact List.Forall₂.cons ⟨h1, h3⟩ (ih h4)
  have hsum : ∀ {c : List F} {c' : List G} {r : F} {r' : G}, List.Forall₂ R c c' → R r r' →
      R (c.foldl of.add r) (c'.foldl og.add r') := by
    intro c c' r r' h
    induction h generalizing r r' with
    | nil => intro hr; exact hr
    | cons h1 _ ih => intro hr; exact ih (ha _ _ _ _ hr h1)
  have hrem : ∀ {l : List (F × F)} {l' : List (G × G)} {r : F} {r' : G},
      List.Forall₂ (fun p p' => R p.1 p'.1 ∧ R p.2 p'.2) l l' → R r r' →
      R (l.foldl (fun r p => of.mulAdd p.1 p.2 r) r) (l'.foldl (fun r p => og.mulAdd p.1 p.2 r) r') := by
    intro l l' r r' h
    induction h generalizing r r' with
    | nil => intro hr; exact hr
    | cons h1 _ ih => intro hr; exact ih (hm _ _ _ _ _ _ h1.1 h1.2 hr)
  unfold dotProduct
  refine hrem (hzip ?_ ?_) (hsum (hfold (hzip2 (hchunk hx) (hchunk hy)) ?_) hz)
  · unfold chunksRemainder
    rw [hx.length_eq]
    exact List.forall₂_drop _ hx
  · unfold chunksRemainder
    rw [hy.length_eq]
    exact List.forall₂_drop _ hy
  · have : ∀ n, List.Forall₂ R (List.replicate n of.zero) (List.replicate n og.zero) := by
      intro n
      induction n with
      | zero => exact List.Forall₂.nil
      | succ n ih => exact List.Forall₂.cons hz ih
    exact this 32

/-- The dot product of vectors with rational components, by evaluation. -/
theorem dotProduct_eval {x y : List ℚ} {r : ℚ} (h : @dotProduct _ simOps (x.map some) (y.map some) = some r) :
    dotProduct (x.map fun a : ℚ => fin (a : ℝ)) (y.map fun a : ℚ => fin (a : ℝ)) = fin (r : ℝ) := by
  have hs : ∀ l : List ℚ, List.Forall₂ Sim (l.map some) (l.map fun a : ℚ => fin (a : ℝ)) := by
    intro l
    rw [List.forall₂_map_left_iff, List.forall₂_map_right_iff, List.forall₂_same]
    intro a _ q hq
    rw [Option.some.inj hq]
  exact dotProduct_rel simOps _ Sim (fun q hq => by rw [← Option.some.inj hq]; simp [MulAddOps.zero])
    (fun a b c d h1 h2 => sim_add h1 h2) (fun a b c d e f h1 h2 h3 => sim_mulAdd h1 h2 h3) (hs x) (hs y) r h

end Granne
