import Verif.Spec.Json
import Verif.Proofs.Format
import Mathlib.Data.List.Induction

/-! The JSON reader reads exactly the texts of Spec/Json. -/
namespace Granne
open Spec

/-! ### Numbers -/

theorem natDigitsAux_append (fuel n : Nat) (acc : Bytes) :
    natDigitsAux fuel n acc = natDigitsAux fuel n [] ++ acc := by
  induction fuel generalizing n acc with
  | zero => rfl
  | succ fuel ih =>
    rw [natDigitsAux, natDigitsAux]
    split
    · rfl
    · rw [ih, ih (acc := [_])]; simp

theorem natDigitsAux_fuel {f f' n : Nat} (h : n < f) (h' : n < f') (acc : Bytes) :
    natDigitsAux f n acc = natDigitsAux f' n acc := by
  induction f generalizing f' n acc with
  | zero => omega
  | succ f ih =>
    obtain ⟨g, rfl⟩ : ∃ g, f' = g + 1 := ⟨f' - 1, by omega⟩
    rw [natDigitsAux, natDigitsAux]
    split
    · rfl
    · exact ih (by omega) (by omega) _

theorem natDigits_small {n : Nat} (h : n < 10) : natDigits n = [UInt8.ofNat (48 + n)] := by
  rw [natDigits, natDigitsAux, if_pos h]

theorem natDigits_step {n : Nat} (h : 10 ≤ n) : natDigits n = natDigits (n / 10) ++ [UInt8.ofNat (48 + n % 10)] := by
  rw [natDigits, natDigitsAux, if_neg (by omega), natDigitsAux_append, natDigits]
  rw [natDigitsAux_fuel (f := n) (f' := n / 10 + 1) (by omega) (by omega)]

theorem digit_toNat {d : Nat} (h : d < 10) : (UInt8.ofNat (48 + d)).toNat = 48 + d := by
  simp; omega

theorem digit_isDigit {d : Nat} (h : d < 10) : isDigit (UInt8.ofNat (48 + d)) = true := by
  simp only [isDigit, Bool.and_eq_true, decide_eq_true_eq, UInt8.le_iff_toNat_le, digit_toNat h]
  exact ⟨by simp, by simp; omega⟩

theorem natDigits_isDigit (n : Nat) : ∀ b ∈ natDigits n, isDigit b = true := by
  induction n using Nat.strongRecOn with
  | _ n ih =>
    by_cases h : n < 10
    · rw [natDigits_small h]; intro b hb; rw [List.mem_singleton] at hb; subst hb; exact digit_isDigit h
    · rw [natDigits_step (by omega)]
      intro b hb
      rcases List.mem_append.1 hb with hb | hb
      · exact ih _ (by omega) b hb
      · rw [List.mem_singleton] at hb; subst hb; exact digit_isDigit (by omega)

theorem digitsVal_natDigits (n : Nat) : digitsVal (natDigits n) = n := by
  induction n using Nat.strongRecOn with
  | _ n ih =>
    by_cases h : n < 10
    · rw [natDigits_small h]; simp only [digitsVal, List.foldl_cons, List.foldl_nil, digit_toNat h]; omega
    · have := ih (n / 10) (by omega)
      rw [natDigits_step (by omega)]
      unfold digitsVal at this ⊢
      rw [List.foldl_append, this]
      simp only [List.foldl_cons, List.foldl_nil, digit_toNat (show n % 10 < 10 by omega)]; omega

theorem natDigits_ne_nil (n : Nat) : natDigits n ≠ [] := by
  by_cases h : n < 10
  · rw [natDigits_small h]; simp
  · rw [natDigits_step (by omega)]; simp

/-- No leading zero. -/
theorem natDigits_head {n : Nat} (h : 1 ≤ n) : (natDigits n).head? ≠ some 48 := by
  induction n using Nat.strongRecOn with
  | _ n ih =>
    by_cases h9 : n < 10
    · rw [natDigits_small h9]
      simp only [List.head?_cons, ne_eq, Option.some.injEq]
      intro hc
      have := congrArg UInt8.toNat hc
      rw [digit_toNat h9] at this
      simp at this; omega
    · rw [natDigits_step (by omega), List.head?_append_of_ne_nil _ (natDigits_ne_nil _)]
      exact ih _ (by omega) (by omega)

/-- What may follow a number. -/
def EndsNumber (rest : Bytes) : Prop :=
  ∀ b, rest.head? = some b → isDigit b = false ∧ b ≠ 46 ∧ b ≠ 101 ∧ b ≠ 69

theorem takeWhile_digits {ds rest : Bytes} (h : ∀ b ∈ ds, isDigit b = true)
    (hr : ∀ b, rest.head? = some b → isDigit b = false) :
    (ds ++ rest).takeWhile isDigit = ds ∧ (ds ++ rest).dropWhile isDigit = rest := by
  rw [List.takeWhile_append_of_pos h, List.dropWhile_append_of_pos h]
  cases rest with
  | nil => simp
  | cons b t => simp [hr b rfl]

theorem natDigits_cons (n : Nat) : ∃ b t, natDigits n = b :: t ∧ isDigit b = true := by
  cases h : natDigits n with
  | nil => exact absurd h (natDigits_ne_nil n)
  | cons b t => exact ⟨b, t, rfl, natDigits_isDigit n b (by simp [h])⟩

theorem isDigit_spec {b : UInt8} (h : isDigit b = true) : 48 ≤ b.toNat ∧ b.toNat ≤ 57 := by
  simp only [isDigit, Bool.and_eq_true, decide_eq_true_eq, UInt8.le_iff_toNat_le] at h
  simpa using h

theorem isDigit_ne {b c : UInt8} (h : isDigit b = true) (hc : c.toNat < 48 ∨ 57 < c.toNat) : b ≠ c := by
  rintro rfl; have := isDigit_spec h; omega

theorem isDigit_not_ws {b : UInt8} (h : isDigit b = true) : isWs b = false := by
  have h1 : b ≠ 32 := isDigit_ne h (by decide)
  have h2 : b ≠ 9 := isDigit_ne h (by decide)
  have h3 : b ≠ 10 := isDigit_ne h (by decide)
  have h4 : b ≠ 13 := isDigit_ne h (by decide)
  simp [isWs, h1, h2, h3, h4]

theorem skipWs_digits (n : Nat) (rest : Bytes) : skipWs (natDigits n ++ rest) = natDigits n ++ rest := by
  obtain ⟨b, t, h, hb⟩ := natDigits_cons n
  rw [h, skipWs, List.cons_append, List.dropWhile_cons_of_neg (by simp [isDigit_not_ws hb])]

theorem endsNumber_cons {b : UInt8} (t : Bytes) (h : isDigit b = false ∧ b ≠ 46 ∧ b ≠ 101 ∧ b ≠ 69) :
    EndsNumber (b :: t) := by
  intro c hc
  simp only [List.head?_cons, Option.some.injEq] at hc
  exact hc ▸ h

theorem sepBy_length (l : List Nat) : l.length ≤ (sepBy (l.map natDigits)).length := by
  induction l with
  | nil => simp
  | cons n t ih =>
    have h0 : 1 ≤ (natDigits n).length := List.length_pos_iff.2 (natDigits_ne_nil n)
    cases t with
    | nil => simpa [sepBy] using h0
    | cons m t =>
      simp only [List.map_cons, sepBy, List.length_append, List.length_cons] at ih ⊢
      have : (asc ",").length = 1 := by rfl
      rw [this]; omega

/-! ### White space -/

theorem isWs_iff (b : UInt8) : isWs b = true ↔ b ∈ ([0x20, 0x09, 0x0A, 0x0D] : Bytes) := by
  simp [isWs, or_assoc]

theorem skipWs_blank {w : Bytes} (h : IsBlank w) (s : Bytes) : skipWs (w ++ s) = skipWs s := by
  unfold skipWs
  exact List.dropWhile_append_of_pos fun b hb => (isWs_iff b).2 (h b hb)

theorem skipWs_split (s : Bytes) : ∃ w, IsBlank w ∧ s = w ++ skipWs s := by
  refine ⟨s.takeWhile isWs, fun b hb => (isWs_iff b).1 ?_, List.takeWhile_append_dropWhile.symm⟩
  exact List.all_eq_true.1 (List.all_takeWhile (p := isWs) (l := s)) b hb

theorem skipWs_cons {b : UInt8} (h : isWs b = false) (s : Bytes) : skipWs (b :: s) = b :: s := by
  rw [skipWs, List.dropWhile_cons_of_neg (by simp [h])]

theorem skipWs_nil_iff (s : Bytes) : skipWs s = [] ↔ IsBlank s := by
  constructor
  · intro h
    obtain ⟨w, hw, e⟩ := skipWs_split s
    rw [h, List.append_nil] at e
    rw [e]; exact hw
  · intro h
    have := skipWs_blank h []
    rwa [List.append_nil] at this

theorem endsNumber_blank {w : Bytes} (h : IsBlank w) {s : Bytes} (hs : EndsNumber s) : EndsNumber (w ++ s) := by
  cases w with
  | nil => exact hs
  | cons b t =>
    refine endsNumber_cons _ ?_
    have := h b (by simp)
    simp only [List.mem_cons, List.not_mem_nil, or_false] at this
    rcases this with rfl | rfl | rfl | rfl <;> decide

theorem endsNumber_nil : EndsNumber [] := by intro b hb; simp at hb

/-! ### Decimal numbers -/

theorem isDecimal_isDigit {b : Bytes} {n : Nat} (h : IsDecimal b n) : ∀ c ∈ b, isDigit c = true := by
  induction h with
  | one d hd => intro c hc; rw [List.mem_singleton] at hc; subst hc; exact digit_isDigit hd
  | snoc b n d _ hd ih =>
    intro c hc
    rcases List.mem_append.1 hc with hc | hc
    · exact ih c hc
    · rw [List.mem_singleton] at hc; subst hc; exact digit_isDigit hd

theorem isDecimal_ne_nil {b : Bytes} {n : Nat} (h : IsDecimal b n) : b ≠ [] := by cases h <;> simp

theorem isDecimal_val {b : Bytes} {n : Nat} (h : IsDecimal b n) : digitsVal b = n := by
  induction h with
  | one d hd => simp only [digitsVal, List.foldl_cons, List.foldl_nil, digit_toNat hd]; omega
  | snoc b n d _ hd ih =>
    unfold digitsVal at ih ⊢
    rw [List.foldl_append, ih]
    simp only [List.foldl_cons, List.foldl_nil, digit_toNat hd]; omega

theorem isDecimal_of_digits (b : Bytes) (hn : b ≠ []) (h : ∀ c ∈ b, isDigit c = true) : IsDecimal b (digitsVal b) := by
  induction b using List.reverseRecOn with
  | nil => exact absurd rfl hn
  | append_singleton t c ih =>
    have hc := isDigit_spec (h c (by simp))
    have e : c = UInt8.ofNat (48 + (c.toNat - 48)) := by
      rw [show 48 + (c.toNat - 48) = c.toNat by omega, UInt8.ofNat_toNat]
    by_cases ht : t = []
    · subst ht
      have := IsDecimal.one (c.toNat - 48) (by omega)
      rw [← e] at this
      simpa [digitsVal] using this
    · have := (ih ht fun c hc => h c (by simp [hc])).snoc t _ (c.toNat - 48) (by omega)
      rw [← e] at this
      have hv : digitsVal (t ++ [c]) = 10 * digitsVal t + (c.toNat - 48) := by
        unfold digitsVal
        rw [List.foldl_append]
        rfl
      rw [hv]; exact this

theorem isInt_natDigits (n : Nat) : IsInt (natDigits n) n := by
  have h := isDecimal_of_digits (natDigits n) (natDigits_ne_nil n) (natDigits_isDigit n)
  rw [digitsVal_natDigits] at h
  refine ⟨h, fun h0 => ?_⟩
  by_cases h1 : 1 ≤ n
  · exact absurd h0 (natDigits_head h1)
  · obtain rfl : n = 0 := by omega
    decide

/-- The digits a text begins with. -/
theorem digits_split (s : Bytes) : ∃ ds t, s = ds ++ t ∧ s.takeWhile isDigit = ds ∧ s.dropWhile isDigit = t ∧
    (ds ≠ [] → IsDecimal ds (digitsVal ds)) := by
  refine ⟨_, _, List.takeWhile_append_dropWhile.symm, rfl, rfl, fun h => isDecimal_of_digits _ h fun c hc => ?_⟩
  exact List.all_eq_true.1 (List.all_takeWhile (p := isDigit) (l := s)) c hc

/-! ### Numbers -/

theorem expo_iff (u : Bytes) (v : Json) (r : Bytes) (e : UInt8) (he : e ∈ ([101, 69] : Bytes)) (h : parseNum.expo u = some (v, r)) :
    v = .other ∧ ∃ x, e :: u = x ++ r ∧ IsExponent x ∧ x ≠ [] := by
  unfold parseNum.expo at h
  simp only at h
  have hu : ∃ sign, sign ∈ ([[], [43], [45]] : List Bytes) ∧ u = sign ++ skipSign u := by
    unfold skipSign
    split
    · next hh =>
      cases u with
      | nil => simp at hh
      | cons b t =>
        simp only [List.head?_cons, Bool.or_eq_true, beq_iff_eq, Option.some.injEq] at hh
        rcases hh with rfl | rfl
        · exact ⟨[43], by simp, rfl⟩
        · exact ⟨[45], by simp, rfl⟩
    · exact ⟨[], by simp, rfl⟩
  obtain ⟨sign, hsign, hu⟩ := hu
  generalize skipSign u = u1 at h hu
  obtain ⟨ds, t, e1, e2, e3, e4⟩ := digits_split u1
  rw [e2, e3] at h
  split at h
  · cases h
  · next hd =>
    simp only [Option.some.injEq, Prod.mk.injEq] at h
    obtain ⟨rfl, rfl⟩ := h
    exact ⟨rfl, e :: (sign ++ ds), by rw [hu, e1]; simp, Or.inr ⟨e, sign, ds, _, e4 hd, he, hsign, rfl⟩, by simp⟩

theorem parseNum_sound {s r : Bytes} {v : Json} (h : parseNum s = some (v, r)) : ∃ b, s = b ++ r ∧ JsonNumber v b := by
  have hneg : ∃ minus, (if (s.head? == some 45) = true then s.drop 1 else s) = s.drop minus.length ∧ s = minus ++ s.drop minus.length ∧
      ((s.head? == some 45) = true ∧ minus = [45] ∨ (s.head? == some 45) = false ∧ minus = []) := by
    cases hh : (s.head? == some 45) with
    | false => exact ⟨[], by simp, by simp, by simp⟩
    | true =>
      cases s with
      | nil => simp at hh
      | cons b t =>
        simp only [List.head?_cons, beq_iff_eq, Option.some.injEq] at hh
        subst hh
        exact ⟨[45], by simp, by simp, by simp⟩
  obtain ⟨minus, m1, m2, m3⟩ := hneg
  unfold parseNum at h
  simp only at h
  rw [m1] at h
  generalize s.drop minus.length = s1 at h m2
  subst m2
  obtain ⟨ds, t, e1, e2, e3, e4⟩ := digits_split s1
  rw [e2, e3] at h
  subst e1
  have hm : minus = [] ∨ minus = [45] := by tauto
  by_cases hd : ds = []
  · rw [if_pos hd] at h; cases h
  rw [if_neg hd] at h
  by_cases hz : (ds.head? == some 48 && ds.length != 1) = true
  · rw [if_pos hz] at h; cases h
  rw [if_neg hz] at h
  have hint : IsInt ds (digitsVal ds) := by
    refine ⟨e4 hd, fun h0 => ?_⟩
    simp only [h0, BEq.rfl, Bool.true_and, bne_iff_ne, ne_eq, Decidable.not_not] at hz
    obtain ⟨c, rfl⟩ := List.length_eq_one_iff.1 hz
    simpa using h0
  split at h
  · next t1 =>
    obtain ⟨fs, t2, f1, f2, f3, f4⟩ := digits_split t1
    rw [f2, f3] at h
    subst f1
    by_cases hfs : fs = []
    · rw [if_pos hfs] at h; cases h
    rw [if_neg hfs] at h
    have hfr : IsFraction (46 :: fs) := Or.inr ⟨fs, _, f4 hfs, rfl⟩
    split at h
    · next u =>
      obtain ⟨rfl, x, hx1, hx2, _⟩ := expo_iff u v r 101 (by simp) h
      exact ⟨minus ++ ds ++ 46 :: fs ++ x, by rw [hx1]; simp, .other minus ds _ x _ hm hint hfr hx2 (by simp)⟩
    · next u =>
      obtain ⟨rfl, x, hx1, hx2, _⟩ := expo_iff u v r 69 (by simp) h
      exact ⟨minus ++ ds ++ 46 :: fs ++ x, by rw [hx1]; simp, .other minus ds _ x _ hm hint hfr hx2 (by simp)⟩
    · simp only [Option.some.injEq, Prod.mk.injEq] at h
      obtain ⟨rfl, rfl⟩ := h
      have := JsonNumber.other minus ds _ [] _ hm hint hfr (Or.inl rfl) (by simp)
      exact ⟨_, by simp, this⟩
  · next u =>
    obtain ⟨rfl, x, hx1, hx2, hx3⟩ := expo_iff u v r 101 (by simp) h
    exact ⟨minus ++ ds ++ [] ++ x, by rw [hx1]; simp, .other minus ds [] x _ hm hint (Or.inl rfl) hx2 (by simp [hx3])⟩
  · next u =>
    obtain ⟨rfl, x, hx1, hx2, hx3⟩ := expo_iff u v r 69 (by simp) h
    exact ⟨minus ++ ds ++ [] ++ x, by rw [hx1]; simp, .other minus ds [] x _ hm hint (Or.inl rfl) hx2 (by simp [hx3])⟩
  · simp only [Option.some.injEq, Prod.mk.injEq] at h
    obtain ⟨hv, rfl⟩ := h
    rcases m3 with ⟨m3, rfl⟩ | ⟨m3, rfl⟩
    · rw [m3, if_pos rfl] at hv
      subst hv
      exact ⟨[45] ++ ds ++ [] ++ [], by simp, .other _ ds [] [] _ hm hint (Or.inl rfl) (Or.inl rfl) (by simp)⟩
    · rw [m3, if_neg (by simp)] at hv
      subst hv
      exact ⟨ds, by simp, .nat ds _ hint⟩

theorem expo_complete {sign ds r : Bytes} {n : Nat} (hd : IsDecimal ds n) (hs : sign ∈ ([[], [43], [45]] : List Bytes))
    (hr : EndsNumber r) : parseNum.expo (sign ++ ds ++ r) = some (.other, r) := by
  have hdig := isDecimal_isDigit hd
  have hne := isDecimal_ne_nil hd
  have hskip : skipSign (sign ++ ds ++ r) = ds ++ r := by
    simp only [List.mem_cons, List.not_mem_nil, or_false] at hs
    rcases hs with rfl | rfl | rfl
    · cases ds with
      | nil => exact absurd rfl hne
      | cons b t =>
        have hb := hdig b (by simp)
        have h1 : b ≠ 43 := isDigit_ne hb (by decide)
        have h2 : b ≠ 45 := isDigit_ne hb (by decide)
        simp [skipSign, h1, h2]
    · simp [skipSign]
    · simp [skipSign]
  obtain ⟨e1, e2⟩ := takeWhile_digits hdig fun b hb => (hr b hb).1
  unfold parseNum.expo
  simp only
  rw [hskip, e1, e2, if_neg hne]

theorem parseNum_complete {b r : Bytes} {v : Json} (h : JsonNumber v b) (hr : EndsNumber r) : parseNum (b ++ r) = some (v, r) := by
  -- the general form
  have key : ∀ (minus ds frac ex : Bytes) (n : Nat), (minus = [] ∨ minus = [45]) → IsInt ds n → IsFraction frac → IsExponent ex →
      parseNum (minus ++ ds ++ frac ++ ex ++ r) = some (if minus ++ frac ++ ex = [] then .num n else .other, r) := by
    intro minus ds frac ex n hm hi hf he
    have hdig := isDecimal_isDigit hi.1
    have hne := isDecimal_ne_nil hi.1
    obtain ⟨c, ds', hcd⟩ := List.exists_cons_of_ne_nil hne
    have hc45 : c ≠ 45 := isDigit_ne (hdig c (by simp [hcd])) (by decide)
    have hhead : ((minus ++ ds ++ frac ++ ex ++ r).head? == some 45) = decide (minus = [45]) := by
      rcases hm with rfl | rfl
      · rw [hcd]; simp [hc45]
      · simp
    have hs1 : (if ((minus ++ ds ++ frac ++ ex ++ r).head? == some 45) = true then (minus ++ ds ++ frac ++ ex ++ r).drop 1
        else minus ++ ds ++ frac ++ ex ++ r) = ds ++ (frac ++ ex ++ r) := by
      rw [hhead]
      rcases hm with rfl | rfl
      · simp
      · simp
    have hexn : ∀ c, (ex ++ r).head? = some c → isDigit c = false ∧ c ≠ 46 := by
      rcases he with rfl | ⟨e, sg, es, m, _, he, _, rfl⟩
      · intro c hc; exact ⟨(hr c hc).1, (hr c hc).2.1⟩
      · intro c hc
        simp only [List.cons_append, List.head?_cons, Option.some.injEq] at hc
        subst hc
        simp only [List.mem_cons, List.not_mem_nil, or_false] at he
        rcases he with rfl | rfl <;> decide
    have hfn : ∀ c, (frac ++ ex ++ r).head? = some c → isDigit c = false := by
      rcases hf with rfl | ⟨fs, m, _, rfl⟩
      · intro c hc; exact (hexn c hc).1
      · intro c hc
        simp only [List.cons_append, List.head?_cons, Option.some.injEq] at hc
        subst hc; decide
    obtain ⟨e1, e2⟩ := takeWhile_digits hdig hfn
    unfold parseNum
    simp only
    rw [hs1, e1, e2, if_neg hne, if_neg (by
      intro hc
      simp only [Bool.and_eq_true, beq_iff_eq, bne_iff_ne, ne_eq] at hc
      exact hc.2 (by rw [hi.2 hc.1]; rfl))]
    rcases hf with rfl | ⟨fs, m, hfd, rfl⟩
    · rcases he with rfl | ⟨e, sg, es, m, hed, he, hsg, rfl⟩
      · rw [List.nil_append, List.nil_append, hhead]
        split
        · next h => exact absurd rfl (hr 46 (by simp)).2.1
        · next h => exact absurd rfl (hr 101 (by simp)).2.2.1
        · next h => exact absurd rfl (hr 69 (by simp)).2.2.2
        · rw [isDecimal_val hi.1]
          rcases hm with rfl | rfl <;> simp
      · have hx := expo_complete hed hsg hr
        rw [if_neg (show ¬ minus ++ [] ++ e :: (sg ++ es) = [] by simp)]
        simp only [List.mem_cons, List.not_mem_nil, or_false] at he
        rcases he with rfl | rfl <;> exact hx
    · have hdf := isDecimal_isDigit hfd
      obtain ⟨g1, g2⟩ := takeWhile_digits (rest := ex ++ r) hdf fun c hc => (hexn c hc).1
      rw [if_neg (show ¬ minus ++ 46 :: fs ++ ex = [] by simp)]
      have hassoc : 46 :: fs ++ ex ++ r = 46 :: (fs ++ (ex ++ r)) := by simp
      rw [hassoc]
      simp only
      rw [g1, g2, if_neg (isDecimal_ne_nil hfd)]
      rcases he with rfl | ⟨e, sg, es, m, hed, he, hsg, rfl⟩
      · rw [List.nil_append]
        split
        · next h => exact absurd rfl (hr 101 (by simp)).2.2.1
        · next h => exact absurd rfl (hr 69 (by simp)).2.2.2
        · rfl
      · have hx := expo_complete hed hsg hr
        simp only [List.mem_cons, List.not_mem_nil, or_false] at he
        rcases he with rfl | rfl <;> exact hx
  cases h with
  | nat _ n hi =>
    have := key [] b [] [] n (Or.inl rfl) hi (Or.inl rfl) (Or.inl rfl)
    simpa using this
  | other minus int frac expo n hm hi hf he hne =>
    have := key minus int frac expo n hm hi hf he
    rwa [if_neg hne] at this

end Granne
