import Verif.Model.Tools
import Verif.Props.Words
import Verif.Props.Format
import Verif.Props.Py
import Verif.Props.PyText
import Verif.Props.TextIndex

/-!
C75: the functions that prepare data files read what they should, write where they should and touch nothing else.
-/
namespace Granne
open Spec

/-! ### The order of the parts -/

theorem sortNames_perm {a b : List Text} (h : a.Perm b) : sortNames a = sortNames b := by
  have ht : ∀ x y z : Text, decide (x ≤ y) = true → decide (y ≤ z) = true → decide (x ≤ z) = true := by
    intro x y z h1 h2
    simp only [decide_eq_true_eq] at *
    exact le_trans h1 h2
  have htot : ∀ x y : Text, (decide (x ≤ y) || decide (y ≤ x)) = true := by
    intro x y
    simp only [Bool.or_eq_true, decide_eq_true_eq]
    exact le_total x y
  have pa := List.pairwise_mergeSort (le := fun a b : Text => decide (a ≤ b)) ht htot a
  have pb := List.pairwise_mergeSort (le := fun a b : Text => decide (a ≤ b)) ht htot b
  have hp : (sortNames a).Perm (sortNames b) :=
    (List.mergeSort_perm _ _).trans (h.trans (List.mergeSort_perm _ _).symm)
  refine List.Perm.eq_of_pairwise (le := fun a b => decide (a ≤ b) = true) ?_ pa pb hp
  intro x y _ _ h1 h2
  simp only [decide_eq_true_eq] at h1 h2
  exact le_antisymm h1 h2

theorem parts_unique {fs : Fs} {p : Path} {a b : List Path} (ha : Parts fs p a) (hb : Parts fs p b) : a = b := by
  rcases ha with ⟨h1, na, la, rfl⟩ | ⟨h1, rfl⟩ <;> rcases hb with ⟨h2, nb, lb, rfl⟩ | ⟨h2, rfl⟩
  · rw [sortNames_perm ((List.perm_ext_iff_of_nodup la.1 lb.1).2 fun n => (la.2 n).trans (lb.2 n).symm)]
  · exact absurd h1 h2
  · exact absurd h2 h1
  · rfl

theorem inputs_unique {gunzip : Bytes → Option Bytes} {fs : Fs} {e w : Path} {a b : Option (Text × List Text)}
    (ha : Inputs gunzip fs e w a) (hb : Inputs gunzip fs e w b) : a = b := by
  obtain ⟨p, h1, rfl⟩ := ha
  obtain ⟨q, h2, rfl⟩ := hb
  rw [parts_unique h1 h2]

/-! ### Names of shards -/

theorem decimalText_length_pos (n : Nat) : 0 < (decimalText n).length := by
  rw [decimalText]; split <;> simp

theorem digit_char {a b : Nat} (ha : a < 10) (hb : b < 10) (h : Char.ofNat (48 + a) = Char.ofNat (48 + b)) : a = b := by
  have : ∀ a < 10, ∀ b < 10, Char.ofNat (48 + a) = Char.ofNat (48 + b) → a = b := by decide
  exact this a ha b hb h

theorem decimalText_inj : ∀ (n m : Nat), decimalText n = decimalText m → n = m := by
  intro n
  induction n using Nat.strongRecOn with
  | ind n ih =>
    intro m h
    rw [decimalText.eq_1 n, decimalText.eq_1 m] at h
    have l1 := decimalText_length_pos (n / 10)
    have l2 := decimalText_length_pos (m / 10)
    by_cases hn : n < 10 <;> by_cases hm : m < 10
    · rw [if_pos hn, if_pos hm] at h
      exact digit_char hn hm (List.head_eq_of_cons_eq h)
    · rw [if_pos hn, if_neg hm] at h
      have := congrArg List.length h
      rw [List.length_append, List.length_singleton, List.length_singleton] at this
      omega
    · rw [if_neg hn, if_pos hm] at h
      have := congrArg List.length h
      rw [List.length_append, List.length_singleton, List.length_singleton] at this
      omega
    · rw [if_neg hn, if_neg hm] at h
      obtain ⟨h1, h2⟩ := List.append_inj' h rfl
      have := ih (n / 10) (by omega) _ h1
      have := digit_char (Nat.mod_lt n (by decide)) (Nat.mod_lt m (by decide)) (List.head_eq_of_cons_eq h2)
      omega

/-- C75. Different shards have different names. -/
theorem C75_shard_names_distinct (fs fs' : Fs) (output : Path) (hd : fs.IsDir output ↔ fs'.IsDir output) (i j : Nat)
    (h : shardPath fs output i = shardPath fs' output j) : i = j := by
  rw [shardPath, shardPath] at h
  by_cases hd' : fs.IsDir output
  · rw [if_pos hd', if_pos (hd.1 hd')] at h
    have := List.append_cancel_left h
    simp only [List.cons.injEq, and_true] at this
    exact decimalText_inj _ _ (List.append_cancel_left (List.append_cancel_right this))
  · rw [if_neg hd', if_neg fun hc => hd' (hd.2 hc)] at h
    have := List.append_cancel_left h
    simp only [List.cons.injEq, and_true] at this
    exact decimalText_inj _ _
      (List.append_cancel_left (List.append_cancel_right (List.append_cancel_right this)))

/-- The name is put together again from its parts. -/
theorem splitName_spec (name : Text) :
    (splitName name = (name, none)) ∨ ∃ s e, splitName name = (s, some e) ∧ name = s ++ '.' :: e ∧ s ≠ [] ∧ '.' ∉ e := by
  unfold splitName
  simp only
  split
  · exact Or.inl rfl
  · next h =>
    push Not at h
    refine Or.inr ⟨_, _, rfl, ?_, h.2, ?_⟩
    · obtain ⟨a, b, hab⟩ := List.append_of_mem h.1
      have key : ∀ r : Text, '.' ∈ r → ∃ t, r = r.takeWhile (· ≠ '.') ++ '.' :: t := by
        intro r
        induction r with
        | nil => intro h; cases h
        | cons c r ih =>
          intro hc
          by_cases hcd : c = '.'
          · subst hcd; exact ⟨r, by simp⟩
          · rcases List.mem_cons.1 hc with e | e
            · exact absurd e.symm hcd
            · obtain ⟨t, ht⟩ := ih e
              refine ⟨t, ?_⟩
              rw [List.takeWhile_cons, if_pos (by simpa using hcd), List.cons_append, ← ht]
      obtain ⟨t, ht⟩ := key name.reverse (List.mem_reverse.2 h.1)
      have h2 : name = t.reverse ++ '.' :: (name.reverse.takeWhile (· ≠ '.')).reverse := by
        have := congrArg List.reverse ht
        rw [List.reverse_reverse, List.reverse_append, List.reverse_cons, List.append_assoc] at this
        exact this
      generalize (name.reverse.takeWhile (· ≠ '.')).reverse = ext at *
      subst h2
      congr 1
      rw [List.length_append, List.length_cons, Nat.add_sub_cancel, List.take_left']
      rfl
    · rw [List.mem_reverse]
      intro hc
      have := List.all_eq_true.1 (List.all_takeWhile (p := fun x : Char => decide (x ≠ '.')) (l := name.reverse)) _ hc
      simp at this

/-- C75. The file of a shard: in the output directory, or beside the output path, with the number of the shard before the extension. -/
theorem C75_shard_name (fs : Fs) (output : Path) (i : Nat) :
    (fs.IsDir output → shardPath fs output i = output ++ ["elements-".toList ++ decimalText i ++ ".bin".toList]) ∧
    ∀ (parent : Path) (name : Text), ¬ fs.IsDir output → output = parent ++ [name] →
      (∀ stem ext : Text, name = stem ++ '.' :: ext → stem ≠ [] → '.' ∉ ext →
        shardPath fs output i = parent ++ [stem ++ '-' :: decimalText i ++ '.' :: ext]) ∧
      ('.' ∉ name ∨ (∃ t, name = '.' :: t ∧ '.' ∉ t) →
        shardPath fs output i = parent ++ [name ++ '-' :: decimalText i ++ ".bin".toList]) := by
  refine ⟨fun h => by rw [shardPath, if_pos h], ?_⟩
  rintro parent name hd rfl
  have hlast : (parent ++ [name]).getLastD [] = name := by simp
  constructor
  · intro stem ext hn hs he
    rw [shardPath, if_neg hd]
    simp only [List.dropLast_concat, hlast]
    have : splitName name = (stem, some ext) := by
      rcases splitName_spec name with h | ⟨s, e, h, h2, h3, h4⟩
      · exfalso
        unfold splitName at h
        simp only at h
        split at h
        · next hc =>
          have hdot : '.' ∈ name := by rw [hn]; simp
          rcases hc with hc | hc
          · exact hc hdot
          · have hext : (name.reverse.takeWhile (· ≠ '.')).reverse = ext := by
              rw [hn, List.reverse_append, List.reverse_cons, List.append_assoc, List.takeWhile_append_of_pos]
              · simp
              · intro c hc'
                have : c ∈ ext := List.mem_reverse.1 hc'
                simp only [decide_not, Bool.not_eq_eq_eq_not, Bool.not_true, decide_eq_false_iff_not]
                rintro rfl; exact he this
            rw [hext, hn, List.length_append, List.length_cons, Nat.add_sub_cancel, List.take_left'] at hc
            · exact hs hc
            · rfl
        · cases (Prod.mk.inj h).2
      · rw [h]
        rw [hn] at h2
        have : stem = s ∧ ext = e := by
          have key : ∀ (a b c d : Text), '.' ∉ b → '.' ∉ d → a ++ '.' :: b = c ++ '.' :: d → a = c ∧ b = d := by
            intro a b c d hb hd' hab
            rcases List.append_eq_append_iff.1 hab with ⟨u, hu1, hu2⟩ | ⟨u, hu1, hu2⟩
            · cases u with
              | nil => simp at hu1 hu2; exact ⟨hu1.symm, hu2⟩
              | cons x u =>
                exfalso
                rw [List.cons_append, List.cons.injEq] at hu2
                exact hb (by rw [hu2.2]; simp)
            · cases u with
              | nil => simp at hu1 hu2; exact ⟨hu1, hu2.symm⟩
              | cons x u =>
                exfalso
                rw [List.cons_append, List.cons.injEq] at hu2
                exact hd' (by rw [hu2.2]; simp)
          exact key _ _ _ _ he h4 h2
        rw [this.1, this.2]
    rw [this]
    simp
  · intro hn
    rw [shardPath, if_neg hd]
    simp only [List.dropLast_concat, hlast]
    have : splitName name = (name, none) := by
      rcases splitName_spec name with h | ⟨s, e, h, h2, h3, h4⟩
      · exact h
      · exfalso
        rcases hn with hn | ⟨t, hn, ht⟩
        · exact hn (by rw [h2]; simp)
        · cases s with
          | nil => exact h3 rfl
          | cons x s =>
            rw [hn, List.cons_append, List.cons.injEq] at h2
            exact ht (by rw [h2.2]; simp)
    rw [this]
    simp

/-- C75. No shard is written to the output path itself, and all are written to one directory. -/
theorem C75_shard_beside (fs : Fs) (output : Path) (i : Nat) (hne : output ≠ []) :
    shardPath fs output i ≠ output ∧
      (shardPath fs output i).dropLast = (open Classical in if fs.IsDir output then output else output.dropLast) := by
  rw [shardPath]
  split
  · refine ⟨fun h => ?_, by rw [List.dropLast_concat]⟩
    have := congrArg List.length h
    simp at this
  · refine ⟨fun h => ?_, by simp only; rw [List.dropLast_concat]⟩
    obtain ⟨parent, name, rfl⟩ : ∃ parent name, output = parent ++ [name] :=
      ⟨_, _, (List.dropLast_append_getLast hne).symm⟩
    have hlast : (parent ++ [name]).getLastD [] = name := by simp
    simp only [List.dropLast_concat, hlast] at h
    have := List.append_cancel_left h
    simp only [List.cons.injEq, and_true] at this
    have hl := congrArg List.length this
    have hp := decimalText_length_pos i
    rcases splitName_spec name with h1 | ⟨s, e, h1, h2, _⟩
    · rw [h1] at hl; simp at hl
    · rw [h1, h2] at hl
      simp at hl
      omega

/-! ### Parsing into one file -/

/-- C75. What a run does is determined: the order in which the directory lists its files does not matter. -/
theorem C75_deterministic (gunzip : Bytes → Option Bytes) (fs : Fs) (elements words output : Path) (s : Nat) (r r' : Option Nat)
    (f f' : Fs) :
    (ParseAndSave gunzip fs elements words output r f → ParseAndSave gunzip fs elements words output r' f' → r = r' ∧ f = f') ∧
    (ParseAndSaveShards gunzip fs elements words output s r f → ParseAndSaveShards gunzip fs elements words output s r' f' →
      r = r' ∧ f = f') := by
  constructor
  · rintro ⟨t, h1, h2⟩ ⟨t', h1', h2'⟩
    obtain rfl := inputs_unique h1 h1'
    rcases t with _ | ⟨w, ts⟩
    · exact ⟨h2.1.trans h2'.1.symm, h2.2.trans h2'.2.symm⟩
    · simp only at h2 h2'
      rcases hp : parseAndSave w ts with _ | ⟨b, n⟩
      · rw [hp] at h2 h2'
        exact ⟨h2.1.trans h2'.1.symm, h2.2.trans h2'.2.symm⟩
      · rw [hp] at h2 h2'
        simp only at h2 h2'
        rcases h2 with ⟨c, a, b⟩ | ⟨c, a, b⟩ <;> rcases h2' with ⟨c', a', b'⟩ | ⟨c', a', b'⟩
        · exact ⟨a.trans a'.symm, b.trans b'.symm⟩
        · exact absurd c c'
        · exact absurd c' c
        · exact ⟨a.trans a'.symm, b.trans b'.symm⟩
  · rintro ⟨t, h1, h2⟩ ⟨t', h1', h2'⟩
    obtain rfl := inputs_unique h1 h1'
    rcases t with _ | ⟨w, ts⟩
    · exact ⟨h2.1.trans h2'.1.symm, h2.2.trans h2'.2.symm⟩
    · simp only at h2 h2'
      rcases hp : parseWords w with _ | ids
      · rw [hp] at h2 h2'
        exact ⟨h2.1.trans h2'.1.symm, h2.2.trans h2'.2.symm⟩
      · rw [hp] at h2 h2'
        simp only at h2 h2'
        rcases he : parseElements ids ts with _ | e
        · rw [he] at h2 h2'
          exact ⟨h2.1.trans h2'.1.symm, h2.2.trans h2'.2.symm⟩
        · rw [he] at h2 h2'
          exact ⟨h2.2.trans h2'.2.symm, h2.1.trans h2'.1.symm⟩

/-- C75. `parse_elements_and_save_to_disk` that returns `n`: with the words of the words file numbered, and the `n` lines of the input
(one file, or the files of a directory in the order of their names), the output holds the known words of each line, in order. No
other file has changed. -/
theorem C75_parse {gunzip : Bytes → Option Bytes} {fs fs' : Fs} {elements words output : Path} {n : Nat}
    (h : ParseAndSave gunzip fs elements words output (some n) fs') (hn : n < 2 ^ 64) :
    ∃ (w : Text) (parts : List Path) (ts : List Text) (ids : Text → Option Nat) (qs : List Text) (b : Bytes) (e : Elems),
      readText fs words = some w ∧ parseWords w = some ids ∧
      Parts fs elements parts ∧ parts.map (partText gunzip fs) = ts.map some ∧
      (ts.flatMap textLines).map jsonString = qs.map some ∧ n = qs.length ∧
      fs' output = some (.file b) ∧ VarVec.fromBytes b = some e ∧
      ShowsTerms (⟨FixVec.new, e⟩ : SumEmb F32) (qs.map (lineIds ids)) ∧
      ∀ q, q ≠ output → fs' q = fs q := by
  obtain ⟨t, ⟨parts, hp, ht⟩, h2⟩ := h
  rcases hw : readText fs words with _ | w
  · rw [hw] at ht; subst ht; cases h2.1
  rcases hs : seqOpt (parts.map (partText gunzip fs)) with _ | ts
  · rw [hw, hs] at ht; subst ht; cases h2.1
  rw [hw, hs] at ht
  subst ht
  simp only at h2
  rcases hps : parseAndSave w ts with _ | ⟨b, m⟩
  · rw [hps] at h2; cases h2.1
  rw [hps] at h2
  rcases h2 with ⟨_, h3, h4⟩ | ⟨_, h3, _⟩
  · obtain rfl := Option.some.inj h3
    obtain ⟨ids, qs, e, e1, e2, e3, e4, e5⟩ := C48_save_load (S := F32) w ts b n hps hn
    refine ⟨w, parts, ts, ids, qs, b, e, rfl, e1, hp, seqOpt_eq_some hs, e2, e4, ?_, e3, e5, fun q hq => ?_⟩
    · rw [h4, Fs.set, if_pos rfl]
    · rw [h4, Fs.set, if_neg hq]
  · cases h3

/-- C75. A run of `parse_elements_and_save_to_disk` that panics has changed nothing. -/
theorem C75_parse_panics {gunzip : Bytes → Option Bytes} {fs fs' : Fs} {elements words output : Path}
    (h : ParseAndSave gunzip fs elements words output none fs') : fs' = fs := by
  obtain ⟨t, _, h2⟩ := h
  rcases t with _ | ⟨w, ts⟩
  · exact h2.2
  · simp only at h2
    rcases hps : parseAndSave w ts with _ | ⟨b, m⟩
    · rw [hps] at h2; exact h2.2
    · rw [hps] at h2
      rcases h2 with ⟨_, h3, _⟩ | ⟨_, _, h4⟩
      · cases h3
      · exact h4

/-- C75. The output may be one of the inputs: what is written is the same as to any other place. -/
theorem C75_parse_anywhere {gunzip : Bytes → Option Bytes} {fs f f' : Fs} {elements words o o' : Path} {n n' : Nat}
    (h : ParseAndSave gunzip fs elements words o (some n) f) (h' : ParseAndSave gunzip fs elements words o' (some n') f') :
    n = n' ∧ f o = f' o' := by
  obtain ⟨t, h1, h2⟩ := h
  obtain ⟨t', h1', h2'⟩ := h'
  obtain rfl := inputs_unique h1 h1'
  rcases t with _ | ⟨w, ts⟩
  · cases h2.1
  simp only at h2 h2'
  rcases hps : parseAndSave w ts with _ | ⟨b, m⟩
  · rw [hps] at h2; cases h2.1
  rw [hps] at h2 h2'
  rcases h2 with ⟨_, h3, h4⟩ | ⟨_, h3, _⟩
  · rcases h2' with ⟨_, h3', h4'⟩ | ⟨_, h3', _⟩
    · refine ⟨Option.some.inj (h3.trans h3'.symm), ?_⟩
      rw [h4, h4', Fs.set, Fs.set, if_pos rfl, if_pos rfl]
    · cases h3'
  · cases h3

/-! ### Shards -/

theorem shardPath_set {fs : Fs} {output : Path} (hne : output ≠ []) (i : Nat) (b : Bytes) :
    (fs.set (shardPath fs output i) (.file b)).IsDir output ↔ fs.IsDir output := by
  have h := (C75_shard_beside fs output i hne).1
  rw [Fs.IsDir, Fs.IsDir, Fs.set, if_neg fun hc => h hc.symm]

theorem shardPath_congr {fs fs' : Fs} {output : Path} (h : fs'.IsDir output ↔ fs.IsDir output) (i : Nat) :
    shardPath fs' output i = shardPath fs output i := by
  rw [shardPath, shardPath]
  by_cases hd : fs.IsDir output
  · rw [if_pos hd, if_pos (h.2 hd)]
  · rw [if_neg hd, if_neg fun hc => hd (h.1 hc)]

theorem putShards_spec {output : Path} (hne : output ≠ []) : ∀ (bs : List Bytes) (fs : Fs) (i : Nat),
    ∃ m, m ≤ bs.length ∧ ((putShards output fs i bs).2 = true ↔ m = bs.length) ∧
      (∀ (k : Nat) (b : Bytes), k < m → bs[k]? = some b → (putShards output fs i bs).1 (shardPath fs output (i + k)) = some (.file b)) ∧
      ∀ q, (∀ k, k < m → q ≠ shardPath fs output (i + k)) → (putShards output fs i bs).1 q = fs q
  | [], fs, i => ⟨0, le_refl _, by simp [putShards], fun k b hk => absurd hk (by omega), fun q _ => rfl⟩
  | b :: t, fs, i => by
    rw [putShards]
    split
    · next hc =>
      have hd := shardPath_set (fs := fs) hne i b
      obtain ⟨m, h1, h2, h3, h4⟩ := putShards_spec hne t (fs.set (shardPath fs output i) (.file b)) (i + 1)
      refine ⟨m + 1, by simpa using h1, by rw [h2]; simp, ?_, ?_⟩
      · intro k x hk hx
        cases k with
        | zero =>
          simp only [List.getElem?_cons_zero, Option.some.injEq] at hx
          subst hx
          rw [h4, Fs.set, if_pos (by rw [Nat.add_zero])]
          intro k _ hc
          rw [shardPath_congr hd] at hc
          have := C75_shard_names_distinct fs fs output Iff.rfl _ _ hc
          omega
        | succ k =>
          have := h3 k x (by omega) (by simpa using hx)
          rw [shardPath_congr hd, show i + 1 + k = i + (k + 1) by omega] at this
          exact this
      · intro q hq
        rw [h4, Fs.set, if_neg]
        · simpa using hq 0 (by omega)
        · intro k hk
          rw [shardPath_congr hd, show i + 1 + k = i + (k + 1) by omega]
          exact hq (k + 1) (by omega)
    · exact ⟨0, Nat.zero_le _, by simp, fun k b hk => absurd hk (by omega), fun q _ => rfl⟩

/-- C75. A run of `parse_elements_and_save_shards_to_disk` changes at most the files of the shards, whether it returns or panics. -/
theorem C75_shards_frame {gunzip : Bytes → Option Bytes} {fs fs' : Fs} {elements words output : Path} {s : Nat} {r : Option Nat}
    (hne : output ≠ []) (h : ParseAndSaveShards gunzip fs elements words output s r fs') (q : Path)
    (hq : ∀ i : Nat, q ≠ shardPath fs output i) : fs' q = fs q := by
  obtain ⟨t, _, h2⟩ := h
  rcases t with _ | ⟨w, ts⟩
  · rw [h2.2]
  simp only at h2
  rcases hp : parseWords w with _ | ids
  · rw [hp] at h2; rw [h2.2]
  rw [hp] at h2
  simp only at h2
  rcases he : parseElements ids ts with _ | e
  · rw [he] at h2; rw [h2.2]
  rw [he] at h2
  simp only at h2
  obtain ⟨m, _, _, _, h4⟩ := putShards_spec hne (saveShards e s).1 fs 0
  rw [h2.1]
  exact h4 q fun k _ => hq _

/-- C75. `parse_elements_and_save_shards_to_disk` that returns `n`: the `s` files of the shards hold the known words of the `n` lines of
the input, every line once and in order, at most `ceil (n / s)` lines in each. No other file has changed. -/
theorem C75_shards {gunzip : Bytes → Option Bytes} {fs fs' : Fs} {elements words output : Path} {s n : Nat}
    (hne : output ≠ []) (h : ParseAndSaveShards gunzip fs elements words output s (some n) fs') (hn : n < 2 ^ 64) :
    ∃ (w : Text) (parts : List Path) (ts : List Text) (ids : Text → Option Nat) (qs : List Text) (groups : List (List (List Nat))),
      readText fs words = some w ∧ parseWords w = some ids ∧
      Parts fs elements parts ∧ parts.map (partText gunzip fs) = ts.map some ∧
      (ts.flatMap textLines).map jsonString = qs.map some ∧ n = qs.length ∧
      groups.length = s ∧ groups.flatten = qs.map (lineIds ids) ∧ (∀ g ∈ groups, g.length ≤ (n + s - 1) / s) ∧
      (∀ (i : Nat) (g : List (List Nat)), groups[i]? = some g → ∃ (b : Bytes) (e : Elems),
        fs' (shardPath fs output i) = some (.file b) ∧ VarVec.fromBytes b = some e ∧ ShowsTerms (⟨FixVec.new, e⟩ : SumEmb Nat) g) ∧
      ∀ q, (∀ i : Nat, i < s → q ≠ shardPath fs output i) → fs' q = fs q := by
  obtain ⟨t, ⟨parts, hp, ht⟩, h2⟩ := h
  rcases hw : readText fs words with _ | w
  · rw [hw] at ht; subst ht; cases h2.1
  rcases hs : seqOpt (parts.map (partText gunzip fs)) with _ | ts
  · rw [hw, hs] at ht; subst ht; cases h2.1
  rw [hw, hs] at ht
  subst ht
  simp only at h2
  rcases hids : parseWords w with _ | ids
  · rw [hids] at h2; cases h2.1
  rw [hids] at h2
  simp only at h2
  rcases he : parseElements ids ts with _ | e
  · rw [he] at h2; cases h2.1
  rw [he] at h2
  simp only at h2
  obtain ⟨hfs, hr⟩ := h2
  split at hr
  · next hok =>
    obtain rfl := Option.some.inj hr
    rw [Bool.and_eq_true] at hok
    obtain ⟨qs, e2, e3⟩ := C48_parse (S := Nat) ids ts e he
    have hlen : e.len = qs.length := by have := e3.len; rw [List.length_map] at this; exact this
    have hspos : 0 < s := by
      rcases Nat.eq_zero_or_pos s with h0 | h0
      · subst h0; have := hok.2; rw [saveShards, if_pos rfl] at this; cases this
      · exact h0
    obtain ⟨files, groups, g1, g2, g3, g4, g5⟩ := C34_shards_partial ids ts e he _ e3 (by rw [List.length_map, ← hlen]; exact hn) s hspos
    have hcond : (s - 1) * (((qs.map (lineIds ids)).length + s - 1) / s) ≤ (qs.map (lineIds ids)).length := by
      by_contra hc
      have := (g5 (by omega)).1
      rw [this] at hok
      cases hok.2
    obtain ⟨hsave, hfl⟩ := g4 hcond
    rw [hsave] at hfs hok
    obtain ⟨m, m1, m2, m3, m4⟩ := putShards_spec hne files fs 0
    have hm := m2.1 hok.1
    have hgl : groups.length = s := by rw [← List.Forall₂.length_eq g2, hfl]
    refine ⟨w, parts, ts, ids, qs, groups, rfl, hids, hp, seqOpt_eq_some hs, e2, hlen, hgl, g1, ?_, ?_, ?_⟩
    · intro g hg
      have := g3 g hg
      rw [List.length_map, ← hlen] at this
      exact this
    · intro i g hg
      obtain ⟨b, hb, r, h1, h2⟩ := forall₂_at g2 hg
      refine ⟨b, r, ?_, h1, h2⟩
      rw [hfs]
      have hif : i < files.length := (List.getElem?_eq_some_iff.1 hb).1
      have := m3 i b (by omega) hb
      rw [Nat.zero_add] at this
      exact this
    · intro q hq
      rw [hfs]
      refine m4 q fun k hk => ?_
      rw [Nat.zero_add]
      exact hq k (by omega)
  · cases hr

/-! ### Running twice -/

theorem utf8EncodeChar_zero (c : Char) (h : (0 : UInt8) ∈ String.utf8EncodeChar c) : c.toNat = 0 := by
  have key : ∀ n : Nat, (0 : UInt8) = UInt8.ofNat n → n % 256 = 0 := by
    intro n hn
    have := congrArg UInt8.toNat hn
    simpa using this.symm
  have hc : c.toNat = c.val.toNat := rfl
  rw [hc]
  unfold String.utf8EncodeChar at h
  simp only at h
  generalize c.val.toNat = v at h
  repeat' split at h
  all_goals
    simp only [List.mem_cons, List.not_mem_nil, or_false] at h
  · have := key _ h; omega
  · rcases h with h | h <;> (have := key _ h; omega)
  · rcases h with h | h | h <;> (have := key _ h; omega)
  · rcases h with h | h | h | h <;> (have := key _ h; omega)

theorem mem_of_utf8_zero {b : Bytes} {t : Text} (h : fromUtf8 b = some t) (h0 : (0 : UInt8) ∈ b) : ∃ c ∈ t, c.toNat = 0 := by
  rw [fromUtf8_eq_some h, utf8, List.mem_flatMap] at h0
  obtain ⟨c, hc, h0⟩ := h0
  exact ⟨c, hc, utf8EncodeChar_zero c h0⟩

theorem mem_textLines : ∀ (t : Text) (c : Char), c ∈ t → c ≠ '\n' → c ≠ '\r' → ∃ l ∈ textLines t, c ∈ l
  | [], c, h, _, _ => by cases h
  | d :: t, c, h, h1, h2 => by
    rw [textLines]
    split
    · next hd =>
      rcases List.mem_cons.1 h with e | e
      · exact absurd (e.trans hd) h1
      · obtain ⟨l, hl, hc⟩ := mem_textLines t c e h1 h2
        exact ⟨l, List.mem_cons_of_mem _ hl, hc⟩
    · split
      · next hd =>
        rcases List.mem_cons.1 h with e | e
        · exact absurd (e.trans hd.1) h2
        · exact mem_textLines t c e h1 h2
      · rcases List.mem_cons.1 h with e | e
        · subst e
          split <;> exact ⟨_, List.mem_cons_self, by simp⟩
        · obtain ⟨l, hl, hc⟩ := mem_textLines t c e h1 h2
          split
          · next hn => rw [hn] at hl; cases hl
          · next l' ls hn =>
            rw [hn] at hl
            rcases List.mem_cons.1 hl with e' | e'
            · subst e'; exact ⟨_, List.mem_cons_self, by simp [hc]⟩
            · exact ⟨l, List.mem_cons_of_mem _ e', hc⟩

theorem isHex_no_nul {c : Char} {n : Nat} (h : IsHex c n) : c.toNat ≠ 0 := by
  have hall : ∀ c ∈ "0123456789abcdef".toList ++ "0123456789ABCDEF".toList, c.toNat ≠ 0 := by decide
  rcases h with h | h
  · exact hall c (List.mem_append_left _ (List.mem_of_getElem? h))
  · exact hall c (List.mem_append_right _ (List.mem_of_getElem? h))

theorem isHex4_no_nul {h : Text} {n : Nat} (hh : IsHex4 h n) : ∀ c ∈ h, c.toNat ≠ 0 := by
  cases hh with
  | mk a b c d i j k l h1 h2 h3 h4 =>
    intro x hx
    simp only [List.mem_cons, List.not_mem_nil, or_false] at hx
    rcases hx with rfl | rfl | rfl | rfl
    · exact isHex_no_nul h1
    · exact isHex_no_nul h2
    · exact isHex_no_nul h3
    · exact isHex_no_nul h4

theorem jsonBody_no_nul {body w : Text} (h : JsonBody body w) : ∀ c ∈ body, c.toNat ≠ 0 := by
  induction h with
  | nil => intro c hc; cases hc
  | plain c s t _ _ h3 _ ih =>
    intro x hx
    rcases List.mem_cons.1 hx with rfl | hx
    · omega
    · exact ih x hx
  | short e ch s t h1 _ ih =>
    intro x hx
    rcases List.mem_cons.1 hx with rfl | hx
    · decide
    rcases List.mem_cons.1 hx with rfl | hx
    · have hall : ∀ p ∈ shortEscapes, p.1.toNat ≠ 0 := by decide
      exact hall _ h1
    · exact ih x hx
  | code h ch s t h1 _ ih =>
    intro x hx
    rcases List.mem_cons.1 hx with rfl | hx
    · decide
    rcases List.mem_cons.1 hx with rfl | hx
    · decide
    rcases List.mem_append.1 hx with hx | hx
    · exact isHex4_no_nul h1 x hx
    · exact ih x hx
  | pair h l hi lo ch s t h1 h2 _ _ _ _ ih =>
    intro x hx
    rcases List.mem_cons.1 hx with rfl | hx
    · decide
    rcases List.mem_cons.1 hx with rfl | hx
    · decide
    rcases List.mem_append.1 hx with hx | hx
    · exact isHex4_no_nul h1 x hx
    rcases List.mem_cons.1 hx with rfl | hx
    · decide
    rcases List.mem_cons.1 hx with rfl | hx
    · decide
    rcases List.mem_append.1 hx with hx | hx
    · exact isHex4_no_nul h2 x hx
    · exact ih x hx

theorem isJsonString_no_nul {line t : Text} (h : IsJsonString line t) : ∀ c ∈ line, c.toNat ≠ 0 := by
  obtain ⟨pre, body, post, rfl, hb, hw⟩ := h
  have hws : ∀ c ∈ [' ', '\t', '\n', '\r'], c.toNat ≠ 0 := by decide
  intro c hc
  rcases List.mem_append.1 hc with hc | hc
  · exact hws c (hw c (List.mem_append_left _ hc))
  rcases List.mem_cons.1 hc with rfl | hc
  · decide
  rcases List.mem_append.1 hc with hc | hc
  · exact jsonBody_no_nul hb c hc
  rcases List.mem_cons.1 hc with rfl | hc
  · decide
  · exact hws c (hw c (List.mem_append_right _ hc))

theorem leNat_all_pos : ∀ (x : UInt8) (t : Bytes), (0 : UInt8) ∉ x :: t → 256 ^ t.length ≤ leNat (x :: t)
  | x, [], h => by
    have hx : 0 < x.toNat := by
      rcases Nat.eq_zero_or_pos x.toNat with h0 | h0
      · exfalso
        have : x = 0 := UInt8.toNat_inj.1 (by simpa using h0)
        exact h (by rw [this]; simp)
      · exact h0
    rw [leNat]
    simp
    omega
  | x, y :: t, h => by
    have ih := leNat_all_pos y t fun hc => h (List.mem_cons_of_mem _ hc)
    rw [leNat, List.length_cons, pow_succ]
    omega

theorem varVec_nul {b : Bytes} {e : Elems} (h : VarVec.fromBytes b = some e) (hlen : e.len < 2 ^ 56) : (0 : UInt8) ∈ b := by
  unfold VarVec.fromBytes at h
  simp only at h
  split at h
  · next h8 =>
    split at h
    · next hk =>
      obtain rfl := Option.some.inj h
      by_contra h0
      have hn : leNat (b.take 8) < 256 ^ 7 := by
        have hl := loadBytesAs_length (T := FiveByteInt) (((b.drop 8).take ((1 + leNat (b.take 8)) * Scalar.size FiveByteInt)))
        rw [List.length_take, Nat.min_eq_left hk, Nat.mul_div_cancel _ (Scalar.size_pos (T := FiveByteInt))] at hl
        rw [VarVec.len] at hlen
        simp only [hl] at hlen
        have : (256 : Nat) ^ 7 = 2 ^ 56 := by norm_num
        omega
      have hl8 : (b.take 8).length = 8 := by rw [List.length_take]; omega
      have hno : (0 : UInt8) ∉ b.take 8 := fun hc => h0 (List.mem_of_mem_take hc)
      generalize b.take 8 = l at hn hl8 hno
      cases l with
      | nil => cases hl8
      | cons x t =>
        have := leNat_all_pos x t hno
        rw [List.length_cons] at hl8
        rw [show t.length = 7 by omega] at this
        omega
    · cases h
  · cases h

/-- The input cannot be parsed if one of its files holds a zero byte. -/
theorem inputs_binary {gunzip : Bytes → Option Bytes} {fs : Fs} {elements words : Path} {w : Text} {ts : List Text} {name : Text}
    {b : Bytes} (hdir : fs.IsDir elements) (hfile : fs (elements ++ [name]) = some (.file b)) (hname : ¬ ".gz".toList <:+ name)
    (h0 : (0 : UInt8) ∈ b) (h : Inputs gunzip fs elements words (some (w, ts))) (ids : Text → Option Nat) :
    parseElements ids ts = none := by
  obtain ⟨parts, hp, ht⟩ := h
  rcases hw : readText fs words with _ | w'
  · rw [hw] at ht; cases ht
  rcases hs : seqOpt (parts.map (partText gunzip fs)) with _ | ts'
  · rw [hw, hs] at ht; cases ht
  rw [hw, hs] at ht
  simp only at ht
  have hts := (Prod.mk.inj (Option.some.inj ht)).2
  subst hts
  have hmap := seqOpt_eq_some hs
  have hmem : elements ++ [name] ∈ parts := by
    rcases hp with ⟨_, names, hl, rfl⟩ | ⟨hc, _⟩
    · refine List.mem_map.2 ⟨name, ?_, rfl⟩
      rw [sortNames, List.mem_mergeSort]
      exact (hl.2 name).2 (by rw [hfile]; simp)
    · exact absurd hdir hc
  have hpt : partText gunzip fs (elements ++ [name]) = fromUtf8 b := by
    have hlast : (elements ++ [name]).getLastD [] = name := by simp
    rw [partText, hlast, if_neg hname, readText, hfile]
  have : fromUtf8 b ∈ ts.map some := by
    rw [← hmap, ← hpt]
    exact List.mem_map_of_mem hmem
  obtain ⟨t, htm, hte⟩ := List.mem_map.1 this
  obtain ⟨c, hc, hc0⟩ := mem_of_utf8_zero hte.symm h0
  obtain ⟨l, hl, hcl⟩ := mem_textLines t c hc (by rintro rfl; revert hc0; decide) (by rintro rfl; revert hc0; decide)
  rcases Option.eq_none_or_eq_some (parseElements ids ts) with hn | ⟨e, he⟩
  · exact hn
  · exfalso
    obtain ⟨qs, hq, _⟩ := (C48_parse_succeeds_iff ids ts).1 ⟨e, he⟩
    have hin : jsonString l ∈ qs.map some := by
      rw [← hq]
      exact List.mem_map_of_mem (List.mem_flatMap.2 ⟨t, htm, hl⟩)
    obtain ⟨q, _, hqe⟩ := List.mem_map.1 hin
    exact isJsonString_no_nul ((jsonString_iff l q).1 hqe.symm) c hcl hc0

/-- C75. A file of elements or vectors in the input directory (any file with a zero byte, whose name does not end in `.gz`) is never
taken for text: a run on this directory panics and changes nothing. -/
theorem C75_binary_input {gunzip : Bytes → Option Bytes} {fs fs' : Fs} {elements words output : Path} {name : Text}
    {b : Bytes} {r : Option Nat} (s : Nat) (hdir : fs.IsDir elements) (hfile : fs (elements ++ [name]) = some (.file b))
    (hname : ¬ ".gz".toList <:+ name) (h0 : (0 : UInt8) ∈ b)
    (h : ParseAndSave gunzip fs elements words output r fs' ∨ ParseAndSaveShards gunzip fs elements words output s r fs') :
    r = none ∧ fs' = fs := by
  rcases h with ⟨t, h1, h2⟩ | ⟨t, h1, h2⟩
  · rcases t with _ | ⟨w, ts⟩
    · exact h2
    · simp only [parseAndSave] at h2
      rcases hids : parseWords w with _ | ids
      · rw [hids] at h2; exact h2
      · rw [hids] at h2
        simp only [inputs_binary hdir hfile hname h0 h1] at h2
        exact h2
  · rcases t with _ | ⟨w, ts⟩
    · exact h2
    · simp only at h2
      rcases hids : parseWords w with _ | ids
      · rw [hids] at h2; exact h2
      · rw [hids] at h2
        simp only [inputs_binary hdir hfile hname h0 h1] at h2
        exact h2

/-- C75. Shards may be written into the input directory, but then a second run on this directory panics and changes nothing (it does not
mix the shards into the elements). -/
theorem C75_shards_rerun {gunzip : Bytes → Option Bytes} {fs fs' f : Fs} {dir words words' output' : Path} {s n s' : Nat}
    {r : Option Nat} (hne : dir ≠ []) (hdir : fs.IsDir dir) (h : ParseAndSaveShards gunzip fs dir words dir s (some n) fs')
    (hn : n < 2 ^ 56) (h' : ParseAndSave gunzip fs' dir words' output' r f ∨ ParseAndSaveShards gunzip fs' dir words' output' s' r f) :
    r = none ∧ f = fs' := by
  obtain ⟨w, parts, ts, ids, qs, groups, _, _, _, _, _, hnq, hs, hg, hceil, hfiles, hframe⟩ := C75_shards hne h (by omega)
  have hspos : 0 < s := by
    rcases Nat.eq_zero_or_pos s with h0 | h0
    · subst h0
      obtain ⟨t, _, h2⟩ := h
      rcases t with _ | ⟨w, ts⟩
      · cases h2.1
      · simp only at h2
        rcases hids : parseWords w with _ | ids
        · rw [hids] at h2; cases h2.1
        · rw [hids] at h2
          simp only at h2
          rcases he : parseElements ids ts with _ | e
          · rw [he] at h2; cases h2.1
          · rw [he] at h2
            simp only [saveShards, if_pos] at h2
            have := h2.2
            simp at this
    · exact h0
  have hgl : 0 < groups.length := by omega
  obtain ⟨b, e, hb, he, hse⟩ := hfiles 0 groups[0] (List.getElem?_eq_getElem hgl)
  have hlen : e.len < 2 ^ 56 := by
    have h1 : e.len = groups[0].length := hse.len
    have h2 : groups[0].length ≤ groups.flatten.length := (List.sublist_flatten_of_mem (List.getElem_mem hgl)).length_le
    rw [hg, List.length_map] at h2
    omega
  rw [shardPath, if_pos hdir] at hb
  have hdir' : fs'.IsDir dir := by
    rw [Fs.IsDir, hframe]
    · exact hdir
    · intro i _ hc
      exact (C75_shard_beside fs dir i hne).1 hc.symm
  refine C75_binary_input s' hdir' hb ?_ (varVec_nul he hlen) h'
  intro hsuf
  obtain ⟨u, hu⟩ := hsuf
  have h1 : (u ++ ".gz".toList).getLast? = some 'z' := by simp
  rw [hu] at h1
  have h2 : ("elements-".toList ++ decimalText 0 ++ ".bin".toList).getLast? = some 'n' := by
    rw [List.getLast?_append]; rfl
  rw [h2] at h1
  cases h1

/-- C75. Output paths that differ only by a missing extension share their shards. -/
theorem C75_shard_names_clash (fs : Fs) (parent : Path) (name : Text) (hd : '.' ∉ name) (hn : name ≠ [])
    (h1 : ¬ fs.IsDir (parent ++ [name])) (h2 : ¬ fs.IsDir (parent ++ [name ++ ".bin".toList])) (i : Nat) :
    shardPath fs (parent ++ [name]) i = shardPath fs (parent ++ [name ++ ".bin".toList]) i := by
  rw [((C75_shard_name fs _ i).2 parent name h1 rfl).2 (Or.inl hd),
    ((C75_shard_name fs _ i).2 parent (name ++ ".bin".toList) h2 rfl).1 name "bin".toList rfl hn (by decide)]
  rfl

/-! ### Precomputed embeddings -/

theorem seqOpt_none_mem {α : Type} : ∀ {l : List (Option α)}, seqOpt l = none → none ∈ l
  | [], h => by cases h
  | none :: t, _ => by simp
  | some a :: t, h => by
    rw [seqOpt] at h
    rcases hs : seqOpt t with _ | r
    · exact List.mem_cons_of_mem _ (seqOpt_none_mem hs)
    · rw [hs] at h; cases h

theorem embeddingChunk_spec {n d : Nat} {vec : Nat → Option (List UInt8)} (hd : 0 < d)
    (hlen : ∀ (j : Nat) (r : List UInt8), vec j = some r → r.length = d) (i c : Nat) (hc : c = (n + 100 - 1) / 100) :
    (embeddingChunk n vec i = none → ∃ j, i * c ≤ j ∧ j < n ∧ vec j = none) ∧
    ∀ b, embeddingChunk n vec i = some b → ∃ rows : List (List UInt8),
      rows.length = min ((i + 1) * c) n - i * c ∧ rows.map some = (List.range rows.length).map (fun k => vec (i * c + k)) ∧
      b = (if i = 0 then leBytes 8 (if rows = [] then 0 else d) else []) ++ encodeAll rows.flatten := by
  unfold embeddingChunk
  simp only [← hc]
  rcases hs : seqOpt ((rangeFromTo (i * c) (min ((i + 1) * c) n)).map vec) with _ | rows
  · refine ⟨fun _ => ?_, fun b hb => by cases hb⟩
    obtain ⟨j, hj, hv⟩ := List.mem_map.1 (seqOpt_none_mem hs)
    obtain ⟨k, hk, rfl⟩ := List.mem_map.1 hj
    rw [List.mem_range] at hk
    exact ⟨i * c + k, by omega, by omega, hv⟩
  · have hm := seqOpt_eq_some hs
    have hl : rows.length = min ((i + 1) * c) n - i * c := by
      have := congrArg List.length hm
      simp only [List.length_map, rangeFromTo, List.length_range] at this
      exact this.symm
    have hr : ∀ r ∈ rows, r.length = d := by
      intro r hr
      have : some r ∈ (rangeFromTo (i * c) (min ((i + 1) * c) n)).map vec := by rw [hm]; exact List.mem_map_of_mem hr
      obtain ⟨j, _, hj⟩ := List.mem_map.1 this
      exact hlen j r hj
    obtain ⟨v, e1, e2, e3⟩ := pushAll_new hd hr
    simp only [e1]
    refine ⟨fun h => (by cases h), ?_⟩
    rintro b hb
    obtain rfl := Option.some.inj hb
    refine ⟨rows, hl, ?_, ?_⟩
    · rw [← hm, hl, rangeFromTo, List.map_map]; rfl
    · by_cases hi : i = 0
      · rw [if_pos hi, if_pos hi, FixVec.bytes, e2]
        congr 2
        by_cases hn : rows = []
        · rw [if_pos hn]
          subst hn
          rw [FixVec.pushAll] at e1
          rw [← Option.some.inj e1]; rfl
        · rw [if_neg hn, e3 hn]
      · rw [if_neg hi, if_neg hi, e2]; rfl

theorem chunksUntil_spec {n d : Nat} {vec : Nat → Option (List UInt8)} (hd : 0 < d)
    (hlen : ∀ (j : Nat) (r : List UInt8), vec j = some r → r.length = d) (c : Nat) (hc : c = (n + 100 - 1) / 100) :
    ∀ left i : Nat, 1 ≤ i → ∃ rows : List (List UInt8), (chunksUntil n vec left i).1 = encodeAll rows.flatten ∧
      rows.map some = (List.range rows.length).map (fun k => vec (i * c + k)) ∧
      rows.length ≤ min ((i + left) * c) n - i * c ∧
      ((chunksUntil n vec left i).2 = true → rows.length = min ((i + left) * c) n - i * c) ∧
      ((chunksUntil n vec left i).2 = false → ∃ j, i * c + rows.length ≤ j ∧ j < n ∧ vec j = none)
  | 0, i, _ => ⟨[], rfl, rfl, Nat.zero_le _, fun _ => by simp, fun h => by cases h⟩
  | left + 1, i, hi => by
    obtain ⟨h1, h2⟩ := embeddingChunk_spec hd hlen i c hc
    rw [chunksUntil]
    rcases hb : embeddingChunk n vec i with _ | b
    · refine ⟨[], rfl, rfl, Nat.zero_le _, fun h => (by cases h), fun _ => ?_⟩
      obtain ⟨j, a, b, e⟩ := h1 hb
      exact ⟨j, by simpa using a, b, e⟩
    · obtain ⟨rows, r1, r2, r3⟩ := h2 b hb
      rw [if_neg (by omega), List.nil_append] at r3
      obtain ⟨rows', s1, s2, s3, s4, s5⟩ := chunksUntil_spec hd hlen c hc left (i + 1) (by omega)
      have e1 : (i + 1) * c = i * c + c := by rw [Nat.add_mul, Nat.one_mul]
      have e2 : (i + 1 + left) * c = (i + (left + 1)) * c := by congr 1; omega
      have e3 : i * c + c ≤ (i + (left + 1)) * c := by
        have : (i + (left + 1)) * c = i * c + c + left * c := by ring
        omega
      rw [e2, e1] at s3 s4
      rw [e1] at r1 s2 s5
      simp only
      have hcase : rows.length = c ∨ rows' = [] := by
        by_cases hcn : i * c + c ≤ n
        · left; omega
        · right; exact List.eq_nil_of_length_eq_zero (by omega)
      refine ⟨rows ++ rows', ?_, ?_, ?_, ?_, ?_⟩
      · rw [r3, s1, List.flatten_append, encodeAll_append]
      · rw [List.map_append, List.length_append]
        rcases hcase with hcl | hcl
        · rw [List.range_add, List.map_append, ← r2, s2, List.map_map]
          congr 1
          apply List.map_congr_left
          intro k _
          simp only [Function.comp]
          rw [hcl, Nat.add_assoc]
        · subst hcl
          simpa using r2
      · rw [List.length_append]; omega
      · intro h
        have := s4 h
        rw [List.length_append]; omega
      · intro h
        obtain ⟨j, a, b, e⟩ := s5 h
        refine ⟨j, ?_, b, e⟩
        rw [List.length_append]
        rcases hcase with hcl | hcl
        · omega
        · subst hcl; simp; omega

/-- The bytes of the whole loop. -/
theorem chunks_file {n d : Nat} {vec : Nat → Option (List UInt8)} (hd : 0 < d) (hn : 0 < n)
    (hlen : ∀ (j : Nat) (r : List UInt8), vec j = some r → r.length = d) :
    ((chunksUntil n vec 100 0) = ([], false) ∧ ∃ j, j < n ∧ vec j = none) ∨
    ∃ rows : List (List UInt8), rows ≠ [] ∧ (chunksUntil n vec 100 0).1 = leBytes 8 d ++ encodeAll rows.flatten ∧
      (∀ k, k < rows.length → vec k = rows[k]?) ∧ rows.length ≤ n ∧ (∀ r ∈ rows, r.length = d) ∧
      ((chunksUntil n vec 100 0).2 = true → rows.length = n) ∧
      ((chunksUntil n vec 100 0).2 = false → ∃ j, rows.length ≤ j ∧ j < n ∧ vec j = none) := by
  obtain ⟨c, hc⟩ : ∃ c, c = (n + 100 - 1) / 100 := ⟨_, rfl⟩
  obtain ⟨h1, h2⟩ := embeddingChunk_spec hd hlen 0 c hc
  rw [show (100 : Nat) = 99 + 1 by rfl, chunksUntil]
  rcases hb : embeddingChunk n vec 0 with _ | b
  · left
    obtain ⟨j, _, hj, e⟩ := h1 hb
    exact ⟨rfl, j, hj, e⟩
  · right
    obtain ⟨rows, r1, r2, r3⟩ := h2 b hb
    obtain ⟨rows', s1, s2, s3, s4, s5⟩ := chunksUntil_spec hd hlen c hc 99 (0 + 1) (by omega)
    have hne : rows ≠ [] := by
      rintro rfl
      simp at r1
      omega
    rw [if_pos rfl, if_neg hne] at r3
    simp only [Nat.zero_add, Nat.one_mul, Nat.zero_mul, Nat.sub_zero] at *
    have hcov : n ≤ (1 + 99) * c := by omega
    rw [Nat.min_eq_right hcov] at s3 s4
    have hcase : rows.length = c ∨ rows' = [] := by
      by_cases hcn : c ≤ n
      · left; omega
      · right; exact List.eq_nil_of_length_eq_zero (by omega)
    have hmap : (rows ++ rows').map some = (List.range (rows ++ rows').length).map vec := by
      rw [List.map_append, List.length_append]
      rcases hcase with hcl | hcl
      · rw [List.range_add, List.map_append, ← r2, s2, List.map_map]
        congr 1
        apply List.map_congr_left
        intro k _
        simp only [Function.comp]
        rw [hcl]
      · subst hcl
        simpa using r2
    have hget : ∀ k, k < (rows ++ rows').length → vec k = (rows ++ rows')[k]? := by
      intro k hk
      have := congrArg (fun l => l[k]?) hmap
      simp only [List.getElem?_map, List.getElem?_range hk, Option.map_some] at this
      rw [List.getElem?_eq_getElem hk, Option.map_some] at this
      rw [List.getElem?_eq_getElem hk]
      exact (Option.some.inj this).symm
    refine ⟨rows ++ rows', by simp [hne], ?_, hget, ?_, ?_, ?_, ?_⟩
    · rw [r3, s1, List.flatten_append, encodeAll_append, List.append_assoc]
    · rw [List.length_append]; omega
    · intro r hr
      obtain ⟨k, hk, rfl⟩ := List.getElem_of_mem hr
      exact hlen k _ (by rw [hget k hk, List.getElem?_eq_getElem hk])
    · intro h
      have := s4 h
      rw [List.length_append]; omega
    · intro h
      obtain ⟨j, a, b, e⟩ := s5 h
      refine ⟨j, ?_, b, e⟩
      rw [List.length_append]
      rcases hcase with hcl | hcl
      · omega
      · subst hcl; simp; omega

theorem sumLoop_length {emb : FixVec F32} : ∀ (ids : List Nat) (data v : List F32), SumEmb.sumLoop emb data ids = some v →
    v.length = data.length
  | [], data, v, h => by rw [SumEmb.sumLoop] at h; rw [Option.some.inj h]
  | w :: t, data, v, h => by
    rw [SumEmb.sumLoop] at h
    rcases hg : emb.get w with _ | e
    · rw [hg] at h; cases h
    rw [hg] at h
    simp only at h
    rcases hs : SumEmb.sumInto data e with _ | d
    · rw [hs] at h; cases h
    rw [hs] at h
    simp only at h
    rw [sumLoop_length t d v h]
    unfold SumEmb.sumInto at hs
    split at hs
    · next hl => rw [← Option.some.inj hs, List.length_zipWith, hl, Nat.min_self]
    · cases hs

theorem createEmbedding_length {s : SumEmb F32} {dim : Nat} {embs : List (List F32)} (h : ShowsVectors s.embeddings dim embs)
    (hd : 0 < dim) (hne : embs ≠ []) (ids : List Nat) (v : List F32) (hv : s.createEmbedding ids = some v) : v.length = dim := by
  cases ids with
  | nil =>
    rw [SumEmb.createEmbedding, if_pos (by rw [h.len]; exact List.length_pos_iff.2 hne)] at hv
    rw [← Option.some.inj hv, List.length_replicate, h.dimEq]
  | cons w t =>
    rw [SumEmb.createEmbedding] at hv
    rcases hg : s.embeddings.get w with _ | e
    · rw [hg] at hv; cases hv
    rw [hg] at hv
    simp only at hv
    rw [sumLoop_length t e v hv]
    by_cases hw : w < embs.length
    · have := h.get w embs[w] (List.getElem?_eq_getElem hw)
      rw [this] at hg
      rw [← Option.some.inj hg]
      exact h.equalLength _ (List.getElem_mem hw)
    · rw [h.outside w (by omega) hd] at hg
      cases hg

/-- A file of `i8` vectors holds the vectors of the first elements: row `i` is the quantised embedding of element `i`. -/
def HoldsVectors (file : Bytes) (dim : Nat) (s : SumEmb F32) (count : Nat) : Prop :=
  ∃ (v : FixVec UInt8) (rows : List (List UInt8)), FixVec.fromBytes file = some v ∧ ShowsVectors v dim rows ∧ rows.length = count ∧
    ∀ i : Nat, i < count → ∃ y row, s.getEmbedding i = some y ∧ rows[i]? = some row ∧ quantize y = some (row.map i8OfByte)

theorem quantize_range {y : List F32} {q : List Int} (h : quantize y = some q) : ∀ v ∈ q, -128 ≤ v ∧ v ≤ 127 := by
  unfold quantize at h
  split at h
  · cases h
  · rw [← Option.some.inj h]
    intro v hv
    obtain ⟨y, _, rfl⟩ := List.mem_map.1 hv
    exact toI8_range _

theorem quantisedRow_some {s : SumEmb F32} {i : Nat} {r : List UInt8} (h : quantisedRow s i = some r) :
    ∃ y, s.getEmbedding i = some y ∧ quantize y = some (r.map i8OfByte) ∧ r.length = y.length := by
  unfold quantisedRow at h
  rcases hg : s.getEmbedding i with _ | y
  · rw [hg] at h; cases h
  rw [hg] at h
  simp only at h
  rcases hq : quantize y with _ | q
  · rw [hq] at h; cases h
  rw [hq] at h
  simp only [Option.some.injEq] at h
  subst h
  refine ⟨y, rfl, ?_, ?_⟩
  · rw [hq, List.map_map, show q.map (i8OfByte ∘ i8Bits) = q.map id from
      List.map_congr_left fun v hv => i8OfByte_i8Bits (quantize_range hq v hv).1 (quantize_range hq v hv).2, List.map_id]
  · unfold quantize at hq
    split at hq
    · cases hq
    · rw [← Option.some.inj hq]; simp

/-- C75. `compute_embeddings_and_save_to_disk` to a place that is not one of its inputs changes only the output. If it returns, the output
holds one vector per element: its quantised embedding. If it panics, which it does only if some element has no vector (a term
without embedding, or NaN), the output is empty or holds the vectors of some first elements, and not of all. -/
theorem C75_compute {fs fs' : Fs} {elements embeddings output : Path} {r : Ending}
    (h : ComputeAndSave fs elements embeddings output r fs') (eb tb : Bytes) (e : FixVec UInt32) (x : Elems) (dim : Nat)
    (raw : List (List UInt32)) (he : fs embeddings = some (.file eb)) (hx : fs elements = some (.file tb))
    (hel : FixVec.fromBytes eb = some e) (hxl : VarVec.fromBytes tb = some x) (hv : ShowsVectors e dim raw) (hd : 0 < dim)
    (hd' : dim < 2 ^ 64) (hne : raw ≠ []) (hn : 0 < x.len) (ho1 : output ≠ elements) (ho2 : output ≠ embeddings)
    (hc : fs.CanCreate output) :
    (∀ q, q ≠ output → fs' q = fs q) ∧
    ((r = .returned ∧ ∃ b, fs' output = some (.file b) ∧ HoldsVectors b dim (sumOf e x) x.len) ∨
      (r = .panicked ∧
        (∃ j, j < x.len ∧ ∀ y, (sumOf e x).getEmbedding j = some y → quantize y = none) ∧
        (fs' output = some (.file []) ∨
          ∃ b k, fs' output = some (.file b) ∧ 0 < k ∧ k < x.len ∧ HoldsVectors b dim (sumOf e x) k))) := by
  obtain ⟨inputs, hin, h2⟩ := h
  rw [he, hx] at hin
  simp only [hel, hxl] at hin
  subst hin
  simp only at h2
  rcases h2 with ⟨hnc, _⟩ | ⟨_, _, _, h3, h4⟩ | ⟨_, h3, _⟩
  · exact absurd hc hnc
  · have hsv : ShowsVectors (sumOf e x).embeddings dim (raw.map fun r => r.map F32.ofBits) :=
      ((hv.repr hd).mapData F32.ofBits).shows
    have hlen : ∀ (j : Nat) (r : List UInt8), quantisedRow (sumOf e x) j = some r → r.length = dim := by
      intro j r hr
      obtain ⟨y, hy, _, hl⟩ := quantisedRow_some hr
      rw [getEmbedding_terms] at hy
      rcases ht : (sumOf e x).getTerms j with _ | ts
      · rw [ht] at hy; cases hy
      · rw [ht] at hy
        rw [hl]
        exact createEmbedding_length hsv hd (by simpa using hne) ts y hy
    have hnone : ∀ j, quantisedRow (sumOf e x) j = none → ∀ y, (sumOf e x).getEmbedding j = some y → quantize y = none := by
      intro j hj y hy
      unfold quantisedRow at hj
      rw [hy] at hj
      simp only at hj
      rcases hq : quantize y with _ | q
      · rfl
      · rw [hq] at hj; cases hj
    have hl : (sumOf e x).len = x.len := rfl
    rw [hl] at h3 h4
    refine ⟨fun q hq => by rw [h3, Fs.set, if_neg hq], ?_⟩
    have hout : ∀ b, fs' = fs.set output (.file b) → fs' output = some (.file b) := by
      intro b hb; rw [hb, Fs.set, if_pos rfl]
    have hholds : ∀ rows : List (List UInt8), (∀ k, k < rows.length → quantisedRow (sumOf e x) k = rows[k]?) →
        (∀ r ∈ rows, r.length = dim) → HoldsVectors (leBytes 8 dim ++ encodeAll rows.flatten) dim (sumOf e x) rows.length := by
      intro rows hk hr
      have hrep : FixRepr (⟨rows.flatten, dim⟩ : FixVec UInt8) dim rows := ⟨hd, rfl, rfl, hr⟩
      have hload := C30_write_load_partial _ dim rows hrep.shows hd hd'
      rw [FixVec.bytes] at hload
      refine ⟨_, rows, hload, hrep.shows, rfl, fun i hi => ?_⟩
      have := hk i hi
      rw [List.getElem?_eq_getElem hi] at this
      obtain ⟨y, y1, y2, _⟩ := quantisedRow_some this
      exact ⟨y, rows[i], y1, List.getElem?_eq_getElem hi, y2⟩
    rcases chunks_file hd hn hlen with ⟨hc0, j, hj, hvn⟩ | ⟨rows, r0, r1, r2, r3, r4, r5, r6⟩
    · right
      rw [hc0] at h3 h4
      exact ⟨h4, ⟨j, hj, hnone j hvn⟩, Or.inl (hout _ h3)⟩
    · rw [r1] at h3
      rcases hok : (chunksUntil x.len (quantisedRow (sumOf e x)) 100 0).2 with _ | _
      · right
        rw [hok] at h4
        obtain ⟨j, j1, j2, j3⟩ := r6 hok
        exact ⟨h4, ⟨j, j2, hnone j j3⟩, Or.inr ⟨_, rows.length, hout _ h3, List.length_pos_iff.2 r0, by omega, hholds rows r2 r4⟩⟩
      · left
        rw [hok] at h4
        have := hholds rows r2 r4
        rw [r5 hok] at this
        exact ⟨h4, _, hout _ h3, this⟩
  · rcases h3 with h3 | h3
    · exact absurd h3 ho1
    · exact absurd h3 ho2

/-- C75. Computing the embeddings over the file of elements kills the process and loses the elements: the file that is left is refused. -/
theorem C75_compute_in_place {fs fs' : Fs} {elements embeddings : Path} {r : Ending}
    (h : ComputeAndSave fs elements embeddings elements r fs') (eb tb : Bytes) (e : FixVec UInt32) (x : Elems)
    (he : fs embeddings = some (.file eb)) (hx : fs elements = some (.file tb))
    (hel : FixVec.fromBytes eb = some e) (hxl : VarVec.fromBytes tb = some x) (hn : 0 < x.len) (hc : fs.CanCreate elements) :
    r = .killed ∧ fs' elements = some (.file []) ∧ (VarVec.fromBytes [] : Option Elems) = none ∧
      ∀ output r' f, ComputeAndSave fs' elements embeddings output r' f → r' = .panicked := by
  obtain ⟨inputs, hin, h2⟩ := h
  rw [he, hx] at hin
  simp only [hel, hxl] at hin
  subst hin
  simp only at h2
  have hnone : (VarVec.fromBytes [] : Option Elems) = none := by rw [VarVec.fromBytes, if_neg (by decide)]
  rcases h2 with ⟨hnc, _⟩ | ⟨_, h3, _⟩ | ⟨_, _, h3⟩
  · exact absurd hc hnc
  · exact absurd rfl h3
  · obtain ⟨h4, h5⟩ := h3 (Or.inl ⟨trivial, hn⟩)
    have h6 : fs' elements = some (.file []) := by rw [h5, Fs.set, if_pos rfl]
    refine ⟨h4, h6, hnone, ?_⟩
    rintro output r' f ⟨inputs, hin, h7⟩
    rw [h6] at hin
    have : inputs = none := by
      rw [hin]
      rcases fs' embeddings with _ | ⟨b⟩ | _
      · rfl
      · simp only [hnone]
        rcases (FixVec.fromBytes b : Option (FixVec UInt32)) with _ | _ <;> rfl
      · rfl
    subst this
    exact h7.1

/-- C75. If the output cannot be created, or an input does not exist or does not open, the call panics and no file changes. -/
theorem C75_compute_fails {fs fs' : Fs} {elements embeddings output : Path} {r : Ending}
    (h : ComputeAndSave fs elements embeddings output r fs')
    (hbad : ¬ fs.CanCreate output ∨ (∀ b (e : FixVec UInt32), fs embeddings = some (.file b) → FixVec.fromBytes b ≠ some e) ∨
      ∀ b (x : Elems), fs elements = some (.file b) → VarVec.fromBytes b ≠ some x) :
    r = .panicked ∧ fs' = fs := by
  obtain ⟨inputs, hin, h2⟩ := h
  rcases inputs with _ | s
  · exact h2
  · simp only at h2
    rcases hbad with hbad | hbad
    · rcases h2 with ⟨_, h3⟩ | ⟨h3, _⟩ | ⟨h3, _⟩
      · exact h3
      · exact absurd h3 hbad
      · exact absurd h3 hbad
    · exfalso
      rcases hfe : fs embeddings with _ | ⟨eb⟩ | _ <;> rw [hfe] at hin <;> try cases hin
      rcases hfx : fs elements with _ | ⟨tb⟩ | _ <;> rw [hfx] at hin <;> try cases hin
      simp only at hin
      rcases he : (FixVec.fromBytes eb : Option (FixVec UInt32)) with _ | e <;> rw [he] at hin <;> try cases hin
      rcases hx : (VarVec.fromBytes tb : Option Elems) with _ | x <;> rw [hx] at hin <;> try cases hin
      rcases hbad with hbad | hbad
      · exact hbad eb e hfe he
      · exact hbad tb x hfx hx

/-- C75. Computing the embeddings over the file of word embeddings kills the process and loses the embeddings, if one of the first
elements (the first hundredth) has a word at all. -/
theorem C75_compute_over_embeddings {fs fs' : Fs} {elements embeddings : Path} {r : Ending}
    (h : ComputeAndSave fs elements embeddings embeddings r fs') (eb tb : Bytes) (e : FixVec UInt32) (x : Elems)
    (he : fs embeddings = some (.file eb)) (hx : fs elements = some (.file tb))
    (hel : FixVec.fromBytes eb = some e) (hxl : VarVec.fromBytes tb = some x) (i : Nat) (hi : 100 * i < x.len) (t : List Nat)
    (ht : (sumOf e x).getTerms i = some t) (hne : t ≠ []) (hc : fs.CanCreate embeddings) :
    r = .killed ∧ fs' embeddings = some (.file []) ∧ (FixVec.fromBytes [] : Option (FixVec UInt32)) = none ∧
      ∀ output r' f, ComputeAndSave fs' elements embeddings output r' f → r' = .panicked := by
  obtain ⟨inputs, hin, h2⟩ := h
  rw [he, hx] at hin
  simp only [hel, hxl] at hin
  subst hin
  simp only at h2
  have hnone : (FixVec.fromBytes [] : Option (FixVec UInt32)) = none := by
    rw [FixVec.fromBytes, show (FixVec.loadMmap [] : Option (FixVec UInt32)) = none by rw [FixVec.loadMmap, if_neg (by decide)]]
  rcases h2 with ⟨hnc, _⟩ | ⟨_, _, h3, _⟩ | ⟨_, _, h3⟩
  · exact absurd hc hnc
  · exact absurd rfl h3
  · have hlen : (sumOf e x).len = x.len := rfl
    obtain ⟨h4, h5⟩ := h3 (Or.inr ⟨i, t, by rw [hlen]; omega, ht, hne⟩)
    have h6 : fs' embeddings = some (.file []) := by rw [h5, Fs.set, if_pos rfl]
    refine ⟨h4, h6, hnone, ?_⟩
    rintro output r' f ⟨inputs, hin, h7⟩
    rw [h6] at hin
    have : inputs = none := by
      rw [hin]
      rcases fs' elements with _ | ⟨b⟩ | _
      · rfl
      · simp only [hnone]
      · rfl
    subst this
    exact h7.1

/-- C75. From a text to vectors: after parsing lines of words into a file of elements, and computing the embeddings of these elements into
another file, vector `i` is the quantised sum of the embeddings of the known words of line `i`. -/
theorem C75_text_to_vectors {gunzip : Bytes → Option Bytes} {fs fs1 fs2 : Fs} {lines words elements embeddings output : Path} {n : Nat}
    (h1 : ParseAndSave gunzip fs lines words elements (some n) fs1) (hn : 0 < n) (hn' : n < 2 ^ 64)
    (h2 : ComputeAndSave fs1 elements embeddings output .returned fs2) (eb : Bytes) (e : FixVec UInt32) (dim : Nat)
    (raw : List (List UInt32)) (he : fs embeddings = some (.file eb)) (hee : embeddings ≠ elements)
    (hel : FixVec.fromBytes eb = some e) (hv : ShowsVectors e dim raw) (hd : 0 < dim) (hd' : dim < 2 ^ 64) (hne : raw ≠ [])
    (ho1 : output ≠ elements) (ho2 : output ≠ embeddings) :
    ∃ (w : Text) (parts : List Path) (ts : List Text) (ids : Text → Option Nat) (qs : List Text) (b : Bytes) (v : FixVec UInt8)
      (rows : List (List UInt8)),
      readText fs words = some w ∧ parseWords w = some ids ∧ Parts fs lines parts ∧ parts.map (partText gunzip fs) = ts.map some ∧
      (ts.flatMap textLines).map jsonString = qs.map some ∧ n = qs.length ∧
      fs2 output = some (.file b) ∧ FixVec.fromBytes b = some v ∧ ShowsVectors v dim rows ∧ rows.length = n ∧
      ∀ (i : Nat) (q : Text), qs[i]? = some q → ∃ y row, (∀ x : Elems, (sumOf e x).createEmbedding (lineIds ids q) = some y) ∧
        rows[i]? = some row ∧ quantize y = some (row.map i8OfByte) := by
  obtain ⟨w, parts, ts, ids, qs, tb, x, p1, p2, p3, p4, p5, p6, p7, p8, p9, p10⟩ := C75_parse h1 hn'
  have hxl : x.len = n := by have := p9.len; rw [List.length_map] at this; exact this.trans p6.symm
  have he1 : fs1 embeddings = some (.file eb) := by rw [p10 _ hee, he]
  have hc : fs1.CanCreate output := by
    obtain ⟨inputs, hin, h3⟩ := h2
    rw [he1, p7] at hin
    simp only [hel, p8] at hin
    subst hin
    rcases h3 with ⟨_, h4, _⟩ | ⟨h4, _⟩ | ⟨h4, _⟩
    · cases h4
    · exact h4
    · exact h4
  obtain ⟨_, h3⟩ := C75_compute h2 eb tb e x dim raw he1 p7 hel p8 hv hd hd' hne (by omega) ho1 ho2 hc
  rcases h3 with ⟨_, b, b1, v, rows, b2, b3, b4, b5⟩ | ⟨h3, _⟩
  · refine ⟨w, parts, ts, ids, qs, b, v, rows, p1, p2, p3, p4, p5, p6, b1, b2, b3, by rw [b4, hxl], ?_⟩
    intro i q hq
    have hi : i < x.len := by rw [hxl, p6]; exact (List.getElem?_eq_some_iff.1 hq).1
    obtain ⟨y, row, y1, y2, y3⟩ := b5 i hi
    refine ⟨y, row, ?_, y2, y3⟩
    rw [getEmbedding_terms] at y1
    have ht : (sumOf e x).getTerms i = some (lineIds ids q) := by
      have := p9.get i
      rw [List.getElem?_map, hq] at this
      exact this
    rw [ht] at y1
    intro x'
    exact (createEmbedding_embeddings (s := sumOf e x') (s' := sumOf e x) rfl _).trans y1
  · cases h3

/-! ### Non-vacuity -/

/-- A directory with two files of lines, a file of words and a file of embeddings. -/
def exFs : Fs := fun p =>
  if p = [] ∨ p = ["d".toList] then some .dir
  else if p = ["d".toList, "b".toList] then some (.file (utf8 "\"hello world\"\n".toList))
  else if p = ["d".toList, "a".toList] then some (.file (utf8 "\"world\"\n\"x: hello\"".toList))
  else if p = ["w".toList] then some (.file (utf8 "\"hello\"\n\"world\"\n".toList))
  else none

theorem exFs_parts : Parts exFs ["d".toList] [["d".toList, "a".toList], ["d".toList, "b".toList]] := by
  refine Or.inl ⟨rfl, ["b".toList, "a".toList], ⟨by decide, ?_⟩, ?_⟩
  · intro n
    by_cases h1 : n = "b".toList
    · subst h1; exact ⟨fun _ => by decide, fun _ => by decide⟩
    · by_cases h2 : n = "a".toList
      · subst h2; exact ⟨fun _ => by decide, fun _ => by decide⟩
      · have e1 : ¬ (["d".toList] ++ [n] = [] ∨ ["d".toList] ++ [n] = ["d".toList]) := by simp
        have e2 : ¬ ["d".toList] ++ [n] = ["d".toList, "b".toList] := by simpa using h1
        have e3 : ¬ ["d".toList] ++ [n] = ["d".toList, "a".toList] := by simpa using h2
        have e4 : ¬ ["d".toList] ++ [n] = ["w".toList] := by simp
        rw [exFs, if_neg e1, if_neg e2, if_neg e3, if_neg e4]
        simp only [List.mem_cons, List.not_mem_nil, or_false, h1, h2, ne_eq, not_true_eq_false]
  · have : sortNames ["b".toList, "a".toList] = ["a".toList, "b".toList] := by
      rw [sortNames_perm (List.Perm.swap _ _ _), sortNames, List.mergeSort_of_pairwise]
      simp only [List.pairwise_cons, List.mem_cons, List.not_mem_nil, or_false, forall_eq, decide_eq_true_eq]
      exact ⟨by decide, by simp⟩
    rw [this]; rfl

theorem exFs_inputs : Inputs (fun _ => none) exFs ["d".toList] ["w".toList]
    (some ("\"hello\"\n\"world\"\n".toList, ["\"world\"\n\"x: hello\"".toList, "\"hello world\"\n".toList])) :=
  ⟨_, exFs_parts, by decide +kernel⟩

/-- Non-vacuity: three lines in two files are parsed into one file, and into two shards in the same directory. -/
example : (∃ b, ParseAndSave (fun _ => none) exFs ["d".toList] ["w".toList] ["o".toList] (some 3) (exFs.set ["o".toList] (.file b))) ∧
    ∃ fs', ParseAndSaveShards (fun _ => none) exFs ["d".toList] ["w".toList] ["d".toList] 2 (some 3) fs' := by
  constructor
  · obtain ⟨⟨b, n⟩, hb, hn⟩ : ∃ r, parseAndSave "\"hello\"\n\"world\"\n".toList
        ["\"world\"\n\"x: hello\"".toList, "\"hello world\"\n".toList] = some r ∧ r.2 = 3 := by
      refine Option.map_eq_some_iff.1 (?_ : Option.map Prod.snd _ = some 3)
      decide +kernel
    obtain rfl : n = 3 := hn
    refine ⟨b, _, exFs_inputs, ?_⟩
    simp only [hb]
    exact Or.inl ⟨⟨by decide, fun h => (by cases h), rfl⟩, trivial, trivial⟩
  · obtain ⟨ids, hids, hids'⟩ : ∃ ids, parseWords "\"hello\"\n\"world\"\n".toList = some ids ∧
        (parseElements ids ["\"world\"\n\"x: hello\"".toList, "\"hello world\"\n".toList]).map (fun e =>
          (e.len, (saveShards e 2).1.length, (saveShards e 2).2)) = some (3, 2, true) := by
      have : (parseWords "\"hello\"\n\"world\"\n".toList).map (fun ids =>
        (parseElements ids ["\"world\"\n\"x: hello\"".toList, "\"hello world\"\n".toList]).map (fun e =>
          (e.len, (saveShards e 2).1.length, (saveShards e 2).2))) = some (some (3, 2, true)) := by decide +kernel
      exact Option.map_eq_some_iff.1 this
    obtain ⟨e, he, he'⟩ := Option.map_eq_some_iff.1 hids'
    obtain ⟨h1, h2⟩ := Prod.mk.inj he'
    obtain ⟨h2, h3⟩ := Prod.mk.inj h2
    refine ⟨(putShards ["d".toList] exFs 0 (saveShards e 2).1).1, _, exFs_inputs, ?_⟩
    simp only [hids, he]
    refine ⟨trivial, ?_⟩
    rw [h3, h1]
    obtain ⟨b0, b1, hb⟩ := List.length_eq_two.1 h2
    rw [hb]
    have hd : exFs.IsDir ["d".toList] := rfl
    have hne : (["d".toList] : Path) ≠ [] := by decide
    have p0 : exFs (shardPath exFs ["d".toList] 0) ≠ some .dir := by
      rw [shardPath, if_pos hd]
      have : exFs (["d".toList] ++ ["elements-".toList ++ decimalText 0 ++ ".bin".toList]) = none := by
        rw [decimalText, if_pos (by decide)]; rfl
      rw [this]; simp
    have p1 : exFs (shardPath exFs ["d".toList] 1) ≠ some .dir := by
      rw [shardPath, if_pos hd]
      have : exFs (["d".toList] ++ ["elements-".toList ++ decimalText 1 ++ ".bin".toList]) = none := by
        rw [decimalText, if_pos (by decide)]; rfl
      rw [this]; simp
    have c0 : exFs.CanCreate (shardPath exFs ["d".toList] 0) := by
      refine ⟨by rw [shardPath, if_pos hd]; simp, p0, ?_⟩
      rw [(C75_shard_beside exFs _ 0 hne).2, if_pos hd]; rfl
    have hd' := (shardPath_set (fs := exFs) hne 0 b0).2 hd
    have c1 : (exFs.set (shardPath exFs ["d".toList] 0) (.file b0)).CanCreate
        (shardPath (exFs.set (shardPath exFs ["d".toList] 0) (.file b0)) ["d".toList] 1) := by
      rw [shardPath_congr (shardPath_set hne 0 b0)]
      refine ⟨by rw [shardPath, if_pos hd]; simp, ?_, ?_⟩
      · rw [Fs.set, if_neg]
        · exact p1
        · intro hc
          exact absurd (C75_shard_names_distinct exFs exFs _ Iff.rfl 1 0 hc) (by decide)
      · rw [(C75_shard_beside exFs _ 1 hne).2, if_pos hd]; exact hd'
    rw [putShards, if_pos c0, putShards, if_pos c1, putShards]
    rfl

/-- One text of one word, and its embedding, 1. -/
def exFs2 : Fs := fun p =>
  if p = [] then some .dir
  else if p = ["t".toList] then some (.file [1, 0, 0, 0, 0, 0, 0, 0, 0, 0, 0, 0, 0, 1, 0, 0, 0, 0, 0, 0, 0])
  else if p = ["e".toList] then some (.file [1, 0, 0, 0, 0, 0, 0, 0, 0, 0, 0x80, 0x3f])
  else none

/-- Non-vacuity: the hypotheses of `C75_compute` are met and the run returns. -/
example : ∃ (e : FixVec UInt32) (x : Elems) (fs' : Fs),
    FixVec.fromBytes [1, 0, 0, 0, 0, 0, 0, 0, 0, 0, 0x80, 0x3f] = some e ∧
    VarVec.fromBytes [1, 0, 0, 0, 0, 0, 0, 0, 0, 0, 0, 0, 0, 1, 0, 0, 0, 0, 0, 0, 0] = some x ∧
    ShowsVectors e 1 [[0x3f800000]] ∧ x.len = 1 ∧ exFs2.CanCreate ["o".toList] ∧
    ComputeAndSave exFs2 ["t".toList] ["e".toList] ["o".toList] .returned fs' ∧
    ∃ b, fs' ["o".toList] = some (.file b) ∧ HoldsVectors b 1 (sumOf e x) 1 := by
  obtain ⟨e, he, he'⟩ : ∃ e, (FixVec.fromBytes [1, 0, 0, 0, 0, 0, 0, 0, 0, 0, 0x80, 0x3f] : Option (FixVec UInt32)) = some e ∧
      e = ⟨[0x3f800000], 1⟩ := ⟨⟨[0x3f800000], 1⟩, by decide +kernel, rfl⟩
  obtain ⟨x, hx, hx'⟩ : ∃ x, (VarVec.fromBytes [1, 0, 0, 0, 0, 0, 0, 0, 0, 0, 0, 0, 0, 1, 0, 0, 0, 0, 0, 0, 0] : Option Elems) = some x ∧
      (x.len, (x.get 0).map fun l => l.map idInto) = (1, some [0]) := by
    refine Option.map_eq_some_iff.1 (?_ : Option.map (fun x : Elems => (x.len, (x.get 0).map fun l => l.map idInto)) _ = _)
    decide +kernel
  obtain ⟨hl, hg⟩ := Prod.mk.inj hx'
  subst he'
  have hs : ShowsVectors (⟨[0x3f800000], 1⟩ : FixVec UInt32) 1 [[0x3f800000]] :=
    (FixRepr.mk (by decide) rfl (by decide) (by decide)).shows
  have hc : exFs2.CanCreate ["o".toList] := ⟨by decide, fun h => (by cases h), rfl⟩
  have hrun : ∃ r fs', ComputeAndSave exFs2 ["t".toList] ["e".toList] ["o".toList] r fs' := by
    refine ⟨_, _, some (sumOf ⟨[0x3f800000], 1⟩ x), ?_, Or.inr (Or.inl ⟨hc, by decide, by decide, rfl, rfl⟩)⟩
    rw [show exFs2 ["e".toList] = some (.file [1, 0, 0, 0, 0, 0, 0, 0, 0, 0, 0x80, 0x3f]) from rfl,
      show exFs2 ["t".toList] = some (.file [1, 0, 0, 0, 0, 0, 0, 0, 0, 0, 0, 0, 0, 1, 0, 0, 0, 0, 0, 0, 0]) from rfl]
    simp only [he, hx]
  obtain ⟨r, fs', hrun⟩ := hrun
  have hmain := C75_compute hrun _ _ _ x 1 [[0x3f800000]] rfl rfl he hx hs (by decide) (by decide) (by decide)
    (by rw [hl]; decide) (by decide) (by decide) hc
  rcases hmain with ⟨_, ⟨hr, b, hb, hv⟩ | ⟨_, ⟨j, hj, hnone⟩, _⟩⟩
  · subst hr
    exact ⟨_, x, fs', he, hx, hs, hl, hc, hrun, b, hb, by rw [hl] at hv; exact hv⟩
  · exfalso
    rw [hl] at hj
    obtain rfl : j = 0 := by omega
    have hge : (sumOf ⟨[0x3f800000], 1⟩ x).getEmbedding 0 = some [F32.ofBits 0x3f800000] := by
      rw [getEmbedding_terms]
      have : (sumOf ⟨[0x3f800000], 1⟩ x).getTerms 0 = some [0] := hg
      rw [this]
      rfl
    have hq := hnone _ hge
    obtain ⟨row, hrow⟩ := (C61_convertible [0x3f800000]).2.2 (by
      intro u hu
      rw [List.mem_singleton.1 hu]
      intro hn
      unfold F32.ofBits at hn
      simp only at hn
      rw [if_neg (by decide)] at hn
      cases hn)
    have hrow' : quantize ([0x3f800000].map F32.ofBits) = some (List.map i8OfByte row) := hrow
    rw [List.map_singleton, hq] at hrow'
    cases hrow'

/-- Non-vacuity: the hypotheses of `C75_compute_over_embeddings` are met by the same files. -/
example : ∃ (e : FixVec UInt32) (x : Elems) (fs' : Fs),
    ComputeAndSave exFs2 ["t".toList] ["e".toList] ["e".toList] .killed fs' ∧
    FixVec.fromBytes [1, 0, 0, 0, 0, 0, 0, 0, 0, 0, 0x80, 0x3f] = some e ∧
    VarVec.fromBytes [1, 0, 0, 0, 0, 0, 0, 0, 0, 0, 0, 0, 0, 1, 0, 0, 0, 0, 0, 0, 0] = some x ∧
    100 * 0 < x.len ∧ (sumOf e x).getTerms 0 = some [0] ∧ exFs2.CanCreate ["e".toList] := by
  have he : (FixVec.fromBytes [1, 0, 0, 0, 0, 0, 0, 0, 0, 0, 0x80, 0x3f] : Option (FixVec UInt32)) = some ⟨[0x3f800000], 1⟩ := by
    decide +kernel
  obtain ⟨x, hx, hx'⟩ : ∃ x, (VarVec.fromBytes [1, 0, 0, 0, 0, 0, 0, 0, 0, 0, 0, 0, 0, 1, 0, 0, 0, 0, 0, 0, 0] : Option Elems) = some x ∧
      (x.len, (x.get 0).map fun l => l.map idInto) = (1, some [0]) := by
    refine Option.map_eq_some_iff.1 (?_ : Option.map (fun x : Elems => (x.len, (x.get 0).map fun l => l.map idInto)) _ = _)
    decide +kernel
  obtain ⟨hl, hg⟩ := Prod.mk.inj hx'
  have hc : exFs2.CanCreate ["e".toList] := ⟨by decide, fun h => (by cases h), rfl⟩
  refine ⟨⟨[0x3f800000], 1⟩, x, exFs2.set ["e".toList] (.file []), ?_, he, hx, by rw [hl]; decide, hg, hc⟩
  refine ⟨some (sumOf ⟨[0x3f800000], 1⟩ x), ?_, Or.inr (Or.inr ⟨hc, Or.inr rfl, fun _ => ⟨rfl, rfl⟩⟩)⟩
  rw [show exFs2 ["e".toList] = some (.file [1, 0, 0, 0, 0, 0, 0, 0, 0, 0, 0x80, 0x3f]) from rfl,
    show exFs2 ["t".toList] = some (.file [1, 0, 0, 0, 0, 0, 0, 0, 0, 0, 0, 0, 0, 1, 0, 0, 0, 0, 0, 0, 0]) from rfl]
  simp only [he, hx]

/-- Non-vacuity: the output is a directory, and the call fails; or there are no embeddings. -/
example : ¬ exFs2.CanCreate [] ∧ ComputeAndSave exFs2 ["t".toList] ["none".toList] ["o".toList] .panicked exFs2 ∧
    ∀ b (e : FixVec UInt32), exFs2 ["none".toList] = some (.file b) → FixVec.fromBytes b ≠ some e := by
  have h : exFs2 ["none".toList] = none := by decide
  refine ⟨fun h => h.1 rfl, ⟨none, by rw [h], rfl, rfl⟩, ?_⟩
  intro b e hb
  rw [h] at hb; cases hb

end Granne
