import Verif.Proofs.Words
import Verif.Proofs.Embeddings

/-! Parsing elements, writing shards, precomputing embeddings. -/
namespace Granne
open Spec

theorem seqOpt_eq_some {α : Type} : ∀ {l : List (Option α)} {r : List α}, seqOpt l = some r → l = r.map some
  | [], r, h => by rw [seqOpt] at h; rw [← Option.some.inj h]; rfl
  | none :: _, r, h => by simp [seqOpt] at h
  | some a :: t, r, h => by
    rw [seqOpt] at h
    rcases Option.eq_none_or_eq_some (seqOpt t) with hn | ⟨l, hl⟩
    · rw [hn] at h; simp at h
    · rw [hl] at h
      rw [← Option.some.inj h, List.map_cons, ← seqOpt_eq_some hl]

theorem parseLine_some {ids : Text → Option Nat} {line : Text} {data : List ThreeByteInt}
    (h : parseLine ids line = some data) :
    ∃ q, jsonString line = some q ∧ (∀ n ∈ lineIds ids q, n < 2 ^ 24) ∧ data = (lineIds ids q).map encId := by
  unfold parseLine at h
  rcases Option.eq_none_or_eq_some (jsonString line) with hn | ⟨q, hq⟩
  · rw [hn] at h; simp at h
  · rw [hq] at h
    simp only at h
    by_cases hb : ∀ n ∈ lineIds ids q, n < 2 ^ 24
    · have := map_idFrom hb
      rw [lineIds] at this
      rw [this] at h
      exact ⟨q, hq, hb, (Option.some.inj h).symm⟩
    · push Not at hb
      have := map_idFrom_none hb
      rw [lineIds] at this
      rw [this] at h
      simp at h

theorem parseLine_ok {ids : Text → Option Nat} {line q : Text} (hq : jsonString line = some q)
    (hb : ∀ n ∈ lineIds ids q, n < 2 ^ 24) : parseLine ids line = some ((lineIds ids q).map encId) := by
  unfold parseLine
  rw [hq]
  exact map_idFrom hb

/-- The loop over the lines of one file succeeds exactly with these elements. -/
theorem parseFileLoop_some {ids : Text → Option Nat} : ∀ (lines : List Text) (e : Elems) (terms : List (List Nat)),
    TermRepr e terms → terms.flatten.length < 2 ^ 40 → ∀ e', parseFileLoop ids e lines = some e' →
    ∃ qs : List Text, lines.map jsonString = qs.map some ∧ TermRepr e' (terms ++ qs.map (lineIds ids)) ∧
      (terms ++ qs.map (lineIds ids)).flatten.length < 2 ^ 40
  | [], e, terms, hr, ht, e', h => by
    rw [parseFileLoop] at h
    rw [← Option.some.inj h]
    exact ⟨[], rfl, by simpa using hr, by simpa using ht⟩
  | l :: t, e, terms, hr, ht, e', h => by
    rw [parseFileLoop] at h
    rcases Option.eq_none_or_eq_some (parseLine ids l) with hn | ⟨data, hd⟩
    · rw [hn] at h; simp at h
    · rw [hd] at h
      simp only at h
      obtain ⟨q, hq, hb, rfl⟩ := parseLine_some hd
      by_cases htot : terms.flatten.length + (lineIds ids q).length < 2 ^ 40
      · obtain ⟨e1, he1, hr1⟩ := hr.push hb htot
        rw [he1] at h
        obtain ⟨qs, h1, h2, h3⟩ := parseFileLoop_some t e1 _ hr1 (by simpa using htot) e' h
        exact ⟨q :: qs, by rw [List.map_cons, List.map_cons, hq, h1], by simpa using h2, by simpa using h3⟩
      · have := hr.rows.push_none ((lineIds ids q).map encId) (by
          rw [flatten_enc_length, List.length_map]
          exact Nat.le_trans (by decide) (Nat.le_of_not_lt htot))
        rw [this] at h
        simp at h

theorem parseFileLoop_ok {ids : Text → Option Nat} : ∀ (qs : List Text) (lines : List Text) (e : Elems)
    (terms : List (List Nat)), TermRepr e terms → lines.map jsonString = qs.map some →
    (∀ q ∈ qs, ∀ n ∈ lineIds ids q, n < 2 ^ 24) → (terms ++ qs.map (lineIds ids)).flatten.length < 2 ^ 40 →
    ∃ e', parseFileLoop ids e lines = some e' ∧ TermRepr e' (terms ++ qs.map (lineIds ids))
  | [], lines, e, terms, hr, hl, _, _ => by
    have : lines = [] := by simpa using hl
    subst this
    exact ⟨e, rfl, by simpa using hr⟩
  | q :: qs, [], e, terms, hr, hl, _, _ => by simp at hl
  | q :: qs, l :: t, e, terms, hr, hl, hb, htot => by
    rw [List.map_cons, List.map_cons, List.cons.injEq] at hl
    have htot' : (terms ++ [lineIds ids q] ++ qs.map (lineIds ids)).flatten.length < 2 ^ 40 := by simpa using htot
    obtain ⟨e1, h1, r1⟩ := hr.push (hb q (by simp)) (by
      simp only [List.flatten_append, List.length_append, List.flatten_cons, List.flatten_nil, List.append_nil] at htot'
      omega)
    obtain ⟨e2, h2, r2⟩ := parseFileLoop_ok qs t e1 _ r1 hl.2 (fun p hp => hb p (by simp [hp])) htot'
    exact ⟨e2, by rw [parseFileLoop, parseLine_ok hl.1 (hb q (by simp))]; simp only [h1]; exact h2, by simpa using r2⟩

theorem parseFile_some {ids : Text → Option Nat} {content : Text} {e : Elems} (h : parseFile ids content = some e) :
    ∃ qs : List Text, (textLines content).map jsonString = qs.map some ∧ TermRepr e (qs.map (lineIds ids)) ∧
      (qs.map (lineIds ids)).flatten.length < 2 ^ 40 := by
  obtain ⟨e0, h0, r0⟩ := TermRepr.new
  rw [parseFile, h0] at h
  simpa using parseFileLoop_some _ e0 [] r0 (by simp) e h

theorem parseFile_ok {ids : Text → Option Nat} {content : Text} {qs : List Text}
    (hl : (textLines content).map jsonString = qs.map some)
    (hb : ∀ q ∈ qs, ∀ n ∈ lineIds ids q, n < 2 ^ 24) (htot : (qs.map (lineIds ids)).flatten.length < 2 ^ 40) :
    ∃ e, parseFile ids content = some e ∧ TermRepr e (qs.map (lineIds ids)) := by
  obtain ⟨e0, h0, r0⟩ := TermRepr.new
  rw [parseFile, h0]
  simpa using parseFileLoop_ok qs _ e0 [] r0 hl hb (by simpa using htot)

theorem TermRepr.extend {e f : Elems} {terms terms' : List (List Nat)} (h : TermRepr e terms) (h' : TermRepr f terms')
    (htot : (terms ++ terms').flatten.length < 2 ^ 40) :
    ∃ g, e.extend f = some g ∧ TermRepr g (terms ++ terms') := by
  obtain ⟨g, h3, h4⟩ := h.rows.extend h'.rows (by
    rw [← List.map_append, flatten_enc_length]
    exact htot.trans_eq (by decide))
  exact ⟨g, h3, by rw [List.map_append]; exact h4, fun t ht => by
    rcases List.mem_append.1 ht with h1 | h1
    · exact h.ids t h1
    · exact h'.ids t h1⟩

theorem concat_some {ids : Text → Option Nat} : ∀ (parts : List Text) (es : List Elems) (e e' : Elems)
    (terms : List (List Nat)), parts.map (parseFile ids) = es.map some → TermRepr e terms →
    terms.flatten.length < 2 ^ 40 → SumEmb.concatChunks e es = some e' →
    ∃ qs : List Text, (parts.flatMap textLines).map jsonString = qs.map some ∧
      TermRepr e' (terms ++ qs.map (lineIds ids)) ∧ (terms ++ qs.map (lineIds ids)).flatten.length < 2 ^ 40
  | [], es, e, e', terms, hp, hr, ht, h => by
    have : es = [] := by simpa using hp.symm
    subst this
    rw [SumEmb.concatChunks] at h
    rw [← Option.some.inj h]
    exact ⟨[], rfl, by simpa using hr, by simpa using ht⟩
  | p :: ps, [], e, e', terms, hp, _, _, _ => by simp at hp
  | p :: ps, f :: es, e, e', terms, hp, hr, ht, h => by
    rw [List.map_cons, List.map_cons, List.cons.injEq] at hp
    obtain ⟨q1, h1, r1, _⟩ := parseFile_some hp.1
    rw [SumEmb.concatChunks] at h
    by_cases htot : (terms ++ q1.map (lineIds ids)).flatten.length < 2 ^ 40
    · obtain ⟨g, hg, rg⟩ := hr.extend r1 htot
      rw [hg] at h
      obtain ⟨q2, h2, r2, t2⟩ := concat_some ps es g e' _ hp.2 rg htot h
      refine ⟨q1 ++ q2, ?_, by simpa using r2, by simpa using t2⟩
      rw [List.flatMap_cons, List.map_append, h1, h2, List.map_append]
    · by_cases hne : q1 = []
      · rw [hne, List.map_nil, List.append_nil] at htot; exact absurd ht htot
      · have := hr.rows.extend_none r1.rows (by simpa using hne) (by
          rw [← List.map_append, flatten_enc_length]
          exact Nat.le_trans (by decide) (Nat.le_of_not_lt htot))
        rw [this] at h
        simp at h

theorem parseElements_some {ids : Text → Option Nat} {parts : List Text} {e : Elems}
    (h : parseElements ids parts = some e) :
    ∃ qs : List Text, (parts.flatMap textLines).map jsonString = qs.map some ∧
      TermRepr e (qs.map (lineIds ids)) ∧ (qs.map (lineIds ids)).flatten.length < 2 ^ 40 := by
  obtain ⟨e0, h0, r0⟩ := TermRepr.new
  unfold parseElements at h
  rw [h0] at h
  rcases Option.eq_none_or_eq_some (seqOpt (parts.map (parseFile ids))) with hn | ⟨es, hes⟩
  · rw [hn] at h; simp at h
  · rw [hes] at h
    simpa using concat_some parts es e0 e [] (seqOpt_eq_some hes) r0 (by simp) h

theorem concat_ok' {ids : Text → Option Nat} : ∀ (parts : List Text) (qs : List Text) (e : Elems)
    (terms : List (List Nat)), (parts.flatMap textLines).map jsonString = qs.map some → TermRepr e terms →
    (∀ q ∈ qs, ∀ n ∈ lineIds ids q, n < 2 ^ 24) → (terms ++ qs.map (lineIds ids)).flatten.length < 2 ^ 40 →
    ∃ es e', parts.map (parseFile ids) = es.map some ∧ SumEmb.concatChunks e es = some e' ∧
      TermRepr e' (terms ++ qs.map (lineIds ids))
  | [], qs, e, terms, hl, hr, _, _ => by
    have : qs = [] := by simpa using hl.symm
    subst this
    exact ⟨[], e, rfl, rfl, by simpa using hr⟩
  | p :: ps, qs, e, terms, hl, hr, hb, ht => by
    rw [List.flatMap_cons, List.map_append] at hl
    obtain ⟨q1, q2, rfl, h1, h2⟩ := List.append_eq_map_iff.1 hl
    have ht' := ht
    simp only [List.map_append, List.flatten_append, List.length_append] at ht'
    obtain ⟨f, hf, rf⟩ := parseFile_ok (ids := ids) h1.symm (fun q hq => hb q (by simp [hq])) (by omega)
    obtain ⟨g, hg, rg⟩ := hr.extend rf (by simp only [List.flatten_append, List.length_append]; omega)
    obtain ⟨es, e', h3, h4, h5⟩ := concat_ok' ps q2 g _ h2.symm rg (fun q hq => hb q (by simp [hq]))
      (by simpa using ht)
    exact ⟨f :: es, e', by rw [List.map_cons, hf, h3]; rfl, by rw [SumEmb.concatChunks, hg]; exact h4, by simpa using h5⟩

theorem parseElements_ok {ids : Text → Option Nat} {parts : List Text} {qs : List Text}
    (hl : (parts.flatMap textLines).map jsonString = qs.map some)
    (hb : ∀ q ∈ qs, ∀ n ∈ lineIds ids q, n < 2 ^ 24) (htot : (qs.map (lineIds ids)).flatten.length < 2 ^ 40) :
    ∃ e, parseElements ids parts = some e ∧ TermRepr e (qs.map (lineIds ids)) := by
  obtain ⟨e0, h0, r0⟩ := TermRepr.new
  obtain ⟨es, e, h1, h2, h3⟩ := concat_ok' parts qs e0 [] hl r0 hb (by simpa using htot)
  refine ⟨e, ?_, by simpa using h3⟩
  unfold parseElements
  rw [seqOpt_some h1, h0]
  exact h2

theorem parseElements_big {ids : Text → Option Nat} {parts : List Text} {qs : List Text}
    (hl : (parts.flatMap textLines).map jsonString = qs.map some)
    (hb : ∃ q ∈ qs, ∃ n ∈ lineIds ids q, 2 ^ 24 ≤ n) : parseElements ids parts = none := by
  rcases Option.eq_none_or_eq_some (parseElements ids parts) with hn | ⟨e, he⟩
  · exact hn
  · obtain ⟨qs', h1, h2, _⟩ := parseElements_some he
    rw [hl] at h1
    have : qs = qs' := (List.map_injective_iff.2 (Option.some_injective Text)) h1
    subst this
    obtain ⟨q, hq, n, hn, hbig⟩ := hb
    have := h2.ids (lineIds ids q) (List.mem_map.2 ⟨q, hq, rfl⟩) n hn
    omega

/-! ### Consecutive slices -/

/-- The slices `[i*c, min ((i+1)*c) n)` for `i < k` are the first `k*c` entries. -/
theorem slices_flatten {α : Type} (l : List α) (c : Nat) : ∀ k : Nat,
    ((List.range k).map fun i => (l.drop (i * c)).take (min ((i + 1) * c) l.length - i * c)).flatten = l.take (k * c)
  | 0 => by simp
  | k + 1 => by
    rw [List.range_succ, List.map_append, List.flatten_append, slices_flatten l c k, Nat.add_mul, Nat.one_mul, List.take_add]
    simp only [List.map_cons, List.map_nil, List.flatten_cons, List.flatten_nil, List.append_nil]
    congr 1
    rw [Nat.add_mul, Nat.one_mul]
    apply List.ext_getElem?
    intro i
    simp only [List.getElem?_take, List.getElem?_drop]
    by_cases h1 : i < c
    · by_cases h2 : k * c + i < l.length
      · rw [if_pos (by omega), if_pos h1]
      · rw [if_neg (by omega), if_pos h1, List.getElem?_eq_none (by omega)]
    · rw [if_neg (by omega), if_neg h1]

/-! ### Shards -/

/-- The loop over the shards, when every remaining shard begins at or before the end. -/
theorem shardLoop_ok {e : Elems} {rows : List (List ThreeByteInt)} (h : VarRepr e rows) (c : Nat) :
    ∀ left shard : Nat, (∀ i : Nat, i < left → (shard + i) * c ≤ rows.length) →
    ∃ ws : List Elems, shardLoop e c left shard = (ws.map VarVec.bytes, true) ∧
      List.Forall₂ VarRepr ws ((List.range left).map fun i =>
        (rows.drop ((shard + i) * c)).take (min ((shard + i + 1) * c) rows.length - (shard + i) * c))
  | 0, shard, _ => ⟨[], rfl, by simp⟩
  | left + 1, shard, hb => by
    have h0 : shard * c ≤ rows.length := by simpa using hb 0 (by omega)
    obtain ⟨w, hw, e1⟩ := h.writeRange_eq (b := shard * c) (e := min ((shard + 1) * c) rows.length)
      (by rw [Nat.add_mul]; omega) (by omega)
    obtain ⟨ws, e2, f2⟩ := shardLoop_ok h c left (shard + 1) (fun i hi => by
      have := hb (i + 1) (by omega)
      rwa [show shard + 1 + i = shard + (i + 1) by omega])
    refine ⟨w :: ws, ?_, ?_⟩
    · rw [shardLoop, h.len_eq, e1]
      simp only [e2, List.map_cons]
    · rw [List.range_succ_eq_map, List.map_cons, List.map_map]
      refine List.Forall₂.cons (by simpa using hw) ?_
      convert f2 using 1
      apply List.map_congr_left
      intro i _
      simp only [Function.comp, Nat.succ_eq_add_one]
      rw [show shard + 1 + i = shard + (i + 1) by omega]

/-- The loop over the shards, when shard `shard + k` is the first that begins behind the end. -/
theorem shardLoop_fail {e : Elems} {rows : List (List ThreeByteInt)} (h : VarRepr e rows) (c : Nat) :
    ∀ k left shard : Nat, k < left → (∀ i : Nat, i < k → (shard + i) * c ≤ rows.length) →
    rows.length < (shard + k) * c →
    ∃ ws : List Elems, shardLoop e c left shard = (ws.map VarVec.bytes ++ [[]], false) ∧
      List.Forall₂ VarRepr ws ((List.range k).map fun i =>
        (rows.drop ((shard + i) * c)).take (min ((shard + i + 1) * c) rows.length - (shard + i) * c))
  | 0, left + 1, shard, _, _, hf => by
    refine ⟨[], ?_, by simp⟩
    have hn : e.writeRange (shard * c) (min ((shard + 1) * c) e.len) = none := by
      rw [VarVec.writeRange, if_neg]
      intro hc
      rw [h.len_eq] at hc
      simp only [Nat.add_zero] at hf
      omega
    rw [shardLoop, hn]
    rfl
  | k + 1, left + 1, shard, hk, hb, hf => by
    have h0 : shard * c ≤ rows.length := by simpa using hb 0 (by omega)
    obtain ⟨w, hw, e1⟩ := h.writeRange_eq (b := shard * c) (e := min ((shard + 1) * c) rows.length)
      (by rw [Nat.add_mul]; omega) (by omega)
    obtain ⟨ws, e2, f2⟩ := shardLoop_fail h c k left (shard + 1) (by omega) (fun i hi => by
      have := hb (i + 1) (by omega)
      rwa [show shard + 1 + i = shard + (i + 1) by omega]) (by rwa [show shard + 1 + k = shard + (k + 1) by omega])
    refine ⟨w :: ws, ?_, ?_⟩
    · rw [shardLoop, h.len_eq, e1]
      simp only [e2, List.map_cons, List.cons_append]
    · rw [List.range_succ_eq_map, List.map_cons, List.map_map]
      refine List.Forall₂.cons (by simpa using hw) ?_
      convert f2 using 1
      apply List.map_congr_left
      intro i _
      simp only [Function.comp, Nat.succ_eq_add_one]
      rw [show shard + 1 + i = shard + (i + 1) by omega]

theorem shardSize_covers (n s : Nat) (hs : 0 < s) : n ≤ s * shardSize n s := by
  have h1 := Nat.div_add_mod (n + s - 1) s
  have h2 := Nat.mod_lt (n + s - 1) hs
  rw [shardSize]
  omega

/-! ### Precomputed embeddings -/

theorem pushAll_new {T : Type} {rows : List (List T)} {d : Nat} (hd : 0 < d) (hr : ∀ r ∈ rows, r.length = d) :
    ∃ v, (FixVec.new : FixVec T).pushAll rows = some v ∧ v.data = rows.flatten ∧ (rows ≠ [] → v.width = d) := by
  cases rows with
  | nil => exact ⟨FixVec.new, rfl, rfl, fun h => absurd rfl h⟩
  | cons x t =>
    have hx := hr x (by simp)
    obtain ⟨v1, e1, r1⟩ := FixRepr.push_new (x := x) (by omega)
    rw [hx] at r1
    obtain ⟨v2, e2, r2⟩ := r1.pushAll (xs := t) (fun y hy => hr y (by simp [hy]))
    exact ⟨v2, by rw [FixVec.pushAll, e1]; exact e2, by rw [r2.data]; simp, fun _ => r2.width⟩

theorem rangeFromTo_rows {α : Type} (l : List α) (b e : Nat) (he : e ≤ l.length) :
    (rangeFromTo b e).map (fun i : Nat => l[i]?) = ((l.drop b).take (e - b)).map some := by
  apply List.ext_getElem?
  intro i
  simp only [rangeFromTo, List.map_map, List.getElem?_map, List.getElem?_take, List.getElem?_drop]
  by_cases hi : i < e - b
  · rw [List.getElem?_range hi, if_pos hi]
    simp only [Option.map_some, Function.comp]
    rw [List.getElem?_eq_getElem (by omega)]
    rfl
  · rw [List.getElem?_eq_none (by simpa using hi), if_neg hi]
    rfl

theorem flatten_encodeAll {T : Type} [Scalar T] (ls : List (List T)) :
    (ls.map encodeAll).flatten = encodeAll ls.flatten := by
  induction ls with
  | nil => rfl
  | cons x t ih => rw [List.map_cons, List.flatten_cons, ih, List.flatten_cons, encodeAll_append]

theorem embeddingFile_eq {rows : List (List UInt8)} {d : Nat} (hd : 0 < d) (hr : ∀ r ∈ rows, r.length = d)
    (hne : rows ≠ []) : embeddingFile rows.length (fun i : Nat => rows[i]?) =
      some (leBytes 8 d ++ encodeAll rows.flatten) := by
  set n := rows.length with hn
  have hn1 : 0 < n := List.length_pos_iff.2 hne
  set c := (n + 100 - 1) / 100 with hc
  have hc1 : 0 < c := by omega
  have hcov : n ≤ 100 * c := by omega
  let sl : Nat → List (List UInt8) := fun i => (rows.drop (i * c)).take (min ((i + 1) * c) rows.length - i * c)
  have hchunk : ∀ i : Nat, embeddingChunk n (fun i : Nat => rows[i]?) i =
      some (if i = 0 then leBytes 8 d ++ encodeAll (sl i).flatten else encodeAll (sl i).flatten) := by
    intro i
    have hrow : ∀ r ∈ sl i, r.length = d := fun r h => hr r (List.mem_of_mem_drop (List.mem_of_mem_take h))
    obtain ⟨v, e1, e2, e3⟩ := pushAll_new hd hrow
    rw [embeddingChunk]
    simp only [← hc]
    rw [rangeFromTo_rows rows _ _ (by omega), seqOpt_some rfl]
    simp only
    have e1' : (FixVec.new : FixVec UInt8).pushAll
        ((rows.drop (i * c)).take (min ((i + 1) * c) n - i * c)) = some v := e1
    rw [e1']
    simp only
    by_cases hi : i = 0
    · rw [if_pos hi, if_pos hi, FixVec.bytes, e2, e3]
      subst hi
      intro h0
      have := congrArg List.length h0
      simp only [sl, List.length_take, List.length_drop, List.length_nil] at this
      omega
    · rw [if_neg hi, if_neg hi, e2]
  have hmap : (List.range 100).map (embeddingChunk n fun i : Nat => rows[i]?) =
      ((leBytes 8 d ++ encodeAll (sl 0).flatten) :: ((List.range 99).map fun i => encodeAll (sl (i + 1)).flatten)).map some := by
    rw [show (100 : Nat) = 99 + 1 from rfl, List.range_succ_eq_map, List.map_cons, List.map_cons, hchunk 0, if_pos rfl,
      List.map_map, List.map_map]
    congr 1
    apply List.map_congr_left
    intro i _
    simp only [Function.comp, Nat.succ_eq_add_one]
    rw [hchunk (i + 1), if_neg (by omega)]
  rw [embeddingFile, seqOpt_some hmap]
  simp only
  congr 1
  have hall : ((List.range 100).map sl).flatten = rows := by
    have := slices_flatten rows c 100
    rw [List.take_of_length_le (by omega)] at this
    exact this
  rw [List.flatten_cons, List.append_assoc]
  congr 1
  have hfl : encodeAll rows.flatten = ((List.range 100).map fun i => encodeAll (sl i).flatten).flatten := by
    conv_lhs => rw [← hall]
    have e1 := flatten_encodeAll ((List.range 100).map fun i => (sl i).flatten)
    rw [List.map_map] at e1
    have e2 : (fun i => encodeAll (sl i).flatten) = encodeAll ∘ fun i => (sl i).flatten := rfl
    rw [e2, e1]
    congr 1
    rw [List.flatten_flatten, List.map_map]
    rfl
  rw [hfl, show (100 : Nat) = 99 + 1 from rfl, List.range_succ_eq_map, List.map_cons, List.flatten_cons, List.map_map]
  rfl

end Granne
