import Verif.Proofs.Linked
import Verif.Proofs.Histories

/-! The links made by a builder, over whole histories. -/
namespace Granne
open List Spec

variable {E D : Type} [LinearOrder D]

/-- Every element of a layer (other than the first, and other than zero elements) has a neighbor; in case `S` it
can be reached from node 0, and node 0 from every node with neighbors. -/
structure LinkedLayer (S : Prop) (Z : Nat → Prop) (R : Rows) : Prop where
  linked : ∀ j < R.length, ¬ Z j → Linked S j R
  back : S → ∀ j, NE R j → Reach (graphOf R) j 0

/-- The sizes and distances for which nothing is skipped, and in case `S` nothing is ever dropped. -/
structure Sparse (S : Prop) (es : Elements E D) (eps : D) (limit num : Nat) : Prop where
  small : S → num ≤ limit + 1
  far : (∀ i j d, i < num → j < num → j ≠ i → es.dist? j i = some d → ¬ d < eps) ∨ num ≤ limit / 2 + 1

theorem Sparse.mono {S : Prop} {es : Elements E D} {eps : D} {limit num limit' num' : Nat}
    (h : Sparse S es eps limit num) (hn : num' ≤ num) (hl : limit ≤ limit') : Sparse S es eps limit' num' := by
  refine ⟨fun s => by have := h.small s; omega, ?_⟩
  rcases h.far with h1 | h1
  · exact Or.inl fun i j d hi hj => h1 i j d (by omega) (by omega)
  · right; have : limit / 2 ≤ limit' / 2 := Nat.div_le_div_right hl; omega

theorem Sparse.layers {S : Prop} {b : Builder E D} (hc : 1 ≤ b.config.numNeighbors) {num : Nat}
    (h : Sparse S b.elements b.config.eps (max 1 (b.config.numNeighbors / 2)) num) (k : Nat) :
    Sparse S b.elements b.config.eps (b.layerConfig (b.ideal k)).numNeighbors (min num (b.ideal k)) := by
  refine h.mono (min_le_left _ _) ?_
  simp only [Builder.layerConfig]
  split <;> omega

theorem IndexLast_linked {S : Prop} {srt : List (Nat × D) → List (Nat × D)} (hsrt : IsSortByDist srt)
    {b b' : Builder E D}
    (hc : GoodConfig b.config) (hn : b.elements.data.length < UNUSED)
    {Z : Nat → Prop} (hZdef : Z = IsZero b.elements b.config.eps) {w : Nat} (hwdef : w = b.config.numNeighbors)
    {upper : List Layer} {layer : Layer} (hl : b.layers = upper ++ [layer])
    (hup : StackInv w b.elements.data.length Z (upper.map Layer.rows))
    (hw : layer.width = w) (hlayer : LayerInv layer.rows.length w Z layer.rows)
    (hpl : ∀ R ∈ upper.map Layer.rows, R.length ≤ layer.rows.length ∧ ∀ j, NE R j → NE layer.rows j)
    {maxNum : Nat} (hmax : layer.rows.length ≤ maxNum) (hmax0 : 0 < maxNum)
    (hmaxn : maxNum ≤ b.elements.data.length)
    (hsp : Sparse S b.elements b.config.eps (b.layerConfig (b.ideal b.layers.length)).numNeighbors
      (min maxNum (b.ideal b.layers.length)))
    (hll : LinkedLayer S Z layer.rows)
    (h : IndexLast srt b maxNum (some b')) :
    ∃ layer', b' = { b with layers := upper ++ [layer'] } ∧ LinkedLayer S Z layer'.rows := by
  subst hZdef hwdef
  have hmap : (upper.map fun l => graphOf l.rows) = (upper.map Layer.rows).map graphOf := by simp
  have huniq : ∀ {up' la'}, b.layers = up' ++ [la'] → up' = upper ∧ la' = layer := by
    intro up' la' h'
    have := (hl.symm.trans h')
    rw [List.append_eq_append_iff_of_size_eq_right (by rfl)] at this
    exact ⟨this.1.symm, by simpa using this.2.symm⟩
  have hZ' : ∀ i < maxNum, ¬ IsZero b.elements b.config.eps i →
      ∃ d, b.elements.dist? i i = some d ∧ ¬ b.config.eps < d := by
    intro i hi hz
    have hil : i < b.elements.data.length := by omega
    have : ∃ d, b.elements.dist? i i = some d := by
      simp [Elements.dist?, Elements.distTo, List.getElem?_eq_getElem hil]
    obtain ⟨d, hd⟩ := this
    exact ⟨d, hd, fun hlt => hz ⟨d, hd, hlt⟩⟩
  have hZ1 : ∀ i d, b.elements.dist? i i = some d → ¬ b.config.eps < d → ¬ IsZero b.elements b.config.eps i := by
    rintro i d hd hle ⟨d', hd', hlt'⟩
    rw [hd] at hd'; cases hd'
    exact hle hlt'
  generalize hI : b.ideal b.layers.length = ideal at h hsp
  have hnum : min maxNum ideal ≤ b.elements.data.length := (min_le_left _ _).trans hmaxn
  have hcn : 1 ≤ (b.layerConfig ideal).numNeighbors ∧
      (b.layerConfig ideal).numNeighbors ≤ b.config.numNeighbors := by
    have := hc.neighbors
    simp only [Builder.layerConfig]
    split <;> omega
  have hsp' := hsp
  generalize ho : some b' = out at h
  cases h with
  | noLayer h => cases ho
  | nothing _ _ =>
    cases ho
    exact ⟨layer, by rw [← hl], hll⟩
  | firstPanics up' la' h1 h2 _ => cases ho
  | once up' la' la'' e1 e2 e3 _ =>
    obtain ⟨rfl, rfl⟩ := huniq e1
    cases ho
    rw [hI] at e3 e2
    rw [hmap] at e3
    have hle : la'.rows.length ≤ min maxNum ideal := by omega
    have hpos : 0 < min maxNum ideal := by omega
    obtain ⟨g1, g2⟩ := IndexElements_linked (cfg := b.layerConfig ideal)
      (hnum.trans hn.le) hnum hsrt hsp'.small hcn.1 hcn.2 hc.search hZ1
      (fun i hi => hZ' i (by omega)) hsp'.far hup hw hlayer hle hpos hpl hll.linked hll.back (by simp) e3
    obtain ⟨layer', f1, _, f2, _⟩ := (IndexElements_ok (cfg := b.layerConfig ideal) (hnum.trans hn.le) hnum hsrt
      hcn.1 hcn.2 hc.search hZ1 hup hw hlayer hle hpos hpl (reinsert := false) (by simp)).2 _ e3
    cases f1
    exact ⟨_, rfl, fun j hj => g1 j (by rw [f2.len] at hj; exact hj), g2⟩
  | twice up' la' la'' o e1 e2 e3 _ e5 =>
    obtain ⟨rfl, rfl⟩ := huniq e1
    rw [hI] at e3 e2 e5
    rw [hmap] at e3 e5
    have hle : la'.rows.length ≤ min maxNum ideal := by omega
    have hpos : 0 < min maxNum ideal := by omega
    obtain ⟨g1, g2⟩ := IndexElements_linked (cfg := b.layerConfig ideal)
      (hnum.trans hn.le) hnum hsrt hsp'.small hcn.1 hcn.2 hc.search hZ1
      (fun i hi => hZ' i (by omega)) hsp'.far hup hw hlayer hle hpos hpl hll.linked hll.back (by simp) e3
    obtain ⟨layer', f1, f1', f2, f3, _⟩ := (IndexElements_ok (cfg := b.layerConfig ideal) (hnum.trans hn.le) hnum hsrt
      hcn.1 hcn.2 hc.search hZ1 hup hw hlayer hle hpos hpl (reinsert := false) (by simp)).2 _ e3
    cases f1
    obtain ⟨l2, rfl, rfl⟩ := option_map_some_iff ho.symm
    have hpl2 : ∀ R ∈ up'.map Layer.rows, R.length ≤ la''.rows.length ∧ ∀ j, NE R j → NE la''.rows j :=
      fun R hR => ⟨by have := (hpl R hR).1; have := f2.len; omega, fun j hj => f3 j ((hpl R hR).2 j hj)⟩
    have g3 : ∀ j < la''.rows.length, ¬ IsZero b.elements b.config.eps j → Linked S j la''.rows :=
      fun j hj => g1 j (by rw [f2.len] at hj; exact hj)
    obtain ⟨g4, g5⟩ := IndexElements_linked (cfg := (b.layerConfig ideal).forReinsert)
      (hnum.trans hn.le) hnum hsrt hsp'.small hcn.1 hcn.2 (by simp [LayerConfig.forReinsert]) hZ1
      (fun i hi => hZ' i (by omega)) hsp'.far hup f1' (f2.len ▸ f2) (le_of_eq f2.len) hpos hpl2 g3 g2
      (fun _ => f2.len) e5
    obtain ⟨l3, k1, _, k2, _⟩ := (IndexElements_ok (cfg := (b.layerConfig ideal).forReinsert) (hnum.trans hn.le) hnum
      hsrt hcn.1 hcn.2 (by simp [LayerConfig.forReinsert]) hZ1 hup f1' (f2.len ▸ f2) (le_of_eq f2.len) hpos hpl2
      (fun _ => f2.len)).2 _ e5
    cases k1
    exact ⟨_, rfl, fun j hj => g4 j (by rw [k2.len] at hj; exact hj), g5⟩

/-- All layers of a builder are linked. -/
def AllLinked (S : Prop) (b : Builder E D) : Prop :=
  ∀ l ∈ b.layers, LinkedLayer S (IsZero b.elements b.config.eps) l.rows

theorem LinkedLayer.nil (S : Prop) (Z : Nat → Prop) : LinkedLayer S Z [] := by
  refine ⟨fun j hj => by simp at hj, ?_⟩
  rintro _ j ⟨row, h, _⟩
  simp at h

theorem round_linked {S : Prop} {srt : List (Nat × D) → List (Nat × D)} (hsrt : IsSortByDist srt)
    {b b' : Builder E D} (hc : GoodConfig b.config) (hb : BuilderInv b) {num : Nat}
    (hnum : num ≤ b.elements.data.length) (hlt : lastLen b.layers < num)
    (hsp : ∀ k, Sparse S b.elements b.config.eps (b.layerConfig (b.ideal k)).numNeighbors (min num (b.ideal k)))
    (hall : AllLinked S b) (h : IndexLast srt b.addLayer num (some b')) : AllLinked S b' := by
  have hsplit : ∃ copy : Layer, b.addLayer.layers = b.layers ++ [copy] ∧ copy.width = b.config.numNeighbors ∧
      LayerInv copy.rows.length b.config.numNeighbors (IsZero b.elements b.config.eps) copy.rows ∧
      (∀ R ∈ b.layers.map Layer.rows, R.length ≤ copy.rows.length ∧ ∀ j, NE R j → NE copy.rows j) ∧
      copy.rows.length = lastLen b.layers ∧ LinkedLayer S (IsZero b.elements b.config.eps) copy.rows := by
    rcases Option.eq_none_or_eq_some b.layers.getLast? with h | ⟨l, h⟩
    · have hnil := List.getLast?_eq_none_iff.1 h
      exact ⟨⟨b.config.numNeighbors, []⟩, by simp [Builder.addLayer, h], rfl, ⟨rfl, by simp, by simp⟩,
        by simp [hnil], by simp [lastLen, hnil], LinkedLayer.nil _ _⟩
    · refine ⟨l, by simp [Builder.addLayer, h], hb.width l (List.mem_of_getLast? h),
        (hb.stack.layer _ (List.mem_map.2 ⟨l, List.mem_of_getLast? h, rfl⟩)).1, ?_, by simp [lastLen, h],
        hall l (List.mem_of_getLast? h)⟩
      rcases List.eq_nil_or_concat b.layers with h' | ⟨up, la, h'⟩
      · simp [h'] at h
      · rw [List.concat_eq_append] at h'
        rw [h'] at h
        simp only [List.getLast?_append, List.getLast?_singleton, Option.some_or, Option.some.injEq] at h
        subst h
        have := hb.stack.nested
        rw [h', List.map_append, List.pairwise_append] at this
        intro R hR
        rw [h', List.map_append] at hR
        rcases List.mem_append.1 hR with h1 | h1
        · exact this.2.2 R h1 _ (by simp)
        · simp at h1; subst h1; exact ⟨le_rfl, fun _ h => h⟩
  obtain ⟨copy, h1, h2, h3, h4, h5, h6⟩ := hsplit
  obtain ⟨layer', rfl, hl'⟩ := IndexLast_linked (b := b.addLayer) hsrt hc hb.size rfl rfl h1 hb.stack h2 h3 h4
    (maxNum := num) (by omega) (by omega) hnum (hsp _) h6 h
  intro l hl
  rcases List.mem_append.1 hl with h | h
  · exact hall l h
  · rw [List.mem_singleton] at h; subst h; exact hl'

theorem buildLoop_linked {S : Prop} {srt : List (Nat × D) → List (Nat × D)} (hsrt : IsSortByDist srt) {num : Nat}
    {b : Builder E D} {out : Option (Builder E D)} (h : BuildLoop srt num b out)
    (hc : GoodConfig b.config) (hb : BuilderInv b) (hnum : num ≤ b.elements.data.length)
    (hsp : ∀ k, Sparse S b.elements b.config.eps (b.layerConfig (b.ideal k)).numNeighbors (min num (b.ideal k)))
    (hall : AllLinked S b) : ∀ b', out = some b' → AllLinked S b' := by
  induction h with
  | done b hd => intro b' h; cases h; exact hall
  | panic b hlt hp => intro b' h; cases h
  | round b b1 out hlt hstep _ ih =>
    have hl1 := round_linked hsrt hc hb hnum hlt hsp hall hstep
    obtain ⟨layer', h1, h2, _⟩ := (round_ok hsrt hc hb hnum hlt).2 _ hstep
    simp only [Option.some.injEq] at h1
    subst h1
    exact ih hc h2 hnum hsp hl1

theorem buildPartial_linked {S : Prop} {srt : List (Nat × D) → List (Nat × D)} (hsrt : IsSortByDist srt)
    {b b' : Builder E D} (hc : GoodConfig b.config) (hb : BuilderInv b) {num : Nat}
    (hsp : ∀ k, Sparse S b.elements b.config.eps (b.layerConfig (b.ideal k)).numNeighbors (min num (b.ideal k)))
    (hall : AllLinked S b) (h : BuildPartial srt b num (some b')) : AllLinked S b' := by
  generalize ho : some b' = out at h
  cases h with
  | zero => cases ho; exact hall
  | fewer => cases ho
  | more => cases ho
  | fresh out h0 hle hnum hl hloop => exact buildLoop_linked hsrt hloop hc hb hnum hsp hall b' ho.symm
  | lastPanics => cases ho
  | «continue» b1 out h0 hle hnum hne hstep hloop =>
    rcases List.eq_nil_or_concat b.layers with hl | ⟨upper, layer, hl⟩
    · exact absurd hl hne
    · rw [List.concat_eq_append] at hl
      have hst := hb.stack
      rw [hl, List.map_append, List.map_cons, List.map_nil] at hst
      have hnest := (List.pairwise_append.1 hst.nested)
      have hup : StackInv b.config.numNeighbors b.elements.data.length (IsZero b.elements b.config.eps)
          (upper.map Layer.rows) := ⟨fun R hR => hst.layer R (List.mem_append_left _ hR), hnest.1⟩
      have hlast : lastLen b.layers = layer.rows.length := by simp [lastLen, hl]
      have hla := hst.layer layer.rows (by simp)
      obtain ⟨layer1, hb1, hlk⟩ := IndexLast_linked hsrt hc hb.size rfl rfl hl hup (hb.width layer (by simp [hl]))
        hla.1 (fun R hR => hnest.2.2 R hR _ (by simp)) (maxNum := num) (by omega) (by omega) hnum (hsp _)
        (hall layer (by simp [hl])) hstep
      obtain ⟨layer', h1, h2, _⟩ := (continue_ok hsrt hc hb hnum (by omega) hle hl).2 _ hstep
      simp only [Option.some.injEq] at h1
      subst h1
      have hlk1 : AllLinked S { b with layers := upper ++ [layer'] } := by
        intro l hlm
        rcases List.mem_append.1 hlm with h | h
        · exact hall l (by simp [hl, h])
        · rw [List.mem_singleton] at h; subst h
          simp only [Builder.mk.injEq, true_and, and_true] at hb1
          have := List.append_cancel_left hb1
          simp only [List.cons.injEq, and_true] at this
          rw [this]; exact hlk
      exact buildLoop_linked (b := { b with layers := upper ++ [layer'] }) hsrt hloop hc h2 hnum hsp hlk1 b' ho.symm

/-! ### Reloading -/

theorem mem_reload {n w w' : Nat} {Z : Nat → Prop} (hn : n ≤ UNUSED) {R : Rows} (h : LayerInv n w Z R)
    (hw : n ≤ w' + 1) (h256 : n ≤ 256) {i : Nat} {row : Row} (hi : R[i]? = some row) :
    ∃ row', (reloadLayer w' R)[i]? = some row' ∧ ∀ j ∈ visible row, j ∈ visible row' := by
  refine ⟨reloadRow w' ((sortIds (visible row)).take 255), by rw [reloadLayer, List.getElem?_map, hi]; rfl, ?_⟩
  have hrow := h.rows i row hi
  have hin : i < n := by
    have := (List.getElem?_eq_some_iff.1 hi).1
    rw [h.len] at this; exact this
  have hle := length_le_of_ids hin hrow.nodup fun k hk => ⟨(hrow.ids k hk).1, (hrow.ids k hk).2.1⟩
  have hsl : (sortIds (visible row)).length = (visible row).length := (sortIds_perm _).length_eq
  rw [(visible_reloadRow hn hrow).2]
  intro j hj
  unfold keptIds
  rw [List.take_of_length_le (l := List.take 255 _) (by simp; omega), List.take_of_length_le (by omega)]
  exact (sortIds_perm _).mem_iff.2 hj

theorem LinkedLayer.reload {S : Prop} {n w w' : Nat} {Z Z' : Nat → Prop} (hn : n ≤ UNUSED) {R : Rows}
    (h : LayerInv n w Z R) (hw1 : 1 ≤ w') (hS : S → n ≤ w' + 1 ∧ n ≤ 256) (hZ : ∀ j < n, Z j → Z' j)
    (hl : LinkedLayer S Z R) : LinkedLayer S Z' (reloadLayer w' R) := by
  have hg : S → Grow R (reloadLayer w' R) := fun s i row hi => mem_reload hn h (hS s).1 (hS s).2 hi
  have hlen : (reloadLayer w' R).length = n := by rw [reloadLayer, List.length_map, h.len]
  refine ⟨fun j hj hz => ?_, fun s j hj => (hg s).reach (hl.back s j ((reload_NE hn hw1 h j).1 hj))⟩
  rw [hlen] at hj
  exact (hl.linked j (by rw [h.len]; exact hj) fun hzj => hz (hZ j hj hzj)).mono
    (fun k hk => (reload_NE hn hw1 h k).2 hk) hg

/-- The configurations and the number `N` of elements considered: at most `limit + 1` elements where `limit` is
half the number of neighbors; at most 256 (saving keeps 255 neighbors per node). -/
structure Roomy (S far : Prop) (N : Nat) (c : BuildConfig D) : Prop where
  good : GoodConfig c
  small : S → N ≤ max 1 (c.numNeighbors / 2) + 1 ∧ N ≤ 256
  near : ¬ far → N ≤ max 1 (c.numNeighbors / 2) / 2 + 1

theorem ReachableBy.config {srt : List (Nat × D) → List (Nat × D)} {P : BuildConfig D → Prop} {b : Builder E D}
    (h : ReachableBy srt P b) : P b.config := by
  induction h with
  | new c es b hc h =>
    unfold Builder.new at h
    split at h
    · cases h; exact hc
    · cases h
  | push b b' e _ hp ih =>
    unfold Builder.push at hp
    split at hp
    · cases hp; exact ih
    · cases hp
  | build b b' num _ hb ih => rw [hb.config]; exact ih
  | reload b b' f f' start config es hP _ hg h1 h2 h3 h4 h5 ih =>
    rw [(fromBytes_config h5).1]; exact hP
  | reorder b b' f f' g g' start start' vs es ix order config elements hP _ _ _ _ _ _ _ h6 ih =>
    rw [(fromBytes_config h6).1]; exact hP

/-- No two of the first `n` elements are closer to each other than the threshold. -/
def AllFar (es : Elements E D) (eps : D) (n : Nat) : Prop :=
  ∀ i j d, i < n → j < n → j ≠ i → es.dist? j i = some d → ¬ d < eps

theorem AllFar.mono {es es' : Elements E D} {eps : D} {n m : Nat} (h : AllFar es eps n) (hm : m ≤ n)
    (hs : es'.dist = es.dist ∧ ∀ i < m, es'.data[i]? = es.data[i]?) : AllFar es' eps m := by
  intro i j d hi hj hne hd
  refine h i j d (by omega) (by omega) hne ?_
  simpa [Elements.dist?, Elements.distTo, hs.1, hs.2 i hi, hs.2 j hj] using hd

theorem IsZero.of_same {es es' : Elements E D} {eps : D} {m j : Nat}
    (hs : es'.dist = es.dist ∧ ∀ i < m, es'.data[i]? = es.data[i]?) (hj : j < m) :
    IsZero es' eps j ↔ IsZero es eps j := by
  unfold IsZero
  simp only [Elements.dist?, Elements.distTo, hs.1, hs.2 j hj]

theorem AllLinked.reloaded {S : Prop} {b : Builder E D} (hinv : BuilderInv b) (h : AllLinked S b) {config : BuildConfig D}
    {es : Elements E D} (hw : 1 ≤ config.numNeighbors) (heps : config.eps = b.config.eps)
    (hsame : SamePrefix (lastLen b.layers) b.elements es)
    (hS : S → lastLen b.layers ≤ config.numNeighbors + 1 ∧ lastLen b.layers ≤ 256) : AllLinked S (b.reloadWith config es) := by
  intro l' hl'
  obtain ⟨l, hl, rfl⟩ := List.mem_map.1 hl'
  have hli := (hinv.stack.layer l.rows (List.mem_map_of_mem hl))
  have hll := lastLen_ge hinv.stack hl
  refine (h l hl).reload (w' := config.numNeighbors) (n := l.rows.length) ?_ hli.1 hw ?_ ?_
  · have := hinv.size; omega
  · intro s; have := hS s; omega
  · intro j hj hz
    simp only [Builder.reloadWith]
    rw [heps]
    exact (IsZero.of_same ⟨hsame.1, hsame.2⟩ (by omega)).2 hz

theorem renamed_edge {order : List Nat} {N n w : Nat} {Z : Nat → Prop} {R : Rows} (hperm : order.Perm (List.range N))
    (hle : n ≤ N) (hpre : (order.take n).Perm (List.range n)) (hn : n ≤ UNUSED) (h0 : order.getD 0 0 = 0)
    (h : LayerInv n w Z R) {i j : Nat} (he : Edge (graphOf R) i j) :
    Edge (graphOf (renRows order w R)) (posIn order i) (posIn order j) := by
  obtain ⟨l, hl, hj⟩ := he
  rw [graphOf, List.getElem?_map, Option.map_eq_some_iff] at hl
  obtain ⟨row, hrow, rfl⟩ := hl
  have hin : i < n := by rw [← h.len]; exact (List.getElem?_eq_some_iff.1 hrow).1
  have hi := posIn_lt_layer hperm hle hpre hin
  have hg := posIn_get hperm (lt_of_lt_of_le hin hle)
  refine ⟨(visible row).map (posIn order), ?_, List.mem_map_of_mem hj⟩
  rw [graphOf, List.getElem?_map, renRows_get hperm hle hpre h.len hi hg hrow, Option.map_some]
  exact congrArg some (renRow_ok hperm hle hpre hn h0 h (Z' := fun _ => False) (fun _ _ hf => hf.elim) hi hg hin hrow).2

theorem renamed_reach {order : List Nat} {N n w : Nat} {Z : Nat → Prop} {R : Rows} (hperm : order.Perm (List.range N))
    (hle : n ≤ N) (hpre : (order.take n).Perm (List.range n)) (hn : n ≤ UNUSED) (h0 : order.getD 0 0 = 0)
    (h : LayerInv n w Z R) {i j : Nat} (he : Reach (graphOf R) i j) :
    Reach (graphOf (renRows order w R)) (posIn order i) (posIn order j) := by
  induction he with
  | refl => exact .refl
  | step _ e ih => exact .step ih (renamed_edge hperm hle hpre hn h0 h e)

theorem AllLinked.renamed {S : Prop} {b : Builder E D} (hinv : BuilderInv b) (h : AllLinked S b) {order : List Nat}
    {es : Elements E D} (ho : InOrder order b.elements es)
    (hpre : LayerPreserving order (b.layers.map fun l => l.rows.length)) (h0 : order.getD 0 0 = 0) :
    AllLinked S (b.renamed order es) := by
  intro l' hl'
  obtain ⟨l, hl, rfl⟩ := List.mem_map.1 hl'
  obtain ⟨i1, i2, i3⟩ := hinv.stack.layer l.rows (List.mem_map_of_mem hl)
  have hp := hpre _ (List.mem_map_of_mem (f := fun l : Layer => l.rows.length) hl)
  have hn : l.rows.length ≤ UNUSED := by have := hinv.size; omega
  have hw := hinv.width l hl
  have hlen : (renRows order b.config.numNeighbors l.rows).length = l.rows.length :=
    renRows_length ho.perm i3 hp rfl
  have hZ : ∀ j < l.rows.length, IsZero es b.config.eps (posIn order j) → IsZero b.elements b.config.eps j :=
    fun j hj => (ho.isZero (by omega)).1
  have hz := posIn_zero ho.perm i3 hp hn h0 i1 hZ
  have hNE : ∀ j < l.rows.length, (NE (renRows order b.config.numNeighbors l.rows) (posIn order j) ↔ NE l.rows j) :=
    fun j hj => renRows_NE ho.perm i3 hp hn h0 i1 hZ hj
  have key : ∀ i < (renRows order b.config.numNeighbors l.rows).length, ∃ j, j < l.rows.length ∧ posIn order j = i := by
    intro i hi
    rw [hlen] at hi
    obtain ⟨j, _, hj, e⟩ := order_get ho.perm i3 hp hi
    exact ⟨j, hj, e⟩
  simp only [Builder.renamed]
  rw [hw]
  refine ⟨fun i hi hzi => ?_, fun s i hi => ?_⟩
  · obtain ⟨j, hj, rfl⟩ := key i hi
    intro hne
    have hlk := (h l hl).linked j hj (fun hzj => hzi ((ho.isZero (by omega)).2 hzj)) fun e => hne (by rw [e, hz])
    refine ⟨(hNE j hj).2 hlk.1, fun s => ?_⟩
    have := renamed_reach ho.perm i3 hp hn h0 i1 (hlk.2 s)
    rwa [hz] at this
  · have hi' : i < (renRows order b.config.numNeighbors l.rows).length := by
      obtain ⟨_, hr, _⟩ := hi
      exact (List.getElem?_eq_some_iff.1 hr).1
    obtain ⟨j, hj, rfl⟩ := key i hi'
    have := renamed_reach ho.perm i3 hp hn h0 i1 ((h l hl).back s j ((hNE j hj).1 hi))
    rwa [hz] at this

theorem InOrder.allFar {order : List Nat} {es es' : Elements E D} (h : InOrder order es es') {eps : D} 
    (hf : AllFar es' eps es'.data.length) : AllFar es eps es.data.length := by
  intro i j d hi hj hne hd
  rw [← h.dist? hj hi] at hd
  refine hf _ _ d ?_ ?_ ?_ hd
  · rw [h.len]; exact posIn_lt h.perm hi
  · rw [h.len]; exact posIn_lt h.perm hj
  · exact fun e => hne (posIn_inj h.perm e)

/-- In every state of a history within the limits all layers are linked. -/
theorem ReachableBy.linked {S far : Prop} {N : Nat} {srt : List (Nat × D) → List (Nat × D)}
    (hsrt : IsSortByDist srt) {b : Builder E D} (h : ReachableBy srt (Roomy S far N) b) :
    (S ∨ ¬ far → lastLen b.layers ≤ N) → (far → AllFar b.elements b.config.eps (lastLen b.layers)) →
      AllLinked S b := by
  induction h with
  | new c es b hc h =>
    intro _ _
    unfold Builder.new at h
    split at h
    · cases h
      intro l hl
      simp at hl
    · cases h
  | push b b' e hr hp ih =>
    intro hN hfar
    have hinv := hr.reachable.inv hsrt hr.config.good
    unfold Builder.push at hp
    split at hp
    · cases hp
      have hsame : ∀ i < lastLen b.layers, (b.elements.data ++ [e])[i]? = b.elements.data[i]? := by
        intro i hi
        have hle : lastLen b.layers ≤ b.elements.data.length := by
          unfold lastLen
          split
          · next l hl => exact (hinv.stack.layer _ (List.mem_map.2 ⟨l, List.mem_of_getLast? hl, rfl⟩)).2.2
          · omega
        exact List.getElem?_append_left (by omega)
      have hlk := ih hN fun hf => (hfar hf).mono le_rfl ⟨rfl, fun i hi => (hsame i hi).symm⟩
      intro l hl
      obtain ⟨h1, h2⟩ := hlk l hl
      refine ⟨fun j hj hz => h1 j hj fun hz' => hz ?_, h2⟩
      have hj' : j < lastLen b.layers := lt_of_lt_of_le hj (lastLen_ge hinv.stack hl)
      exact (IsZero.of_same (es := b.elements) (es' := { b.elements with data := b.elements.data ++ [e] })
        ⟨rfl, hsame⟩ hj').2 hz'
    · cases hp
  | build b b' num hr hb ih =>
    intro hN hfar
    have hinv := hr.reachable.inv hsrt hr.config.good
    have hc := hr.config
    by_cases h0 : num = 0
    · cases hb with
      | zero => exact ih hN hfar
      | fresh _ h => exact absurd h0 h
      | «continue» _ _ h => exact absurd h0 h
    · have hle : lastLen b.layers ≤ num ∧ num ≤ b.elements.data.length := by
        cases hb with
        | zero h => exact absurd h h0
        | fresh _ _ h h' => exact ⟨h, h'⟩
        | «continue» _ _ _ h h' => exact ⟨h, h'⟩
      obtain ⟨b1, h1, _, h2, h3, h4, _⟩ := (buildPartial_ok hsrt hc.good hinv hle.2 (by omega) hle.1).2 _ hb
      cases h1
      rw [h2, h3, h4] at hfar
      rw [h4] at hN
      refine buildPartial_linked hsrt hc.good hinv (Sparse.layers hc.good.neighbors ⟨fun s => ?_, ?_⟩) ?_ hb
      · exact (hN (Or.inl s)).trans (hc.small s).1
      · by_cases hf : far
        · exact Or.inl (hfar hf)
        · exact Or.inr ((hN (Or.inr hf)).trans (hc.near hf))
      · exact ih (fun h => hle.1.trans (hN h)) fun hf => (hfar hf).mono hle.1 ⟨rfl, fun _ _ => rfl⟩
  | reload b b' f f' start config es hP hr hg h1 h2 h3 h4 h5 ih =>
    intro hN hfar
    have hinv := hr.reachable.inv hsrt hr.config.good
    rw [fromBytes_saved hinv.padded h1 h2] at h5
    split at h5
    · cases h5
      have hlast := lastLen_reload b config es
      unfold Builder.reloadWith at hlast
      rw [hlast] at hN hfar
      simp only at hfar
      have hlk := ih hN fun hf => by
        rw [← h3]
        exact (hfar hf).mono le_rfl ⟨h4.1.symm, fun i hi => (h4.2 i hi).symm⟩
      refine hlk.reloaded hinv hP.good.neighbors h3 h4 fun s => ?_
      have := hP.small s
      have := hN (Or.inl s)
      have := hP.good.neighbors
      omega
    · cases h5
  | reorder b b' f f' g g' start start' vs es ix order config elements hP hr hg h1 h2 h3 h4 h5 h6 ih =>
    intro hN hfar
    have hinv := hr.reachable.inv hsrt hr.config.good
    obtain ⟨e1, e2, e3, e4, rfl, e6⟩ := hinv.reordered hg h1 h2 h3 h6
    have hlast2 := e1.lastLen_renamed e2 e3
    rw [lastLen_reload] at hlast2
    rw [lastLen_reload, hlast2] at hN hfar
    have hc := hr.config
    have hl' : lastLen b.layers = ix.elements.data.length := by rw [e2.len]; exact h1.full.symm
    have hlk := ih hN fun hf => by
      have f1 : AllFar ix.elements b.config.eps ix.elements.data.length := by
        rw [← hl', ← h4]
        exact (hfar hf).mono le_rfl ⟨h5.1.symm, fun i hi => (h5.2 i hi).symm⟩
      have f2 := e2.allFar f1
      rw [h1.full] at f2
      exact f2.mono le_rfl ⟨h1.same.1.symm, fun i hi => (h1.same.2 i hi).symm⟩
    have hlk1 := hlk.reloaded hinv hg.neighbors rfl h1.same fun s => by
      have := hc.small s
      have := hN (Or.inl s)
      have := hg.neighbors
      omega
    refine (hlk1.renamed e1 e2 e3 h1.first).reloaded e4 hP.good.neighbors h4 ?_ fun s => ?_
    · rw [hlast2]; exact h5
    · rw [hlast2]
      have := hP.small s
      have := hN (Or.inl s)
      have := hP.good.neighbors
      omega

end Granne
