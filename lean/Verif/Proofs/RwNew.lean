import Verif.Proofs.Rw
import Verif.Proofs.Schedule
import Verif.Proofs.Histories

/-! The initial state of a concurrent builder. -/
namespace Granne
open List Spec

variable {E D : Type} [LinearOrder D] {srt : List (Nat × D) → List (Nat × D)}

/-- Layer `i` has at most `f i` nodes. -/
def SizesLe (f : Nat → Nat) (layers : List Layer) : Prop :=
  ∀ (i : Nat) (l : Layer), layers[i]? = some l → l.rows.length ≤ f i

theorem SizesLe.snoc {f : Nat → Nat} {layers : List Layer} {l : Layer} (h : SizesLe f layers)
    (hl : l.rows.length ≤ f layers.length) : SizesLe f (layers ++ [l]) := by
  intro i x hx
  by_cases hi : i < layers.length
  · rw [List.getElem?_append_left hi] at hx
    exact h i x hx
  · have := (List.getElem?_eq_some_iff.1 hx).1
    simp only [List.length_append, List.length_singleton] at this
    obtain rfl : i = layers.length := by omega
    simp only [List.getElem?_concat_length, Option.some.injEq] at hx
    subst hx
    exact hl

theorem SizesLe.last {f : Nat → Nat} {layers : List Layer} (h : SizesLe f layers) :
    lastLen layers ≤ f (layers.length - 1) := by
  unfold lastLen
  rcases Option.eq_none_or_eq_some layers.getLast? with h1 | ⟨l, h1⟩
  · rw [h1]; exact Nat.zero_le _
  · rw [h1]
    rw [List.getLast?_eq_getElem?] at h1
    exact h _ l h1

theorem buildLoop_sizes (hsrt : IsSortByDist srt) {num : Nat} {f : Nat → Nat} (hf : ∀ i, f i ≤ f (i + 1))
    {b : Builder E D} {out : Option (Builder E D)} (h : BuildLoop srt num b out) (hc : GoodConfig b.config)
    (hs : ∀ i, b.config.schedule (max b.total b.elements.data.length) i ≤ f i)
    (hi : BuilderInv b) (hnum : num ≤ b.elements.data.length) (hl : SizesLe f b.layers) :
    ∀ b', out = some b' → SizesLe f b'.layers := by
  induction h with
  | done b hd => rintro b' h; cases h; exact hl
  | panic => rintro b' h; cases h
  | round b b1 out hlt hidx hrest ih =>
    intro b' hout
    obtain ⟨layer', e, hinv, hlen, _⟩ := (round_ok hsrt hc hi hnum hlt).2 _ hidx
    cases e
    refine ih hc hs hinv hnum (hl.snoc ?_) b' hout
    have h1 := hl.last
    have h2 := hs b.layers.length
    have h3 := hf (b.layers.length - 1)
    unfold Builder.ideal at hlen
    rw [Nat.add_sub_cancel] at hlen
    rw [hlen]
    rcases Nat.eq_zero_or_pos b.layers.length with h0 | h0
    · have : lastLen b.layers = 0 := by rw [List.length_eq_zero_iff.1 h0]; rfl
      omega
    · rw [Nat.sub_add_cancel h0] at h3
      omega

/-- Building respects any bounds on the sizes of the layers that the plan respects. -/
theorem buildPartial_sizes (hsrt : IsSortByDist srt) {num : Nat} {f : Nat → Nat} (hf : ∀ i, f i ≤ f (i + 1))
    {b b' : Builder E D} (h : BuildPartial srt b num (some b')) (hc : GoodConfig b.config)
    (hs : ∀ i, b.config.schedule (max b.total b.elements.data.length) i ≤ f i)
    (hi : BuilderInv b) (hl : SizesLe f b.layers) : SizesLe f b'.layers := by
  generalize ho : some b' = o at h
  cases h with
  | zero => cases ho; exact hl
  | fewer => cases ho
  | more => cases ho
  | fresh _ _ _ hn _ h => subst ho; exact buildLoop_sizes hsrt hf h hc hs hi hn hl b' rfl
  | lastPanics => cases ho
  | «continue» b1 _ h0 hle hn hne h1 h2 =>
    subst ho
    obtain ⟨upper, layer, hl'⟩ : ∃ upper layer, b.layers = upper ++ [layer] :=
      ⟨_, _, (List.dropLast_append_getLast hne).symm⟩
    obtain ⟨layer', e, hinv, _, hlen, _⟩ := (continue_ok hsrt hc hi hn (by omega) hle hl').2 _ h1
    cases e
    refine buildLoop_sizes hsrt hf h2 hc hs hinv hn ?_ b' rfl
    have hup : SizesLe f upper := fun i x hx => hl i x (by
      rw [hl', List.getElem?_append_left (List.getElem?_eq_some_iff.1 hx).1]; exact hx)
    refine hup.snoc ?_
    have g1 := hl.last
    have g2 := hs (b.layers.length - 1)
    unfold Builder.ideal at hlen
    have : b.layers.length - 1 = upper.length := by rw [hl']; simp
    rw [this] at g1 g2 hlen
    omega

/-- The new configuration. -/
abbrev withExpected (b : Builder E D) (n : Nat) : Builder E D :=
  { b with config := { b.config with expectedNumElements := some n } }

theorem BuilderInv.withExpected {b : Builder E D} (h : BuilderInv b) (n : Nat) : BuilderInv (withExpected b n) :=
  ⟨h.size, h.stack, h.width⟩

theorem build_ok (hsrt : IsSortByDist srt) {b : Builder E D} (hc : GoodConfig b.config) (hb : BuilderInv b) :
    (∃ out, Build srt b out) ∧ ∀ out, Build srt b out → ∃ b', out = some b' ∧ BuilderInv b' ∧
      b'.elements = b.elements ∧ b'.config = b.config ∧ lastLen b'.layers = b.elements.data.length := by
  rcases Nat.eq_zero_or_pos b.elements.data.length with h0 | h0
  · have hz : lastLen b.layers = 0 := by have := hb.lastLen_le; omega
    refine ⟨⟨some b, .zero h0⟩, fun out hout => ?_⟩
    cases hout with
    | zero => exact ⟨b, rfl, hb, rfl, rfl, by omega⟩
    | _ => contradiction
  · obtain ⟨h1, h2⟩ := buildPartial_ok hsrt hc hb le_rfl h0 hb.lastLen_le
    refine ⟨h1, fun out hout => ?_⟩
    obtain ⟨b', e, g1, g2, g3, g4, _⟩ := h2 out hout
    exact ⟨b', e, g1, g2, g3, g4⟩

/-- `new` on a proper builder. -/
theorem rwNew_ok (hsrt : IsSortByDist srt) {b : Builder E D} (hc : GoodConfig b.config) (hb : BuilderInv b) {mx : Nat}
    (hmono : ∀ i j, i ≤ j → b.config.schedule mx i ≤ b.config.schedule mx j) (hmx : mx ≤ UNUSED)
    (hfit : b.elements.data.length < mx → SizesLe (fun i => b.config.schedule mx (i + 1)) b.layers) :
    (∃ out, RwNew srt b mx out) ∧ ∀ out, RwNew srt b mx out → ∃ d, out = some d ∧
      RwInv b.elements.data.length d ∧ d.elements = b.elements ∧ d.maxElements = mx ∧
      d.config = { b.config with expectedNumElements := some mx } := by
  have hc' : GoodConfig (withExpected b mx).config := ⟨hc.neighbors, hc.search, hc.schedule⟩
  obtain ⟨⟨out, hex⟩, hall⟩ := build_ok hsrt hc' (hb.withExpected mx)
  refine ⟨?_, ?_⟩
  · obtain ⟨b', rfl, _⟩ := hall out hex
    exact ⟨_, .ok b' hex⟩
  intro out hout
  cases hout with
  | panic h => obtain ⟨b', e, _⟩ := hall _ h; cases e
  | ok b' h =>
    obtain ⟨b'', e, hinv, hel, hcf, hlast⟩ := hall _ h
    cases e
    refine ⟨_, rfl, ?_, hel, rfl, hcf⟩
    have hel' : b'.elements = b.elements := hel
    have hlast : lastLen b'.layers = b.elements.data.length := hlast
    have hgc : GoodConfig (RwData.ofBuilder b' mx).config := by
      show GoodConfig b'.config
      rw [hcf]; exact hc'
    have hsize : b.elements.data.length < mx → SizesLe (fun i => b.config.schedule mx (i + 1)) b'.layers := by
      intro hlt
      refine buildPartial_sizes hsrt (fun i => hmono _ _ (by omega)) h hc' (fun i => ?_) (hb.withExpected mx) (hfit hlt)
      have : max (withExpected b mx).total (withExpected b mx).elements.data.length = mx := by
        simp only [Builder.total, Option.getD_some]; omega
      rw [this]
      exact hmono _ _ (by omega)
    have hcap := hb.size
    have hst := hinv.stack
    rw [hcf, hel] at hst
    simp only at hst
    have hpl : (b'.layers.dropLast.map Layer.rows).length = b'.layers.length - 1 := by simp
    -- the last layer and those before it
    rcases List.eq_nil_or_concat b'.layers with hnil | ⟨upper, last, hl⟩
    · have h0 : b.elements.data.length = 0 := by rw [← hlast, hnil]; rfl
      have hcur : (RwData.ofBuilder b' mx).current = List.replicate (b.config.schedule mx 0)
          (List.replicate b.config.numNeighbors UNUSED) := by
        simp [RwData.ofBuilder, hnil, resizeRows, hcf]
      have hprev : (RwData.ofBuilder b' mx).prev = [] := by simp [RwData.ofBuilder, hnil]
      have hle := hc.schedule.le mx 0
      refine { neighbors := hgc.neighbors, search := hgc.search, sched := hgc.schedule, mono := ?_,
               limit := ?_, start := ?_, room := ?_, rows := ?_, stack := ?_, above := ?_, next := ?_ }
      · simpa [RwData.ofBuilder, hcf] using hmono
      · simp only [RwData.ofBuilder]; omega
      · simp only [RwData.len, RwData.ofBuilder, hel']; omega
      · rw [hcur]; simp only [List.length_replicate, RwData.ofBuilder]; omega
      · rw [hcur]
        simp only [RwData.len, RwData.ofBuilder, hel', h0, hcf]
        have := RowsInv.resize (m := b.config.schedule mx 0) (R := [])
          (show RowsInv 0 b.config.numNeighbors (IsZero b.elements b.config.eps) [] from
            ⟨by simp, by simp, by simp⟩)
        simpa using this
      · rw [hprev]; exact ⟨by simp, by simp⟩
      · rw [hprev]; simp
      · intro hlt
        rw [hcur, hprev]
        simp only [List.length_replicate, List.length_nil, RwData.ofBuilder, hcf] at hlt ⊢
        exact ⟨hc.schedule.pos _ _ (by omega), hmono _ _ (by omega)⟩
    · have hl' : b'.layers.getLast? = some last := by rw [hl]; simp
      have hlen : last.rows.length = b.elements.data.length := by
        have : lastLen b'.layers = last.rows.length := by simp [lastLen, hl']
        omega
      have hcur : (RwData.ofBuilder b' mx).current = resizeRows b.config.numNeighbors
          (max last.rows.length (b.config.schedule mx upper.length)) last.rows := by
        simp [RwData.ofBuilder, hcf, hl]
      have hprev : (RwData.ofBuilder b' mx).prev = upper.map Layer.rows := by simp [RwData.ofBuilder, hl]
      have hle := hc.schedule.le mx upper.length
      rw [resizeRows_grow (le_max_left _ _)] at hcur
      have hcl : (RwData.ofBuilder b' mx).current.length = max last.rows.length (b.config.schedule mx upper.length) := by
        rw [hcur]; simp
      rw [hl, List.concat_eq_append, List.map_append, List.map_cons, List.map_nil] at hst
      have hnest := List.pairwise_append.1 hst.nested
      have hla := hst.layer last.rows (by simp)
      refine { neighbors := hgc.neighbors, search := hgc.search, sched := hgc.schedule, mono := ?_,
               limit := ?_, start := ?_, room := ?_, rows := ?_, stack := ?_, above := ?_, next := ?_ }
      · simpa [RwData.ofBuilder, hcf] using hmono
      · simp only [RwData.ofBuilder]; omega
      · simp only [RwData.len, RwData.ofBuilder, hel']; omega
      · rw [hcl]; simp only [RwData.ofBuilder]; omega
      · rw [hcur]
        have := hla.1.roomy
        rw [hlen] at this
        simp only [RwData.len, RwData.ofBuilder, hel', hcf]
        exact this.resize
      · rw [hprev]
        simp only [RwData.len, RwData.ofBuilder, hel', hcf]
        exact ⟨fun R hR => hst.layer R (List.mem_append_left _ hR), hnest.1⟩
      · rw [hprev, hcur]
        intro R hR
        have := hnest.2.2 R hR last.rows (by simp)
        simp only [RwData.len, RwData.ofBuilder, hel']
        exact ⟨by omega, fun j hj => NE_append.2 (this.2 j hj)⟩
      · intro hlt
        rw [hcl, hprev]
        simp only [List.length_map, RwData.ofBuilder, hcf]
        have g1 := hsize hlt upper.length last (by rw [hl]; simp)
        have g2 := hmono upper.length (upper.length + 1) (by omega)
        have := hla.2.1
        simp only at g1
        omega

theorem buildPartial_config (hsrt : IsSortByDist srt) {num : Nat} {b b' : Builder E D} (hc : GoodConfig b.config)
    (hi : BuilderInv b) (h : BuildPartial srt b num (some b')) : b'.config = b.config := by
  by_cases h0 : num = 0
  · cases h with
    | zero => rfl
    | _ => contradiction
  · by_cases h1 : lastLen b.layers ≤ num
    · by_cases h2 : num ≤ b.elements.data.length
      · obtain ⟨b'', e, _, _, h3, _⟩ := (buildPartial_ok hsrt hc hi h2 (by omega) h1).2 _ h
        cases e; exact h3
      · cases h <;> contradiction
    · cases h <;> contradiction

/-- A builder that has only ever used one plan of layer sizes respects its bounds. -/
theorem ReachableBy.sizes (hsrt : IsSortByDist srt) {sched : Nat → Nat → Nat} {bound : Nat → Nat}
    (hb : ∀ t i, sched t i ≤ bound i) (hmono : ∀ i, bound i ≤ bound (i + 1)) {b : Builder E D}
    (h : ReachableBy srt (fun c => GoodConfig c ∧ c.schedule = sched) b) :
    (GoodConfig b.config ∧ b.config.schedule = sched) ∧ SizesLe bound b.layers := by
  induction h with
  | new c es b hc h =>
    unfold Builder.new at h
    split at h <;> cases h
    exact ⟨hc, fun i l hl => by simp at hl⟩
  | push b b' e _ h ih =>
    unfold Builder.push at h
    split at h <;> cases h
    exact ih
  | build b b' num hr h ih =>
    have hi := hr.reachable.inv hsrt ih.1.1
    rw [buildPartial_config hsrt ih.1.1 hi h]
    exact ⟨ih.1, buildPartial_sizes hsrt hmono h ih.1.1 (fun i => ih.1.2 ▸ hb _ i) hi ih.2⟩
  | reload b b' f f' start c es hc hr h1 h2 h3 h4 h5 h6 ih =>
    rw [fromBytes_saved (hr.reachable.inv hsrt h1).padded h2 h3] at h6
    split at h6 <;> cases h6
    refine ⟨hc, fun i l hl => ?_⟩
    rw [List.getElem?_map] at hl
    obtain ⟨l', hl', rfl⟩ := Option.map_eq_some_iff.1 hl
    simpa [reloadLayer] using ih.2 i l' hl'
  | reorder b b' f f' g g' start start' vs es ix order config elements hc hr hg h1 h2 h3 h4 h5 h6 ih =>
    obtain ⟨e1, e2, e3, e4, rfl, e6⟩ := (hr.reachable.inv hsrt hg).reordered hg h1 h2 h3 h6
    refine ⟨hc, fun i l hl => ?_⟩
    simp only [Builder.reloadWith, Builder.renamed, List.map_map, List.getElem?_map] at hl
    obtain ⟨l', hl', rfl⟩ := Option.map_eq_some_iff.1 hl
    have hm : (⟨b.config.numNeighbors, reloadLayer b.config.numNeighbors l'.rows⟩ : Layer) ∈ (b.reloadWith b.config es).layers :=
      List.mem_map.2 ⟨l', List.mem_of_getElem? hl', rfl⟩
    have hle := (e1.stack.layer _ (List.mem_map_of_mem hm)).2.2
    have hlen := renRows_length (w := b.config.numNeighbors) (R := reloadLayer b.config.numNeighbors l'.rows) e2.perm hle
      (e3 _ (List.mem_map.2 ⟨_, hm, rfl⟩)) rfl
    have e : (reloadLayer b.config.numNeighbors l'.rows).length = l'.rows.length := by simp [reloadLayer]
    simp only [Function.comp_apply]
    rw [reloadLayer, List.length_map, hlen, e]
    exact ih.2 i l' hl'

/-- All calls about to start. -/
theorem RwSys.init {n₀ : Nat} {d : RwData E D} (h : RwInv n₀ d) (h0 : d.len = n₀) {calls : List (RwCall E)}
    (hms : ∀ q ms k, RwCall.search q ms k ∈ calls ∨ RwCall.look (some (q, ms, k)) ∈ calls → 1 ≤ ms) : RwSys n₀ (Rw.start d calls) := by
  have hst : ∀ {t : Nat} {th : RwThread E D}, (Rw.start d calls).threads[t]? = some th →
      ∃ c ∈ calls, th = c.start := by
    intro t th hth
    simp only [Rw.start, List.getElem?_map] at hth
    obtain ⟨c, hc, rfl⟩ := Option.map_eq_some_iff.1 hth
    exact ⟨c, List.mem_of_getElem? hc, rfl⟩
  refine { data := h, excl := ?_, thr := ?_, disj := ?_, cover := ?_ }
  · intro t u a b hne ha hb
    obtain ⟨c, _, rfl⟩ := hst ha
    obtain ⟨c', _, rfl⟩ := hst hb
    cases c <;> cases c' <;> constructor <;> simp [RwCall.start, RwThread.eExcl, RwThread.eShared, RwThread.lExcl,
      RwThread.lShared, RwThread.wExcl, RwThread.wShared, RwThread.zone]
  · intro t th hth
    obtain ⟨c, hc, rfl⟩ := hst hth
    cases c with
    | insert batch => exact ⟨by simp, by simp, by simp, by simp⟩
    | write => trivial
    | search q ms k => exact hms q ms k (Or.inl hc)
    | look next => exact fun q ms k e => hms q ms k (Or.inr (e ▸ hc))
  · intro t u a b _ ha _ i hi
    obtain ⟨c, _, rfl⟩ := hst ha
    cases c <;> simp [RwCall.start, RwThread.got] at hi
  · intro i h1 h2
    simp only [Rw.start] at h2
    omega

end Granne
