import Verif.Proofs.Search
import Verif.Model.Sequential

/-! Searching and building with distances transformed by a strictly increasing function. -/
namespace Granne
open List

variable {E D D' : Type} [LinearOrder D] [LinearOrder D'] {f : D → D'}

/-- A pair of an id and a distance, with the distance transformed. -/
abbrev onDist (f : D → D') (p : Nat × D) : Nat × D' := (p.1, f p.2)

def Cand.lift (f : D → D') (c : Cand D) : Cand D' := ⟨f c.d, c.id⟩

def MaxSizeHeap.lift (f : D → D') (h : MaxSizeHeap (Cand D)) : MaxSizeHeap (Cand D') :=
  ⟨h.heap.map (Cand.lift f), h.maxSize⟩

/-- The elements with their distances transformed. -/
def Elements.lift (f : D → D') (es : Elements E D) : Elements E D' :=
  @Elements.mk E D' es.data (fun a b => f (es.dist a b)) es.batch

theorem lift_le (hf : StrictMono f) (a b : Cand D) : a.lift f ≤ b.lift f ↔ a ≤ b := by
  rw [Cand.le_iff, Cand.le_iff]
  simp only [Cand.lift, hf.lt_iff_lt, hf.injective.eq_iff]

theorem lift_lt (hf : StrictMono f) (a b : Cand D) : a.lift f < b.lift f ↔ a < b := by
  rw [← not_le, ← not_le, lift_le hf]

theorem heapPush_lift (hf : StrictMono f) (x : Cand D) (l : List (Cand D)) :
    heapPush (x.lift f) (l.map (Cand.lift f)) = (heapPush x l).map (Cand.lift f) := by
  induction l with
  | nil => simp [heapPush]
  | cons a t ih =>
    simp only [heapPush] at ih
    simp only [heapPush, List.map_cons, List.orderedInsert_cons, lift_le hf]
    split
    · simp
    · simp [ih]

theorem peek_lift (h : MaxSizeHeap (Cand D)) : (h.lift f).peek = h.peek.map (Cand.lift f) := by
  simp [MaxSizeHeap.peek, MaxSizeHeap.lift]

theorem isFull_lift (h : MaxSizeHeap (Cand D)) : (h.lift f).isFull = h.isFull := by
  simp [MaxSizeHeap.isFull, MaxSizeHeap.lift]

theorem push_lift (hf : StrictMono f) (x : Cand D) (h : MaxSizeHeap (Cand D)) :
    (h.lift f).push (x.lift f) = (h.push x).map fun r => (r.1.lift f, r.2) := by
  unfold MaxSizeHeap.push
  rw [isFull_lift, peek_lift]
  by_cases hfu : h.isFull
  · simp only [hfu, Bool.not_true, Bool.false_eq_true, if_false]
    cases ht : h.peek with
    | none => simp
    | some top =>
      simp only [Option.map_some, lift_lt hf]
      split
      · simp only [MaxSizeHeap.lift, List.length_map, Option.map_some]
        rw [← heapPush_lift hf]
        congr 4
        split <;> simp [List.map_dropLast]
      · simp
  · simp only [Bool.not_eq_true] at hfu
    simp only [hfu, Bool.not_false, if_true, Option.map_some, MaxSizeHeap.lift, heapPush_lift hf]

theorem shouldStop_lift (hf : StrictMono f) (h : MaxSizeHeap (Cand D)) (d : D) :
    shouldStop (h.lift f) (f d) = shouldStop h d := by
  unfold shouldStop
  rw [peek_lift, isFull_lift]
  cases h.peek <;> simp [Cand.lift, hf.lt_iff_lt]

theorem scan_lift (hf : StrictMono f) (dq : Nat → Option D) (res : MaxSizeHeap (Cand D)) :
    ∀ (ns : List Nat) (pq : List (Cand D)) (vis : List Nat),
      scanNeighbors (fun i => (dq i).map f) (res.lift f) ns (pq.map (Cand.lift f)) vis =
        (scanNeighbors dq res ns pq vis).map fun r => (r.1.map (Cand.lift f), r.2) := by
  intro ns
  induction ns with
  | nil => intro pq vis; simp [scanNeighbors]
  | cons n ns ih =>
    intro pq vis
    simp only [scanNeighbors]
    split
    · exact ih pq vis
    · cases dq n with
      | none => simp
      | some d =>
        have hp : heapPush (⟨f d, n⟩ : Cand D') (pq.map (Cand.lift f)) = (heapPush ⟨d, n⟩ pq).map (Cand.lift f) :=
          heapPush_lift hf ⟨d, n⟩ pq
        simp only [Option.map_some, isFull_lift, hp, peek_lift]
        cases res.isFull with
        | false => simpa using ih _ _
        | true =>
          simp only [Bool.not_true, Bool.false_eq_true, if_false]
          cases res.peek with
          | none => simp
          | some top =>
            simp only [Option.map_some, Cand.lift, hf.lt_iff_lt]
            split <;> exact ih _ _

/-- What a search returns, transformed. -/
theorem searchLoop_lift (hf : StrictMono f) (dq : Nat → Option D) :
    ∀ (fuel : Nat) (res : MaxSizeHeap (Cand D)) (pq : List (Cand D)) (vis : List Nat),
      searchLoop (fun i => (dq i).map f) fuel (res.lift f) (pq.map (Cand.lift f)) vis =
        (searchLoop dq fuel res pq vis).bind fun r => .ret (r.map (onDist f)) := by
  intro fuel
  induction fuel with
  | zero => intros; simp [searchLoop, Prog.bind]
  | succ fuel ih =>
    intro res pq vis
    cases pq with
    | nil =>
      simp [searchLoop, Prog.bind, MaxSizeHeap.intoSortedVec, MaxSizeHeap.lift, Cand.lift, Function.comp_def]
    | cons c pq =>
      obtain ⟨d, idx⟩ := c
      rw [List.map_cons]
      conv_lhs => rw [show (Cand.lift f ⟨d, idx⟩ : Cand D') = ⟨f d, idx⟩ from rfl, searchLoop]
      conv_rhs => rw [searchLoop]
      rw [shouldStop_lift hf]
      cases shouldStop res d with
      | none => simp [Prog.bind]
      | some b =>
        cases b with
        | true =>
          simp [Prog.bind, MaxSizeHeap.intoSortedVec, MaxSizeHeap.lift, Cand.lift, Function.comp_def]
        | false =>
          simp only
          have hp := push_lift hf ⟨d, idx⟩ res
          rw [show (Cand.lift f ⟨d, idx⟩ : Cand D') = ⟨f d, idx⟩ from rfl] at hp
          rw [hp]
          cases res.push ⟨d, idx⟩ with
          | none => simp [Prog.bind]
          | some rb =>
            obtain ⟨res', b⟩ := rb
            simp only [Option.map_some, Prog.bind]
            congr 1
            funext ns
            rw [scan_lift hf]
            cases scanNeighbors dq res' ns pq vis with
            | none => simp [Prog.bind]
            | some pv => exact ih _ _ _

theorem searchForNeighbors_lift (hf : StrictMono f) (dq : Nat → Option D) (n entry ms : Nat) :
    searchForNeighbors n entry (fun i => (dq i).map f) ms =
      (searchForNeighbors n entry dq ms).bind fun r => .ret (r.map (onDist f)) := by
  unfold searchForNeighbors
  cases hd : dq entry with
  | none => simp only [hd, Option.map_none, Prog.bind]
  | some d =>
    simp only [hd, Option.map_some]
    exact searchLoop_lift hf dq (n + 1) (MaxSizeHeap.new _ ms) [⟨d, entry⟩] [entry]

theorem runRO_bind_ret {α β : Type} (h : α → β) (g : Graph) (p : Prog α) :
    (p.bind fun a => .ret (h a)).runRO g = (p.runRO g).map h := by
  induction p with
  | ret a => simp [Prog.bind, Prog.runRO]
  | fail => simp [Prog.bind, Prog.runRO]
  | nbrs i k ih =>
    simp only [Prog.bind, Prog.runRO]
    cases g[i]? with
    | none => simp
    | some l => exact ih l
  | unused i k ih => simp [Prog.bind, Prog.runRO]
  | upd i u k ih => simp [Prog.bind, Prog.runRO]

theorem findEntrypointFrom_lift (hf : StrictMono f) (dq : Nat → Option D) :
    ∀ (ls : List Graph) (e : Nat),
      findEntrypointFrom (fun i => (dq i).map f) ls e = findEntrypointFrom dq ls e := by
  intro ls
  induction ls with
  | nil => intro e; rfl
  | cons l ls ih =>
    intro e
    simp only [findEntrypointFrom, searchForNeighbors_lift hf, runRO_bind_ret]
    cases (searchForNeighbors l.length e dq 1).runRO l with
    | none => rfl
    | some r =>
      cases r with
      | nil => rfl
      | cons a t => exact ih a.1

theorem searchInternal_lift (hf : StrictMono f) (ls : List Graph) (dq : Nat → Option D) (ms k : Nat) :
    searchInternal ls (fun i => (dq i).map f) ms k = (searchInternal ls dq ms k).map (List.map (onDist f)) := by
  unfold searchInternal
  cases ls.getLast? with
  | none => rfl
  | some bottom =>
    simp only [findEntrypoint, findEntrypointFrom_lift hf]
    cases findEntrypointFrom dq ls.dropLast 0 with
    | none => rfl
    | some e =>
      simp only [searchForNeighbors_lift hf, runRO_bind_ret]
      cases (searchForNeighbors bottom.length e dq ms).runRO bottom with
      | none => rfl
      | some r => simp [List.map_take]

theorem distTo_lift (es : Elements E D) (q : E) :
    (es.lift f).distTo q = fun i => (es.distTo q i).map f := by
  funext i
  simp only [Elements.distTo, Elements.lift]
  cases es.data[i]? <;> rfl

theorem search_lift (hf : StrictMono f) (ls : List Graph) (es : Elements E D) (q : E) (ms k : Nat) :
    search ls (es.lift f) q ms k = (search ls es q ms k).map (List.map (onDist f)) := by
  unfold search
  rw [distTo_lift]
  exact searchInternal_lift hf ls _ ms k

/-! ### Indexing -/

theorem dist?_lift (es : Elements E D) (i j : Nat) : (es.lift f).dist? i j = (es.dist? i j).map f := by
  simp only [Elements.dist?, distTo_lift]
  show (match es.data[j]? with | none => none | some ej => (es.distTo ej i).map f) = _
  cases es.data[j]? <;> rfl

theorem dists_lift (es : Elements E D) (idx : Nat) (others : List Nat) :
    (es.lift f).dists idx others = (es.dists idx others).map (List.map f) := by
  simp only [Elements.dists, distTo_lift]
  show (match es.data[idx]? with
    | none => none
    | some e => others.mapM fun j =>
        if es.batch.fromElement then (es.data[j]?).map fun x => f (es.dist e x) else (es.distTo e j).map f) = _
  cases es.data[idx]? with
  | none => rfl
  | some e =>
    simp only
    induction others with
    | nil => rfl
    | cons j js ih =>
      simp only [List.mapM_cons]
      rw [ih]
      cases es.batch.fromElement with
      | true =>
        simp only [if_true]
        cases es.data[j]? with
        | none => rfl
        | some x =>
          simp only [Option.map_some]
          cases List.mapM (fun j => (es.data[j]?).map fun x => es.dist e x) js <;> rfl
      | false =>
        simp only [Bool.false_eq_true, if_false]
        cases es.distTo e j with
        | none => rfl
        | some x =>
          simp only [Option.map_some]
          cases List.mapM (fun j => es.distTo e j) js <;> rfl

theorem allFarther_lift (hf : StrictMono f) (es : Elements E D) (e : E) (d : D) (l : List (Nat × D)) :
    allFarther (es.lift f) e (f d) (l.map (onDist f)) = allFarther es e d l := by
  induction l with
  | nil => rfl
  | cons a t ih =>
    obtain ⟨n, x⟩ := a
    simp only [List.map_cons, onDist, allFarther, distTo_lift]
    cases es.distTo e n with
    | none => rfl
    | some dn =>
      simp only [Option.map_some, hf.le_iff_le]
      split
      · exact ih
      · rfl

theorem selectLoop_lift (hf : StrictMono f) (es : Elements E D) (m : Nat) :
    ∀ (cands nb : List (Nat × D)), selectLoop (es.lift f) m (cands.map (onDist f)) (nb.map (onDist f)) =
      (selectLoop es m cands nb).map (List.map (onDist f)) := by
  intro cands
  induction cands with
  | nil => intro nb; rfl
  | cons a t ih =>
    intro nb
    obtain ⟨j, d⟩ := a
    simp only [List.map_cons, onDist, selectLoop, List.length_map]
    split
    · rfl
    · show (match es.data[j]? with
        | none => none
        | some element => _) = _
      cases es.data[j]? with
      | none => rfl
      | some element =>
        simp only
        rw [allFarther_lift hf es element d nb]
        cases allFarther es element d nb with
        | none => rfl
        | some b =>
          cases b with
          | true =>
            have := ih (nb ++ [(j, d)])
            simpa only [List.map_append, List.map_cons, List.map_nil, onDist] using this
          | false => exact ih nb

theorem pairwise_lift (hf : StrictMono f) (l : List (Nat × D)) :
    (l.map (onDist f)).Pairwise (fun a b => a.2 ≤ b.2) ↔ l.Pairwise fun a b => a.2 ≤ b.2 := by
  rw [List.pairwise_map]
  simp only [hf.le_iff_le]

theorem selectNeighbors_lift (hf : StrictMono f) (es : Elements E D) (cands : List (Nat × D)) (m : Nat) :
    selectNeighbors (es.lift f) (cands.map (onDist f)) m = (selectNeighbors es cands m).map (List.map (onDist f)) := by
  unfold selectNeighbors
  simp only [List.length_map, pairwise_lift hf]
  split
  · rfl
  · split
    · exact selectLoop_lift hf es m cands []
    · rfl

/-- The two ways of sorting do the same. -/
def SortLift (f : D → D') (srt : List (Nat × D) → List (Nat × D)) (srt' : List (Nat × D') → List (Nat × D')) : Prop :=
  ∀ l, srt' (l.map (onDist f)) = (srt l).map (onDist f)

variable {srt : List (Nat × D) → List (Nat × D)} {srt' : List (Nat × D') → List (Nat × D')}

theorem zip_lift (l : List Nat) (ds : List D) : l.zip (ds.map f) = (l.zip ds).map (onDist f) := by
  rw [List.zip_map_right]
  rfl

theorem addAndLimit_lift (hf : StrictMono f) (hs : SortLift f srt srt') (es : Elements E D) (i : Nat)
    (extra : List (Nat × D)) (m : Nat) (row : Row) :
    addAndLimit (es.lift f) srt' i (extra.map (onDist f)) m row = addAndLimit es srt i extra m row := by
  unfold addAndLimit
  split
  · simp only [dists_lift]
    cases es.dists i (visible row) with
    | none => rfl
    | some ds =>
      simp only [Option.map_some]
      rw [zip_lift, ← List.map_append, hs, selectNeighbors_lift hf]
      cases selectNeighbors es (srt ((visible row).zip ds ++ extra)) m with
      | none => rfl
      | some sel => simp [Function.comp_def]
  · rfl

theorem connectRow_lift (hf : StrictMono f) (hs : SortLift f srt srt') (es : Elements E D) (i j : Nat) (d : D) :
    connectRow (es.lift f) srt' i j (f d) = connectRow es srt i j d := by
  funext row
  unfold connectRow
  cases toNeighborId j with
  | none => rfl
  | some jId =>
    simp only
    cases List.findIdx? (fun x => x == UNUSED || x == jId) row with
    | some p => rfl
    | none => exact addAndLimit_lift hf hs es i [(j, d)] row.length row

theorem connectNodes_lift (hf : StrictMono f) (hs : SortLift f srt srt') (es : Elements E D) (i j : Nat) (d : D)
    (k : Prog Unit) : connectNodes (es.lift f) srt' i j (f d) k = connectNodes es srt i j d k := by
  unfold connectNodes
  rw [connectRow_lift hf hs]

theorem connectOwn_lift (hf : StrictMono f) (hs : SortLift f srt srt') (es : Elements E D) (i : Nat)
    (nb : List (Nat × D)) (k : Prog Unit) :
    connectOwn (es.lift f) srt' i (nb.map (onDist f)) k = connectOwn es srt i nb k := by
  unfold connectOwn
  rw [List.foldr_map]
  simp only [connectNodes_lift hf hs]

theorem connectOthers_lift (hf : StrictMono f) (hs : SortLift f srt srt') (es : Elements E D) (i : Nat)
    (nb : List (Nat × D)) (k : Prog Unit) :
    connectOthers (es.lift f) srt' i (nb.map (onDist f)) k = connectOthers es srt i nb k := by
  unfold connectOthers
  rw [List.foldr_map]
  simp only [connectNodes_lift hf hs]

theorem initializeNode_lift (nb : List (Nat × D)) :
    initializeNode (nb.map (onDist f)) = initializeNode nb := by
  funext row
  simp only [initializeNode, ← List.map_take, List.map_map, Function.comp_def]

theorem publish_lift (hf : StrictMono f) (hs : SortLift f srt srt') (es : Elements E D) (i : Nat)
    (nb : List (Nat × D)) : publish (es.lift f) srt' i (nb.map (onDist f)) = publish es srt i nb := by
  unfold publish
  rw [initializeNode_lift, connectOwn_lift hf hs, connectOthers_lift hf hs]

theorem bind_bind_ret {α β γ : Type} (h : α → β) (p : Prog α) (q : β → Prog γ) :
    (p.bind fun a => .ret (h a)).bind q = p.bind fun a => q (h a) := by
  induction p with
  | ret a => rfl
  | fail => rfl
  | nbrs i k ih => simp only [Prog.bind, ih]
  | unused i k ih => simp only [Prog.bind, ih]
  | upd i u k ih => simp only [Prog.bind, ih]

/-- The configuration with its threshold transformed. -/
def LayerConfig.lift (f : D → D') (c : LayerConfig D) : LayerConfig D' := ⟨c.numNeighbors, c.maxSearch, f c.eps⟩

/-- The task of indexing an element is the same program. -/
theorem indexElement_lift (hf : StrictMono f) (hs : SortLift f srt srt') (cfg : LayerConfig D) (es : Elements E D)
    (prev : List Graph) (n idx : Nat) :
    indexElement (cfg.lift f) (es.lift f) srt' prev n idx = indexElement cfg es srt prev n idx := by
  obtain ⟨nn, ms, eps⟩ := cfg
  show indexElement ⟨nn, ms, f eps⟩ (es.lift f) srt' prev n idx = _
  unfold indexElement
  rw [dist?_lift]
  cases es.dist? idx idx with
  | none => rfl
  | some dSelf =>
    simp only [Option.map_some, hf.lt_iff_lt]
    split
    · rfl
    · show (match es.data[idx]? with
        | none => Prog.fail
        | some element => _) = _
      cases es.data[idx]? with
      | none => rfl
      | some element =>
        simp only [search_lift hf]
        cases search prev es element 1 1 with
        | none => rfl
        | some r =>
          simp only [Option.map_some, distTo_lift, searchForNeighbors_lift hf, bind_bind_ret, List.head?_map]
          have hrest : ∀ found : List (Nat × D),
              (match selectNeighbors (es.lift f) ((found.map (onDist f)).filter fun p => p.1 != idx) nn with
              | none => Prog.fail
              | some neighbors =>
                match neighbors[nn / 2]? with
                | some (_, d) => if d < f eps then .ret () else publish (es.lift f) srt' idx neighbors
                | none => publish (es.lift f) srt' idx neighbors) =
              (match selectNeighbors es (found.filter fun p => p.1 != idx) nn with
              | none => Prog.fail
              | some neighbors =>
                match neighbors[nn / 2]? with
                | some (_, d) => if d < eps then .ret () else publish es srt idx neighbors
                | none => publish es srt idx neighbors) := by
            intro found
            have hfil : (found.map (onDist f)).filter (fun p => p.1 != idx) =
                (found.filter fun p => p.1 != idx).map (onDist f) := by
              rw [List.filter_map]
              rfl
            rw [hfil, selectNeighbors_lift hf]
            cases selectNeighbors es (found.filter fun p => p.1 != idx) nn with
            | none => rfl
            | some nb =>
              simp only [Option.map_some, List.getElem?_map, publish_lift hf hs]
              cases nb[nn / 2]? with
              | none => rfl
              | some p => simp only [Option.map_some, onDist, hf.lt_iff_lt]
          cases r.head? with
          | none =>
            simp only [Option.map_none]
            congr 1
            funext found
            exact hrest found
          | some a =>
            simp only [Option.map_some]
            congr 1
            funext found
            exact hrest found

theorem indexPar_lift (hf : StrictMono f) (hs : SortLift f srt srt') (cfg : LayerConfig D) (es : Elements E D)
    (num : Nat) (prev : List Graph) (layer : Layer) (r : Bool) :
    indexPar (cfg.lift f) (es.lift f) srt' num prev layer r = indexPar cfg es srt num prev layer r := by
  have : indexElement (cfg.lift f) (es.lift f) srt' = indexElement cfg es srt := by
    funext prev n idx
    exact indexElement_lift hf hs cfg es prev n idx
  unfold indexPar
  rw [this]

theorem limitPass_lift (hf : StrictMono f) (hs : SortLift f srt srt') (cfg : LayerConfig D) (es : Elements E D)
    (rows : Rows) : limitPass (cfg.lift f) (es.lift f) srt' rows = limitPass cfg es srt rows := by
  unfold limitPass
  congr 1
  funext p
  exact addAndLimit_lift hf hs es p.2 [] cfg.numNeighbors p.1

theorem indexElements_lift (hf : StrictMono f) (hs : SortLift f srt srt') (cfg : LayerConfig D) (es : Elements E D)
    (num : Nat) (prev : List Graph) (layer : Layer) (r : Bool) (out : Option Layer) :
    IndexElements (cfg.lift f) (es.lift f) srt' num prev layer r out ↔ IndexElements cfg es srt num prev layer r out := by
  constructor
  · intro h
    cases h with
    | tooMany h => exact .tooMany h
    | panic s h1 h2 h3 => exact .panic s h1 (by rwa [indexPar_lift hf hs] at h2) h3
    | done s h1 h2 h3 =>
      rw [limitPass_lift hf hs]
      exact .done s h1 (by rwa [indexPar_lift hf hs] at h2) h3
  · intro h
    cases h with
    | tooMany h => exact .tooMany h
    | panic s h1 h2 h3 => exact .panic s h1 (by rwa [indexPar_lift hf hs]) h3
    | done s h1 h2 h3 =>
      rw [← limitPass_lift hf hs]
      exact .done s h1 (by rwa [indexPar_lift hf hs]) h3

end Granne
