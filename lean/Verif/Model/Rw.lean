import Verif.Model.Builder

/-!
`RwGranneBuilder` (src/index/rw/mod.rs): concurrent inserts, searches and saves.

Every call runs in its own thread. The three `parking_lot` locks `write_lock`, `elements`, `layers` are not stored in the
state: which thread holds or waits for which lock can be read off its program counter. A lock can be taken shared when no
thread holds it exclusively or is queued for it (parking_lot blocks readers while a writer waits), and exclusively when
nobody else holds it. A thread first queues for an exclusive lock and takes it in a later step; which of the waiting
threads goes next is left open. The locks of the individual nodes are those of `Model/Build` (each `Prog` operation is one
critical section).
-/
namespace Granne

variable {E D : Type} [LinearOrder D]

/-- src/index/rw/mod.rs:15-27 `RwGranneBuilder` without its locks and thread pool: `current` is the layer under
construction, `prev` the finished layers. The wrapper with one lock per node, src/index/rw/rw_lock_slice_vector.rs:13-20
`new`, src/index/rw/rw_lock_slice_vector.rs:22-24 `as_slice`, src/index/rw/rw_lock_slice_vector.rs:26-28 `len`,
src/index/rw/rw_lock_slice_vector.rs:31-33 `as_owner`, src/index/rw/rw_lock_slice_vector.rs:35-37 `into_owner`,
src/index/rw/rw_lock_slice_vector.rs:41-44 `into`, src/index/rw/rw_lock_slice_vector.rs:48-55 `from`, holds the same rows. -/
structure RwData (E D : Type) where
  elements : Elements E D
  current : Rows
  prev : List Rows
  config : BuildConfig D
  maxElements : Nat

/-- `FixedWidthSliceVector::resize(num, UNUSED)` on rows of width `w` (src/slice_vector/mod.rs:170-173). -/
def resizeRows (w num : Nat) (rows : Rows) : Rows :=
  rows.take num ++ List.replicate (num - rows.length) (List.replicate w UNUSED)

/-- src/index/rw/mod.rs:38-60, after the build: take the last layer off and make room in it. -/
def RwData.ofBuilder (b : Builder E D) (maxElements : Nat) : RwData E D :=
  let current := match b.layers.getLast? with
    | some l => l.rows
    | none => []
  let prev := b.layers.dropLast.map Layer.rows
  { elements := b.elements
    current := resizeRows b.config.numNeighbors (max current.length (b.config.schedule maxElements prev.length)) current
    prev := prev
    config := b.config
    maxElements := maxElements }

/-- src/index/rw/mod.rs:32-61 `new(builder, max_elements, num_threads)`: possible outcomes, `none` is a panic. -/
inductive RwNew (srt : List (Nat × D) → List (Nat × D)) (b : Builder E D) (maxElements : Nat) :
    Option (RwData E D) → Prop
  | panic : Build srt { b with config := { b.config with expectedNumElements := some maxElements } } none →
      RwNew srt b maxElements none
  | ok (b' : Builder E D) :
      Build srt { b with config := { b.config with expectedNumElements := some maxElements } } (some b') →
      RwNew srt b maxElements (some (.ofBuilder b' maxElements))

/-- src/index/rw/mod.rs:118-135: start a new layer when the current one is full. -/
def RwData.grow (d : RwData E D) : RwData E D :=
  if d.current.length ≤ d.elements.data.length then
    { d with
      prev := d.prev ++ [d.current]
      current := resizeRows d.config.numNeighbors (d.config.schedule d.maxElements (d.prev.length + 1)) d.current }
  else d

/-- src/index/rw/mod.rs:141-148: how many elements fit, and appending them. Returns the new ids and what remains. -/
def RwData.append (d : RwData E D) (batch : List E) : RwData E D × List Nat × List E :=
  let num := min batch.length (d.current.length - d.elements.data.length)
  ({ d with elements := { d.elements with data := d.elements.data ++ batch.take num } },
    (List.range num).map (d.elements.data.length + ·), batch.drop num)

/-- The configuration `index_element` is called with (src/index/rw/mod.rs:162, 167): that of the bottom layer. -/
def RwData.layerConfig (d : RwData E D) : LayerConfig D where
  numNeighbors := d.config.numNeighbors
  maxSearch := d.config.maxSearch
  eps := d.config.eps

/-- src/index/rw/mod.rs:154-169: the tasks that index the new elements. -/
def RwData.tasks (d : RwData E D) (srt : List (Nat × D) → List (Nat × D)) (ids : List Nat) : List (Prog Unit) :=
  ids.map (indexElement d.layerConfig d.elements srt (d.prev.map graphOf) d.current.length)

/-- The layers `write` saves (src/index/rw/mod.rs:82-95), given the rows read from the current layer. -/
def RwData.savedLayers (d : RwData E D) (rows : Rows) : List Rows :=
  if d.elements.data.length = 0 then [] else d.prev ++ [rows]

/-- The state of one `insert_batch` call: the elements passed in, those not yet inserted, the ids so far, and how many
guards of `write_lock` the surrounding (recursive) calls hold. -/
structure Ins (E : Type) where
  batch : List E
  todo : List E
  got : List Nat
  outer : Nat

/-- Program counter and local variables of a thread executing one call. -/
inductive RwThread (E D : Type) where
  /-- line 104 -/
  | insCheck (f : Ins E)
  /-- line 109 -/
  | insWantW (f : Ins E)
  /-- line 113 -/
  | insWantE (f : Ins E) (queued : Bool)
  /-- line 114; `elements` is locked exclusively -/
  | insWantL (f : Ins E) (queued : Bool)
  /-- lines 115-148; `elements` and `layers` are locked exclusively -/
  | insCrit (f : Ins E)
  /-- lines 150-169; both locks are downgraded -/
  | insIndex (f : Ins E) (tasks : List (Prog Unit))
  /-- line 174: the guard of `elements` is dropped first -/
  | insHoldL (f : Ins E)
  /-- line 182: drops the guards of `write_lock`, innermost call first -/
  | insReturn (f : Ins E)
  /-- the call has returned `f.got` -/
  | inserted (f : Ins E)
  /-- line 72 -/
  | wrWantW (queued : Bool)
  /-- line 74; `write_lock` is locked exclusively -/
  | wrWantE
  /-- line 75 -/
  | wrWantL
  /-- lines 77-78 -/
  | wrElems
  /-- lines 80-96: elements written, and the rows of the current layer read so far -/
  | wrRows (els : List E) (rows : Rows)
  /-- `layers` is dropped first -/
  | wrDropL (els : List E) (layers : List Rows)
  | wrDropE (els : List E) (layers : List Rows)
  | wrDropW (els : List E) (layers : List Rows)
  /-- the call has returned; this was written -/
  | wrote (els : List E) (layers : List Rows)
  /-- line 190 -/
  | seWantE (q : E) (ms k : Nat)
  /-- line 191 -/
  | seWantL (q : E) (ms k : Nat)
  /-- lines 193-203 -/
  | seRun (q : E) (ms k : Nat) (p : Prog (List (Nat × D)))
  | seDropL (q : E) (ms k : Nat) (res : List (Nat × D))
  | seDropE (q : E) (ms k : Nat) (res : List (Nat × D))
  /-- the call has returned `res` -/
  | found (q : E) (ms k : Nat) (res : List (Nat × D))
  /-- lines 210, 214 and 218: wants to read the elements; `next` is a search that will be made while they are being read -/
  | loWantE (next : Option (E × Nat × Nat))
  /-- holds the guard of `elements` and sees these elements -/
  | loHold (next : Option (E × Nat × Nat)) (els : List E)
  /-- the guard has been dropped; these elements were seen -/
  | looked (els : List E)
  /-- a panic; all guards are dropped while unwinding -/
  | panicked

/-- The call has returned (or panicked). -/
def RwThread.finished : RwThread E D → Prop
  | inserted _ | wrote _ _ | found _ _ _ _ | looked _ | panicked => True
  | _ => False

/-- The calls: `insert_batch(batch)` (line 103; `insert(e)`, src/index/rw/mod.rs:99-101, is `insert_batch([e])` with the
single id, if any, taken out of the result), `write` (line 70), `search(q, ms, k)` (line 184), and looking at the elements:
`get_elements()` (src/index/rw/mod.rs:209-211; the caller reads through the guard and drops it), `get_element(i)`
(src/index/rw/mod.rs:213-215), `len()` (src/index/rw/mod.rs:217-219) and `is_empty()` (src/index/rw/mod.rs:221-223) do
this. `get_element(i)` returns element number `i` of what is seen, or panics if there is none; the guard of the last three
is dropped before they return. `look (some (q, ms, k))` is a caller of `get_elements()` that calls `search(q, ms, k)`
while it still has the guard (any `q`, so also one that depends on what is seen). -/
inductive RwCall (E : Type) where
  | insert (batch : List E)
  | write
  | search (q : E) (ms k : Nat)
  | look (next : Option (E × Nat × Nat))

/-- Where a call starts. -/
def RwCall.start : RwCall E → RwThread E D
  | insert batch => .insCheck ⟨batch, batch, [], 0⟩
  | write => .wrWantW false
  | search q ms k => .seWantE q ms k
  | look next => .loWantE next

/-- Holds `write_lock` shared. -/
def RwThread.wShared : RwThread E D → Prop
  | insCheck f | insWantW f | insReturn f => 0 < f.outer
  | insWantE _ _ | insWantL _ _ | insCrit _ | insIndex _ _ | insHoldL _ => True
  | _ => False

/-- Holds `write_lock` exclusively. -/
def RwThread.wExcl : RwThread E D → Prop
  | wrWantE | wrWantL | wrElems | wrRows _ _ | wrDropL _ _ | wrDropE _ _ | wrDropW _ _ => True
  | _ => False

/-- Waits for `write_lock` exclusively. -/
def RwThread.wQueued : RwThread E D → Prop
  | wrWantW q => q = true
  | _ => False

/-- Holds `elements` shared. -/
def RwThread.eShared : RwThread E D → Prop
  | insIndex _ _ | wrWantL | wrElems | wrRows _ _ | wrDropL _ _ | wrDropE _ _
  | seWantL _ _ _ | seRun _ _ _ _ | seDropL _ _ _ _ | seDropE _ _ _ _ | loHold _ _ => True
  | _ => False

/-- Holds `elements` exclusively. -/
def RwThread.eExcl : RwThread E D → Prop
  | insWantL _ _ | insCrit _ => True
  | _ => False

/-- Waits for `elements` exclusively. -/
def RwThread.eQueued : RwThread E D → Prop
  | insWantE _ q => q = true
  | _ => False

/-- Holds `layers` shared. -/
def RwThread.lShared : RwThread E D → Prop
  | insIndex _ _ | insHoldL _ | wrElems | wrRows _ _ | wrDropL _ _ | seRun _ _ _ _ | seDropL _ _ _ _ => True
  | _ => False

/-- Holds `layers` exclusively. -/
def RwThread.lExcl : RwThread E D → Prop
  | insCrit _ => True
  | _ => False

/-- Waits for `layers` exclusively. -/
def RwThread.lQueued : RwThread E D → Prop
  | insWantL _ q => q = true
  | _ => False

/-- The shared data and all threads. -/
structure Rw (E D : Type) where
  data : RwData E D
  threads : List (RwThread E D)

/-- No thread other than `t` satisfies `P`. -/
def Rw.NoOther (s : Rw E D) (t : Nat) (P : RwThread E D → Prop) : Prop :=
  ∀ (u : Nat) (th : RwThread E D), u ≠ t → s.threads[u]? = some th → ¬ P th

/-- The entry point of a search in the current layer (src/index/rw/mod.rs:193-206): `none` is a panic, `some none` an
empty result. -/
def RwData.entry (d : RwData E D) (q : E) : Option (Option Nat) :=
  match search (d.prev.map graphOf) d.elements q 1 1 with
  | none => none
  | some r => some (r.head?.map Prod.fst)

/-- One step of thread `t`, which is at `th`: the data and the thread afterwards. -/
inductive Rw.Local (srt : List (Nat × D) → List (Nat × D)) (s : Rw E D) (t : Nat) :
    RwThread E D → RwData E D → RwThread E D → Prop
  /-- lines 104-106: `elements.read().len() >= max_elements` -/
  | full (f : Ins E) : s.NoOther t RwThread.eExcl → s.NoOther t RwThread.eQueued →
      s.data.maxElements ≤ s.data.elements.data.length → Local srt s t (.insCheck f) s.data (.insReturn f)
  | room (f : Ins E) : s.NoOther t RwThread.eExcl → s.NoOther t RwThread.eQueued →
      s.data.elements.data.length < s.data.maxElements → Local srt s t (.insCheck f) s.data (.insWantW f)
  /-- line 109: `write_lock.read()` -/
  | takeW (f : Ins E) : s.NoOther t RwThread.wExcl → s.NoOther t RwThread.wQueued →
      Local srt s t (.insWantW f) s.data (.insWantE { f with outer := f.outer + 1 } false)
  /-- line 113: `elements.write()` -/
  | queueE (f : Ins E) : Local srt s t (.insWantE f false) s.data (.insWantE f true)
  | takeE (f : Ins E) : s.NoOther t RwThread.eExcl → s.NoOther t RwThread.eShared →
      Local srt s t (.insWantE f true) s.data (.insWantL f false)
  /-- line 114: `layers.write()` -/
  | queueL (f : Ins E) : Local srt s t (.insWantL f false) s.data (.insWantL f true)
  | takeL (f : Ins E) : s.NoOther t RwThread.lExcl → s.NoOther t RwThread.lShared →
      Local srt s t (.insWantL f true) s.data (.insCrit f)
  /-- the assertion of line 137 fails; the new layer stays -/
  | assertFails (f : Ins E) : s.data.grow.current.length < s.data.grow.elements.data.length →
      Local srt s t (.insCrit f) s.data.grow .panicked
  /-- lines 118-152 -/
  | reserve (f : Ins E) : s.data.grow.elements.data.length ≤ s.data.grow.current.length →
      Local srt s t (.insCrit f) (s.data.grow.append f.todo).1
        (.insIndex { f with
            got := f.got ++ (s.data.grow.append f.todo).2.1
            todo := (s.data.grow.append f.todo).2.2 }
          ((s.data.grow.append f.todo).1.tasks srt (s.data.grow.append f.todo).2.1))
  /-- lines 159-169: some task takes a step -/
  | task (f : Ins E) (tasks : List (Prog Unit)) (i : Nat) (p p' : Prog Unit) (rows' : Rows) :
      tasks[i]? = some p → p.step s.data.current = some (rows', p') →
      Local srt s t (.insIndex f tasks) { s.data with current := rows' } (.insIndex f (tasks.set i p'))
  /-- a task has panicked -/
  | taskPanics (f : Ins E) (tasks : List (Prog Unit)) : Prog.fail ∈ tasks →
      Local srt s t (.insIndex f tasks) s.data .panicked
  | dropE (f : Ins E) (tasks : List (Prog Unit)) : (∀ p ∈ tasks, p = Prog.ret ()) →
      Local srt s t (.insIndex f tasks) s.data (.insHoldL f)
  /-- lines 174-179: drop `layers`, insert the rest -/
  | rest (f : Ins E) : f.todo ≠ [] → Local srt s t (.insHoldL f) s.data (.insCheck f)
  | noRest (f : Ins E) : f.todo = [] → Local srt s t (.insHoldL f) s.data (.insReturn f)
  /-- line 182 -/
  | dropW (f : Ins E) (k : Nat) : f.outer = k + 1 →
      Local srt s t (.insReturn f) s.data (.insReturn { f with outer := k })
  | done (f : Ins E) : f.outer = 0 → Local srt s t (.insReturn f) s.data (.inserted f)
  /-- line 72: `write_lock.write()` -/
  | wrQueue : Local srt s t (.wrWantW false) s.data (.wrWantW true)
  | wrTakeW : s.NoOther t RwThread.wExcl → s.NoOther t RwThread.wShared →
      Local srt s t (.wrWantW true) s.data .wrWantE
  /-- line 74: `elements.read()` -/
  | wrTakeE : s.NoOther t RwThread.eExcl → s.NoOther t RwThread.eQueued → Local srt s t .wrWantE s.data .wrWantL
  /-- line 75: `layers.read()` -/
  | wrTakeL : s.NoOther t RwThread.lExcl → s.NoOther t RwThread.lQueued → Local srt s t .wrWantL s.data .wrElems
  /-- lines 77-78: the elements are written -/
  | wrElements : Local srt s t .wrElems s.data (.wrRows s.data.elements.data [])
  /-- lines 82-90: one more row of the current layer is read -/
  | wrRow (els : List E) (rows : Rows) (row : Row) : rows.length < s.data.elements.data.length →
      s.data.current[rows.length]? = some row → Local srt s t (.wrRows els rows) s.data (.wrRows els (rows ++ [row]))
  | wrRowPanics (els : List E) (rows : Rows) : rows.length < s.data.elements.data.length →
      s.data.current[rows.length]? = none → Local srt s t (.wrRows els rows) s.data .panicked
  | wrIndex (els : List E) (rows : Rows) : rows.length = s.data.elements.data.length →
      Local srt s t (.wrRows els rows) s.data (.wrDropL els (s.data.savedLayers rows))
  | wrDropL (els : List E) (layers : List Rows) : Local srt s t (.wrDropL els layers) s.data (.wrDropE els layers)
  | wrDropE (els : List E) (layers : List Rows) : Local srt s t (.wrDropE els layers) s.data (.wrDropW els layers)
  | wrDropW (els : List E) (layers : List Rows) : Local srt s t (.wrDropW els layers) s.data (.wrote els layers)
  /-- line 190: `elements.read()` -/
  | seTakeE (q : E) (ms k : Nat) : s.NoOther t RwThread.eExcl → s.NoOther t RwThread.eQueued →
      Local srt s t (.seWantE q ms k) s.data (.seWantL q ms k)
  /-- line 191: `layers.read()`, and lines 193-198: the search in the finished layers -/
  | seTakeL (q : E) (ms k : Nat) (entry : Nat) : s.NoOther t RwThread.lExcl → s.NoOther t RwThread.lQueued →
      s.data.entry q = some (some entry) →
      Local srt s t (.seWantL q ms k) s.data
        (.seRun q ms k (searchForNeighbors s.data.current.length entry (s.data.elements.distTo q) ms))
  /-- lines 204-206: nothing found in the finished layers -/
  | seNothing (q : E) (ms k : Nat) : s.NoOther t RwThread.lExcl → s.NoOther t RwThread.lQueued →
      s.data.entry q = some none → Local srt s t (.seWantL q ms k) s.data (.seDropL q ms k [])
  | seEntryPanics (q : E) (ms k : Nat) : s.NoOther t RwThread.lExcl → s.NoOther t RwThread.lQueued →
      s.data.entry q = none → Local srt s t (.seWantL q ms k) s.data .panicked
  /-- line 199: the search in the current layer takes a step (it only reads: the rows after the step are those before) -/
  | seStep (q : E) (ms k : Nat) (p p' : Prog (List (Nat × D))) (rows' : Rows) :
      p.step s.data.current = some (rows', p') →
      Local srt s t (.seRun q ms k p) { s.data with current := rows' } (.seRun q ms k p')
  | sePanics (q : E) (ms k : Nat) : Local srt s t (.seRun q ms k .fail) s.data .panicked
  /-- lines 200-203 -/
  | seResult (q : E) (ms k : Nat) (r : List (Nat × D)) :
      Local srt s t (.seRun q ms k (.ret r)) s.data (.seDropL q ms k (r.take k))
  | seDropL (q : E) (ms k : Nat) (r : List (Nat × D)) : Local srt s t (.seDropL q ms k r) s.data (.seDropE q ms k r)
  | seDropE (q : E) (ms k : Nat) (r : List (Nat × D)) : Local srt s t (.seDropE q ms k r) s.data (.found q ms k r)
  /-- lines 210, 214, 218: `elements.read()` -/
  | loTake (next : Option (E × Nat × Nat)) : s.NoOther t RwThread.eExcl → s.NoOther t RwThread.eQueued →
      Local srt s t (.loWantE next) s.data (.loHold next s.data.elements.data)
  | loDrop (els : List E) : Local srt s t (.loHold none els) s.data (.looked els)
  /-- line 190, called by a thread that has a guard of `elements` already (both are dropped when the search is done) -/
  | loSearch (q : E) (ms k : Nat) (els : List E) : s.NoOther t RwThread.eExcl → s.NoOther t RwThread.eQueued →
      Local srt s t (.loHold (some (q, ms, k)) els) s.data (.seWantL q ms k)

/-- One step of the system. -/
inductive Rw.Step (srt : List (Nat × D) → List (Nat × D)) : Rw E D → Rw E D → Prop
  | mk (s : Rw E D) (t : Nat) (th th' : RwThread E D) (d' : RwData E D) : s.threads[t]? = some th →
      Rw.Local srt s t th d' th' → Rw.Step srt s ⟨d', s.threads.set t th'⟩

/-- All `calls` are about to be made. -/
def Rw.start (d : RwData E D) (calls : List (RwCall E)) : Rw E D := ⟨d, calls.map RwCall.start⟩

/-- Any number of steps. -/
inductive Rw.Steps (srt : List (Nat × D) → List (Nat × D)) : Rw E D → Rw E D → Prop
  | refl (s : Rw E D) : Rw.Steps srt s s
  | tail {s t u : Rw E D} : Rw.Steps srt s t → Rw.Step srt t u → Rw.Steps srt s u

end Granne
