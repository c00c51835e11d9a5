import Verif.Heap.Model
/-
Model of /repo/queue: queue.go, item.go, subqueue.go, bury_queue.go, dependency_queue.go.

Conventions
* An `*Item` is its `iid` (item.go:44-46,110), a natural number; `store` maps it to the item's fields.
* Every exported method of `Queue` holds `queue.mutex` while it works, so each is one atomic step.  The clock read
  inside a step is the step's parameter `now`; all reads inside one step are taken to be equal.
* `none` is a Go panic (index out of range).
* Go `map`s are association lists.  Iteration order of a Go map is unspecified: where it matters (`Remove`) the step
  takes the order as a parameter.
* The `switch*` methods of an item (item.go:297-402) run before the push to the new sub-queue in the model; in the
  code some run after it.  They commute: push reads only the order fields of the destination (subqueue.go:239-257),
  which no `switch*` method writes.  The `queueIndexes[k] = -1` lines of those methods are left out, because the
  removal that precedes each of them has already recorded -1.
* `time.Duration` and `time.Time` are integers (nanoseconds); the zero `time.Time` is `none`.  `uint8` and `uint32`
  counters are naturals.  Item data is an opaque natural.
* Waiting inside `Reserve` (queue.go:945-958) is not part of a step: a waiting call is a failed step and, when woken,
  another one.
-/
namespace Verif.Queue
open Verif.Heap

/-- item.go:34-42 `ItemState`. -/
inductive State | delay | ready | run | bury | dependent | removed
  deriving DecidableEq, Repr

/-- item.go:50-72 `Item` (without its mutex; `queueIndexes` lives with the sub-queues). -/
structure Item where
  key : String := ""
  group : String := ""
  data : Nat := 0
  state : State := .removed
  reserves : Nat := 0
  timeouts : Nat := 0
  releases : Nat := 0
  buries : Nat := 0
  kicks : Nat := 0
  priority : Nat := 0
  size : Nat := 0
  delay : Int := 0
  ttr : Int := 0
  readyAt : Option Int := none
  releaseAt : Option Int := none
  creation : Int := 0
  dependencies : List String := []
  remaining : List String := []
  deriving Repr

/-- Go `time.Time.Before`, the zero time (`none`) being before every other time. -/
def before : Option Int → Option Int → Bool
  | none, some _ => true
  | some a, some b => decide (a < b)
  | _, none => false

/-- Association lists as Go maps: lookup, delete, assign. -/
def mget {β : Type} (m : List (String × β)) (k : String) : Option β := m.lookup k
def mdel {β : Type} (m : List (String × β)) (k : String) : List (String × β) := m.filter (fun p => p.1 ≠ k)
def mset {β : Type} (m : List (String × β)) (k : String) (v : β) : List (String × β) := (k, v) :: mdel m k

/-- queue.go:161-186 `Queue` with its five sub-queues (subqueue.go:32-39, bury_queue.go, dependency_queue.go).
`ready` and `readyIdx` are the grouped sub-queue (`groupedItems`, `queueIndexes[1]`); `cursor` is its field
`reserveGroup` (subqueue.go:37), which selects the group that the heap functions work on. -/
structure Q where
  closed : Bool := false
  store : Nat → Item := fun _ => {}
  next : Nat := 0
  items : List (String × Nat) := []
  delay : IHeap := ⟨[], fun _ => 0⟩
  run : IHeap := ⟨[], fun _ => 0⟩
  bury : IHeap := ⟨[], fun _ => 0⟩
  dep : IHeap := ⟨[], fun _ => 0⟩
  ready : String → List Nat := fun _ => []
  readyIdx : Nat → Int := fun _ => 0
  cursor : String := ""
  dependants : List (String × List (String × Nat)) := []

/-- queue.go:212-238 `New`. -/
def new : Q := {}

/-- queue.go:624-637 `Get`, the item found under a key. -/
def Q.find (q : Q) (k : String) : Option Nat := mget q.items k

/-! ### Orders (subqueue.go:239-257) -/

/-- subqueue.go:241-242: delay sub-queue, earliest `readyAt` first. -/
def lessDelay (st : Nat → Item) (a b : Nat) : Bool := before (st a).readyAt (st b).readyAt

/-- subqueue.go:243-252: ready sub-queue, highest priority, then largest size, then oldest. -/
def lessReady (st : Nat → Item) (a b : Nat) : Bool :=
  if (st a).priority = (st b).priority then
    if (st a).size = (st b).size then decide ((st a).creation < (st b).creation)
    else decide ((st a).size > (st b).size)
  else decide ((st a).priority > (st b).priority)

/-- subqueue.go:256: run sub-queue, earliest `releaseAt` first. -/
def lessRun (st : Nat → Item) (a b : Nat) : Bool := before (st a).releaseAt (st b).releaseAt

/-! ### Item updates -/

/-- Assign to the fields of item `i`. -/
def Q.mod (q : Q) (i : Nat) (f : Item → Item) : Q :=
  { q with store := fun x => if x = i then f (q.store i) else q.store x }

/-- item.go:257-261 `restart`. -/
def Item.restart (now : Int) (it : Item) : Item := { it with readyAt := some (now + it.delay) }
/-- item.go:265-269 `touch`. -/
def Item.touch (now : Int) (it : Item) : Item := { it with releaseAt := some (now + it.ttr) }
/-- item.go:272-276 `isready`. -/
def Item.isready (now : Int) (it : Item) : Bool := before it.readyAt (some now)
/-- item.go:279-286 `releasable`. -/
def Item.releasable (now : Int) (it : Item) : Bool :=
  match it.releaseAt with
  | none => false
  | some t => decide (t < now)
/-- 8760 hours in nanoseconds. -/
def year : Int := 8760 * 3600 * 1000000000
/-- item.go:290-294 `tempDisableTTR`. -/
def Item.tempDisableTTR (now : Int) (it : Item) : Item := { it with releaseAt := some (now + year) }
/-- item.go:297-303 `switchDelayReady`. -/
def Item.switchDelayReady (it : Item) : Item := { it with readyAt := none, state := .ready }
/-- item.go:306-312 `switchDelayDependent`. -/
def Item.switchDelayDependent (it : Item) : Item := { it with readyAt := none, state := .dependent }
/-- item.go:315-320 `switchDependentReady`. -/
def Item.switchDependentReady (it : Item) : Item := { it with state := .ready }
/-- item.go:323-329 `switchReadyRun`. -/
def Item.switchReadyRun (it : Item) : Item := { it with reserves := it.reserves + 1, state := .run }
/-- item.go:332-337 `switchReadyDependent`. -/
def Item.switchReadyDependent (it : Item) : Item := { it with state := .dependent }
/-- item.go:340-347 `switchRunReady`. -/
def Item.switchRunReady (it : Item) : Item :=
  { it with releaseAt := none, timeouts := it.timeouts + 1, state := .ready }
/-- item.go:350-361 `switchRunDelay`. -/
def Item.switchRunDelay (timedOut : Bool) (it : Item) : Item :=
  if timedOut then { it with releaseAt := none, timeouts := it.timeouts + 1, state := .delay }
  else { it with releaseAt := none, releases := it.releases + 1, state := .delay }
/-- item.go:364-374 `switchRunBury`. -/
def Item.switchRunBury (timedOut : Bool) (it : Item) : Item :=
  if timedOut then { it with releaseAt := none, timeouts := it.timeouts + 1, buries := it.buries + 1, state := .bury }
  else { it with releaseAt := none, buries := it.buries + 1, state := .bury }
/-- item.go:377-384 `switchRunDependent`. -/
def Item.switchRunDependent (it : Item) : Item :=
  { it with releaseAt := none, releases := it.releases + 1, state := .dependent }
/-- item.go:387-393 `switchBuryReady`. -/
def Item.switchBuryReady (it : Item) : Item := { it with kicks := it.kicks + 1, state := .ready }
/-- item.go:396-402 `switchBuryDependent`. -/
def Item.switchBuryDependent (it : Item) : Item := { it with kicks := it.kicks + 1, state := .dependent }
/-- item.go:405-417 `removalCleanup`. -/
def Item.removalCleanup (it : Item) : Item := { it with releaseAt := none, readyAt := none, state := .removed }

/-- item.go:231-239 `setDependencies` (`remainingDeps` is a set: first occurrences only). -/
def Item.setDependencies (deps : List String) (it : Item) : Item :=
  { it with dependencies := deps, remaining := deps.eraseDups }

/-- item.go:245-248 the deletion in `resolveDependency`. -/
def Item.resolve (k : String) (it : Item) : Item := { it with remaining := it.remaining.filter (· ≠ k) }

/-- item.go:213-218: replace the first matching dependency only (`break`). -/
def replaceFirst (old new : String) : List String → List String
  | [] => []
  | d :: ds => if d = old then new :: ds else d :: replaceFirst old new ds

/-- item.go:206-226 `ChangedKey`: an item that is itself renamed returns before its dependencies are looked at. -/
def Item.changedKey (old new : String) (it : Item) : Item :=
  if it.key = old then { it with key := new }
  else { it with
    dependencies := replaceFirst old new it.dependencies
    remaining := if old ∈ it.remaining then new :: it.remaining.filter (fun d => d ≠ old ∧ d ≠ new) else it.remaining }

/-! ### Sub-queues -/

/-- bury_queue.go:37-42, dependency_queue.go:41-46 `push`. -/
def slPush (h : IHeap) (i : Nat) : IHeap := h.rawPush i

/-- bury_queue.go:57-75, dependency_queue.go:61-79 `remove`: when there is only one item the slice becomes empty
whatever that item is; otherwise the last item is copied over position `thisi`. -/
def slRemove (h : IHeap) (i : Nat) : Option IHeap :=
  if h.arr.length = 1 then some { arr := [], idx := upd h.idx i (-1) }
  else
    let thisi := h.idx i
    if thisi < 0 ∨ (h.arr.length : Int) ≤ thisi then none
    else match h.arr.getLast? with
      | none => none
      | some l =>
        some { arr := (h.arr.set thisi.toNat l).dropLast, idx := upd (upd h.idx l thisi) i (-1) }

/-- The heap of one group of the ready sub-queue. -/
def Q.rheap (q : Q) (g : String) : IHeap := ⟨q.ready g, q.readyIdx⟩

/-- Store back the heap of one group. -/
def Q.setR (q : Q) (g : String) (h : IHeap) : Q :=
  { q with ready := fun x => if x = g then h.arr else q.ready x, readyIdx := h.idx }

/-- subqueue.go:117-125 `push` on the ready sub-queue. -/
def Q.pushReady (q : Q) (i : Nat) : Q :=
  let g := (q.store i).group
  { q.setR g (push (lessReady q.store) (q.rheap g) i) with cursor := g }

/-- subqueue.go:117-125 `push` on the delay sub-queue. -/
def Q.pushDelay (q : Q) (i : Nat) : Q := { q with delay := push (lessDelay q.store) q.delay i }
/-- subqueue.go:117-125 `push` on the run sub-queue. -/
def Q.pushRun (q : Q) (i : Nat) : Q := { q with run := push (lessRun q.store) q.run i }
/-- bury_queue.go:37-42. -/
def Q.pushBury (q : Q) (i : Nat) : Q := { q with bury := slPush q.bury i }
/-- dependency_queue.go:41-46. -/
def Q.pushDep (q : Q) (i : Nat) : Q := { q with dep := slPush q.dep i }

/-- subqueue.go:152-159 `remove` on the delay sub-queue. -/
def Q.removeDelay (q : Q) (i : Nat) : Option Q :=
  (removeAt (lessDelay q.store) q.delay (q.delay.idx i)).map fun r => { q with delay := r.2 }
/-- subqueue.go:152-159 `remove` on the run sub-queue. -/
def Q.removeRun (q : Q) (i : Nat) : Option Q :=
  (removeAt (lessRun q.store) q.run (q.run.idx i)).map fun r => { q with run := r.2 }
/-- subqueue.go:152-159 `remove` on the ready sub-queue: group of the item at the time of the call. -/
def Q.removeReadyFrom (q : Q) (g : String) (i : Nat) : Option Q :=
  (removeAt (lessReady q.store) (q.rheap g) (q.readyIdx i)).map fun r => { q.setR g r.2 with cursor := g }
def Q.removeReady (q : Q) (i : Nat) : Option Q := q.removeReadyFrom (q.store i).group i
/-- bury_queue.go:57-75. -/
def Q.removeBury (q : Q) (i : Nat) : Option Q := (slRemove q.bury i).map fun h => { q with bury := h }
/-- dependency_queue.go:61-79. -/
def Q.removeDep (q : Q) (i : Nat) : Option Q := (slRemove q.dep i).map fun h => { q with dep := h }

/-- subqueue.go:197-209 `update` on the delay sub-queue. -/
def Q.fixDelay (q : Q) (i : Nat) : Option Q :=
  (fix (lessDelay q.store) q.delay (q.delay.idx i)).map fun h => { q with delay := h }
/-- subqueue.go:197-209 `update` on the run sub-queue. -/
def Q.fixRun (q : Q) (i : Nat) : Option Q :=
  (fix (lessRun q.store) q.run (q.run.idx i)).map fun h => { q with run := h }
/-- subqueue.go:197-209 `update(item, oldGroup)` on the ready sub-queue.  When the group did not change the code calls
`heap.Fix` without setting `reserveGroup`: it fixes whichever group was used last (`cursor`). -/
def Q.updateReady (q : Q) (i : Nat) (oldGroup : String) : Option Q :=
  if oldGroup ≠ (q.store i).group then (q.removeReadyFrom oldGroup i).map fun q' => q'.pushReady i
  else (fix (lessReady q.store) (q.rheap q.cursor) (q.readyIdx i)).map fun h => q.setR q.cursor h

/-! ### Results -/

/-- queue.go:104-112. -/
inductive Err | queueClosed | nothingReady | alreadyExists | notFound | notRunning | notBuried
  deriving DecidableEq, Repr

/-- What a call returns. -/
inductive Res
  | ok
  | err (e : Err)
  | item (i : Nat)
  | counts (added dups : Nat)
  deriving DecidableEq, Repr

/-- queue.go:92-100: the sub-queue names passed to the changed callback. -/
inductive SubQ | new | delay | ready | run | bury | dependent | removed
  deriving DecidableEq, Repr

/-- One call of `queue.changed(from, to, items)` (queue.go:324-333). -/
structure Ev where
  src : SubQ
  dst : SubQ
  who : List Nat
  deriving DecidableEq, Repr

/-- Result of a step: new state, returned value, changed-callback calls, and whether `readyAdded` was called. -/
structure Out where
  q : Q
  res : Res
  evs : List Ev := []
  readyAdded : Bool := false

/-! ### Adding -/

/-- queue.go:199-208 `ItemDef` (plus the size of AddWithSize). -/
structure Def where
  key : String
  group : String := ""
  data : Nat := 0
  priority : Nat := 0
  size : Nat := 0
  delay : Int := 0
  ttr : Int := 0
  /-- `some true` = SubQueueRun, `some false` = SubQueueBury, `none` = anything else -/
  start : Option Bool := none
  deps : List String := []

/-- item.go:94-112 `newItem` (and `item.size = size`, queue.go:434). -/
def mkItem (d : Def) (now : Int) : Item :=
  { key := d.key, group := d.group, data := d.data, state := .delay, priority := d.priority, size := d.size,
    delay := d.delay, ttr := d.ttr, readyAt := some (now + d.delay), creation := now }

/-- queue.go:512-519 `setQueueDeps`. -/
def setQueueDeps (m : List (String × List (String × Nat))) (key : String) (i : Nat) (deps : List String) :
    List (String × List (String × Nat)) :=
  deps.foldl (fun m d => mset m d (mset ((mget m d).getD []) key i)) m

/-- queue.go:441-480 `handleItemForAdd` and the body of the loop of `AddMany` (queue.go:563-598).  `many` says which:
`AddMany` counts a reservation for an item that starts buried, `Add` does not. Returns the sub-queue entered. -/
def Q.place (q : Q) (i : Nat) (d : Def) (now : Int) (many : Bool) : Q × SubQ :=
  if d.deps ≠ [] then
    let q := q.mod i (Item.setDependencies d.deps)
    let q := { q with dependants := setQueueDeps q.dependants d.key i d.deps }
    ((q.mod i Item.switchDelayDependent).pushDep i, .dependent)
  else match d.start with
  | some true => ((q.mod i fun it => ((it.switchDelayReady).touch now).switchReadyRun).pushRun i, .run)
  | some false =>
    ((q.mod i fun it =>
      if many then ((it.switchDelayReady).switchReadyRun).switchRunBury false
      else (it.switchDelayReady).switchRunBury false).pushBury i, .bury)
  | none =>
    if d.delay = 0 then ((q.mod i Item.switchDelayReady).pushReady i, .ready)
    else (q.pushDelay i, .delay)

/-- queue.go:433-435, 563-564: create the item and enter it in the map. -/
def Q.create (q : Q) (d : Def) (now : Int) : Q :=
  { (q.mod q.next fun _ => mkItem d now) with items := mset q.items d.key q.next, next := q.next + 1 }

/-- queue.go:410-418 `Add`, 486-495 `AddWithSize`. -/
def Q.add (q : Q) (d : Def) (now : Int) : Out :=
  if q.closed then ⟨q, .err .queueClosed, [], false⟩
  else if (q.find d.key).isSome then ⟨q, .err .alreadyExists, [], false⟩
  else
    let r := (q.create d now).place q.next d now false
    ⟨r.1, .item q.next, [⟨.new, r.2, [q.next]⟩], r.2 = .ready⟩

/-- queue.go:552-603: the loop of `AddMany`. Accumulates what was added to which sub-queue. -/
def Q.addLoop (now : Int) : Q → List Def → Nat → Nat → List (Nat × SubQ) → Q × Nat × Nat × List (Nat × SubQ)
  | q, [], a, u, l => (q, a, u, l)
  | q, d :: ds, a, u, l =>
    if (q.find d.key).isSome then Q.addLoop now q ds a (u + 1) l
    else
      let r := (q.create d now).place q.next d now true
      Q.addLoop now r.1 ds (a + 1) u (l ++ [(q.next, r.2)])

/-- queue.go:604-618: one event per sub-queue that received something. -/
def manyEvs (l : List (Nat × SubQ)) : List Ev :=
  [SubQ.ready, .delay, .dependent, .run, .bury].filterMap fun s =>
    let who := (l.filter (fun p => p.2 = s)).map (·.1)
    if who = [] then none else some ⟨.new, s, who⟩

/-- queue.go:536-621 `AddMany`. -/
def Q.addMany (q : Q) (ds : List Def) (now : Int) : Out :=
  if q.closed then ⟨q, .err .queueClosed, [], false⟩
  else
    let r := Q.addLoop now q (ds.map fun d => { d with size := 0 }) 0 0 []
    ⟨r.1, .counts r.2.1 r.2.2.1, manyEvs r.2.2.2, r.2.2.2.any (fun p => p.2 = .ready)⟩

/-! ### Changing -/

/-- queue.go:687-699: (dependencies to remove, number of new ones).  Each given dependency is deleted from the set of
old ones as it is met, so a repeated one counts as new. -/
def depDiff : List String → List String → List String × Nat
  | old, [] => (old, 0)
  | old, d :: ds =>
    let r := depDiff (old.filter (· ≠ d)) ds
    (r.1, if d ∈ old then r.2 else r.2 + 1)

/-- queue.go:703-710: drop `key` from the dependants of removed dependencies, if those are in the queue. -/
def dropDependants (q : Q) (key : String) (l : List String) : List (String × List (String × Nat)) :=
  l.foldl (fun m dep =>
    if (q.find dep).isSome then
      let inner := mdel ((mget m dep).getD []) key
      if inner = [] then mdel m dep else (if (mget m dep).isSome then mset m dep inner else m)
    else m) q.dependants

/-- queue.go:719-749: the sub-queue change of `Update`. Returns the state, what `changedFrom` became, `addedReady`. -/
def Q.updateMove (q : Q) (i : Nat) (deps : List String) : Option (Q × Option SubQ × Bool) :=
  if deps ≠ [] ∧ (q.store i).state ≠ .dependent then
    match (q.store i).state with
    | .delay => (q.removeDelay i).map fun q =>
        ((q.mod i Item.switchDelayDependent).pushDep i, some .delay, false)
    | .ready => (q.removeReady i).map fun q =>
        ((q.mod i Item.switchReadyDependent).pushDep i, some .ready, false)
    | .run => (q.removeRun i).map fun q =>
        ((q.mod i Item.switchRunDependent).pushDep i, some .run, false)
    | .bury => some (q, none, false)
    | _ => some (q.pushDep i, none, false)
  else if deps = [] then
    (q.removeDep i).map fun q => ((q.mod i Item.switchDependentReady).pushReady i, none, true)
  else some (q, none, false)

/-- queue.go:684-750: the dependency part of `Update`. -/
def Q.updateDeps (q : Q) (i : Nat) (key : String) (deps : List String) : Option (Q × Option SubQ × Bool) :=
  let df := depDiff (q.store i).remaining deps
  if df.1 ≠ [] ∨ 0 < df.2 then
    let q := { q with dependants := dropDependants q key df.1 }
    let q := q.mod i (Item.setDependencies deps)
    let q := { q with dependants := setQueueDeps q.dependants (q.store i).key i deps }
    q.updateMove i deps
  else some (q, none, false)

/-- queue.go:752-787: only the first of the three cases that applies is carried out. -/
def Q.updateFields (q : Q) (i : Nat) (group : String) (priority : Nat) (delay ttr : Int) (addedReady : Bool)
    (now : Int) : Option Q :=
  let it := q.store i
  if it.delay ≠ delay then
    let q := q.mod i fun it => { it with delay := delay }
    if it.state = .delay then (q.mod i (Item.restart now)).fixDelay i else some q
  else if it.priority ≠ priority ∨ it.group ≠ group ∨ addedReady = true then
    let q := q.mod i fun it => { it with priority := priority, group := group }
    if it.state = .ready then q.updateReady i it.group else some q
  else if it.ttr ≠ ttr then
    let q := q.mod i fun it => { it with ttr := ttr }
    if it.state = .run then (q.mod i (Item.touch now)).fixRun i else some q
  else some q

/-- queue.go:670-805 `Update`. -/
def Q.update (q : Q) (key group : String) (data priority : Nat) (delay ttr : Int) (deps : Option (List String))
    (now : Int) : Option Out :=
  if q.closed then some ⟨q, .err .queueClosed, [], false⟩
  else match q.find key with
  | none => some ⟨q, .err .notFound, [], false⟩
  | some i =>
    let q := q.mod i fun it => { it with data := data }
    match (match deps with
      | none => some (q, none, false)
      | some ds => q.updateDeps i key ds) with
    | none => none
    | some (q, from?, addedReady) =>
      match q.updateFields i group priority delay ttr addedReady now with
      | none => none
      | some q =>
        some ⟨q, .ok,
          (if addedReady then [⟨.dependent, .ready, [i]⟩] else []) ++
          (match from? with
            | none => []
            | some s => [⟨s, .dependent, [i]⟩]), addedReady⟩

/-- queue.go:832-841: the dependants lookup after a key change. An entry already present under `new` is overwritten. -/
def renameDependants (m : List (String × List (String × Nat))) (old new : String) :
    List (String × List (String × Nat)) :=
  let m := match mget m old with
    | none => m
    | some v => mset (mdel m old) new v
  m.map fun p => (p.1, match mget p.2 old with
    | none => p.2
    | some v => mset (mdel p.2 old) new v)

/-- queue.go:811-848 `ChangeKey`. -/
def Q.changeKey (q : Q) (old new : String) : Out :=
  if q.closed then ⟨q, .err .queueClosed, [], false⟩
  else if (q.find new).isSome then ⟨q, .err .alreadyExists, [], false⟩
  else match q.find old with
  | none => ⟨q, .err .notFound, [], false⟩
  | some i =>
    let items := mset (mdel q.items old) new i
    ⟨{ q with
        items := items
        dependants := renameDependants q.dependants old new
        store := fun x => if x ∈ items.map (·.2) then (q.store x).changedKey old new else q.store x },
      .ok, [], false⟩

/-- queue.go:851-879 `SetDelay`. -/
def Q.setDelay (q : Q) (key : String) (delay : Int) (now : Int) : Option Out :=
  if q.closed then some ⟨q, .err .queueClosed, [], false⟩
  else match q.find key with
  | none => some ⟨q, .err .notFound, [], false⟩
  | some i =>
    if (q.store i).delay ≠ delay then
      let q := q.mod i fun it => { it with delay := delay }
      if (q.store i).state = .delay then
        ((q.mod i (Item.restart now)).fixDelay i).map fun q => ⟨q, .ok, [], false⟩
      else some ⟨q, .ok, [], false⟩
    else some ⟨q, .ok, [], false⟩

/-- queue.go:882-910 `SetReserveGroup`. -/
def Q.setReserveGroup (q : Q) (key group : String) : Option Out :=
  if q.closed then some ⟨q, .err .queueClosed, [], false⟩
  else match q.find key with
  | none => some ⟨q, .err .notFound, [], false⟩
  | some i =>
    let old := (q.store i).group
    if old ≠ group then
      let q := q.mod i fun it => { it with group := group }
      if (q.store i).state = .ready then (q.updateReady i old).map fun q => ⟨q, .ok, [], false⟩
      else some ⟨q, .ok, [], false⟩
    else some ⟨q, .ok, [], false⟩

/-! ### Moving between sub-queues -/

/-- queue.go:933-977 `Reserve` with no wait (subqueue.go:128-149 `pop`). -/
def Q.reserve (q : Q) (group : String) (now : Int) : Option Out :=
  if q.closed then some ⟨q, .err .queueClosed, [], false⟩
  else if q.ready group = [] then some ⟨q, .err .nothingReady, [], false⟩
  else match pop (lessReady q.store) (q.rheap group) with
  | none => none
  | some (i, h) =>
    let q := { q.setR group h with cursor := group }
    some ⟨(q.mod i fun it => (it.touch now).switchReadyRun).pushRun i, .item i, [⟨.ready, .run, [i]⟩], false⟩

/-- queue.go:981-1010 `Touch`. -/
def Q.touch (q : Q) (key : String) (now : Int) : Option Out :=
  if q.closed then some ⟨q, .err .queueClosed, [], false⟩
  else match q.find key with
  | none => some ⟨q, .err .notFound, [], false⟩
  | some i =>
    if (q.store i).state ≠ .run then some ⟨q, .err .notRunning, [], false⟩
    else ((q.mod i (Item.touch now)).fixRun i).map fun q => ⟨q, .ok, [], false⟩

/-- queue.go:1014-1054 `Release`. -/
def Q.release (q : Q) (key : String) (now : Int) : Option Out :=
  if q.closed then some ⟨q, .err .queueClosed, [], false⟩
  else match q.find key with
  | none => some ⟨q, .err .notFound, [], false⟩
  | some i =>
    if (q.store i).state ≠ .run then some ⟨q, .err .notRunning, [], false⟩
    else match q.removeRun i with
    | none => none
    | some q =>
      if (q.store i).delay = 0 then
        some ⟨(q.mod i Item.switchRunReady).pushReady i, .ok, [⟨.run, .ready, [i]⟩], true⟩
      else
        some ⟨(q.mod i fun it => (it.restart now).switchRunDelay false).pushDelay i, .ok, [⟨.run, .delay, [i]⟩], false⟩

/-- queue.go:1059-1088 `Bury`. -/
def Q.buryItem (q : Q) (key : String) : Option Out :=
  if q.closed then some ⟨q, .err .queueClosed, [], false⟩
  else match q.find key with
  | none => some ⟨q, .err .notFound, [], false⟩
  | some i =>
    if (q.store i).state ≠ .run then some ⟨q, .err .notRunning, [], false⟩
    else match q.removeRun i with
    | none => none
    | some q => some ⟨(q.mod i (Item.switchRunBury false)).pushBury i, .ok, [⟨.run, .bury, [i]⟩], false⟩

/-- queue.go:523-530 `itemHasDeps`: is some dependency (resolved before or not) in the queue? -/
def Q.hasDeps (q : Q) (i : Nat) : Bool := (q.store i).dependencies.any fun d => (q.find d).isSome

/-- queue.go:1092-1128 `Kick`. -/
def Q.kick (q : Q) (key : String) : Option Out :=
  if q.closed then some ⟨q, .err .queueClosed, [], false⟩
  else match q.find key with
  | none => some ⟨q, .err .notFound, [], false⟩
  | some i =>
    if (q.store i).state ≠ .bury then some ⟨q, .err .notBuried, [], false⟩
    else match q.removeBury i with
    | none => none
    | some q =>
      if q.hasDeps i then
        some ⟨(q.mod i Item.switchBuryDependent).pushDep i, .ok, [⟨.bury, .dependent, [i]⟩], false⟩
      else
        some ⟨(q.mod i Item.switchBuryReady).pushReady i, .ok, [⟨.bury, .ready, [i]⟩], true⟩

/-- queue.go:1149-1161: resolve `key` for each dependant; those with nothing left outstanding become ready. -/
def Q.resolveAll (key : String) : Q → List Nat → List Nat → Option (Q × List Nat)
  | q, [], l => some (q, l)
  | q, j :: js, l =>
    let q := q.mod j (Item.resolve key)
    if (q.store j).state = .dependent ∧ (q.store j).remaining = [] then
      match q.removeDep j with
      | none => none
      | some q => Q.resolveAll key ((q.mod j Item.switchDependentReady).pushReady j) js (l ++ [j])
    else Q.resolveAll key q js l

/-- queue.go:1167-1174. -/
def unlinkParents (m : List (String × List (String × Nat))) (key : String) (parents : List String) :
    List (String × List (String × Nat)) :=
  parents.foldl (fun m p =>
    match mget m p with
    | none => m
    | some inner =>
      let inner := mdel inner key
      if inner = [] then mdel m p else mset m p inner) m

/-- queue.go:1180-1196: take the item out of the sub-queue named by its state. -/
def Q.takeOut (q : Q) (i : Nat) : Option (Q × Option SubQ) :=
  match (q.store i).state with
  | .delay => (q.removeDelay i).map fun q => (q, some .delay)
  | .ready => (q.removeReady i).map fun q => (q, some .ready)
  | .run => (q.removeRun i).map fun q => (q, some .run)
  | .bury => (q.removeBury i).map fun q => (q, some .bury)
  | .dependent => (q.removeDep i).map fun q => (q, some .dependent)
  | .removed => some (q, none)

/-- queue.go:1131-1206 `Remove`.  `order` is the order in which Go's map iteration visits the dependants; if it is not
an ordering of them, the stored order is used. -/
def Q.remove (q : Q) (key : String) (order : List Nat) : Option Out :=
  if q.closed then some ⟨q, .err .queueClosed, [], false⟩
  else match q.find key with
  | none => some ⟨q, .err .notFound, [], false⟩
  | some i =>
    let deps := ((mget q.dependants key).getD []).map (·.2)
    let deps := if order.isPerm deps then order else deps
    match q.resolveAll key deps [] with
    | none => none
    | some (q, added) =>
      let q := { q with dependants := mdel q.dependants key }
      let q := { q with dependants := unlinkParents q.dependants key (q.store i).dependencies }
      let q := { q with items := mdel q.items key }
      match q.takeOut i with
      | none => none
      | some (q, s) =>
        some ⟨q.mod i Item.removalCleanup, .ok,
          (match s with
            | none => []
            | some s => [⟨s, .removed, [i]⟩]) ++
          (if added = [] then [] else [⟨.dependent, .ready, added⟩]), added ≠ []⟩

/-! ### Time -/

/-- queue.go:1246-1262: the loop of delay processing. -/
def Q.delayLoop (now : Int) : Nat → Q → List Nat → Option (Q × List Nat)
  | 0, q, l => some (q, l)
  | n + 1, q, l =>
    match q.delay.arr[0]? with
    | none => none
    | some i =>
      if (q.store i).isready now then
        match q.removeDelay i with
        | none => none
        | some q => Q.delayLoop now n ((q.mod i Item.switchDelayReady).pushReady i) (l ++ [i])
      else some (q, l)

/-- queue.go:1242-1267: one round of delay processing. -/
def Q.delayTick (q : Q) (now : Int) : Option Out :=
  (Q.delayLoop now q.delay.arr.length q []).map fun r =>
    ⟨r.1, .ok, if r.2 = [] then [] else [⟨.delay, .ready, r.2⟩], r.2 ≠ []⟩

/-- queue.go:139-144 `TTRCallback`: every value other than run, delay and bury counts as ready. -/
inductive Target | run | delay | bury | ready
  deriving DecidableEq, Repr

/-- queue.go:1309-1344: the loop of TTR processing; the callback is given the item's data. -/
def Q.ttrLoop (now : Int) (cb : Nat → Target) :
    Nat → Q → List (Nat × Target) → Option (Q × List (Nat × Target))
  | 0, q, l => some (q, l)
  | n + 1, q, l =>
    match q.run.arr[0]? with
    | none => none
    | some i =>
      if (q.store i).releasable now then
        match cb (q.store i).data with
        | .run =>
          match (q.mod i (Item.tempDisableTTR now)).fixRun i with
          | none => none
          | some q => Q.ttrLoop now cb n q (l ++ [(i, .run)])
        | .delay =>
          match q.removeRun i with
          | none => none
          | some q => Q.ttrLoop now cb n
              ((q.mod i fun it => (it.restart now).switchRunDelay true).pushDelay i) (l ++ [(i, .delay)])
        | .bury =>
          match q.removeRun i with
          | none => none
          | some q => Q.ttrLoop now cb n ((q.mod i (Item.switchRunBury true)).pushBury i) (l ++ [(i, .bury)])
        | .ready =>
          match q.removeRun i with
          | none => none
          | some q => Q.ttrLoop now cb n ((q.mod i Item.switchRunReady).pushReady i) (l ++ [(i, .ready)])
      else some (q, l)

def ttrEv (l : List (Nat × Target)) (t : Target) (s : SubQ) : List Ev :=
  let who := (l.filter (fun p => p.2 = t)).map (·.1)
  if who = [] then [] else [⟨.run, s, who⟩]

/-- queue.go:1305-1357: one round of TTR processing. -/
def Q.ttrTick (q : Q) (cb : Nat → Target) (now : Int) : Option Out :=
  (Q.ttrLoop now cb q.run.arr.length q []).map fun r =>
    ⟨r.1, .ok, ttrEv r.2 .delay .delay ++ ttrEv r.2 .bury .bury ++ ttrEv r.2 .ready .ready,
      r.2.any (fun p => p.2 = .ready)⟩

/-- queue.go:346-364 `Destroy` (`dependants` is not cleared). -/
def Q.destroy (q : Q) : Out :=
  if q.closed then ⟨q, .err .queueClosed, [], false⟩
  else
    ⟨{ q with items := [], delay := { q.delay with arr := [] }, run := { q.run with arr := [] },
              bury := { q.bury with arr := [] }, dep := { q.dep with arr := [] }, ready := fun _ => [],
              closed := true }, .ok, [], false⟩

/-! ### The state machine -/

/-- The exported operations of a queue that change it, and its two background processes. -/
inductive Op
  | add (d : Def)
  | addMany (ds : List Def)
  | update (key group : String) (data priority : Nat) (delay ttr : Int) (deps : Option (List String))
  | changeKey (old new : String)
  | setDelay (key : String) (delay : Int)
  | setReserveGroup (key group : String)
  | reserve (group : String)
  | touch (key : String)
  | release (key : String)
  | bury (key : String)
  | kick (key : String)
  | remove (key : String) (order : List Nat)
  | delayTick
  | ttrTick (cb : Nat → Target)
  | destroy

/-- One atomic step at clock reading `now`; `none` is a panic. -/
def step (q : Q) (now : Int) : Op → Option Out
  | .add d => some (q.add d now)
  | .addMany ds => some (q.addMany ds now)
  | .update k g d p dl t ds => q.update k g d p dl t ds now
  | .changeKey o n => some (q.changeKey o n)
  | .setDelay k d => q.setDelay k d now
  | .setReserveGroup k g => q.setReserveGroup k g
  | .reserve g => q.reserve g now
  | .touch k => q.touch k now
  | .release k => q.release k now
  | .bury k => q.buryItem k
  | .kick k => q.kick k
  | .remove k o => q.remove k o
  | .delayTick => q.delayTick now
  | .ttrTick cb => q.ttrTick cb now
  | .destroy => some q.destroy

/-- Run a history of steps; `none` if one of them panicked. -/
def runFrom : Q → List (Int × Op) → Option Q
  | q, [] => some q
  | q, (now, op) :: rest =>
    match step q now op with
    | none => none
    | some o => runFrom o.q rest

end Verif.Queue
