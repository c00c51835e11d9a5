import Verif.Util.Bolt

/-!
# The database of jobs with its lookups (jobqueue/db.go:453-650, 665-678, 689-790, 884-982, 992-1012, 1195-1320) and the queue

The requests of the server are carried out one after the other, each to its end; errors of bolt do not occur, and encoded jobs
decode to themselves. The queue is a map from keys to jobs, the order and the sub-queues are left out (they are in
`Verif.Queue`). A job is its key with the fields that the lookups are made from, and a number for all the rest.

Simplifications: `sort.Sort(encodedJobs)` (db.go:517) only matters for a request with the same job twice; here the later one in
the request is stored. Standard output and the statistics are left out (see `Verif.Server.Learn`).
-/
namespace Verif.Server.Store
open Verif.Util.Bolt

/-- job.go:87-340 `Job`, as encoded; `depends` is `Dependencies.DepGroups()` (dependency.go:62-70), which has no empty ones -/
structure Rec where
  repGroup : Key
  depGroups : List Key := []
  depends : List Key := []
  data : Nat := 0
  deriving DecidableEq, Repr

structure Job where
  key : Key
  rec' : Rec
  deriving DecidableEq, Repr

/-- `bucketJobsLive`, `bucketJobsComplete`, the lookup buckets `bucketRTK`, `bucketDTK` and `bucketRDTK`; the jobs in the queue, and
`s.rpl`, the keys of each rep group (server.go:188-230), in the order of addition -/
structure St where
  live : Bucket Rec := []
  complete : Bucket Rec := []
  rtk : Bucket Unit := []
  dtk : Bucket Unit := []
  rdtk : Bucket Unit := []
  queue : Bucket Rec := []
  rpl : List (Key × Key) := []
  deriving DecidableEq, Repr

/-- db.go:53 `dbDelimiter` -/
def delimiter : Key := "_::_".toList

/-- db.go:647-650 `generateLookupKey` -/
def lookupKey (group key : Key) : Key := group ++ delimiter ++ key

/-- db.go:1537-1546 `putLookups` -/
def putLookups (l : List (Key × Key)) (b : Bucket Unit) : Bucket Unit := l.foldl (fun b e => put (lookupKey e.1 e.2) () b) b

/-- db.go:1558-1567 `putEncodedJobs` -/
def putJobs (l : List Job) (b : Bucket Rec) : Bucket Rec := l.foldl (fun b j => put j.key j.rec' b) b

/-! ## dependent jobs -/

/-- db.go:908-985, the local variables -/
structure Walk where
  done : List Key := []
  /-- `newDepGroups`, by prefix -/
  fresh : Bucket Key := []
  toQueue : List Job := []
  toUpdate : List Job := []
  deriving DecidableEq, Repr

/-- db.go:954-958 -/
def addFresh (known : List Key) (gs : List Key) (b : Bucket Key) : Bucket Key :=
  gs.foldl (fun b g => if g ≠ [] ∧ g ∉ known then put (g ++ delimiter) g b else b) b

/-- db.go:928-968, the body of the inner loop -/
def visit (s : St) (new known : List Key) (w : Walk) (key : Key) : Walk :=
  if key ∈ w.done then w
  else match get key s.live with
    | some r => { w with done := key :: w.done, fresh := addFresh known r.depGroups w.fresh, toUpdate := w.toUpdate ++ [⟨key, r⟩] }
    | none =>
      match (if key ∈ new then none else get key s.complete) with
      | some r => { w with done := key :: w.done, fresh := addFresh known r.depGroups w.fresh, toQueue := w.toQueue ++ [⟨key, r⟩] }
      | none => { w with done := key :: w.done }

/-- db.go:926-970: the loop over the prefixes, which are `group + delimiter`, and that over the lookup bucket -/
def round (s : St) (new known : List Key) (prefixes : Bucket Key) (w : Walk) : Walk :=
  prefixes.foldl (fun w p => (scan p.1 s.rdtk).foldl (fun w e => visit s new known w (e.1.drop p.1.length)) w) w

/-- db.go:924-983, the outer loop; `none` if it has not ended after that many rounds -/
def walk (s : St) (new : List Key) : Nat → List Key → Bucket Key → Walk → Option Walk
  | 0, _, _, _ => none
  | n + 1, known, prefixes, w =>
    let w' := round s new known prefixes { w with fresh := [] }
    if w'.fresh = [] then some w' else walk s new n (known ++ w'.fresh.map (·.2)) w'.fresh w'

/-- db.go:913-917, the prefixes to start with -/
def startPrefixes (gs : List Key) : Bucket Key := gs.foldl (fun b g => put (g ++ delimiter) g b) []

/-- all the dep groups of stored jobs -/
def storedGroups (s : St) : List Key := (s.live ++ s.complete).flatMap fun e => e.2.depGroups

/-- db.go:908-985 `retrieveDependentJobs`; the number of rounds is shown to be enough (`walk_ends`) -/
def retrieveDependentJobs (s : St) (gs new : List Key) : Walk :=
  (walk s new ((storedGroups s).length + 1) gs (startPrefixes gs) {}).getD {}

/-! ## storing new jobs -/

/-- db.go:667-678 `checkIfAdded` -/
def checkIfAdded (s : St) (k : Key) : Bool := (get k s.live).isSome || (get k s.complete).isSome

/-- db.go:558-575: the jobs that are stored -/
def kept (s : St) (jobs : List Job) (ignoreAdded : Bool) : List Job :=
  if ignoreAdded then jobs.filter fun j => !checkIfAdded s j.key else jobs

/-- db.go:584-588 `depGroups` -/
def groupsOf (jobs : List Job) : List Key := (jobs.flatMap (·.rec'.depGroups)).filter (· ≠ [])

/-- what `prepareNewJobs` returns -/
structure Prep where
  encoded : List Job
  toQueue : List Job
  toUpdate : List Job
  deriving DecidableEq, Repr

/-- db.go:610: the complete jobs that come back, and the live ones whose dependencies change -/
def dependents (s : St) (ks : List Job) : Walk :=
  if ks = [] ∨ groupsOf ks = [] then {} else retrieveDependentJobs s (groupsOf ks) (ks.map (·.key))

/-- db.go:550-643 `prepareNewJobs` -/
def prepare (s : St) (jobs : List Job) (ignoreAdded : Bool) : Prep :=
  let ks := kept s jobs ignoreAdded
  if ks = [] then { encoded := [], toQueue := [], toUpdate := [] }
  else
    let w := dependents s ks
    { encoded := ks ++ w.toQueue
      toQueue := if w.toQueue = [] then ks else w.toQueue ++ jobs
      toUpdate := w.toUpdate }

/-- db.go:579-582 -/
def repLookups (ks : List Job) : List (Key × Key) := ks.map fun j => (j.rec'.repGroup, j.key)
/-- db.go:583-588 -/
def depLookups (ks : List Job) : List (Key × Key) := ks.flatMap fun j => (j.rec'.depGroups.filter (· ≠ [])).map fun g => (g, j.key)
/-- db.go:590-592 -/
def rdepLookups (ks : List Job) : List (Key × Key) := ks.flatMap fun j => j.rec'.depends.map fun g => (g, j.key)

/-- db.go:453-548 `storeNewJobs`, the writing -/
def store (s : St) (ks : List Job) (encoded : List Job) : St :=
  { s with
    live := putJobs encoded s.live
    rtk := putLookups (repLookups ks) s.rtk
    dtk := putLookups (depLookups ks) s.dtk
    rdtk := putLookups (rdepLookups ks) s.rdtk }

/-- server.go:1985-2004 `updateJobDependencies`: `q.Update` replaces the job in the queue by the one decoded; it fails for a job
that is not in the queue, and the loop ends -/
def updateJobs : List Job → Bucket Rec → Bucket Rec × Bool
  | [], q => (q, true)
  | j :: js, q => if (get j.key q).isSome then updateJobs js (put j.key j.rec' q) else (q, false)

/-- server.go:1840-1850: `q.AddMany` leaves jobs that are already there -/
def enqueue (js : List Job) (q : Bucket Rec) : Bucket Rec :=
  js.foldl (fun q j => if (get j.key q).isSome then q else put j.key j.rec' q) q

/-- server.go:199-206 `rgToKeys.Add`, of an ordered set -/
def rplAdd (l : List (Key × Key)) (e : Key × Key) : List (Key × Key) := if e ∈ l then l else l ++ [e]

/-- server.go:210-216 `rgToKeys.Delete` -/
def rplDelete (l : List (Key × Key)) (e : Key × Key) : List (Key × Key) := l.filter (· ≠ e)

/-- server.go:1904-1938 in `createJobs`: the state after a request to add jobs, and whether it succeeded -/
def add (s : St) (jobs : List Job) (ignoreAdded : Bool) : St × Bool :=
  let p := prepare s jobs ignoreAdded
  let s' := store s (kept s jobs ignoreAdded) p.encoded
  let u := updateJobs p.toUpdate s'.queue
  if u.2 then
    ({ s' with queue := enqueue p.toQueue u.1, rpl := (repLookups p.toQueue).foldl rplAdd s'.rpl }, true)
  else ({ s' with queue := u.1 }, false)

/-! ## the end of jobs -/

/-- serverCLI.go:344-390 `jarchive` and db.go:689-765 `archiveJob`: the job of the queue is stored, with what its run has changed -/
def archive (s : St) (k : Key) (data : Nat) : St :=
  match get k s.queue with
  | none => s
  | some r => { s with
      live := delete k s.live
      complete := put k { r with data := data } s.complete
      queue := delete k s.queue
      rpl := rplDelete s.rpl (r.repGroup, k) }

/-- server.go:2201-2264 `deleteJobs` and db.go:768-786 `deleteLiveJobs`, of one job -/
def delete1 (s : St) (k : Key) : St :=
  match get k s.queue with
  | none => s
  | some r => { s with
      live := delete k s.live
      queue := delete k s.queue
      rpl := rplDelete s.rpl (r.repGroup, k) }

/-! ## modification -/

/-- what a `JobModifier` does to a job: it gets a key, the key of its new command and so on, and a new record with the same rep group -/
structure Change where
  key : Key → Rec → Key
  depGroups : Option (List Key) := none
  depends : Option (List Key) := none
  data : Nat → Nat := id

def Change.apply (c : Change) (r : Rec) : Rec :=
  { r with depGroups := c.depGroups.getD r.depGroups, depends := c.depends.getD r.depends, data := c.data r.data }

/-- job.go:1257-1423 `Modify` of the jobs with these keys that are in the queue and do not run (serverCLI.go:495-507): the old
key, and the job after. `acc` has those done. -/
def modifyLoop (s : St) (c : Change) : List Key → List (Key × Job) → List (Key × Job)
  | [], acc => acc
  | k :: ks, acc =>
    match get k s.queue with
    | none => modifyLoop s c ks acc
    | some r =>
      let k' := c.key k r
      if k' ∈ acc.map (·.2.key) then modifyLoop s c ks acc
      else if k' ≠ k ∧ ((get k' s.queue).isSome ∨ (get k' s.complete).isSome) then modifyLoop s c ks acc
      else modifyLoop s c ks (acc ++ [(k, ⟨k', c.apply r⟩)])

/-- serverCLI.go:541-560 `ChangeKey`, and the change of the job -/
def changeQueue (ms : List (Key × Job)) (q : Bucket Rec) : Bucket Rec :=
  ms.foldl (fun q m => put m.2.key m.2.rec' (delete m.1 q)) q

/-- serverCLI.go:541-560, the keys by rep group -/
def changeRpl (ms : List (Key × Job)) (l : List (Key × Key)) : List (Key × Key) :=
  ms.foldl (fun l m => if m.1 = m.2.key then l else rplAdd (rplDelete l (m.2.rec'.repGroup, m.1)) (m.2.rec'.repGroup, m.2.key)) l

/-- `bytes.HasSuffix` -/
def hasSuffix (suffix k : Key) : Bool := suffix.isSuffixOf k

/-- db.go:1219-1240: the lookups of a key are deleted -/
def dropLookups (k : Key) (b : Bucket Unit) : Bucket Unit := b.filter fun e => !hasSuffix (delimiter ++ k) e.1

/-- db.go:1195-1320 `modifyLiveJobs`: one transaction; the preparation is made before it, and its lists of jobs to queue or
update are not used -/
def modifyDb (s : St) (ms : List (Key × Job)) : St :=
  let js := ms.map (·.2)
  let p := prepare s js false
  let olds := ms.map (·.1)
  store { s with
    live := olds.foldl (fun b k => delete k b) s.live
    rtk := olds.foldl (fun b k => dropLookups k b) s.rtk
    dtk := olds.foldl (fun b k => dropLookups k b) s.dtk
    rdtk := olds.foldl (fun b k => dropLookups k b) s.rdtk } js p.encoded

/-- serverCLI.go:470-601 `jmod` -/
def modify (s : St) (keys : List Key) (c : Change) : St :=
  let ms := modifyLoop s c keys []
  let s' := modifyDb s ms
  { s' with queue := changeQueue ms s.queue, rpl := changeRpl ms s.rpl }

/-! ## histories -/

/-- server.go:735-790: the queue is made from the live jobs -/
def restart (s : St) : St :=
  { s with
    queue := enqueue (s.live.map fun e => ⟨e.1, e.2⟩) []
    rpl := (repLookups (s.live.map fun e => ⟨e.1, e.2⟩)).foldl rplAdd [] }

inductive Op
  | add (jobs : List Job) (ignoreAdded : Bool)
  | archive (k : Key) (data : Nat)
  | delete (k : Key)
  | modify (keys : List Key) (c : Change)
  | restart

def step (s : St) : Op → St
  | .add js ig => (add s js ig).1
  | .archive k d => archive s k d
  | .delete k => delete1 s k
  | .modify ks c => modify s ks c
  | .restart => restart s

def run (s : St) (ops : List Op) : St := ops.foldl step s

/-! ## what a user sees -/

/-- server.go:2463-2476 `getQueueJobsByRepGroup` -/
def queuedByRepGroup (s : St) (g : Key) : List Job :=
  (s.rpl.filter fun e => e.1 = g).filterMap fun e => (get e.2 s.queue).map fun r => ⟨e.2, r⟩

/-- db.go:884-906 `retrieveCompleteJobsByRepGroup`, then server.go:2488-2490, where the jobs get the rep group asked for -/
def completeByRepGroup (s : St) (g : Key) : List Job :=
  (scan (g ++ delimiter) s.rtk).filterMap fun e =>
    let k := e.1.drop (g ++ delimiter).length
    match get k s.complete with
    | none => none
    | some r => if (get k s.live).isSome then none else some ⟨k, { r with repGroup := g }⟩

/-- server.go:2420-2440 `getJobsByRepGroup`, with an exact match; the sorting of complete jobs by time is left out -/
def byRepGroup (s : St) (g : Key) : List Job := queuedByRepGroup s g ++ completeByRepGroup s g

/-- db.go:992-1008 `retrieveIncompleteJobKeysByDepGroup` -/
def incompleteByDepGroup (s : St) (g : Key) : List Key :=
  (scan (g ++ delimiter) s.dtk).filterMap fun e =>
    let k := e.1.drop (g ++ delimiter).length
    if (get k s.live).isSome then some k else none

end Verif.Server.Store
