/-
Jobs that wait for other jobs, in the server (C127): the database, the queue
with its lookup of dependants, and the requests that change them.

Each request is made of the steps that the code takes one after the other under
the locks of the database and of the queue: `Op.prep` to `Op.enq` are the steps
of adding jobs, `Op.arch1` and `Op.arch2` those of archiving; `Op.add` and
`Op.archive` are whole requests, and `stepAdd_eq` shows that they are those steps
without others in between.

Simplifications: keys and groups are numbers; the lookups of the database are
sets of pairs (C83 shows that they are exact, whatever the names); which complete
jobs come back and which incomplete ones get new dependencies is chosen by the
event, as long as it is closed under the rule of retrieveDependentJobs (C83 shows
exactly which), and where the code answers with an error because a job to update is
not in the queue, there is no step; a job in the delay sub-queue counts as ready; a list stands for
the set of its elements; errors of the database do not occur.
-/
namespace Verif.Server.Waits

abbrev Key := Nat
abbrev Grp := Nat

/-- jobqueue/dependency.go 81-90 Dependency -/
inductive Dep | key (k : Key) | grp (g : Grp)
deriving DecidableEq, Repr

/-- jobqueue/job.go 87-340: what matters here of a Job -/
structure Job where
  key : Key
  groups : List Grp
  deps : List Dep
deriving DecidableEq, Repr

inductive State | dependent | ready | run | bury
deriving DecidableEq, Repr

/-- queue/item.go 60-90: state, dependencies, remainingDeps -/
structure Item where
  st : State
  deps : List Key
  rem : List Key
deriving DecidableEq, Repr

/-- a request to add jobs, under way: its jobs, those that come back, the keys
of the jobs to update, and the dependencies found -/
structure Adding where
  jobs : List Job
  back : List Job
  upd : List Key
  found : List (Key × List Key × State)
deriving DecidableEq, Repr

/-- the live and the complete bucket, the lookups from groups to their jobs and to
those that depend on them, the items of the queue, queue.dependants (parent,
child), the requests under way, and (for restarts) all keys there ever were -/
structure S where
  live : Key → Option Job
  comp : Key → Option Job
  dtk : List (Grp × Key)
  rdtk : List (Grp × Key)
  q : Key → Option Item
  kids : List (Key × Key)
  adding : List Adding
  known : List Key

def init : S := ⟨fun _ => none, fun _ => none, [], [], fun _ => none, [], [], []⟩

/-! ## the queue -/

/-- queue/queue.go 532-600 AddMany, of one item; `st` is its StartQueue -/
def qAdd (s : S) (k : Key) (d : List Key) (st : State) : S :=
  if (s.q k).isSome then s
  else if d = [] then { s with q := fun x => if x = k then some ⟨st, [], []⟩ else s.q x }
  else { s with
    q := fun x => if x = k then some ⟨.dependent, d, d⟩ else s.q x
    kids := s.kids ++ d.map fun p => (p, k) }

/-- queue/queue.go 670-757 Update, the dependencies of an item -/
def qUpdate (s : S) (k : Key) (d : List Key) : S :=
  match s.q k with
  | none => s
  | some it =>
    if (∀ x ∈ it.rem, x ∈ d) ∧ (∀ x ∈ d, x ∈ it.rem) then s
    else
      let st := if d = [] then .ready else if it.st = .bury then .bury else .dependent
      { s with
        q := fun x => if x = k then some ⟨st, d, d⟩ else s.q x
        kids := s.kids.filter (fun e => !(decide (e.2 = k) && decide (e.1 ∈ it.rem) && !decide (e.1 ∈ d) && (s.q e.1).isSome)) ++
          d.map fun p => (p, k) }

/-- queue/item.go 241-253 resolveDependency, and queue/queue.go 1149-1161 -/
def resolve (p : Key) (it : Item) : Item :=
  let r := it.rem.filter (· ≠ p)
  ⟨if it.st = .dependent ∧ r = [] then .ready else it.st, it.deps, r⟩

/-- queue/queue.go 1131-1197 Remove -/
def qRemove (s : S) (k : Key) : S :=
  match s.q k with
  | none => s
  | some it => { s with
    q := fun x => if x = k then none else if (k, x) ∈ s.kids then (s.q x).map (resolve k) else s.q x
    kids := s.kids.filter fun e => !(decide (e.1 = k) || (decide (e.2 = k) && decide (e.1 ∈ it.deps))) }

/-- queue/queue.go 1092-1128 Kick, 521-530 itemHasDeps -/
def qKick (s : S) (k : Key) : Option S :=
  match s.q k with
  | some it =>
    if it.st = .bury then
      some { s with q := fun x => if x = k then some { it with st := if it.deps.any fun d => (s.q d).isSome then .dependent else .ready } else s.q x }
    else none
  | none => none

def qSet (s : S) (k : Key) (a b : State) : Option S :=
  match s.q k with
  | some it => if it.st = a then some { s with q := fun x => if x = k then some { it with st := b } else s.q x } else none
  | none => none

/-! ## the database -/

/-- jobqueue/dependency.go 35-116 incompleteJobKeys; jobqueue/db.go 652-663,
987-1002 -/
def incomplete (s : S) (ds : List Dep) : List Key :=
  ds.flatMap fun d => match d with
    | .key k => if (s.live k).isSome then [k] else []
    | .grp g => ((s.dtk.filter fun p => p.1 = g).map (·.2)).filter fun k => (s.live k).isSome

def groupDeps (ds : List Dep) : List Grp := ds.filterMap fun d => match d with | .grp g => some g | .key _ => none

/-- jobqueue/db.go 908-982 retrieveDependentJobs: `back` and `upd` are closed
under it; jobqueue/db.go 603-635 -/
def Closed (s : S) (js back : List Job) (upd : List Key) : Prop :=
  (∀ j ∈ back, s.comp j.key = some j ∧ s.live j.key = none ∧ j.key ∉ js.map (·.key)) ∧
  (∀ k ∈ upd, (s.live k).isSome) ∧
  ∀ p ∈ s.rdtk, p.1 ∈ (js ++ back).flatMap (·.groups) ++ upd.flatMap (fun k => match s.live k with | some j => j.groups | none => []) →
    ((s.live p.2).isSome → p.2 ∈ upd) ∧
    ((s.live p.2) = none → (s.comp p.2).isSome → p.2 ∉ js.map (·.key) → p.2 ∈ back.map (·.key))

instance (s : S) (js back : List Job) (upd : List Key) : Decidable (Closed s js back upd) := by unfold Closed; infer_instance

def find (js : List Job) (k : Key) : Option Job := js.find? fun j => j.key = k

/-- jobqueue/db.go 453-548 storeNewJobs, the writing -/
def store (s : S) (js back : List Job) : S :=
  { s with
    live := fun k => match find (js ++ back) k with | some j => some j | none => s.live k
    dtk := s.dtk ++ js.flatMap fun j => j.groups.map fun g => (g, j.key)
    rdtk := s.rdtk ++ js.flatMap fun j => (groupDeps j.deps).map fun g => (g, j.key)
    known := s.known ++ (js ++ back).map (·.key) }

/-- jobqueue/server.go 1917-1925: the dependencies of the jobs to queue -/
def findDeps (s : S) (js : List Job) : List (Key × List Key × State) := js.map fun j => (j.key, incomplete s j.deps, .ready)

/-- jobqueue/server.go 1985-2004 updateJobDependencies; `none` if one of the jobs
is not in the queue -/
def updateAll (s : S) : List Key → Option S
  | [] => some s
  | k :: ks =>
    match s.live k, s.q k with
    | some j, some _ => updateAll (qUpdate s k (incomplete s j.deps)) ks
    | _, _ => none

/-- jobqueue/server.go 1840-1850 -/
def enqueueAll (s : S) : List (Key × List Key × State) → S
  | [] => s
  | (k, d, st) :: l => enqueueAll (qAdd s k d st) l

/-- jobqueue/server.go 768-801: the items of a start; `st` is what was recorded of
where they were -/
def recovered (s : S) (st : Key → State) : List (Key × List Key × State) :=
  s.known.filterMap fun k => (s.live k).map fun j => (k, incomplete s j.deps, st k)

/-! ## requests -/

inductive Op
  | add (js back : List Job) (upd : List Key)
  | prep (js back : List Job) (upd : List Key)   -- the steps of adding jobs
  | store (t : Nat)
  | deps (t : Nat)
  | upd (t : Nat)
  | enq (t : Nat)
  | reserve (k : Key)
  | release (k : Key)
  | bury (k : Key)
  | kick (k : Key)
  | archive (k : Key)
  | arch1 (k : Key)                              -- the steps of archiving
  | arch2 (k : Key)
  | delete (k : Key)
  | modDeps (k : Key) (ds : List Dep)
  | modGroups (k : Key) (gs : List Grp)
  | rename (k k' : Key)
  | restart (st : Key → State)

/-- The change of a job with these groups brings no complete job back.  (Otherwise
modifyLiveJobs writes it to the live bucket, but not to the queue, see C85; this is
not modelled.) -/
def Quiet (s : S) (gs : List Grp) : Prop := ∀ p ∈ s.rdtk, p.1 ∈ gs → (s.live p.2).isSome ∨ s.comp p.2 = none

instance (s : S) (gs : List Grp) : Decidable (Quiet s gs) := by unfold Quiet; infer_instance

/-- jobqueue/server.go 1904-1938 in createJobs; the keys of a request differ -/
def stepAdd (s : S) (js back : List Job) (upd : List Key) : Option S :=
  if Closed s js back upd ∧ (js.map (·.key)).Nodup then
    let s1 := store s js back
    let d := findDeps s1 (back ++ js)
    (updateAll s1 upd).map fun s2 => enqueueAll s2 d
  else none

/-- jobqueue/db.go 1185-1311 modifyLiveJobs, of a job that keeps its key: its
record, and its lookups -/
def modDb (s : S) (k : Key) (j : Job) : S :=
  { s with
    live := fun x => if x = k then some j else s.live x
    dtk := s.dtk.filter (fun p => p.2 ≠ k) ++ j.groups.map fun g => (g, k)
    rdtk := s.rdtk.filter (fun p => p.2 ≠ k) ++ (groupDeps j.deps).map fun g => (g, k) }

def ren (k k' x : Key) : Key := if x = k then k' else x

/-- the key that is called `x` after the renaming was called this before -/
def unren (k k' x : Key) : Key := if x = k' then k else x

/-- queue/queue.go ChangeKey (C10), of the item and of those that wait for it, and
modifyLiveJobs: the records of the jobs that depend on it are left as they are -/
def doRename (s : S) (k k' : Key) (j : Job) : S :=
  { s with
    live := fun x => if x = k' then some { j with key := k' } else if x = k then none else s.live x
    dtk := s.dtk.filter (fun p => p.2 ≠ k) ++ j.groups.map fun g => (g, k')
    rdtk := s.rdtk.filter (fun p => p.2 ≠ k) ++ (groupDeps j.deps).map fun g => (g, k')
    q := fun x => if x = k ∧ x ≠ k' then none
      else (s.q (unren k k' x)).map fun it => ⟨it.st, it.deps.map (ren k k'), it.rem.map (ren k k')⟩
    kids := s.kids.map fun e => (ren k k' e.1, ren k k' e.2)
    known := s.known ++ [k'] }

def step (s : S) : Op → Option S
  | .add js back upd => stepAdd s js back upd
  -- jobqueue/db.go 454
  | .prep js back upd =>
    if Closed s js back upd ∧ (js.map (·.key)).Nodup then some { s with adding := s.adding ++ [⟨js, back, upd, []⟩] } else none
  -- jobqueue/db.go 459-533
  | .store t => s.adding[t]?.map fun a => store s a.jobs a.back
  -- jobqueue/server.go 1916-1925
  | .deps t => s.adding[t]?.map fun a => { s with adding := s.adding.set t { a with found := findDeps s (a.back ++ a.jobs) } }
  -- jobqueue/server.go 1927
  | .upd t => s.adding[t]?.bind fun a => updateAll s a.upd
  -- jobqueue/server.go 1933
  | .enq t => s.adding[t]?.map fun a => enqueueAll s a.found
  | .reserve k => qSet s k .ready .run
  | .release k => qSet s k .run .ready
  | .bury k => qSet s k .run .bury
  | .kick k => qKick s k
  -- jobqueue/serverCLI.go 344-390
  | .archive k =>
    match s.q k, s.live k with
    | some it, some j =>
      if it.st = .run then
        some (qRemove { s with live := fun x => if x = k then none else s.live x, comp := fun x => if x = k then some j else s.comp x } k)
      else none
    | _, _ => none
  -- jobqueue/serverCLI.go 357-372
  | .arch1 k =>
    match s.q k, s.live k with
    | some it, some j =>
      if it.st = .run then some { s with live := fun x => if x = k then none else s.live x, comp := fun x => if x = k then some j else s.comp x }
      else none
    | _, _ => none
  -- jobqueue/serverCLI.go 377
  | .arch2 k => some (qRemove s k)
  -- jobqueue/serverCLI.go 440-471, jobqueue/server.go 2201-2264, with queue/queue.go HasDependents
  | .delete k =>
    match s.q k with
    | some it =>
      if it.st ≠ .run ∧ s.kids.all (fun e => e.1 ≠ k) then
        some (qRemove { s with live := fun x => if x = k then none else s.live x } k)
      else none
    | none => none
  -- jobqueue/serverCLI.go 570-585
  | .modDeps k ds =>
    match s.q k, s.live k with
    | some it, some j =>
      if it.st ≠ .run ∧ Quiet s j.groups then
        let s1 := modDb s k { j with deps := ds }
        some (qUpdate s1 k (incomplete s1 ds))
      else none
    | _, _ => none
  | .modGroups k gs =>
    match s.q k, s.live k with
    | some it, some j => if it.st ≠ .run ∧ Quiet s gs then some (modDb s k { j with groups := gs }) else none
    | _, _ => none
  -- jobqueue/serverCLI.go 541-570; jobqueue/job.go 1340-1360: not to the key of another job
  | .rename k k' =>
    match s.q k, s.live k with
    | some it, some j =>
      if it.st ≠ .run ∧ k' ≠ k ∧ Quiet s j.groups ∧ s.q k' = none ∧ s.live k' = none ∧ s.comp k' = none then some (doRename s k k' j) else none
    | _, _ => none
  -- jobqueue/server.go 753-812
  | .restart st =>
    if (∀ k ∈ s.known, st k ≠ .dependent) then
      some (enqueueAll { s with q := fun _ => none, kids := [], adding := [] } (recovered s st))
    else none

def run (s : S) : List Op → Option S
  | [] => some s
  | o :: os => (step s o).bind fun s' => run s' os

end Verif.Server.Waits
