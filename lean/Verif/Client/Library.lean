/-!
# The client library (client/client.go:57-545) and RepGroupMatches (jobqueue/client.go:154-165)

Programs that use wr as a library make jobs with `NewJob`, submit them with `SubmitJobs`, and find and remove them again. With
`PretendSubmissions` set, a list in memory stands for the server.

Go's slices and pointers matter here: a slice is a part of an array that others may share, and `Requirements` and their map `Other` are
shared by everybody who has a pointer to them. So arrays, requirements and maps are kept in lists, and pointers are positions in these lists.
Jobs are named by numbers; what is in a job is looked up in `vals`. Simplifications: the key of a job (job.go:852-872) does not change
once it was made; the JSON printed by `Add` is left out, as are `SubmitJobs` and the like for a real server (see the models of the server).
-/
namespace Verif.Client.Library

abbrev Str := List Char

/-- jobqueue/client.go:131-147 `RepGroupMatch` -/
inductive Match where
  | exact | subStr | pre | suf
  deriving DecidableEq, Repr

/-- `strings.Contains` -/
def contains : Str → Str → Bool
  | [], sub => sub.isEmpty
  | c :: s, sub => sub.isPrefixOf (c :: s) || contains s sub

/-- jobqueue/client.go:154-165 `RepGroupMatches` -/
def repGroupMatches (jobRepGroup repgroup : Str) : Match → Bool
  | .subStr => contains jobRepGroup repgroup
  | .pre => repgroup.isPrefixOf jobRepGroup
  | .suf => repgroup.isSuffixOf jobRepGroup
  | .exact => decide (jobRepGroup = repgroup)

/-- the states of a job (jobqueue/job.go:40-60) -/
inductive State where
  | new | delayed | ready | reserved | running | lost | buried | dependent | complete
  deriving DecidableEq, Repr

/-- what matters of a job here -/
structure Job where
  key : Nat
  repGroup : Str
  state : State
  endTime : Nat
  deriving DecidableEq, Repr

/-- a slice: an array and the number of elements of it (the slices here all begin at the start of their array) -/
structure Slice where
  arr : Nat
  len : Nat
  deriving DecidableEq, Repr

/-- all arrays; an element is a job or nil. The length of an array is the capacity. -/
abbrev Mem := List (List (Option Nat))

/-- an array -/
def arrAt (m : Mem) (a : Nat) : List (Option Nat) := (m[a]?).getD []

/-- the elements of a slice -/
def elems (m : Mem) (s : Slice) : List (Option Nat) := (arrAt m s.arr).take s.len

/-- Go's `append(s, xs...)`: in place if there is room, else into a new array with `extra` room left -/
def append (m : Mem) (s : Slice) (xs : List (Option Nat)) (extra : Nat) : Mem × Slice :=
  if s.len + xs.length ≤ (arrAt m s.arr).length then
    (m.set s.arr (elems m s ++ xs ++ (arrAt m s.arr).drop (s.len + xs.length)), ⟨s.arr, s.len + xs.length⟩)
  else (m ++ [elems m s ++ xs ++ List.replicate extra none], ⟨m.length, s.len + xs.length⟩)

/-- Go's `slices.DeleteFunc`: the elements that stay are moved to the front, the rest is set to nil -/
def deleteFunc (m : Mem) (s : Slice) (del : Option Nat → Bool) : Mem × Slice :=
  let kept := (elems m s).filter fun x => !del x
  (m.set s.arr (kept ++ List.replicate (s.len - kept.length) none ++ (arrAt m s.arr).drop s.len), ⟨s.arr, kept.length⟩)

/-- client/client.go:95-98 `pretendJobqueue`, with the memory that it uses -/
structure Pretend where
  mem : Mem := [[]]
  buf : Slice := ⟨0, 0⟩
  vals : Nat → Job
  /-- `output` is not nil -/
  output : Bool := false

/-- `strconv.ParseUint(s, 10, 64)` succeeds -/
def isUint (s : Str) : Bool :=
  !s.isEmpty && s.all Char.isDigit && decide ((s.foldl (fun n c => n * 10 + (c.toNat - '0'.toNat)) 0) < 2 ^ 64)

/-- client/client.go:100-109 `newPretendJobqueue` -/
def newPretend (pretendSubmissions : Str) (vals : Nat → Job) : Pretend := { vals := vals, output := isUint pretendSubmissions }

/-- client/client.go:111-123 `Add` (by `SubmitJobs`, 442-453): the error of `SubmitJobs` is none, as the number returned is that of the jobs -/
def Pretend.add (p : Pretend) (jobs : List Nat) (extra : Nat) : Pretend :=
  let (m, b) := append p.mem p.buf (jobs.map some) extra
  { p with vals := fun j => if j ∈ jobs then { p.vals j with state := .delayed } else p.vals j, mem := m, buf := b }

/-- client/client.go:125-129, 457-464 `SubmittedJobs`: the slice itself -/
def Pretend.submittedJobs (p : Pretend) : Slice := p.buf

/-- client/client.go:228-236: the function given to `slices.DeleteFunc` -/
def doomed (vals : Nat → Job) (keys : List Nat) : Option Nat → Bool
  | some j => keys.contains (vals j).key
  | none => false

/-- client/client.go:225-239 `Delete`, by `RemoveJobs` (523-540). It would panic on nil in the buffer; none. -/
def Pretend.remove (p : Pretend) (keys : List Nat) : Option Pretend :=
  if none ∈ elems p.mem p.buf then none
  else
    let (m, b) := deleteFunc p.mem p.buf (doomed p.vals keys)
    some { p with mem := m, buf := b }

/-- client/client.go:139-158, 468-478 `GetByRepGroupMatch`; none: ErrBadRequest -/
def Pretend.getByRepGroupMatch (p : Pretend) (repgroup : Str) (m : Match) (state : Option State) : Option (List Nat) :=
  if repgroup = [] then none
  else some ((elems p.mem p.buf).filterMap fun x => x.bind fun j =>
    if repGroupMatches (p.vals j).repGroup repgroup m && (state == none || state == some (p.vals j).state) then some j else none)

/-- client/client.go:131-137 `GetByRepGroup` -/
def Pretend.getByRepGroup (p : Pretend) (repgroup : Str) (state : Option State) : Option (List Nat) :=
  p.getByRepGroupMatch repgroup .subStr state

/-- client/client.go:208-215 -/
def matchesIncompleteRepGroup (jobRepGroup repgroup : Str) (m : Match) : Bool :=
  if repgroup = [] then true else repGroupMatches jobRepGroup repgroup m

/-- client/client.go:217-223 -/
def isIncompleteStateMatch (jobState : State) (state : Option State) : Bool :=
  if jobState = .complete then false else state == none || state == some jobState

/-- client/client.go:160-181, 485-502 `GetIncompleteByRepGroupMatch` -/
def Pretend.getIncomplete (p : Pretend) (repgroup : Str) (m : Match) (state : Option State) : List Nat :=
  (elems p.mem p.buf).filterMap fun x => x.bind fun j =>
    if !matchesIncompleteRepGroup (p.vals j).repGroup repgroup m then none
    else if !isIncompleteStateMatch (p.vals j).state state then none
    else some j

/-- client/client.go:183-206, the body of the loop; a map as a function -/
def lastStep (vals : Nat → Job) (repgroup : Str) (m : Match) (acc : Str → Option Nat) (x : Option Nat) : Str → Option Nat :=
  match x with
  | none => acc
  | some j =>
    if (vals j).state ≠ .complete then acc
    else if !repGroupMatches (vals j).repGroup repgroup m then acc
    else
      match acc (vals j).repGroup with
      | none => fun g => if g = (vals j).repGroup then some (vals j).endTime else acc g
      | some t => if t < (vals j).endTime then (fun g => if g = (vals j).repGroup then some (vals j).endTime else acc g) else acc

/-- client/client.go:183-206, 506-509 `GetLastCompletionTimeByRepGroup` -/
def Pretend.getLast (p : Pretend) (repgroup : Str) (m : Match) : Str → Option Nat :=
  (elems p.mem p.buf).foldl (lastStep p.vals repgroup m) fun _ => none

/-- client/client.go:241-243, 543-545 `Disconnect`; none: it panics, as `output` is nil -/
def Pretend.disconnect (p : Pretend) : Option Unit := if p.output then some () else none

/-! ## NewJob -/

/-- jobqueue/scheduler/scheduler.go `Requirements`; `other` points to a map -/
structure Req where
  ram : Nat
  time : Nat
  cores : Nat
  disk : Nat
  other : Option Nat
  deriving DecidableEq, Repr

/-- all requirements and all maps -/
structure Heap where
  reqs : List Req := []
  maps : List (List (String × String)) := []
  deriving DecidableEq, Repr

/-- client/client.go:247-254 `Scheduler` -/
structure Sched where
  cwd : String
  sudo : Bool := false
  queue : String := ""
  queuesAvoid : String := ""
  deriving DecidableEq, Repr

/-- what `NewJob` sets; `req` points to the requirements -/
structure NewJob where
  cmd : String
  cwd : String
  cwdMatters : Bool
  repGroup : String
  reqGroup : String
  req : Nat
  depGroups : List String
  dependencies : List String
  retries : Nat
  override : Nat
  deriving DecidableEq, Repr

/-- `m[k] = v` for an association list -/
def put (m : List (String × String)) (k v : String) : List (String × String) := (k, v) :: m.filter fun x => x.1 != k

def get (m : List (String × String)) (k : String) : Option String := (m.find? fun x => x.1 == k).map (·.2)

/-- client/client.go:408-417, 419-428: one entry of `Other` -/
def Heap.setOther (h : Heap) (r : Nat) (k v : String) : Heap :=
  match h.reqs[r]? with
  | none => h
  | some req =>
    match req.other with
    | some o => { h with maps := h.maps.set o (put ((h.maps[o]?).getD []) k v) }
    | none => { reqs := h.reqs.set r { req with other := some h.maps.length }, maps := h.maps ++ [put [] k v] }

/-- client/client.go:400-431 `determineOverrideAndReq` and 328-335 `DefaultRequirements` (100 MB, 10 s, 1 core, 1 GB) -/
def determineOverrideAndReq (s : Sched) (h : Heap) (req : Option Nat) : Heap × Nat × Nat :=
  let h1 : Heap × Nat × Nat := match req with
    | some r => (h, r, 1)
    | none => ({ h with reqs := h.reqs ++ [{ ram := 100, time := 10, cores := 1, disk := 1, other := none }] }, h.reqs.length, 0)
  let h := h1.1
  let r := h1.2.1
  let h := if s.queue ≠ "" then h.setOther r "scheduler_queue" s.queue else h
  let h := if s.queuesAvoid ≠ "" then h.setOther r "scheduler_queues_avoid" s.queuesAvoid else h
  (h, r, h1.2.2)

/-- client/client.go:355-398 `NewJob`, `createDepGroups`, `createDependencies`; 65 `jobRetries` -/
def newJob (s : Sched) (h : Heap) (cmd repGroup reqGroup depGroup dep : String) (req : Option Nat) : Heap × NewJob :=
  let d := determineOverrideAndReq s h req
  (d.1, { cmd := if s.sudo then "sudo " ++ cmd else cmd, cwd := s.cwd, cwdMatters := true, repGroup := repGroup, reqGroup := reqGroup, req := d.2.1,
          depGroups := if depGroup ≠ "" then [depGroup] else [], dependencies := if dep ≠ "" then [dep] else [], retries := 30, override := d.2.2 })

end Verif.Client.Library
