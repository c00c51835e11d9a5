/-
The LSF emulation (C128): `wr lsf bsub`, `bjobs` and `bkill` (cmd/lsf.go), the numbers that the server gives to jobs added
with it (jobqueue/server.go createJobs, jobqueue/job.go Modify), and what a command run with --bsub passes on to the jobs that
it submits (jobqueue/client.go Execute).

Simplifications: text is a list of characters, and case is that of ASCII; lines of more than 64 kB (bsub fails) are not
modelled; the conversion of numbers is a parameter; JSON is taken to give back what was written.
-/
import Verif.Util.Str

namespace Verif.Cmd.Lsf
open Verif.Util

abbrev Str := List Char

/-! ## bsub: the script -/

/-- `\s` of package regexp -/
def sp (c : Char) : Bool := c = '\t' || c = '\n' || c = '\x0c' || c = '\r' || c = ' '

/-- unicode.IsSpace; simplification: those of Latin-1 -/
def space (c : Char) : Bool := sp c || c = '\x0b' || c = '\u0085' || c = '\u00a0'

/-- `\w` of package regexp -/
def word (c : Char) : Bool := c.isAlphanum || c = '_'

/-- strings.TrimSpace -/
def trim (l : Str) : Str := ((l.dropWhile space).reverse.dropWhile space).reverse

/-- cmd/lsf.go:127 and 137: `^#BSUB\s+-(\w)\s+(.+)$`, on a trimmed line -/
def directive : Str → Option (Char × Str)
  | '#' :: 'B' :: 'S' :: 'U' :: 'B' :: c :: r =>
    if sp c then
      match r.dropWhile sp with
      | '-' :: f :: b :: r2 =>
        let v := r2.dropWhile sp
        if word f ∧ sp b ∧ v ≠ [] then some (f, v) else none
      | _ => none
    else none
  | _ => none

/-- strconv.ParseFloat and strconv.Atoi; the number 1 -/
structure Conv (C : Type) where
  float : Str → Option C
  int : Str → Option Int
  one : C

/-- cmd/lsf.go:102-109: what bsub fills in of a Job; `exe` is possibleExe -/
structure Job (C : Type) where
  cmd : Str
  repGroup : Str
  cores : C
  ram : Int
  override : Nat
  exe : Str

/-- cmd/lsf.go:102-109 -/
def job0 (cv : Conv C) : Job C := ⟨[], ['b', 's', 'u', 'b'], cv.one, 1000, 0, []⟩

/-- cmd/lsf.go:133-170, one line -/
def line (cv : Conv C) (j : Job C) (l0 : Str) : Job C :=
  let l := trim l0
  if ['#'].isPrefixOf l then
    match directive l with
    | some ('J', v) => { j with repGroup := v }
    | some ('n', v) => match cv.float v with | some n => { j with cores := n } | none => j
    | some ('M', v) => match cv.int v with | some n => { j with ram := n, override := 2 } | none => j
    | some _ => j
    | none => { j with cmd := j.cmd ++ l ++ ['\n'] }
  else
    { j with
      exe := if j.exe = [] then (split ' ' l).headD [] else j.exe
      cmd := j.cmd ++ l ++ ['\n'] }

/-- cmd/lsf.go:132-171 -/
def script (cv : Conv C) (ls : List Str) : Job C := ls.foldl (line cv) (job0 cv)

/-- cmd/lsf.go:177-184: no job without a command; otherwise the job, with its ReqGroup -/
def bsub (cv : Conv C) (ls : List Str) : Option (Job C × Str) :=
  let j := script cv ls
  if j.cmd = [] then none else some (j, j.exe)

/-! ## what jobs of jobs get -/

/-- of a Job: MountConfigs, Requirements.Other, BsubMode -/
structure Cfg (M : Type) where
  mounts : List M
  other : List (Str × Str)
  mode : Str
deriving DecidableEq

/-- the JSON in WR_BSUB_CONFIG; `req` is `none` if it has no Requirements -/
structure Json (M : Type) where
  mounts : List M
  req : Option (List (Str × Str))
  mode : Str

def shared : Str := ['c', 'l', 'o', 'u', 'd', '_', 's', 'h', 'a', 'r', 'e', 'd']

/-- jobqueue/client.go:857-881: the variable that the command of a job sees; `none`: not set, as the job is not in bsub
mode (simplification: nor was it when the job was added) -/
def config (j : Cfg M) : Option (Json M) :=
  if j.mode = [] then none
  else some ⟨if j.other.any (fun p => p.1 == shared) then [] else j.mounts, some j.other, j.mode⟩

/-- cmd/lsf.go:102-125: the job that bsub adds; `none` is a crash -/
def inherit (deployment : Str) : Option (Json M) → Option (Cfg M)
  | none => some ⟨[], [], deployment⟩
  | some c => match c.req with
    | none => none                        -- configJob.Requirements.Other
    | some o => some ⟨c.mounts, o, c.mode⟩

/-- a job added by the command of a job added by … the command of `j`; the deployments are those of the command line -/
def descend : Cfg M → List Str → Option (Cfg M)
  | j, [] => some j
  | j, d :: ds => (inherit d (config j)).bind fun c => descend c ds

/-! ## the numbers of jobs -/

abbrev Key := Nat

/-- the variable BsubID (jobqueue/server.go:123-125), and the BsubID of the jobs in the queue, in the bucket of live jobs and
in that of complete jobs -/
structure Ids where
  next : Nat
  q : Key → Option Nat
  live : Key → Option Nat
  comp : Key → Option Nat

def ids0 : Ids := ⟨0, fun _ => none, fun _ => none, fun _ => none⟩

inductive IdEv
  | add (k : Key) (bsub : Bool)     -- a job is added
  | back (k : Key)                  -- a complete job comes back, as one it depends on was added
  | complete (k : Key)
  | delete (k : Key)
  | save (k : Key)                  -- the job is written to the database as it is in the queue
  | mod1 | mod2 (k : Key)           -- SetBsubMode: the variable is incremented, then read
  | restart
deriving DecidableEq

def put (f : Key → Option Nat) (k : Key) (v : Option Nat) : Key → Option Nat := fun x => if x = k then v else f x

def idStep (s : Ids) : IdEv → Option Ids
  -- jobqueue/server.go:1880-1882, 1904, 1933; jobqueue/db.go:512-518: the record of a job that is there is replaced, the job
  -- in the queue stays (queue AddMany, C06)
  | .add k b =>
    let n := if b then s.next + 1 else s.next
    let i := if b then s.next + 1 else 0
    some { s with next := n, live := put s.live k (some i), q := if (s.q k).isSome then s.q else put s.q k (some i) }
  -- jobqueue/db.go:600-650
  | .back k => match s.q k, s.comp k with
    | none, some i => some { s with live := put s.live k (some i), q := put s.q k (some i) }
    | _, _ => none
  -- jobqueue/serverCLI.go:344-390
  | .complete k => match s.q k with
    | some i => some { s with q := put s.q k none, live := put s.live k none, comp := put s.comp k (some i) }
    | none => none
  | .delete k => some { s with q := put s.q k none, live := put s.live k none }
  -- jobqueue/db.go:1140-1183
  | .save k => match s.q k with
    | some i => some { s with live := put s.live k (some i) }
    | none => none
  -- jobqueue/job.go:1402-1406
  | .mod1 => some { s with next := s.next + 1 }
  | .mod2 k => if (s.q k).isSome then some { s with q := put s.q k (some s.next), live := put s.live k (some s.next) } else none
  -- jobqueue/server.go:740-801; the variable starts at 0
  | .restart => some { s with next := 0, q := s.live }

def idRun (s : Ids) : List IdEv → Option Ids
  | [] => some s
  | e :: es => (idStep s e).bind fun s' => idRun s' es

/-! ## bkill -/

/-- states of jobs; pending: delayed, dependent or ready -/
inductive St | pending | reserved | running | lost | buried | complete
deriving DecidableEq, Repr

inductive Out | terminated (i : Nat) | finished (i : Nat)
deriving DecidableEq, Repr

def Out.id : Out → Nat
  | .terminated i => i
  | .finished i => i

inductive Pc | start | loop | killing (k : Key) | waiting (k : Key) | deleting (k : Key) | done | crashed
deriving DecidableEq, Repr

/-- the numbers of jobs, all keys of jobs there will be (in the order the server lists them), and the arguments of bkill -/
structure Par where
  num : Key → Nat
  keys : List Key
  args : List Nat

/-- the jobs on the server, and where bkill is: jobs not looked at yet (as they were listed), `desired`, what was printed;
ghosts: the jobs it asked to be killed and those it deleted -/
structure K where
  srv : Key → Option St
  pc : Pc
  todo : List (Key × St)
  want : List Nat
  out : List Out
  killed : List Key
  deleted : List Key

def k0 (srv : Key → Option St) : K := ⟨srv, .start, [], [], [], [], []⟩

/-- what can happen to a job while bkill runs -/
def legal : Option St → Option St → Bool
  | none, some .pending => true
  | some .pending, some .reserved => true
  | some .pending, none => true
  | some .reserved, some .running => true
  | some .reserved, some .pending => true
  | some .reserved, some .buried => true
  | some .running, some .buried => true
  | some .running, some .complete => true
  | some .running, some .pending => true
  | some .running, some .lost => true
  | some .lost, some .running => true
  | some .lost, some .buried => true
  | some .lost, some .pending => true
  | some .buried, some .pending => true
  | some .buried, none => true
  | some .complete, some .pending => true
  | _, _ => false

/-- `env`: a job changes; `kill`, `poll`, `del`: requests to the server, that fail (false) or not; `dep`: another job depends
on the one to delete -/
inductive KEv
  | env (k : Key) (st : Option St)
  | fetch
  | next
  | kill (ok : Bool)
  | poll (ok : Bool)
  | del (dep ok : Bool)
deriving DecidableEq

def incomplete : St → Bool
  | .complete => false
  | _ => true

/-- jobqueue/serverCLI.go:445-469, jobqueue/server.go:2201-2270: whether a job is deleted -/
def deletable (st : Option St) (dep : Bool) : Bool := !dep && (st == some .pending || st == some .buried)

def kStep (p : Par) (s : K) : KEv → Option K
  | .env k st => if legal (s.srv k) st then some { s with srv := fun x => if x = k then st else s.srv x } else none
  -- cmd/lsf.go:370-397
  | .fetch =>
    if s.pc = .start then
      some { s with
        pc := .loop
        want := p.args.eraseDups
        todo := p.keys.filterMap fun k => (s.srv k).bind fun st => if incomplete st then some (k, st) else none }
    else none
  -- cmd/lsf.go:400-408, 441-443
  | .next =>
    if s.pc = .loop then
      match s.todo with
      | [] => some { s with pc := .done, out := s.out ++ s.want.map .finished }
      | (k, st) :: r =>
        if p.num k ∉ s.want then some { s with todo := r }
        else if st = .running then some { s with todo := r, pc := .killing k }
        else some { s with todo := r, pc := .deleting k }
    else none
  -- cmd/lsf.go:409-413; jobqueue/server.go:2177-2195 (what happens to a lost job is an `env`)
  | .kill ok => match s.pc with
    | .killing k => some (if ok then { s with pc := .waiting k, killed := k :: s.killed } else { s with pc := .loop })
    | _ => none
  -- cmd/lsf.go:416-427; jobqueue/client.go:1821-1831: no job is nil
  | .poll ok => match s.pc with
    | .waiting k =>
      if ¬ ok then some { s with pc := .loop }
      else match s.srv k with
        | none => some { s with pc := .crashed }
        | some .buried => some { s with pc := .deleting k }
        | some _ => some s
    | _ => none
  -- cmd/lsf.go:430-438
  | .del dep ok => match s.pc with
    | .deleting k =>
      if ¬ ok then some { s with pc := .loop }
      else
        let gone := deletable (s.srv k) dep
        some { s with
          pc := .loop
          srv := if gone then fun x => if x = k then none else s.srv x else s.srv
          deleted := if gone then k :: s.deleted else s.deleted
          out := s.out ++ [.terminated (p.num k)]
          want := s.want.filter (· ≠ p.num k) }
    | _ => none

def kRun (p : Par) (s : K) : List KEv → Option K
  | [] => some s
  | e :: es => (kStep p s e).bind fun s' => kRun p s' es

/-! ## bjobs -/

/-- cmd/lsf.go:253-276 -/
def columns : List Str :=
  ["JOBID".toList, "USER".toList, "STAT".toList, "QUEUE".toList, "FROM_HOST".toList, "EXEC_HOST".toList, "JOB_NAME".toList,
   "SUBMIT_TIME".toList]

def quote (c : Char) : Bool := c = '"' || c = '\''

/-- (?i) and a text, whose letters are given in both cases -/
def matchPre : List (Char × Char) → Str → Option Str
  | [], l => some l
  | _ :: _, [] => none
  | p :: ps, c :: l => if c = p.1 ∨ c = p.2 then matchPre ps l else none

/-- `(.*)["']`: up to the last quote -/
def lastQuote : Str → Option (Str × Str)
  | [] => none
  | c :: l => match lastQuote l with
    | some (a, b) => some (c :: a, b)
    | none => if quote c then some ([], l) else none

def delimiterEq : List (Char × Char) :=
  [('d', 'D'), ('e', 'E'), ('l', 'L'), ('i', 'I'), ('m', 'M'), ('i', 'I'), ('t', 'T'), ('e', 'E'), ('r', 'R'), ('=', '=')]

/-- `delimiter=["'](.*)["']` at the beginning: the group, and what follows -/
def core (l : Str) : Option (Str × Str) :=
  match matchPre delimiterEq l with
  | some (c :: r) => if quote c then lastQuote r else none
  | _ => none

/-- the leftmost match: what is before, the group, what follows -/
def cut : Str → Option (Str × Str × Str)
  | [] => none
  | c :: l => match core (c :: l) with
    | some (d, post) => some ([], d, post)
    | none => (cut l).map fun (a, d, post) => (c :: a, d, post)

/-- the white space matched by the `\s*` at the end of the text before -/
def dropEnd (l : Str) : Str := (l.reverse.dropWhile sp).reverse

/-- cmd/lsf.go:282-299: columns and delimiter; `none`: unsupported field -/
def format (f : Str) : Option (List Str × Str) :=
  let (d, rest) := match cut f with
    | some (a, d, post) => (d, dropEnd a ++ post.dropWhile sp)
    | none => ([' '], f)
  let fields := (split ' ' rest).map (·.map Char.toUpper)
  if fields.all (columns.contains ·) then some (fields, d) else none

/-- strings.Join -/
def joinS (d : Str) : List Str → Str
  | [] => []
  | [x] => x
  | x :: y :: l => x ++ d ++ joinS d (y :: l)

/-- cmd/lsf.go:361 -/
def noneLine : Str := "No unfinished job found".toList

/-- cmd/lsf.go:316-350: the loop; `num` is BsubID and `val` what a column shows of a job -/
def rows (noHeader : Bool) (fields : List Str) (d : Str) (num : J → Nat) (val : Str → J → Str) : List J → Bool → List Str
  | [], found => if found then [] else [noneLine]
  | j :: js, found =>
    if num j = 0 then rows noHeader fields d num val js found
    else (if ¬ found ∧ ¬ noHeader then [joinS d fields] else []) ++
      [joinS d (fields.map (val · j))] ++ rows noHeader fields d num val js true

/-- cmd/lsf.go:42-52 -/
def stat : St → Str
  | .pending => "PEND".toList
  | .reserved => "PEND".toList
  | .running => "RUN".toList
  | .lost => "UNKWN".toList
  | .buried => "EXIT".toList
  | .complete => "DONE".toList

/-! ## flags with one dash -/

/-- cmd/lsf.go:471-496: the arguments that stay, and those taken out; `ps` are the names, and whether they have a value, in the
order in which the map is iterated -/
def flags (ps : List (Str × Bool)) : List Str → List Str × List Str
  | [] => ([], [])
  | [a] => match ps.find? fun p => ('-' :: p.1).isPrefixOf a with
    | some _ => ([], [a])
    | none => ([a], [])
  | a :: b :: l => match ps.find? fun p => ('-' :: p.1).isPrefixOf a with
    | some (_, true) => let (r, f) := flags ps l; (r, a :: b :: f)
    | some (_, false) => let (r, f) := flags ps (b :: l); (r, a :: f)
    | none => let (r, f) := flags ps (b :: l); (a :: r, f)

/-- cmd/lsf.go:448-450 -/
def noHeaderFlag : List (Str × Bool) := [("noheader".toList, false)]

end Verif.Cmd.Lsf
