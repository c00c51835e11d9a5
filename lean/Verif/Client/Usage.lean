/-
Measuring how much disk and memory a running command uses: jobqueue/utils.go:179-303 (`currentMemory`, `currentDisk`,
`getChildProcesses`), the directories that count (jobqueue/client.go:641-648, 766-807, jobqueue/job.go:597-664), and the peaks
that end up in the job (jobqueue/client.go:983-1012, 1128-1212, 1236-1268, 1445-1446).

Simplifications: a path is the list of its components (absolute and clean); reading a directory either works completely or fails;
a link, pipe or device is a file with the size that `Lstat` gives it; nothing changes in the file system (or among the processes)
while one reading is made; sizes don't overflow.
-/
namespace Verif.Client.Usage

abbrev Str := List Char
/-- an absolute, clean path: its components -/
abbrev Path := List Str

mutual
/-- what is found at a path: a file with its size in bytes, or a directory, with whether it can be opened and read -/
inductive Node where
  | file (size : Nat)
  | dir (readable : Bool) (entries : Entries)
/-- the entries of a directory -/
inductive Entries where
  | nil
  | cons (name : Str) (node : Node) (rest : Entries)
end

/-- a MB -/
def mb : Nat := 1024 * 1024

mutual
/-- jobqueue/utils.go:237-275 `currentDisk`: none is an error -/
def currentDisk (skip : List Path) (path : Path) : Node → Option Nat
  | .file _ => none
  | .dir readable entries => if readable then diskOf skip path entries else none
/-- jobqueue/utils.go:257-272: the loop over the entries -/
def diskOf (skip : List Path) (path : Path) : Entries → Option Nat
  | .nil => some 0
  | .cons _ (.file size) rest =>
    match diskOf skip path rest with
    | some r => some (size / mb + r)
    | none => none
  | .cons name (.dir ok es) rest =>
    if skip.contains (path ++ [name]) then diskOf skip path rest
    else
      match currentDisk skip (path ++ [name]) (.dir ok es), diskOf skip path rest with
      | some d, some r => some (d + r)
      | _, _ => none
end

mutual
/-- what is at a path, looked up from a node -/
def lookup : Node → Path → Option Node
  | n, [] => some n
  | .file _, _ :: _ => none
  | .dir _ es, c :: p => lookupIn es c p
/-- looking up in a directory's entries -/
def lookupIn : Entries → Str → Path → Option Node
  | .nil, _, _ => none
  | .cons name n rest, c, p => if name = c then lookup n p else lookupIn rest c p
end

/-- how a mount's directory or a target's cache directory may be given -/
inductive Given where
  | unset
  | absolute (p : Path)
  | relative (comps : List Str)
deriving DecidableEq

/-- `filepath.Join` of an absolute path with the components of a relative one -/
def join (base : Path) : List Str → Path
  | [] => base
  | c :: cs =>
    if c = [] ∨ c = ['.'] then join base cs
    else if c = ['.', '.'] then join base.dropLast cs
    else join (base ++ [c]) cs

/-- a mount of a job: where, and the cache directories of its targets -/
structure Mount where
  at_ : Given
  caches : List Given

/-- the parts of a job that decide what is measured; `actual` is none with cwd_matters, else the working and the temporary
directory made for the job -/
structure Job where
  cwd : Path
  actual : Option (Path × Path)
  onCwd : Bool := false
  mounts : List Mount

/-- jobqueue/job.go:598-609 of `Mount`: the directory that relative mounts are in, the default mount and the base of relative
cache directories -/
def bases (j : Job) : Path × Path × Path :=
  match j.actual with
  | some (a, _) => (a, a, a.dropLast)
  | none => if j.onCwd then (j.cwd, j.cwd, j.cwd.dropLast) else (j.cwd, j.cwd ++ ["mnt".toList], j.cwd)

/-- jobqueue/job.go:634-641: a target's cache directory, if it is relative -/
def cacheDir (base : Path) : Given → Option Path
  | .relative cs => some (join base cs)
  | _ => none

/-- jobqueue/job.go:664-674: a mount's directory, if it is relative or the default one -/
def mountDir (cwd dflt : Path) : Given → Option Path
  | .relative cs => some (join cwd cs)
  | .unset => some dflt
  | .absolute _ => none

/-- jobqueue/job.go:597-733 `Mount`, when it works: `uniqueCacheDirs` and `uniqueMountedDirs` -/
def mountDirs (j : Job) : List Path × List Path :=
  let (cwd, dflt, base) := bases j
  ((j.mounts.map fun m => m.caches.filterMap (cacheDir base)).flatten, j.mounts.filterMap fun m => mountDir cwd dflt m.at_)

/-- the path as a string -/
def render (p : Path) : Str := (p.map fun c => '/' :: c).flatten

/-- jobqueue/client.go:776-790: the directory can be opened and read, and there is nothing in it -/
def startsEmpty (fs : Node) (d : Path) : Bool :=
  match lookup fs d with
  | some (.dir true .nil) => true
  | _ => false

/-- jobqueue/client.go:775-799: the loop over the mounted directories, giving `noCheck` and `dontCheckDirs` -/
def dontCheck (fs : Node) (cwd : Path) (skip : List Path) : List Path → Bool × List Path
  | [] => (false, skip)
  | d :: ds =>
    if startsEmpty fs d then dontCheck fs cwd skip ds
    else if d = cwd then (true, skip)
    else if (render cwd).isPrefixOf (render d) then dontCheck fs cwd (d :: skip) ds
    else dontCheck fs cwd skip ds

/-- what is decided before the command starts: `dirsToCheckDiskSpace` and `dontCheckDirs` -/
structure Plan where
  dirs : List Path
  skip : List Path
  actual : Option Path

/-- jobqueue/client.go:641-648, 766-807: the directories to check, from the file system as it is when the command is about to start -/
def plan (fs : Node) (j : Job) : Plan :=
  let caches := (mountDirs j).1
  let mounted := (mountDirs j).2
  match j.actual with
  | none => ⟨caches, [], none⟩
  | some (a, tmp) =>
    let (noCheck, skip) := dontCheck fs a [] mounted
    ⟨[tmp] ++ caches ++ (if noCheck then [] else [a]), skip, some a⟩

/-- the measurement of one directory (jobqueue/client.go:999-1006) -/
def measure (fs : Node) (p : Plan) (d : Path) : Option Nat :=
  match lookup fs d with
  | none => none
  | some n => currentDisk (if some d = p.actual then p.skip else []) d n

/-- jobqueue/client.go:996-1012 `diskUsageCheck` -/
def usage (fs : Node) (p : Plan) : List Path → Option Nat
  | [] => some 0
  | d :: ds =>
    match measure fs p d, usage fs p ds with
    | some a, some b => some (a + b)
    | _, _ => none

/-- the whole check of a plan -/
def diskUsageCheck (fs : Node) (p : Plan) : Option Nat := usage fs p p.dirs

mutual
/-- a process: its pid, the kB of its smaps (none if that can't be read), whether its children can be listed, and its children -/
inductive Proc where
  | mk (pid : Nat) (pss : Option Nat) (known listed : Bool) (kids : Procs)
/-- processes -/
inductive Procs where
  | nil
  | cons (p : Proc) (rest : Procs)
end

mutual
/-- jobqueue/utils.go:179-234 `currentMemory`: `known` is whether `process.NewProcess` finds it, `listed` whether `Children` works -/
def currentMemory : Proc → Option Nat
  | .mk _ none _ _ _ => none
  | .mk _ (some kb) known listed kids => if known && listed then some (kb / 1024 + memoryOf kids) else none
/-- jobqueue/utils.go:225-231: the loop over the children -/
def memoryOf : Procs → Nat
  | .nil => 0
  | .cons p rest =>
    (match currentMemory p with
     | some m => m
     | none => 0) + memoryOf rest
end

mutual
/-- jobqueue/utils.go:278-303 `getChildProcesses`: none is an error -/
def childProcesses : Proc → Option (List Nat)
  | .mk _ _ known listed kids => if !known then some [] else if !listed then none else some (pids kids ++ below kids)
/-- the pids of the children themselves -/
def pids : Procs → List Nat
  | .nil => []
  | .cons (.mk pid _ _ _ _) rest => pid :: pids rest
/-- jobqueue/utils.go:292-300: what the children have below them -/
def below : Procs → List Nat
  | .nil => []
  | .cons p rest =>
    (match childProcesses p with
     | some l => l
     | none => []) ++ below rest
end

/-- jobqueue/client.go:1017-1070 `killCmd`: the processes that get a signal: the command's own (SIGKILL) and those found below it
(SIGTERM, then SIGKILL); with an error of `getChildProcesses` the list is as far as it got -/
def killCmd (p : Proc) : List Nat :=
  match p with
  | .mk pid _ known listed kids =>
    pid :: (match childProcesses (.mk pid none known listed kids) with
            | some l => l
            | none => [])

/-- one firing of `resourceTicker` (jobqueue/client.go:1112-1212): what `currentMemory` gives, what docker says of the container's
memory (none: not monitored or not known), what the disk check gives, and what `ProcMeminfoMBs` gives -/
structure Reading where
  mem : Option Nat
  docker : Option Nat := none
  disk : Option Nat
  machine : Option Nat

/-- jobqueue/client.go:983-990: the variables that the checks set -/
structure Peaks where
  mem : Nat := 0
  disk : Nat := 0
  ranoutMem : Bool := false
  machineRAM : Nat := 0
  killed : Bool := false
deriving DecidableEq

/-- jobqueue/client.go:98 -/
def percentMemoryKill : Nat := 90

/-- jobqueue/client.go:1169-1173, 1182: the memory that counts for this reading -/
def Reading.total (r : Reading) : Option Nat :=
  match r.mem with
  | none => none
  | some m =>
    match r.docker with
    | some d => some (if d > m then d else m)
    | none => some m

/-- jobqueue/client.go:1182-1205: updating the peak of memory, and killing the command -/
def checkMem (ram : Nat) (s : Peaks) (r : Reading) : Peaks :=
  match r.total with
  | none => s
  | some m =>
    if m > s.mem then
      if m > ram then
        let machine := if s.machineRAM = 0 then r.machine.getD 0 else s.machineRAM
        { s with
          mem := m
          ranoutMem := true
          machineRAM := machine
          killed := decide (machine > 0) && decide (m ≥ machine / 100 * percentMemoryKill) }
      else { s with mem := m }
    else s

/-- jobqueue/client.go:1209-1211: updating the peak of disk use -/
def checkDisk (s : Peaks) (r : Reading) : Peaks :=
  match r.disk with
  | some d => if d > s.disk then { s with disk := d } else s
  | none => s

/-- jobqueue/client.go:1180-1212: updating the peaks from one reading; after killing the command the loop ends -/
def check (ram : Nat) (s : Peaks) (r : Reading) : Peaks :=
  if s.killed then s
  else if (checkMem ram s r).killed then checkMem ram s r
  else checkDisk (checkMem ram s r) r

/-- all the readings made while the command runs -/
def watch (ram : Nat) (rs : List Reading) : Peaks := rs.foldl (check ram) {}

/-- jobqueue/client.go:1236-1268: the peaks that are reported: the kernel's own account of the memory (in kB), the memory of the
runner itself, and a last look at the disk -/
def report (s : Peaks) (maxrss : Nat) (own : Option Nat) (final : Option Nat) : Nat × Nat :=
  let rss := maxrss / 1024
  let m := if rss > s.mem then rss else s.mem
  let disk :=
    match final with
    | some d => if d > s.disk then d else s.disk
    | none => s.disk
  (m + own.getD 10, disk)

end Verif.Client.Usage
