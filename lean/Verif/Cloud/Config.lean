/-
Files that are to be on the cloud servers commands run on: `wr cloud deploy --config_files`, `wr add --cloud_config_files` and the
"cloud_config_files" of a job.

The model is of cloud/server.go:916-970 `CopyOver`, 186-232 the part of `WaitUntilReady` that copies, 316-323 `Matches`,
internal/utils.go:181-188 `TildaToHome`, cmd/cloud.go:1004-1018 (what the manager in the cloud is told),
cmd/add.go:867-896 `copyCloudConfigFiles` with 617-623 and 836-838, cmd/mod.go:238-244, jobqueue/server.go:1193-1272 `uploadFile` as far as
it is used for this, jobqueue/scheduler/openstack.go:247-255 `AddConfigFile` with cmd/manager.go:788-796, 541-583 the part of `serverReqs`
that is about files, 933-940 (a new server), 1118-1136 (which servers a command can go to), cloud/cloud.go:832-866 `LocalhostServer`.

Simplifications. A path is a list of characters; filepath.Join is to put a slash between (what Clean does to "." and "..", and to doubled
slashes, is not modelled). The contents of a file are a number. Of directories, only that they are ones is known; directories are made as
needed. A server on which copying failed is not used (openstack.go:1000-1040) and is forgotten. The commands `chmod` and `touch` are
given to a shell with the path as it is; of what the shell does with it only the division at blanks is modelled. Commands do not change
the files. The checksum of a file is taken to determine it: `up` gives the path in the upload directory for contents.
-/
import Verif.Util.Str

namespace Verif.Cloud.Config
open Verif.Util (split join)

abbrev Path := List Char

/-- a file: what is in it, its mode and its time -/
structure File where
  content : Nat
  mode : Nat
  mtime : Nat
deriving DecidableEq

inductive Entry where
  | file (f : File)
  | dir
deriving DecidableEq

/-- a computer: the user's home directory, the directory processes are in (for ssh sessions that is the home directory), and files -/
structure Machine where
  home : Path
  cwd : Path
  fs : Path → Option Entry

/-- strings.HasPrefix(path, "~/") -/
def tildeSlash : Path → Bool
  | '~' :: '/' :: _ => true
  | _ => false

/-- strings.TrimLeft(path, "~/"): all leading characters that are one of the two (utils.go:184, server.go:942) -/
def trimLeft (p : Path) : Path := p.dropWhile (fun c => c = '~' ∨ c = '/')

/-- filepath.Join of two, without Clean -/
def joinP (d p : Path) : Path := if p = [] then d else if d = [] then p else d ++ '/' :: p

/-- internal/utils.go:181-188 `TildaToHome` -/
def tildaToHome (home p : Path) : Path :=
  if home ≠ [] ∧ tildeSlash p = true then joinP home (trimLeft p) else p

/-- what a process in a directory means by a path -/
def resolve (cwd p : Path) : Path :=
  match p with
  | '/' :: _ => p
  | _ => joinP cwd p

/-- server.go:917-926, one of the comma separated things: from where and to where. Exactly one colon divides it; otherwise both are the
whole of it -/
def parse (item : Path) : Path × Path :=
  match split ':' item with
  | [a, b] => (a, b)
  | _ => (item, item)

/-- server.go:929-930 and 935 of UploadFile: the file named on this side; nothing for no path at all -/
def source (m : Machine) (l : Path) : Option Entry :=
  if tildaToHome m.home l = [] then none else m.fs (resolve m.cwd (tildaToHome m.home l))

/-- server.go:936-943: where on the server it goes -/
def dest (m : Machine) (r : Path) : Path :=
  resolve m.home (if tildeSlash r = true then joinP m.home (trimLeft r) else r)

/-- the path as it is written in the commands of server.go:954 and 961 -/
def written (m : Machine) (r : Path) : Path :=
  if tildeSlash r = true then joinP m.home (trimLeft r) else r

/-- a file is written -/
def Machine.put (m : Machine) (q : Path) (e : Entry) : Machine := { m with fs := fun p => if p = q then some e else m.fs p }

/-- the paths a command line with this path in it is about: it is divided at blanks -/
def words (p : Path) : List Path := (split ' ' p).filter (· ≠ [])

/-- a file with mode 600 and this time -/
def touched (t : Nat) : Option Entry → Option Entry
  | some (.file f) => some (.file { f with mode := 600, mtime := t })
  | e => e

/-- server.go:954-965 `chmod 600 path` and `touch -d time path` in the home directory: on all the words, and each must exist,
and there must be one -/
def finish (m : Machine) (p : Path) (t : Nat) : Option Machine :=
  if words p ≠ [] ∧ (words p).all (fun w => (m.fs (resolve m.home w)).isSome) = true then
    some { m with fs := fun q => if (words p).any (fun w => resolve m.home w = q) then (touched t (m.fs q)) else m.fs q }
  else none

/-- the time a file gets that is written (there is no clock in the model) -/
def now : Nat := 0

/-- server.go:928-966 for one of the things. `ok` is false if something on the way to or on the server fails. The mode of a new file is
644 -/
def copyOne (src : Machine) (ok : Bool) (item : Path) (d : Machine) : Option Machine :=
  match source src (parse item).1 with
  | none => some d
  | some .dir => none
  | some (.file f) =>
    if ok = true then
      match d.fs (dest d (parse item).2) with
      | some .dir => none
      | some (.file o) =>
        finish (d.put (dest d (parse item).2) (.file { f with mode := o.mode, mtime := now })) (written d (parse item).2) f.mtime
      | none => finish (d.put (dest d (parse item).2) (.file { f with mode := 644, mtime := now })) (written d (parse item).2) f.mtime
    else none

/-- server.go:914-970 `CopyOver`, of what was given divided at commas; the `i`-th goes wrong if not `ok i` -/
def copyItems (src : Machine) (ok : Nat → Bool) : Nat → List Path → Machine → Option Machine
  | _, [], d => some d
  | i, it :: rest, d =>
    match copyOne src (ok i) it d with
    | none => none
    | some d' => copyItems src ok (i + 1) rest d'

/-- `CopyOver` with strings.Split -/
def copyOver (src : Machine) (ok : Nat → Bool) (files : Path) (d : Machine) : Option Machine :=
  copyItems src ok 0 (split ',' files) d

/-- server.go:223-229 in `WaitUntilReady` -/
def ready (src : Machine) (ok : Nat → Bool) (files : Path) (d : Machine) : Option Machine :=
  if files = [] then some d else copyOver src ok files d

/-- cmd/cloud.go:1004-1018: what the manager in the cloud is given as --cloud_config_files -/
def strip (files : Path) : Path :=
  join ',' ((split ',' files).map (fun cf =>
    match split ':' cf with
    | [_, b] => b
    | _ => cf))

/-- jobqueue/scheduler/openstack.go:247-255 `AddConfigFile` -/
def addConfig (conf f : Path) : Path := if conf = [] then f else conf ++ ',' :: f

/-- openstack.go:557-565: what a command needs, from the manager's and the job's own -/
def wanted (conf : Path) (own : Option Path) : Path :=
  match own with
  | none => conf
  | some v => if conf = [] then v else conf ++ ',' :: v

/-- cmd/add.go:879-884: the place wanted -/
def desired (l : Path) : List Path → Path
  | [r] => r
  | _ => l

/-- cmd/add.go:869-894 for one: the file is sent to the manager's computer, which keeps it under a name that is made of what is in it
(server.go:1234-1268: if there is a file of that name already, it stays), with mode 600 and the time of now. `ok`: the upload worked -/
def uploadOne (up : Nat → Path) (user : Machine) (now : Nat) (ok : Bool) (cf : Path) (mgr : Machine) : Path × Machine :=
  match split ':' cf with
  | [] => (cf, mgr)
  | l :: more =>
    match source user l with
    | none => (cf, mgr)
    | some .dir => (cf, mgr)
    | some (.file f) =>
      if ok = true then
        (up f.content ++ ':' :: desired l more,
         if (mgr.fs (up f.content)).isSome then mgr
         else mgr.put (up f.content) (.file { content := f.content, mode := 600, mtime := now }))
      else (cf, mgr)

/-- cmd/add.go:867-896 -/
def uploadItems (up : Nat → Path) (user : Machine) (now : Nat) (ok : Nat → Bool) : Nat → List Path → Machine → List Path × Machine
  | _, [], mgr => ([], mgr)
  | i, cf :: rest, mgr =>
    ((uploadOne up user now (ok i) cf mgr).1 :: (uploadItems up user now ok (i + 1) rest (uploadOne up user now (ok i) cf mgr).2).1,
     (uploadItems up user now ok (i + 1) rest (uploadOne up user now (ok i) cf mgr).2).2)

/-- `copyCloudConfigFiles` -/
def uploadAll (up : Nat → Path) (user : Machine) (now : Nat) (ok : Nat → Bool) (files : Path) (mgr : Machine) : Path × Machine :=
  (join ',' (uploadItems up user now ok 0 (split ',' files) mgr).1, (uploadItems up user now ok 0 (split ',' files) mgr).2)

/-! ### the whole -/

/-- a server: what it was made with, and the computer -/
structure Server where
  files : Path
  m : Machine

/-- a job; `asked`, `was` and `sent` are kept for the properties only: what the user asked for, the user's computer at that time, and
which uploads worked -/
structure Job where
  own : Option Path
  asked : Path
  was : Machine
  sent : Nat → Bool

/-- the user's computer, the manager's, what the manager was started with, jobs and servers -/
structure S where
  user : Machine
  mgr : Machine
  conf : Path
  jobs : List Job
  servers : List Server

inductive Ev where
  /-- the user changes a file -/
  | edit (p : Path) (e : Entry)
  /-- somebody changes a file on the manager's computer -/
  | mgrEdit (p : Path) (e : Entry)
  /-- `wr add` from another computer than the manager's (add.go:620, 836) with these; `ok` of the uploads -/
  | add (files : Path) (now : Nat) (ok : Nat → Bool)
  /-- `wr add` on the manager's computer, or by the REST API: as given -/
  | addHere (files : Path)
  /-- a job that asks for nothing -/
  | addPlain
  /-- a new server for the `i`-th job; what is on it at first -/
  | spawn (i : Nat) (ok : Nat → Bool) (fresh : Machine)

/-- one step. jobqueue/serverREST.go:478-482: an empty string is as none -/
def step (up : Nat → Path) (s : S) : Ev → Option S
  | .edit p e => some { s with user := s.user.put p e }
  | .mgrEdit p e => some { s with mgr := s.mgr.put p e }
  | .add files now ok =>
    if files = [] then none else
    some { s with
      mgr := (uploadAll up s.user now ok files s.mgr).2
      jobs := s.jobs ++ [{ own := some (uploadAll up s.user now ok files s.mgr).1, asked := files, was := s.user, sent := ok }] }
  | .addHere files =>
    if files = [] then none else
    some { s with jobs := s.jobs ++ [{ own := some files, asked := files, was := s.mgr, sent := fun _ => false }] }
  | .addPlain => some { s with jobs := s.jobs ++ [{ own := none, asked := [], was := s.user, sent := fun _ => false }] }
  | .spawn i ok fresh =>
    match s.jobs[i]? with
    | none => none
    | some j =>
      match ready s.mgr ok (wanted s.conf j.own) fresh with
      | none => none
      | some m => some { s with servers := s.servers ++ [{ files := wanted s.conf j.own, m := m }] }

def run (up : Nat → Path) (s : S) : List Ev → Option S
  | [] => some s
  | e :: es =>
    match step up s e with
    | none => none
    | some s' => run up s' es

/-- cloud/server.go:316-323 `Matches`, of files: the command of this job can go to this server -/
def suits (s : S) (j : Job) (v : Server) : Prop := v.files = wanted s.conf j.own

instance (s : S) (j : Job) (v : Server) : Decidable (suits s j v) := by unfold suits; infer_instance

end Verif.Cloud.Config
