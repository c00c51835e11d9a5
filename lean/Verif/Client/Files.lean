import Verif.Server.Modify
/-!
# Working directories of jobs, and how they are cleaned up (jobqueue/behaviours.go, jobqueue/utils.go)

The file system is the list of its entries by absolute path; the root directory is always there and has no entry. Simplifications:
there are no symbolic links, nothing fails for want of permission, no other process works at the same time, and mounted
directories look like others (a removal that a mount refuses is not modelled).
-/
namespace Verif.Client.Files
open Verif.Server.Groups (Str)

/-- the names from the root to an entry; none is ".", ".." or empty -/
abbrev Path := List Str

inductive Kind
  | file | dir
  deriving DecidableEq, Repr

abbrev Entry := Path × Kind
abbrev FS := List Entry

/-- `filepath.Join(p, rel)`, with the parts of `rel` -/
def join (p : Path) (rel : List Str) : Path :=
  rel.foldl (fun p x => if x = [] ∨ x = ".".toList then p else if x = "..".toList then p.dropLast else p ++ [x]) p

/-- `strings.Split(s, "/")` -/
def split : Str → List Str
  | [] => [[]]
  | c :: s =>
    if c = '/' then [] :: split s
    else match split s with
      | [] => [[c]]
      | x :: l => (c :: x) :: l

/-- the entry that an absolute path is for: `filepath.Clean` -/
def parse (s : Str) : Path := join [] (split s)

def render : Path → Str
  | [] => "/".toList
  | p => (p.map ('/' :: ·)).flatten

/-- the path is as `filepath.Clean` would give it -/
def isClean (s : Str) : Bool := render (parse s) == s

/-- `os.RemoveAll` -/
def removeAll (p : Path) (fs : FS) : FS := fs.filter fun e => !p.isPrefixOf e.1

inductive Removed
  | ok (fs : FS) | notExist | notEmpty

/-- `os.Remove`, which never removes the root -/
def remove (p : Path) (fs : FS) : Removed :=
  if p = [] then .notEmpty
  else if (fs.any fun e => e.1 == p) = false then .notExist
  else if (fs.any fun e => e.1 != p && p.isPrefixOf e.1) = true then .notEmpty
  else .ok (fs.filter fun e => e.1 != p)

/-- `os.ReadDir` -/
def children (p : Path) (fs : FS) : FS := fs.filter fun e => e.1.length == p.length + 1 && p.isPrefixOf e.1

/-- utils.go:534-545: the loop. `base` is none if `baseDir` is not clean: no parent is equal to it then. `n` is at least the length
of the path. -/
def rmUp (base : Option Path) : Nat → Path → FS → FS
  | 0, _, fs => fs
  | n + 1, p, fs =>
    if some p = base then fs
    else match remove p fs with
      | .ok fs' => rmUp base n p.dropLast fs'
      | _ => fs

/-- utils.go:523-547 `rmEmptyDirs` -/
def rmEmptyDirs (leaf : Path) (base : Option Path) (fs : FS) : FS :=
  match remove leaf fs with
  | .notEmpty => fs
  | .notExist => rmUp base leaf.length leaf.dropLast fs
  | .ok fs' => rmUp base leaf.length leaf.dropLast fs'

/-- utils.go:559-566: the parents of a directory that is to be kept, up to `path`; none: it never ends. `n` is more than the length
of `p`. -/
def climb (path : Path) : Nat → Path → Option (List Path)
  | 0, _ => none
  | n + 1, p =>
    if p = path then some []
    else if p = [] then none
    else (climb path n p.dropLast).map (p :: ·)

/-- utils.go:571-605 `removeWithExceptions`; `n` bounds the depth -/
def removeWith (keep check : List Path) : Nat → Path → FS → FS
  | 0, _, fs => fs
  | n + 1, p, fs =>
    (children p fs).foldl (fun fs e =>
      match e.2 with
      | .file => fs.filter fun x => x.1 != e.1
      | .dir =>
        if e.1 ∈ keep then fs
        else if e.1 ∈ check then removeWith keep check n e.1 fs
        else removeAll e.1 fs) fs

def parents (path : Path) : List Path → Option (List Path)
  | [] => some []
  | d :: ds => do
    let a ← climb path (d.length + 1) d.dropLast
    let b ← parents path ds
    return a ++ b

/-- utils.go:549-569 `removeAllExcept`; none: it never ends -/
def removeAllExcept (path : Path) (exceptions : List (List Str)) (fs : FS) : Option FS := do
  let keep := exceptions.map (join path)
  let check ← parents path keep
  return removeWith keep check ((check.map List.length).foldr max 0 + 1) path fs

/-- mount.go:29-62: where the `Mount` of a `MountConfig` is: the working directory, an absolute path, or one in the working
directory -/
inductive Mount
  | whole | absolute | relative (parts : List Str)
  deriving DecidableEq

/-- behaviours.go:219-231: in the loop, the first empty one ends it -/
def keeps : List Mount → Option (List (List Str))
  | [] => some []
  | .whole :: _ => none
  | .absolute :: ms => keeps ms
  | .relative d :: ms => (keeps ms).map (d :: ·)

/-- behaviours.go:233-245: what is in the working directory is removed, if it is not all kept; false: there was an error -/
def cleanCwd (actual : Path) (mounts : List Mount) (fs : FS) : Option (FS × Bool) :=
  match keeps mounts with
  | none => some (fs, true)
  | some [] => some (removeAll actual fs, true)
  | some ds =>
    if (actual, .dir) ∈ fs then (removeAllExcept actual ds fs).map (·, true)
    else (parents actual (ds.map (join actual))).map fun _ => (fs, false)

/-- behaviours.go:247-260: the rest of the unique directory -/
def cleanRest (ws : Path) (fs : FS) : FS :=
  (children ws fs).foldl (fun fs e =>
    let name := e.1.getLast?.getD []
    if name ≠ "cwd".toList ∧ ¬ ".muxfys".toList.isPrefixOf name then removeAll e.1 fs else fs) fs

/-- behaviours.go:198-272 `cleanup`; `actual` is `ActualCwd`, none if "". The result is none if it never ends, and has false if
there was an error. -/
def cleanup (actual : Option Path) (base : Option Path) (mounts : List Mount) (fs : FS) : Option (FS × Bool) :=
  match actual with
  | none => some (fs, true)
  | some actual =>
    let ws := actual.dropLast
    if mounts = [] then some (rmEmptyDirs ws base (removeAll ws fs), true)
    else match cleanCwd actual mounts fs with
      | none => none
      | some (fs, false) => some (fs, false)
      | some (fs, true) =>
        if ws ≠ [] ∧ (ws, .dir) ∉ fs then some (fs, false)
        else some (rmEmptyDirs ws base (cleanRest ws fs), true)

/-- mount.go:29-62 -/
def mountOf (m : Str) : Mount :=
  match m with
  | [] => .whole
  | '/' :: _ => .absolute
  | m => .relative (split m)

/-- behaviours.go:198-272 `cleanup` of a job -/
def cleanupJob (j : Verif.Server.Modify.Job) (fs : FS) : Option (FS × Bool) :=
  cleanup (if j.actualCwd = [] then none else some (parse j.actualCwd)) (if isClean j.cwd then some (parse j.cwd) else none)
    (j.mounts.map fun m => mountOf m.mount) fs

/-- an entry is added, if there is none with its path -/
def addDir (p : Path) (fs : FS) : FS := if (fs.any fun e => e.1 == p) then fs else fs ++ [(p, .dir)]

/-- `os.MkdirAll` -/
def mkdirAll (p : Path) (fs : FS) : FS := (List.range (p.length + 1)).foldl (fun fs n => if n = 0 then fs else addDir (p.take n) fs) fs

/-- utils.go:442-521 `calculateHashedDir`, `mkHashedDir`: the directories of a job. `hash` is its key, `unique` is what
`os.MkdirTemp` adds. Simplification: the hold file, which matters for other processes only, is left out. -/
def mkHashedDir (base : Path) (hash unique : Str) (fs : FS) : Path × FS :=
  let dir := base ++ ["wr_cwd".toList] ++ (hash.take 3).map ([·])
  let ws := dir ++ [hash.drop 3 ++ unique]
  (ws ++ ["cwd".toList], addDir (ws ++ ["tmp".toList]) (addDir (ws ++ ["cwd".toList]) (addDir ws (mkdirAll dir fs))))

/-- client.go:624-648, `Execute`: where the job runs; `ActualCwd` is not changed if its own directory is to be used -/
def start (j : Verif.Server.Modify.Job) (hash unique : Str) (fs : FS) : Verif.Server.Modify.Job × FS :=
  if j.cwdMatters then (j, mkdirAll (parse j.cwd) fs)
  else
    let r := mkHashedDir (parse j.cwd) hash unique (mkdirAll (parse j.cwd) fs)
    ({ j with actualCwd := render r.1 }, r.2)

end Verif.Client.Files
