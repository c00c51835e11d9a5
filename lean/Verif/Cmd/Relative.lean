/-
The warning of `wr add` about relative paths in commands that will run in a new directory.

The model is of internal/relarg.go:34-149 and cmd/add.go:787-788, 850 and 898-920.

Not modelled: the division of the command line into arguments (shlex.Split) - a command is given as its arguments, or none if it can't be
divided (relarg.go:62-64) -, working directories that are relative, and case (b) of `filepath.Match` in which a pattern with an error is
found out only after a match failed; a pattern with an error never matches here. exec.LookPath is a parameter.
-/
import Verif.Util.Str

namespace Verif.Cmd.Relative
open Verif.Util (split join)

abbrev Str := List Char

/-! ## Paths -/

/-- `filepath.Clean` of an absolute path, one element after another, on the elements so far -/
def push (cs : List Str) (e : Str) : List Str :=
  if e = [] ∨ e = ['.'] then cs else if e = ['.', '.'] then cs.dropLast else cs ++ [e]

/-- the elements of the absolute path that `filepath.Join(dir, p)` gives, for the elements of the directory -/
def joinClean (dir : List Str) (p : Str) : List Str := (split '/' p).foldl push dir

/-- relarg.go:39-52 `GetFilesInDir`: the paths of the entries -/
def filesInDir (dir : List Str) (names : List Str) : List (List Str) := names.map (joinClean dir)

/-- strings.TrimSuffix -/
def trimSuffix (s t : Str) : Str := if t.isSuffixOf s = true then s.take (s.length - t.length) else s

/-- strings.TrimPrefix -/
def trimPrefix (s t : Str) : Str := if t.isPrefixOf s = true then s.drop t.length else s

/-! ## Patterns: `filepath.Match` -/

inductive Tok where
  | lit (c : Char)
  | any
  | star
  | cls (neg : Bool) (ranges : List (Char × Char))
deriving DecidableEq

/-- path/filepath/match.go getEsc: one character of a class -/
def getEsc : Str → Option (Char × Str)
  | [] => none
  | c :: r =>
    if c = '-' ∨ c = ']' then none
    else if c = '\\' then
      match r with
      | [] => none
      | d :: r' => if r' = [] then none else some (d, r')
    else if r = [] then none else some (c, r)

/-- the ranges of a class, up to the bracket that ends it -/
def ranges : Nat → List (Char × Char) → Str → Option (List (Char × Char) × Str)
  | 0, _, _ => none
  | k + 1, acc, s =>
    match s with
    | [] => none
    | c :: r =>
      if c = ']' ∧ acc ≠ [] then some (acc, r) else
      match getEsc s with
      | none => none
      | some (lo, s1) =>
        match s1 with
        | '-' :: s2 =>
          match getEsc s2 with
          | none => none
          | some (hi, s3) => ranges k ((lo, hi) :: acc) s3
        | _ => ranges k ((lo, lo) :: acc) s1

/-- the parts of a pattern; none if it has an error -/
def toks : Nat → Str → Option (List Tok)
  | _, [] => some []
  | 0, _ => none
  | k + 1, c :: r =>
    if c = '*' then (toks k r).map (.star :: ·)
    else if c = '?' then (toks k r).map (.any :: ·)
    else if c = '\\' then
      match r with
      | [] => none
      | d :: r' => (toks k r').map (.lit d :: ·)
    else if c = '[' then
      match r with
      | '^' :: r' =>
        match ranges (r'.length + 1) [] r' with
        | none => none
        | some (rs, r'') => (toks k r'').map (.cls true rs :: ·)
      | _ =>
        match ranges (r.length + 1) [] r with
        | none => none
        | some (rs, r'') => (toks k r'').map (.cls false rs :: ·)
    else (toks k r).map (.lit c :: ·)

/-- one character against one part that isn't a star. `?` and a star don't match a slash; a class can -/
def one : Tok → Char → Bool
  | .lit d, c => d = c
  | .any, c => c ≠ '/'
  | .cls neg rs, c => (rs.any (fun r => r.1 ≤ c && c ≤ r.2)) != neg
  | .star, _ => false

def matchToks : List Tok → Str → Bool
  | [], n => n = []
  | .star :: ts, [] => matchToks ts []
  | .star :: ts, c :: n => matchToks ts (c :: n) || (decide (c ≠ '/') && matchToks (.star :: ts) n)
  | _ :: _, [] => false
  | t :: ts, c :: n => one t c && matchToks ts n
termination_by ts n => ts.length + n.length

/-- `filepath.Match`, with an error as no match (relarg.go:102-105) -/
def glob (pattern name : Str) : Bool :=
  match toks pattern.length pattern with
  | none => false
  | some ts => matchToks ts name

/-! ## The check -/

/-- relarg.go:90-92 -/
def globArg (arg : Str) : Str := trimSuffix (trimSuffix (trimPrefix arg ['.', '/']) ['/']) ['/', '*']

/-- filepath.Base of the path of an entry -/
def base (p : List Str) : Str := p.getLast?.getD []

/-- relarg.go:89-112 `argIsRelativeGlob` -/
def isGlob (files : List (List Str)) (arg : Str) : Bool :=
  globArg arg ≠ [] && files.any (fun f => glob (globArg arg) (base f))

/-- relarg.go:139-149 `cleanArg` -/
def cleanArg (arg : Str) : Str :=
  match split '=' (trimSuffix (trimSuffix arg [')']) [';']) with
  | [_, b] => b
  | _ => trimSuffix (trimSuffix arg [')']) [';']

/-- relarg.go:133-137 `fileInDir` -/
def fileIn (files : List (List Str)) (dir : List Str) (arg : Str) : Bool := joinClean dir arg ∈ files

/-- relarg.go:120-131 `argIsARelativePath` -/
def isPath (files : List (List Str)) (dir : List Str) (arg : Str) : Bool :=
  fileIn files dir arg || (cleanArg arg ≠ [] && fileIn files dir (cleanArg arg))

/-- relarg.go:66-78, from the argument with a number on -/
def hasRel (exe : Str → Bool) (files : List (List Str)) (dir : List Str) : Nat → List Str → Bool
  | _, [] => false
  | i, a :: as =>
    if i = 0 ∧ exe a = true then hasRel exe files dir (i + 1) as
    else isGlob files a || isPath files dir a || hasRel exe files dir (i + 1) as

/-- relarg.go:60-81 `CmdlineHasRelativePaths` -/
def cmdline (exe : Str → Bool) (files : List (List Str)) (dir : List Str) (args : Option (List Str)) : Bool :=
  match args with
  | none => false
  | some as => hasRel exe files dir 0 as

/-- what matters of a job -/
structure Job where
  cwd : List Str
  matters : Bool
  args : Option (List Str)
deriving DecidableEq

/-- the directories that were read, the number of warnings -/
structure W where
  cache : List (List Str × List (List Str))
  warned : Bool
  warnings : Nat
  reads : List (List Str)

def W.init : W := { cache := [], warned := false, warnings := 0, reads := [] }

/-- add.go:906-910; `ls` are the entries of a directory, none for one that can't be read -/
def W.files (w : W) (ls : List Str → List Str) (cwd : List Str) : List (List Str) :=
  match w.cache.lookup cwd with
  | some fs => fs
  | none => filesInDir cwd (ls cwd)

def W.read (w : W) (ls : List Str → List Str) (cwd : List Str) : W :=
  match w.cache.lookup cwd with
  | some _ => w
  | none => { w with cache := (cwd, filesInDir cwd (ls cwd)) :: w.cache, reads := cwd :: w.reads }

/-- add.go:900-920 `checkForRelativePathsInNonCwdMatters` -/
def check (exe : Str → Bool) (ls : List Str → List Str) (disabled : Bool) (w : W) (j : Job) : W :=
  if j.matters = true ∨ disabled = true ∨ w.warned = true then w
  else if cmdline exe (w.files ls j.cwd) j.cwd j.args = true then
    { w.read ls j.cwd with warned := true, warnings := w.warnings + 1 }
  else w.read ls j.cwd

/-- add.go:790-853: for all the commands of a file -/
def checkAll (exe : Str → Bool) (ls : List Str → List Str) (disabled : Bool) (js : List Job) : W :=
  js.foldl (check exe ls disabled) W.init

end Verif.Cmd.Relative
