/-!
# Model of how `wr add` reads the file of commands (`/repo/cmd/add.go:757-861`, Go's `bufio.ScanLines`)

Simplifications: a character is a byte; JSON is decoded by a function that is a parameter (what becomes of the values is
modelled in `Server/Convert`), which gives no value for `null`; the conversion is a parameter that may fail; copying cloud
config files, the check for a negative number of cpus and the check of LSF resource strings are part of this conversion; warnings are left out.
-/

namespace Verif.Cmd.AddFile

abbrev Str := List Char

/-- The parts of jobqueue.JobViaJSON that parseCmdFile looks at. -/
structure Spec where
  cmd : Str := []
  cwd : Str := []
  cwdMatters : Bool := false
  /-- the other options -/
  rest : Str := []
deriving DecidableEq, Repr

/-- bufio.dropCR -/
def dropCR (l : Str) : Str := if l.getLast? = some '\r' then l.dropLast else l

/-- bufio.ScanLines with a buffer of add.go:42, 782-783: the lines up to the first that does not fit, and if all fit; `cur`
is what was read of the current line. -/
def scan (max : Nat) (cur : Str) : Str → List Str × Bool
  | [] => if cur.length ≥ max then ([], false) else if cur = [] then ([], true) else ([dropCR cur], true)
  | c :: cs =>
    if cur.length ≥ max then ([], false)
    else if c = '\n' then
      let x := scan max [] cs
      (dropCR cur :: x.1, x.2)
    else scan max (cur ++ [c]) cs

/-- strings.Split on tabs -/
def columns : Str → List Str
  | [] => [[]]
  | c :: cs =>
    if c = '\t' then [] :: columns cs
    else match columns cs with
      | [] => [[c]]
      | x :: xs => (c :: x) :: xs

/-- What comes of a line. -/
inductive Res
  | skip
  /-- the command ends with an error message -/
  | die
  /-- the command ends with a nil pointer dereference -/
  | panic
  | spec (s : Spec)
deriving DecidableEq, Repr

/-- add.go:791-823: the options of a line -/
def line (json : Str → Option (Option Spec)) (l : Str) : Res :=
  match columns l with
  | [] => .skip
  | [c] =>
    if c = [] then .skip
    else if c.head? = some '{' then
      match json c with
      | none => .die
      | some none => .panic
      | some (some s) => .spec s
    else .spec { cmd := c }
  | [c, d] =>
    if c = [] then .skip
    else match json d with
      | none => .die
      | some none => .panic
      | some (some s) => .spec { s with cmd := c }
  | c :: _ => if c = [] then .skip else .die

/-- What comes of the file: the command ends, or there are jobs to add. -/
inductive Out (α : Type)
  | die
  | panic
  | jobs (js : List α)
deriving DecidableEq, Repr

/-- add.go:788-856: all lines; `dcwd` is the default working directory so far, `pwd` what it is set to when it is needed;
`convert` makes the job. -/
def lines {α : Type} (json : Str → Option (Option Spec)) (convert : Str → Spec → Option α) (pwd : Str) (dcwd : Str) :
    List Str → Out α
  | [] => .jobs []
  | l :: ls =>
    match line json l with
    | .skip => lines json convert pwd dcwd ls
    | .die => .die
    | .panic => .panic
    | .spec s =>
      let d := if s.cwd = [] ∧ dcwd = [] then pwd else dcwd
      match convert d s with
      | none => .die
      | some j =>
        match lines json convert pwd d ls with
        | .jobs js => .jobs (j :: js)
        | x => x

/-- add.go:764-778: what the default working directory is set to -/
def pwdOf (wd : Str) (isLocal cwdMatters : Bool) : Str := if isLocal || cwdMatters then wd else "/tmp".toList

/-- add.go:757-861: the file; `cwdOpt` is --cwd, `matters` --cwd_matters -/
def parse {α : Type} (max : Nat) (json : Str → Option (Option Spec)) (convert : Str → Spec → Option α) (wd cwdOpt : Str)
    (isLocal matters : Bool) (file : Str) : Out α :=
  let pwd := if cwdOpt = [] then pwdOf wd isLocal matters else []
  let x := scan max [] file
  match lines json convert pwd cwdOpt x.1 with
  | .jobs js => if x.2 then .jobs js else .die
  | y => y

end Verif.Cmd.AddFile
