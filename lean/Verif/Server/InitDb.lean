/-!
# Model of opening the database when the manager is started

`/repo/jobqueue/db.go` 143-362 (`initDB`), with `copyFile`
(`/repo/jobqueue/utils.go` 109-140).

Simplified: the files are the database and its backup; the content of a
database is a number; a file is a database, or one that bolt refuses, or the
beginning of a copy.  Whether bolt opens the beginning of a copy depends on how
much was written (it checks the two pages at the start), so this is a parameter.
An S3 backup has no file at the same path on the local disk.  Creating the
buckets, which adds what is missing, and removing the temporary download are
left out.
-/
namespace Verif.Server.InitDb

/-- What is in a file. -/
inductive File
  /-- bolt refuses to open it -/
  | bad
  /-- a copy that was cut short (`io.Copy`, `/repo/jobqueue/utils.go` 138) -/
  | torn
  | good (v : Nat)
deriving DecidableEq, Repr

/-- The database file and the backup. -/
structure World where
  db : Option File
  bk : Option File
deriving DecidableEq, Repr

/-- How the manager is started (`/repo/jobqueue/db.go` 152-155; development is
not combined with S3, because backups are off then), whether bolt opens a torn
file, and which operations succeed. -/
structure Env where
  production : Bool := true
  s3 : Bool := false
  acceptsTorn : Bool := false
  download : Bool := true
  copy : Bool := true
  remove : Bool := true
deriving DecidableEq, Repr

/-- The content the manager works with, or the error of `initDB`. -/
inductive Result
  | failed
  /-- a new, empty database -/
  | fresh
  /-- the database in that file -/
  | opened (f : File)
deriving DecidableEq, Repr

/-- `bolt.Open`, `/repo/jobqueue/db.go` 217, 225, 229, 254, 265. -/
def opens (e : Env) : File → Bool
  | .bad => false
  | .torn => e.acceptsTorn
  | .good _ => true

/-- The states of the files after each operation, in order, and the result. -/
structure Outcome where
  steps : List World
  result : Result
deriving DecidableEq, Repr

/-- `copyFile` of the backup `f` over the database and opening the result,
`/repo/jobqueue/db.go` 221-226 and 261-266, `/repo/jobqueue/utils.go` 109-140. -/
def copyAndOpen (e : Env) (w : World) (f : File) : Outcome :=
  let torn := { w with db := some .torn }
  if e.copy then
    { steps := [torn, { w with db := some f }],
      result := if opens e f then .opened f else .failed }
  else { steps := [torn], result := .failed }

/-- The part that opens the file, `/repo/jobqueue/db.go` 213-275. -/
def openDb (e : Env) (w : World) : Outcome :=
  match w.db with
  | none =>
    match (if e.s3 && e.production then none else w.bk) with
    | none => { steps := [{ w with db := some (.good 0) }], result := .fresh }
    | some f => copyAndOpen e w f
  | some d =>
    if opens e d then { steps := [], result := .opened d }
    else if e.s3 && e.production && !e.download then { steps := [], result := .failed }
    else
      match w.bk with
      | none => { steps := [], result := .failed }
      | some f =>
        if opens e f then
          if e.remove then
            let o := copyAndOpen e { w with db := none } f
            { o with steps := { w with db := none } :: o.steps }
          else { steps := [], result := .failed }
        else { steps := [], result := .failed }

/-- Before that, a development manager removes both files and one with an S3
backup downloads it if there is no database, `/repo/jobqueue/db.go` 186-210. -/
def start (e : Env) (w : World) : Outcome :=
  if e.production then
    if e.s3 && w.db.isNone && e.download then
      match w.bk with
      | some f =>
        let w' := { w with db := some f }
        let o := openDb e w'
        { o with steps := w' :: o.steps }
      | none => openDb e w
    else openDb e w
  else
    let w1 := { w with db := none }
    let w2 : World := { db := none, bk := none }
    let o := openDb e w2
    { o with steps := w1 :: w2 :: o.steps }

/-- The files at the end. -/
def Outcome.final (o : Outcome) (w : World) : World := o.steps.getLast?.getD w

/-- The files after a start that is cut short after `n` operations. -/
def crash (e : Env) (w : World) (n : Nat) : World := ((start e w).steps.take n).getLast?.getD w

/-- Several starts that are cut short. -/
def crashes (w : World) : List (Env × Nat) → World
  | [] => w
  | (e, n) :: l => crashes (crash e w n) l

end Verif.Server.InitDb
