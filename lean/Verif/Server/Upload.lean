/-
Uploading files to the server: jobqueue/server.go:1175-1272 `uploadFile`, reached by jobqueue/serverCLI.go:138-158 ("upload"),
jobqueue/serverREST.go:1037-1068 (PUT) and jobqueue/client.go:1968-1978.

Any number of uploads go on at the same time; each system call is a step, so that they may come in any order and the server may be
killed between any two. Simplifications: directories can always be made; the md5 of a file is read at one moment; what is asked of the
disk is there after a crash; nobody but the server changes the files (in particular no links are made to them); a file's mode is not
modelled. An upload whose body can't be read, or for which any system call fails, may fail at any time (`fail`).
-/
namespace Verif.Server.Upload

abbrev Str := List Char
abbrev Bytes := List Nat

/-- names of files: temporary ones in the upload directory (server.go:1204 os.CreateTemp), those made of a checksum in it
(utils.go:445-450), and all others -/
inductive Path where
  | temp (n : Nat)
  | hashed (h : Str)
  | other (p : Str)
deriving DecidableEq

/-- how far an upload has got -/
inductive Phase where
  | arrived
  /-- the file is open; this many bytes are written -/
  | writing (path : Path) (ino : Nat) (off : Nat)
  | closed (path : Path)
  | summed (path : Path) (h : Str)
  /-- whether there was a file of that name -/
  | looked (path : Path) (h : Str) (there : Bool)
  | done (path : Path)
  | failed
deriving DecidableEq

/-- one upload: where to (none: no path was given), and what -/
structure Upload where
  want : Option Path
  body : Bytes
  phase : Phase
deriving DecidableEq

/-- the disk (which file a name is of, and what is in the files) and the uploads -/
structure S where
  names : Path → Option Nat
  data : Nat → Bytes
  next : Nat
  ups : List Upload

inductive Ev where
  | arrive (want : Option Path) (body : Bytes)
  /-- server.go:1194-1226; `n` is the random number of os.CreateTemp -/
  | open_ (i : Nat) (n : Nat)
  /-- one write of io.Copy, of `k` bytes -/
  | write (i : Nat) (k : Nat)
  | close (i : Nat)
  | sum (i : Nat)
  | look (i : Nat)
  /-- server.go:1252-1268 os.Rename or os.Remove -/
  | finish (i : Nat)
  | fail (i : Nat)
  /-- the server is killed and started again -/
  | crash
deriving DecidableEq

def setF {α β : Type} [DecidableEq α] (f : α → β) (a : α) (b : β) : α → β := fun x => if x = a then b else f x

/-- write(2) of `bs` at `off` -/
def overwrite (old : Bytes) (off : Nat) (bs : Bytes) : Bytes := old.take off ++ bs ++ old.drop (off + bs.length)

/-- an upload moves on -/
def S.put (s : S) (i : Nat) (u : Upload) (p : Phase) : S := { s with ups := s.ups.set i { u with phase := p } }

/-- a new empty file -/
def create (s : S) (i : Nat) (u : Upload) (p : Path) : S :=
  { s with names := setF s.names p (some s.next), data := setF s.data s.next [], next := s.next + 1 }.put i u (.writing p s.next 0)

/-- server.go:1194-1226: without a path a new temporary file (os.CreateTemp never takes a name that is there), with one whatever file
there is or a new one; it is opened without O_TRUNC -/
def openFile (s : S) (i : Nat) (u : Upload) (n : Nat) : Option S :=
  match u.want with
  | none => if s.names (.temp n) = none then some (create s i u (.temp n)) else none
  | some p =>
    match s.names p with
    | some ino => some (s.put i u (.writing p ino 0))
    | none => some (create s i u p)

/-- server.go:1228: some of the rest of the body is written where the last write ended -/
def writeSome (s : S) (i : Nat) (u : Upload) (k : Nat) : Option S :=
  match u.phase with
  | .writing p ino off =>
    if 0 < k ∧ off + k ≤ u.body.length then
      some ({ s with data := setF s.data ino (overwrite (s.data ino) off ((u.body.drop off).take k)) }.put i u (.writing p ino (off + k)))
    else none
  | _ => none

/-- server.go:1233, 1238 and 1271: with a path that's all -/
def closeFile (s : S) (i : Nat) (u : Upload) : Option S :=
  match u.phase with
  | .writing p _ off =>
    if off = u.body.length then
      match u.want with
      | none => some (s.put i u (.closed p))
      | some _ => some (s.put i u (.done p))
    else none
  | _ => none

/-- server.go:1241 internal.FileMD5 of the temporary file -/
def sumFile (md5 : Bytes → Str) (s : S) (i : Nat) (u : Upload) : Option S :=
  match u.phase with
  | .closed p =>
    match s.names p with
    | some ino => some (s.put i u (.summed p (md5 (s.data ino))))
    | none => some (s.put i u .failed)
  | _ => none

/-- server.go:1254-1255 os.Stat -/
def lookFile (s : S) (i : Nat) (u : Upload) : Option S :=
  match u.phase with
  | .summed p h => some (s.put i u (.looked p h (s.names (.hashed h)).isSome))
  | _ => none

/-- server.go:1256-1269: rename the temporary file, whatever there now is of that name; or remove it (failing to is only logged) -/
def finishFile (s : S) (i : Nat) (u : Upload) : Option S :=
  match u.phase with
  | .looked p h false =>
    match s.names p with
    | some ino => some ({ s with names := setF (setF s.names p none) (.hashed h) (some ino) }.put i u (.done (.hashed h)))
    | none => some (s.put i u .failed)
  | .looked p h true => some ({ s with names := setF s.names p none }.put i u (.done (.hashed h)))
  | _ => none

/-- the answer was not sent: no upload that goes on survives -/
def lost (u : Upload) : Upload :=
  match u.phase with
  | .done _ => u
  | _ => { u with phase := .failed }

/-- server.go:1229-1232 and the like: an error is returned; what has been done is left as it is -/
def failFile (s : S) (i : Nat) (u : Upload) : Option S :=
  match u.phase with
  | .done _ | .failed => none
  | _ => some (s.put i u .failed)

/-- one step; none: it can't happen now -/
def step (md5 : Bytes → Str) (s : S) : Ev → Option S
  | .arrive w b => some { s with ups := s.ups ++ [⟨w, b, .arrived⟩] }
  | .open_ i n => s.ups[i]?.bind fun u => if u.phase = .arrived then openFile s i u n else none
  | .write i k => s.ups[i]?.bind fun u => writeSome s i u k
  | .close i => s.ups[i]?.bind fun u => closeFile s i u
  | .sum i => s.ups[i]?.bind fun u => sumFile md5 s i u
  | .look i => s.ups[i]?.bind fun u => lookFile s i u
  | .finish i => s.ups[i]?.bind fun u => finishFile s i u
  | .fail i => s.ups[i]?.bind fun u => failFile s i u
  | .crash => some { s with ups := s.ups.map lost }

/-- a sequence of steps -/
def run (md5 : Bytes → Str) (s : S) : List Ev → Option S
  | [] => some s
  | e :: es =>
    match step md5 s e with
    | some s => run md5 s es
    | none => none

/-- the disk at first: these files are there -/
def start : List (Str × Bytes) → S
  | [] => { names := fun _ => none, data := fun _ => [], next := 0, ups := [] }
  | (p, b) :: fs =>
    let s := start fs
    { s with names := setF s.names (.other p) (some s.next), data := setF s.data s.next b, next := s.next + 1 }

/-- what is in the file of a name -/
def S.content (s : S) (p : Path) : Option Bytes := (s.names p).map s.data

/-- what an upload was answered with -/
def S.answer (s : S) (i : Nat) : Option Path :=
  match s.ups[i]? with
  | some u =>
    match u.phase with
    | .done p => some p
    | _ => none
  | none => none

/-- internal/utils.go:181-188 `TildaToHome` (the result is not cleaned here; that names the same file): strings.TrimLeft removes all
leading `~` and `/` -/
def tildaToHome (home : Option Str) (p : Str) : Str :=
  match home with
  | some h => if h ≠ [] ∧ ['~', '/'] <+: p then h ++ '/' :: p.dropWhile (fun c => c = '~' ∨ c = '/') else p
  | none => p

/-- utils.go:445-450 `calculateHashedDir`: the directories under the base, and the leaf; strings.SplitN(h, "", 4) -/
def hashedDir (h : Str) : List Str × Str := ((h.take 3).map (fun c => [c]), h.drop 3)

end Verif.Server.Upload
