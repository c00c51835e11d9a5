/-!
# `wr mount` (cmd/mount.go:177-211, 224-291)

The command mounts the file systems one after the other, waits for a signal, and unmounts them. One event is one thing that happens: a mount
succeeds or not, the handler of signals is set up, a signal comes, the user writes to a file system, an unmount succeeds or not. The file
systems themselves (muxfys) are not ours: it is known of them that the mount point is relative to the working directory of the process and is
`mnt` there by default, that what is written is uploaded by unmounting, and that one whose process is dead cannot be used any more.
-/
namespace Verif.Cmd.Mount

/-- an absolute path -/
abbrev Dir := List String

/-- a path as given by the user -/
inductive Loc where
  | abs (d : Dir)
  | rel (d : Dir)
  deriving DecidableEq

/-- `MountConfig`: where to mount; targets are not looked at -/
structure Cfg where
  mount : Option Loc
  retries : Int
  deriving DecidableEq

/-- cmd/mount.go:254-257: `Mount` is given to muxfys as it is; where that is, for a process in `wd` -/
def mountPoint (wd : Dir) (c : Cfg) : Dir :=
  match c.mount with
  | none => wd ++ ["mnt"]
  | some (.abs d) => d
  | some (.rel d) => wd ++ d

/-- cmd/mount.go:247-250 -/
def retries (c : Cfg) : Int := if c.retries > 0 then c.retries else 10

/-- a mounted file system, with what was written to it and not yet uploaded -/
structure Fs where
  dir : Dir
  pending : List Nat
  deriving DecidableEq

structure State where
  /-- the working directory of the process -/
  wd : Dir
  todo : List Cfg
  /-- mounted, and not yet tried to unmount -/
  live : List Fs
  /-- could not be unmounted -/
  stuck : List Fs
  /-- what was uploaded -/
  remote : List Nat
  /-- `signal.Notify` was called -/
  listening : Bool
  /-- a signal is in the channel or was received -/
  signalled : Bool
  /-- the process has ended, with this status -/
  exit : Option Nat
  deriving DecidableEq

/-- cmd/mount.go:177-206: in the background the working directory is `/` (`daemon.Context`, line 189) -/
def start (foreground : Bool) (cwd : Dir) (cfgs : List Cfg) : State :=
  { wd := if foreground then cwd else [], todo := cfgs, live := [], stuck := [], remote := [], listening := false, signalled := false,
    exit := none }

inductive Ev where
  /-- the next file system is mounted -/
  | mount
  /-- the next one is not: `die` at lines 231, 235, 262 or 267 -/
  | bad
  /-- `signal.Notify`, or the end if there is nothing to wait for: lines 276-278 -/
  | listen
  /-- SIGINT or SIGTERM -/
  | signal
  /-- the user writes `n` below `d` -/
  | write (d : Dir) (n : Nat)
  /-- `fs.Unmount()` of the next one succeeds -/
  | unmount
  /-- or not: line 282 -/
  | noUnmount
  /-- line 287 -/
  | finish
  deriving DecidableEq

def writeTo (d : Dir) (n : Nat) (f : Fs) : Fs := if f.dir = d then { f with pending := f.pending ++ [n] } else f

/-- cmd/mount.go:225-290 `mountAndWait`; `none` if it cannot happen -/
def step (s : State) (e : Ev) : Option State :=
  if s.exit.isSome then none
  else match e with
  | .mount =>
    match s.todo with
    | [] => none
    | c :: cs => some { s with todo := cs, live := s.live ++ [{ dir := mountPoint s.wd c, pending := [] }] }
  | .bad => if s.todo = [] then none else some { s with exit := some 1 }
  | .listen =>
    if s.todo ≠ [] ∨ s.listening then none
    else if s.live = [] then some { s with exit := some 0 }
    else some { s with listening := true }
  | .signal => if s.listening then some { s with signalled := true } else some { s with exit := some 130 }
  | .write d n => if d ∈ s.live.map (·.dir) then some { s with live := s.live.map (writeTo d n) } else none
  | .unmount =>
    if s.signalled then
      match s.live with
      | [] => none
      | f :: fs => some { s with live := fs, remote := s.remote ++ f.pending }
    else none
  | .noUnmount =>
    if s.signalled then
      match s.live with
      | [] => none
      | f :: fs => some { s with live := fs, stuck := s.stuck ++ [f] }
    else none
  | .finish => if s.signalled ∧ s.live = [] then some { s with exit := some 0 } else none

def run : State → List Ev → Option State
  | s, [] => some s
  | s, e :: es => (step s e).bind fun s' => run s' es

/-- cmd/mount.go:191-205: the status that the user's shell sees; in the background it is that of the parent, which does not wait -/
def status (foreground : Bool) (s : State) : Option Nat := if foreground then s.exit else some 0

end Verif.Cmd.Mount
