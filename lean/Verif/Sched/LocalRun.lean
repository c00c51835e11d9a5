/-!
# Commands that the scheduler runs on the manager's own host (`/repo/jobqueue/scheduler/local.go:958-1022` `RunCmd`), property C144

The command is what it writes, byte by byte, to its standard output and error, and the exit code it ends with. Its output goes through two
pipes that each hold at most `cap` bytes (65536 on Linux); a write to a full pipe waits. What the command leaves running behind it, the end
of the context, and errors of the pipes themselves are left out.
-/
namespace Verif.Sched.LocalRun

/-- the two outputs -/
inductive Fd | out | err
  deriving DecidableEq, Repr

/-- a command: its writes in order, and its exit code -/
structure Cmd where
  writes : List (Fd × UInt8)
  code : Int
  deriving Repr

/-- local.go:990-997: where the goroutine is: in the first or second `io.ReadAll`, or past the `Wait` -/
inductive Phase | readOut | readErr | waited
  deriving DecidableEq, Repr

structure St where
  todo : List (Fd × UInt8)
  pipeOut : List UInt8 := []
  pipeErr : List UInt8 := []
  gotOut : List UInt8 := []
  gotErr : List UInt8 := []
  phase : Phase := .readOut
  deriving DecidableEq, Repr

/-- who does something: the command writes a byte, or the reader reads one or finds the end -/
inductive Ev | write | read
  deriving DecidableEq, Repr

/-- local.go:990-997 and the pipes; `none` is that it has to wait. The end of a pipe is found when the command ended and the pipe is
empty. -/
def step (cap : Nat) (s : St) : Ev → Option St
  | .write =>
    match s.todo with
    | [] => none
    | (.out, b) :: r => if s.pipeOut.length < cap then some { s with todo := r, pipeOut := s.pipeOut ++ [b] } else none
    | (.err, b) :: r => if s.pipeErr.length < cap then some { s with todo := r, pipeErr := s.pipeErr ++ [b] } else none
  | .read =>
    match s.phase with
    | .readOut =>
      match s.pipeOut with
      | b :: r => some { s with pipeOut := r, gotOut := s.gotOut ++ [b] }
      | [] => if s.todo = [] then some { s with phase := .readErr } else none
    | .readErr =>
      match s.pipeErr with
      | b :: r => some { s with pipeErr := r, gotErr := s.gotErr ++ [b] }
      | [] => if s.todo = [] then some { s with phase := .waited } else none
    | .waited => none

/-- an interleaving -/
def run (cap : Nat) (s : St) : List Ev → Option St
  | [] => some s
  | e :: es => (step cap s e).bind fun s' => run cap s' es

def start (c : Cmd) : St := { todo := c.writes }

/-- local.go:999-1021: what is returned once the command ended: the outputs and if there is an error -/
def result (c : Cmd) (s : St) : List UInt8 × List UInt8 × Bool :=
  if c.code ≠ 0 then ([], [], true) else (s.gotOut, s.gotErr, false)

end Verif.Sched.LocalRun
